import Verif.Spec.Parts
import Verif.Spec.Edit
/- Specification vocabulary: texts cut into many parts, and pipelines on the parts. -/
namespace LNlp
variable {W : World}

/-- the line made from the text, after the stages ran on it -/
def Analysed (p : Nat → Nat) (ss : List (Stage W)) (s : Str) (l : LLLine W) : Prop :=
  ∃ l0, createLineFromString W s = .ok l0 ∧ runAll l0 (runsAt p ss) = .ok l

/-- the lines made from the texts, after the stages ran on each of them -/
def AnalysedAll (p : Nat → Nat) (ss : List (Stage W)) : List Str → List (LLLine W) → Prop
  | [], [] => True
  | t :: ts, l :: ls => Analysed p ss t l ∧ AnalysedAll p ss ts ls
  | _, _ => False

/-- nothing that the resolver of the stage finds goes over the character `c` -/
def Stage.EndsAt (c : Char) : Stage W → Prop
  | .table _ => True
  | .pos => True
  | .keywords _ => True
  | .clauses => False
  | .amounts r => NoNumber r c

/-- the texts are not empty, and between two of them there is a word boundary and a character before it that nothing
goes over -/
def CutInto (W : World) (ss : List (Stage W)) : List Str → Prop
  | [] => True
  | [t] => t ≠ []
  | t :: u :: rest => t ≠ [] ∧ WordBreak W t (u :: rest).flatten ∧
      (∃ c, t.getLast? = some c ∧ ∀ s ∈ ss, s.EndsAt c) ∧ CutInto W ss (u :: rest)

/-- the attributes of type `k` of several lines, counted from `n` -/
def queriedAll (k : Ty W) : Nat → List (LLLine W) → List (LRange × Str × List (Val k))
  | _, [] => []
  | n, l :: ls => (queried l k).map (shiftEntry n) ++ queriedAll k (n + l.ll_tokens.length) ls

/-- the lines of a document: those that are ended by a newline, and what is behind the last newline (if anything) -/
def docLines (ls : List Str) (last : Str) : List Str := ls.map (· ++ ['\n']) ++ if last = [] then [] else [last]

end LNlp
