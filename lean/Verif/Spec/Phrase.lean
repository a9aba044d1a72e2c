import Verif.Spec.Resolve
import Verif.Spec.Select
/-
Specification for sequences of any length: expressions nested from `x::seq`, the chains of adjacent matches
they stand for, and phrases of words.
-/
namespace LNlp
variable {W : World} {α : Type}

/-- an expression nested from `x::seq((_, _))` and `x::seq((_, _, _))`, in any way -/
inductive SeqTree (W : World) (α : Type)
  | leaf (m : XMatch W α)
  | two (a b : SeqTree W α)
  | three (a b c : SeqTree W α)

/-- the output type of the expression: nested tuples -/
def SeqTree.Out : SeqTree W α → Type
  | .leaf _ => α
  | .two a b => a.Out × b.Out
  | .three a b c => a.Out × b.Out × c.Out

/-- the matcher the expression builds -/
def SeqTree.matcher : (t : SeqTree W α) → XMatch W t.Out
  | .leaf m => m
  | .two a b => X.seq2 a.matcher b.matcher
  | .three a b c => X.seq3 a.matcher b.matcher c.matcher

/-- its parts, from left to right -/
def SeqTree.leaves : SeqTree W α → List (XMatch W α)
  | .leaf m => [m]
  | .two a b => a.leaves ++ b.leaves
  | .three a b c => a.leaves ++ b.leaves ++ c.leaves

/-- the values in its output, from left to right -/
def SeqTree.values : (t : SeqTree W α) → t.Out → List α
  | .leaf _, x => [x]
  | .two a b, x => a.values x.1 ++ b.values x.2
  | .three a b c, x => a.values x.1 ++ b.values x.2.1 ++ c.values x.2.2

/-- the matcher neither panics nor reports a token outside when used at a token of the line -/
def TotalOn (l : LLLine W) (m : XMatch W α) : Prop :=
  ∀ d : Dir, d.at < l.ll_tokens.length → ∃ rs, m.go d l = .ok rs ∧ ∀ r ∈ rs, r.2 < l.ll_tokens.length

/-- the results of a matcher that does not panic -/
def resultsOf (m : XMatch W α) (d : Dir) (l : LLLine W) : List (α × Nat) :=
  match m.go d l with
  | .ok rs => rs
  | .error _ => []

/-- where to look after a match that ended on token `idx` of a line of `n` tokens -/
def Dir.onwards (n idx : Nat) : Dir → Option Dir
  | .fwd _ => if idx + 1 < n then some (.fwd (idx + 1)) else none
  | .bwd _ => if idx = 0 then none else some (.bwd (idx - 1))

/-- all chains of adjacent matches of the parts, with their values and the last token; the results of an
earlier part vary slowest -/
def chains (l : LLLine W) : Dir → List (XMatch W α) → List (List α × Nat)
  | _, [] => []
  | d, [m] => (resultsOf m d l).map (fun p => ([p.1], p.2))
  | d, m :: m' :: ms => (resultsOf m d l).flatMap (fun p =>
      match d.onwards l.ll_tokens.length p.2 with
      | none => []
      | some d' => (chains l d' (m' :: ms)).map (fun q => (p.1 :: q.1, q.2)))

/-- the parts of a phrase: one matcher per word, with whitespace between -/
def phraseParts {k : Ty W} : List (Val k) → List (XMatch W Unit)
  | [] => []
  | [w] => [X.attrEq k w]
  | w :: w' :: ws => X.attrEq k w :: X.whitespace :: phraseParts (w' :: ws)

/-- the tokens `i ..= j` are words to which the table `r` gives `ws`, in order, with one whitespace token
between two words -/
def PhraseAt {k : Ty W} (r : TextMatchAssignResolver W k) (l : LLLine W) : List (Val k) → Nat → Nat → Prop
  | [], _, _ => False
  | [w], i, j => j = i ∧ ∃ v ∈ tableValues r l i, valEq k v w = true
  | w :: w' :: ws, i, j => (∃ v ∈ tableValues r l i, valEq k v w = true) ∧ tagAt l (i + 1) = some .SPACE ∧
      PhraseAt r l (w' :: ws) (i + 2) j

end LNlp
