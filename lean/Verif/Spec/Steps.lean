import Verif.Spec.Together
import Verif.Spec.Wall
import Verif.Spec.OnceExcept
import Verif.Spec.Document
/- Specification vocabulary: pipelines of resolvers of the library and of rules, on a line put together from parts. -/
namespace LNlp
variable {W : World}

/-- a step of a pipeline: a resolver of the library, a rule, or a rule with exceptions and choices; rules look first or not -/
inductive Step (W : World)
  | stage (s : Stage W)
  | rule (look : Bool) (r : Rule W)
  | erule (look : Bool) (r : ERule W)

/-- the resolver of the step -/
def Step.resolver : Step W → Resolver W
  | .stage s => s.resolver
  | .rule look r => if look then r.once else r.resolver
  | .erule look r => if look then r.once else r.resolver

/-- the steps with the addresses of the `Rc`s of their runs -/
def stepsAt : (Nat → Nat) → List (Step W) → List (Nat × Resolver W)
  | _, [] => []
  | p, s :: ss => (p 0, s.resolver) :: stepsAt (fun i => p (i + 1)) ss

/-- what a resolver of the library finds does not cross the cut between `lx` and `ly` -/
def Step.Cut (lx : LLLine W) (hx : History W) (ly : LLLine W) (hy : History W) : Step W → Prop
  | .stage s => s.Cut lx hx ly hy
  | .rule _ _ => True
  | .erule _ _ => True

/-- nothing that a resolver of the library finds goes over the character `c` -/
def Step.EndsAt (c : Char) : Step W → Prop
  | .stage s => s.EndsAt c
  | .rule _ _ => True
  | .erule _ _ => True

/-- a rule stops at token `t` of the line, and no exception of it is over this token -/
def Step.StopsAt (t : Nat) (l : LLLine W) : Step W → Prop
  | .stage _ => True
  | .rule _ r => ∀ h, Honest l h → r.Stops l (· ∈ h) t
  | .erule _ r => ∀ h, Honest l h → r.Stops l (· ∈ h) t ∧ r.pat.Clear l (· ∈ h) t

/-- every rule, when its turn comes in the pipeline on the line, stops at token `t` -/
def StopWhenRun (t : Nat) : (Nat → Nat) → List (Step W) → LLLine W → Prop
  | _, [], _ => True
  | p, s :: ss, l => s.StopsAt t l ∧ ∀ l', l.run (p 0) s.resolver = .ok l' → StopWhenRun t (fun i => p (i + 1)) ss l'

/-- no step assigns the types that the creation of the line assigns -/
def OwnSteps (ss : List (Step W)) : Prop := ∀ s ∈ ss, s.resolver.attr ≠ .char ∧ s.resolver.attr ≠ .textTag

/-- the line made from the text, after the steps ran on it -/
def AnalysedBy (p : Nat → Nat) (ss : List (Step W)) (s : Str) (l : LLLine W) : Prop :=
  ∃ l0, createLineFromString W s = .ok l0 ∧ runAll l0 (stepsAt p ss) = .ok l

/-- the lines made from the texts, after the steps ran on each of them -/
def AnalysedEach (p : Nat → Nat) (ss : List (Step W)) : List Str → List (LLLine W) → Prop
  | [], [] => True
  | t :: ts, l :: ls => AnalysedBy p ss t l ∧ AnalysedEach p ss ts ls
  | _, _ => False

/-- the texts are not empty; between two of them there is a word boundary and a character before it that no resolver of the
library goes over; on each of them but the last every rule, when its turn comes, stops at the last token -/
def CutSteps (W : World) (p : Nat → Nat) (ss : List (Step W)) : List Str → Prop
  | [] => True
  | [t] => t ≠ []
  | t :: u :: rest => t ≠ [] ∧ WordBreak W t (u :: rest).flatten ∧ (∃ c, t.getLast? = some c ∧ ∀ s ∈ ss, s.EndsAt c) ∧
      (∀ l, createLineFromString W t = .ok l → StopWhenRun (l.ll_tokens.length - 1) p ss l) ∧ CutSteps W p ss (u :: rest)

end LNlp
