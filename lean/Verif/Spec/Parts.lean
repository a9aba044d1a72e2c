import Verif.Spec.Beside
import Verif.Spec.Piecewise
import Verif.Spec.Pipeline
/- Specification vocabulary: pipelines on a line put together from two parts. -/
namespace LNlp
variable {W : World}

/-- what the resolver of the stage finds does not cross the cut between `lx` and `ly`: the resolvers that look at single
tokens never do; an amount cannot go on if the last token of `lx`, or the first token of `ly`, cannot belong to an
amount (tokens carry an attribute unless they are values of an input without attributes); clauses can always change -/
def Stage.Cut (lx : LLLine W) (hx : History W) (ly : LLLine W) (hy : History W) : Stage W → Prop
  | .table _ => True
  | .pos => True
  | .keywords _ => True
  | .clauses => False
  | .amounts r => Separator r lx hx (lx.ll_tokens.length - 1) ∨ Separator r ly hy 0 ∧ HasAttr hy 0

/-- the stages with the addresses of the `Rc`s of their runs -/
def runsAt : (Nat → Nat) → List (Stage W) → List (Nat × Resolver W)
  | _, [] => []
  | p, s :: ss => (p 0, s.resolver) :: runsAt (fun i => p (i + 1)) ss

/-- all stages assign types of their own that neither the inputs nor the creation of the line assign -/
def FreshTypes (input : List (InputToken W)) (ss : List (Stage W)) : Prop :=
  (ss.map (·.resolver.attr)).Pairwise (· ≠ ·) ∧
  ∀ s ∈ ss, s.resolver.attr ≠ .char ∧ s.resolver.attr ≠ .textTag ∧ NoCustom s.resolver.attr input

end LNlp
