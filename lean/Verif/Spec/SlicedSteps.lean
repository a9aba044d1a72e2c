import Verif.Spec.Sliced
import Verif.Spec.Steps
/- The steps of a pipeline that have to do with some types of attributes, among resolvers of any kind. -/
namespace LNlp
variable {W : World}

/-- the types a right-hand side looks at -/
def Pat.Looks {α : Type} : Pat W α → Ty W → Prop
  | .attr k, t => t = k
  | .attrEq k _, t => t = k
  | .text, _ => False
  | .seq a b, t => a.Looks t ∨ b.Looks t
  | .both a b, t => a.Looks t ∨ b.Looks t

/-- the types a right-hand side with exceptions and choices looks at -/
def EPat.Looks {α : Type} : EPat W α → Ty W → Prop
  | .attr k, t => t = k
  | .attrEq k _, t => t = k
  | .text, _ => False
  | .seq a b, t => a.Looks t ∨ b.Looks t
  | .both a b, t => a.Looks t ∨ b.Looks t
  | .anyOf a b, t => a.Looks t ∨ b.Looks t
  | .unless a b, t => a.Looks t ∨ b.Looks t

/-- the types a step looks at, besides its own if it looks before it assigns -/
def Step.Looks : Step W → Ty W → Prop
  | .stage s, t => s.Looks t
  | .rule _ r, t => r.pat.Looks t
  | .erule _ r, t => r.pat.Looks t

/-- `StepsFor T rs ss`: `ss` are the resolvers of the pipeline `rs` whose types are among `T`, and these look at the
types `T` only. Of the other resolvers nothing is said. -/
inductive StepsFor (T : Ty W → Prop) : List (Nat × Resolver W) → List (Step W) → Prop
  | nil : StepsFor T [] []
  | keep {p : Nat} {s : Step W} {rs : List (Nat × Resolver W)} {ss : List (Step W)} : T s.resolver.attr →
      (∀ k, s.Looks k → T k) → StepsFor T rs ss → StepsFor T ((p, s.resolver) :: rs) (s :: ss)
  | drop {p : Nat} {r : Resolver W} {rs : List (Nat × Resolver W)} {ss : List (Step W)} : ¬ T r.attr →
      StepsFor T rs ss → StepsFor T ((p, r) :: rs) ss

/-- the line made from the text, after the pipeline ran on it -/
def RanOnText (rs : List (Nat × Resolver W)) (s : Str) (l : LLLine W) : Prop :=
  ∃ l0, createLineFromString W s = .ok l0 ∧ runAll l0 rs = .ok l

/-- the lines made from the texts, after a pipeline with the steps `ss` for `T` ran on each of them; the pipelines may
differ in their other resolvers -/
def RanOnTexts (T : Ty W → Prop) (ss : List (Step W)) : List Str → List (LLLine W) → Prop
  | [], [] => True
  | t :: ts, l :: ls => (∃ rs, StepsFor T rs ss ∧ RanOnText rs t l) ∧ RanOnTexts T ss ts ls
  | _, _ => False

end LNlp
