import Verif.Spec.Layers
/- Leaving out of a pipeline what has nothing to do with some types of attributes. -/
namespace LNlp
variable {W : World}

/-- `Sliced T has rs rs'`: `rs'` is the pipeline `rs` without the resolvers whose types are not among `T`. Those that
stay look at the types `T` only (they may call `token_has_any` if `has`). Where lines are stored does not matter. -/
inductive Sliced (T : Ty W → Prop) (has : Bool) : List (Nat × Resolver W) → List (Nat × Resolver W) → Prop
  | nil : Sliced T has [] []
  | keep {p p' : Nat} {r : Resolver W} {rs rs' : List (Nat × Resolver W)} : T r.attr →
      ByApi (fun m => Built T has m) r → Sliced T has rs rs' → Sliced T has ((p, r) :: rs) ((p', r) :: rs')
  | drop {p : Nat} {r : Resolver W} {rs rs' : List (Nat × Resolver W)} : ¬ T r.attr →
      Sliced T has rs rs' → Sliced T has ((p, r) :: rs) rs'

/-- every token has an attribute on just this token -/
def EachMarked (l : LLLine W) (h : History W) : Prop := ∀ p, p < l.ll_tokens.length → ∃ x ∈ h, x.range = (p, p)

/-- the types that clauses depend on -/
def ForClauses (k : Ty W) : Prop := k = .textTag ∨ k = .clauseKeyword ∨ k = .clause

end LNlp
