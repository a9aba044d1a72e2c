import Verif.Spec.History
/- Specification predicates for line creation. -/
namespace LNlp
variable {W : World}

/-- total size of sized tokens -/
def totalSize (toks : List (LToken × Nat)) : Nat := (toks.map (·.2)).sum

/-- The tokens of one input are what that input says: a text's tokens spell the text, a custom input
is one value token. -/
def GroupOf (t : InputToken W) (g : List LToken) : Prop :=
  match t with
  | .Text s _ => (∀ x ∈ g, ∃ s' tag, x = .Text s' tag) ∧ (g.map LToken.str).flatten = s
  | .Custom _ _ => g = [.Value]

/-- no two neighbouring text tokens with the same tag among `tags` -/
def NoTwins (tags : List TextTag) (g : List LToken) : Prop :=
  ∀ u v s1 s2 t1 t2, g = u ++ .Text s1 t1 :: .Text s2 t2 :: v → ¬ (t1 = t2 ∧ t1 ∈ tags)

/-- an input on which creation must fail: empty text, or a digit word with a non-ASCII character -/
def BadInput (W : World) (t : InputToken W) : Prop :=
  ∃ s as, t = .Text s as ∧ (s = [] ∨ ∃ w ∈ W.splitWordBounds s,
    (∃ c ∈ w.head?, IsDigit c) ∧ ∃ c ∈ w, 128 ≤ c.toNat)

end LNlp
