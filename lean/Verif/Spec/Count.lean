import Verif.Spec.Fuse
/- How many results an expression can have. -/
namespace LNlp
variable {W : World}

/-- `Weighs T n m`: `m` is an expression of the library over the attribute types `T` with at most `n` matchers of
attributes, where of the alternatives of `any_of` only the heaviest counts. -/
inductive Weighs (T : Ty W → Prop) : Nat → {Out : Type} → XMatch W Out → Prop
  | attr (k : Ty W) (t : T k) : Weighs T 1 (X.attr k)
  | attrEq (k : Ty W) (t : T k) (v : Val k) : Weighs T 1 (X.attrEq k v)
  | tokenHasAny (k : Ty W) (t : T k) (set : List (Val k)) : Weighs T 1 (X.tokenHasAny k set)
  | tokenText : Weighs T 0 X.tokenText
  | all2 {n₁ n₂ : Nat} {α β : Type} {a : XMatch W α} {b : XMatch W β} :
      Weighs T n₁ a → Weighs T n₂ b → Weighs T (n₁ + n₂) (X.all2 a b)
  | all3 {n₁ n₂ n₃ : Nat} {α β γ : Type} {a : XMatch W α} {b : XMatch W β} {c : XMatch W γ} :
      Weighs T n₁ a → Weighs T n₂ b → Weighs T n₃ c → Weighs T (n₁ + (n₂ + n₃)) (X.all3 a b c)
  | anyOf2 {n₁ n₂ : Nat} {α β : Type} {a : XMatch W α} {b : XMatch W β} :
      Weighs T n₁ a → Weighs T n₂ b → Weighs T (max n₁ n₂) (X.anyOf2 a b)
  | anyOf3 {n₁ n₂ n₃ : Nat} {α β γ : Type} {a : XMatch W α} {b : XMatch W β} {c : XMatch W γ} :
      Weighs T n₁ a → Weighs T n₂ b → Weighs T n₃ c → Weighs T (max n₁ (max n₂ n₃)) (X.anyOf3 a b c)
  | seq2 {n₁ n₂ : Nat} {α β : Type} {a : XMatch W α} {b : XMatch W β} :
      Weighs T n₁ a → Weighs T n₂ b → Weighs T (n₁ + n₂) (X.seq2 a b)
  | seq3 {n₁ n₂ n₃ : Nat} {α β γ : Type} {a : XMatch W α} {b : XMatch W β} {c : XMatch W γ} :
      Weighs T n₁ a → Weighs T n₂ b → Weighs T n₃ c → Weighs T (n₁ + (n₂ + n₃)) (X.seq3 a b c)

/-- at most `c` values of one type in `T` start at a token, and at most `c` end there -/
def Sparse (T : Ty W → Prop) (c : Nat) (h : History W) : Prop :=
  ∀ k, T k → ∀ i, ((startingAt i h).filter (fun x => decide (x.ty = k))).length ≤ c ∧
    ((endingAt i h).filter (fun x => decide (x.ty = k))).length ≤ c

/-- `seq((attr(), seq((attr(), …))))`, with `n + 1` times `attr()` -/
def X.attrs (k : Ty W) : Nat → (Out : Type) × XMatch W Out
  | 0 => ⟨Val k, X.attr k⟩
  | n + 1 => ⟨Val k × (X.attrs k n).1, X.seq2 (X.attr k) (X.attrs k n).2⟩

end LNlp
