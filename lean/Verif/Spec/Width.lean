import Verif.Spec.Recurse
/- How many matches an expression puts next to each other. -/
namespace LNlp
variable {W : World}

/-- `Spans T n m`: `m` is an expression of the library and of matchers of the user that do not call themselves, over the
attribute types `T`, and it puts at most `n` matches of attributes or texts next to each other. -/
inductive Spans (T : Ty W → Prop) : Nat → {Out : Type} → XMatch W Out → Prop
  | attr (k : Ty W) (t : T k) : Spans T 1 (X.attr k)
  | attrEq (k : Ty W) (t : T k) (v : Val k) : Spans T 1 (X.attrEq k v)
  | tokenHasAny (k : Ty W) (t : T k) (set : List (Val k)) : Spans T 1 (X.tokenHasAny k set)
  | tokenText : Spans T 1 X.tokenText
  | all2 {n₁ n₂ : Nat} {α β : Type} {a : XMatch W α} {b : XMatch W β} :
      Spans T n₁ a → Spans T n₂ b → Spans T (min n₁ n₂) (X.all2 a b)
  | all3 {n₁ n₂ n₃ : Nat} {α β γ : Type} {a : XMatch W α} {b : XMatch W β} {c : XMatch W γ} :
      Spans T n₁ a → Spans T n₂ b → Spans T n₃ c → Spans T (min n₁ (min n₂ n₃)) (X.all3 a b c)
  | anyOf2 {n₁ n₂ : Nat} {α β : Type} {a : XMatch W α} {b : XMatch W β} :
      Spans T n₁ a → Spans T n₂ b → Spans T (max n₁ n₂) (X.anyOf2 a b)
  | anyOf3 {n₁ n₂ n₃ : Nat} {α β γ : Type} {a : XMatch W α} {b : XMatch W β} {c : XMatch W γ} :
      Spans T n₁ a → Spans T n₂ b → Spans T n₃ c → Spans T (max n₁ (max n₂ n₃)) (X.anyOf3 a b c)
  | seq2 {n₁ n₂ : Nat} {α β : Type} {a : XMatch W α} {b : XMatch W β} :
      Spans T n₁ a → Spans T n₂ b → Spans T (n₁ + n₂) (X.seq2 a b)
  | seq3 {n₁ n₂ n₃ : Nat} {α β γ : Type} {a : XMatch W α} {b : XMatch W β} {c : XMatch W γ} :
      Spans T n₁ a → Spans T n₂ b → Spans T n₃ c → Spans T (n₁ + (n₂ + n₃)) (X.seq3 a b c)
  | user {n : Nat} {I : Type} {A : I → Type} {Out : Type} (part : (i : I) → XMatch W (A i)) (t : UserTree A Out) :
      (∀ i, Spans T n (part i)) → Spans T n (t.matcher part)
  | more {n n' : Nat} {Out : Type} {m : XMatch W Out} : n ≤ n' → Spans T n m → Spans T n' m

/-- every attribute of a type in `T` covers at most `k` tokens -/
def AtMost (T : Ty W → Prop) (k : Nat) (h : History W) : Prop := ∀ x ∈ h, T x.ty → x.range.2 < x.range.1 + k

/-- `seq((whitespace(), seq((whitespace(), …))))`, with `n + 1` times `whitespace()` -/
def X.spaces : Nat → (Out : Type) × XMatch W Out
  | 0 => ⟨Unit, X.whitespace⟩
  | n + 1 => ⟨Unit × (X.spaces n).1, X.seq2 X.whitespace (X.spaces n).2⟩

/-- `n` texts of the one character `c` -/
def blanks (W : World) (c : Char) (n : Nat) : List (InputToken W) := List.replicate n (.Text [c] [])

end LNlp
