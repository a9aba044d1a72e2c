import Verif.Spec.Select
import Verif.Spec.UserMatch
/- Matchers a user writes by implementing `XMatch` with a `go` that calls itself, such as one that matches another matcher
any number of times (C134). -/
namespace LNlp
variable {W : World}

/-- The code of a `go` that calls itself: `F r` is the code, where `r` stands for the calls of itself.  With `true`, it calls
itself only after something has matched, so on the tokens that are left. -/
inductive Calls (T : Ty W → Prop) (has : Bool) {S : Type} : Bool → {Out : Type} → (XMatch W S → XMatch W Out) → Prop
  | other {g : Bool} {Out : Type} {m : XMatch W Out} : Built T has m → Calls T has g (fun _ => m)
  | itself : Calls T has false (fun r => r)
  | later {Out : Type} {F : XMatch W S → XMatch W Out} : Calls T has true F → Calls T has false F
  | all2 {g : Bool} {α β : Type} {A : XMatch W S → XMatch W α} {B : XMatch W S → XMatch W β} :
      Calls T has g A → Calls T has g B → Calls T has g (fun r => X.all2 (A r) (B r))
  | all3 {g : Bool} {α β γ : Type} {A : XMatch W S → XMatch W α} {B : XMatch W S → XMatch W β} {C : XMatch W S → XMatch W γ} :
      Calls T has g A → Calls T has g B → Calls T has g C → Calls T has g (fun r => X.all3 (A r) (B r) (C r))
  | anyOf2 {g : Bool} {α β : Type} {A : XMatch W S → XMatch W α} {B : XMatch W S → XMatch W β} :
      Calls T has g A → Calls T has g B → Calls T has g (fun r => X.anyOf2 (A r) (B r))
  | anyOf3 {g : Bool} {α β γ : Type} {A : XMatch W S → XMatch W α} {B : XMatch W S → XMatch W β} {C : XMatch W S → XMatch W γ} :
      Calls T has g A → Calls T has g B → Calls T has g C → Calls T has g (fun r => X.anyOf3 (A r) (B r) (C r))
  | seq2 {g : Bool} {α β : Type} {A : XMatch W S → XMatch W α} {B : XMatch W S → XMatch W β} :
      Calls T has g A → Calls T has false B → Calls T has g (fun r => X.seq2 (A r) (B r))
  | seq3 {g : Bool} {α β γ : Type} {A : XMatch W S → XMatch W α} {B : XMatch W S → XMatch W β} {C : XMatch W S → XMatch W γ} :
      Calls T has g A → Calls T has false B → Calls T has false C → Calls T has g (fun r => X.seq3 (A r) (B r) (C r))
  | user {g : Bool} {I : Type} {A : I → Type} {Out : Type} (part : (i : I) → XMatch W S → XMatch W (A i))
      (t : UserTree A Out) : (∀ i, Calls T has g (part i)) → Calls T has g (fun r => t.matcher (fun i => part i r))

/-- a matcher that finds nothing -/
def X.nothing {Out : Type} : XMatch W Out := (UserTree.answer (I := Empty) (A := fun _ => Unit) []).matcher (fun _ => X.whitespace)

/-- the code unrolled `n` levels deep -/
def X.levels {Out : Type} (F : XMatch W Out → XMatch W Out) : Nat → XMatch W Out
  | 0 => X.nothing
  | n + 1 => F (X.levels F n)

/-- the matcher with this code -/
def X.recursive {Out : Type} (F : XMatch W Out → XMatch W Out) : XMatch W Out := X.limit (X.levels F)

/-- first what the matcher itself finds after a match, then the match alone; counts the matches -/
def UserTree.again {α : Type} : UserTree (I := Bool) (fun b => if b then α × Nat else α) Nat :=
  .ask true (fun ps _ => .ask false (fun vs _ => .answer
    (numbered 0 (ps.map (fun (p : α × Nat) => p.2 + 1)) ++ numbered ps.length (vs.map (fun _ => 1)))))

/-- Matches `m` one or more times in a row, longest first; the value is how often (`Out` must be `Copy`):
```
impl<'l, M: XMatch<'l> + Clone> XMatch<'l> for Many<M> {
    type Out = usize;
    fn go<D: XDirection<'l>>(&self, direction: &D, ll_line: &'l LLLine) -> Vec<(usize, ToIdx)> {
        let more = Seq2(self.0.clone(), self.clone()).go(direction, ll_line);
        let one = self.0.go(direction, ll_line);
        more.into_iter().map(|((_, n), to)| (n + 1, to)).chain(one.into_iter().map(|(_, to)| (1, to))).collect()
    }
}
``` -/
def X.many {α : Type} (m : XMatch W α) : XMatch W Nat :=
  X.recursive (fun r => UserTree.again.matcher (parts (X.seq2 m r) m))

/-- `m` matches `n` times in a row, in direction `d`, and the last match ends at `j` -/
inductive InARow {α : Type} (m : XMatch W α) (l : LLLine W) : Nat → Dir → Nat → Prop
  | one {d : Dir} {out : List (α × Nat)} {v : α} {j : Nat} : m.go d l = .ok out → (v, j) ∈ out → InARow m l 1 d j
  | more {n : Nat} {d d' : Dir} {out : List (α × Nat)} {v : α} {k j : Nat} : m.go d l = .ok out → (v, k) ∈ out →
      d.Next k l d' → InARow m l n d' j → InARow m l (n + 1) d j

end LNlp
