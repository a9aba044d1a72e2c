import Verif.Model.Direction
import Verif.Spec.Match
/- Specification for directions that users write: what it means that two directions answer alike, and what a user can put
around the direction a matcher was called with. -/
namespace LNlp
variable {W : World}

/-- the code of a user's matcher (`UserTree`) where `ask i` is the answer of its `i`-th part -/
def UserTree.answers {I : Type} {A : I → Type} {Out : Type} (ask : (i : I) → R (List (A i × Nat))) :
    List Nat → UserTree A Out → R (List (Out × Nat))
  | seen, .answer out => .ok (out.filterMap (fun x => (seen[x.2]?).map (fun e => (x.1, e))))
  | seen, .ask i next =>
    match ask i with
    | .error e => .error e
    | .ok rs =>
      (next (rs.map (·.1)) (fun a b => decide ((seen ++ rs.map (·.2))[a]? = (seen ++ rs.map (·.2))[b]?))).answers ask
        (seen ++ rs.map (·.2))

/-- the user's matcher for any direction -/
def UserTree.generic {I : Type} {A : I → Type} {Out : Type} (t : UserTree A Out) (part : (i : I) → GMatch W (A i)) :
    GMatch W Out := ⟨fun D s l => t.answers (fun i => (part i).go D s l) []⟩

/-- A direction of the user around another one: `struct Mine<M> { inner: M, … }` with
`impl<M: XDirection> XDirection for Mine<M>`. -/
structure Wrapper (W : World) where
  State : Type → Type
  start : {S : Type} → S → State S
  dir : {S : Type} → Direction W S → Direction W (State S)

/-- a matcher of the user that calls `m` with its own direction around the one it got:
`self.0.go(&Mine { inner: direction, … }, ll_line)` -/
def GMatch.under {Out : Type} (w : Wrapper W) (m : GMatch W Out) : GMatch W Out :=
  ⟨fun D s l => m.go (w.dir D) (w.start s) l⟩

/-- the code of a matcher that calls itself, unrolled deeper than the line has tokens (`X.limit`) -/
def GX.limit {Out : Type} (f : Nat → GMatch W Out) : GMatch W Out :=
  ⟨fun D s l => (f (l.ll_tokens.length + 2)).go D s l⟩

/-- The same outcome, of which every index satisfies `inn`, and no panic if `safe`. -/
structure AnswersOut {α : Type} (inn : Nat → Prop) (safe : Prop) (x y : R (List (α × Nat))) : Prop where
  same : x = y
  ends : ∀ out, x = .ok out → ∀ p ∈ out, inn p.2
  fine : safe → ∃ out, x = .ok out

/-- `text_token` alike -/
def AnswersText (inn : Nat → Prop) (safe : Prop) (x y : R (Option (Str × Nat))) : Prop :=
  x = y ∧ (∀ p, x = .ok (some p) → inn p.2) ∧ (safe → ∃ o, x = .ok o)

/-- `after` alike: related directions, or none, or a panic -/
def AnswersNext {S S' : Type} (on : S → S' → Prop) (safe : Prop) : R (Option S) → R (Option S') → Prop
  | .ok none, .ok none => True
  | .ok (some s), .ok (some s') => on s s'
  | .error e, .error e' => e = e' ∧ ¬ safe
  | _, _ => False

/-- Two directions answer alike on two lines, as far as questions about types in `T` and, unless `has`, no
`token_attr_one_of` can tell: at related states (`on`) each method answers the same, with indexes in `inn`, and from related
states and an index in `inn` they go on to related states. -/
structure AnswerAlike (T : Ty W → Prop) (has : Bool) {S S' : Type} (D : Direction W S) (D' : Direction W S') (l l' : LLLine W)
    (on : S → S' → Prop) (inn : Nat → Prop) (safe : Prop) : Prop where
  attr : ∀ s s', on s s' → ∀ k, T k → AnswersOut inn safe (D.attr s k l) (D'.attr s' k l')
  attrEq : ∀ s s', on s s' → ∀ k, T k → ∀ v, AnswersOut inn safe (D.attrEq s k v l) (D'.attrEq s' k v l')
  oneOf : has = true → ∀ s s', on s s' → ∀ k, T k → ∀ set,
    AnswersOut inn safe (D.tokenAttrOneOf s k set l) (D'.tokenAttrOneOf s' k set l')
  text : ∀ s s', on s s' → AnswersText inn safe (D.textToken s l) (D'.textToken s' l')
  next : ∀ s s', on s s' → ∀ i, inn i → AnswersNext on safe (D.after s i l) (D'.after s' i l')

/-- What Rust's generics give for a direction of the user whose `after` passes on indexes it was given: it knows the direction
inside it only by its methods, so around directions that answer alike it answers alike.  It asks the inner direction about
types in `T`, and `token_attr_one_of` only if `has`, and then answers about types in `T'`, and `has'`. -/
def Wrapper.Generic (w : Wrapper W) (T : Ty W → Prop) (has : Bool) (T' : Ty W → Prop) (has' : Bool) : Prop :=
  ∀ {S S' : Type} (D : Direction W S) (D' : Direction W S') (l l' : LLLine W) (on : S → S' → Prop) (inn : Nat → Prop)
    (safe : Prop), l.ll_tokens.length = l'.ll_tokens.length → AnswerAlike T has D D' l l' on inn safe →
    ∃ on' : w.State S → w.State S' → Prop, AnswerAlike T' has' (w.dir D) (w.dir D') l l' on' inn safe ∧
      ∀ s s', on s s' → on' (w.start s) (w.start s')

/-- Matchers built from `x::*`, matchers of the user and directions of the user, that ask about types in `T`, and with
`token_has_any` only if `has`. -/
inductive GBuilt : (T : Ty W → Prop) → (has : Bool) → {Out : Type} → GMatch W Out → Prop
  | attr {T : Ty W → Prop} {has : Bool} (k : Ty W) (t : T k) : GBuilt T has (GX.attr k)
  | attrEq {T : Ty W → Prop} {has : Bool} (k : Ty W) (t : T k) (v : Val k) : GBuilt T has (GX.attrEq k v)
  | tokenHasAny {T : Ty W → Prop} {has : Bool} (k : Ty W) (t : T k) (hh : has = true) (set : List (Val k)) :
      GBuilt T has (GX.tokenHasAny k set)
  | tokenText {T : Ty W → Prop} {has : Bool} : GBuilt T has GX.tokenText
  | all2 {T : Ty W → Prop} {has : Bool} {α β : Type} {a : GMatch W α} {b : GMatch W β} :
      GBuilt T has a → GBuilt T has b → GBuilt T has (GX.all2 a b)
  | all3 {T : Ty W → Prop} {has : Bool} {α β γ : Type} {a : GMatch W α} {b : GMatch W β} {c : GMatch W γ} :
      GBuilt T has a → GBuilt T has b → GBuilt T has c → GBuilt T has (GX.all3 a b c)
  | anyOf2 {T : Ty W → Prop} {has : Bool} {α β : Type} {a : GMatch W α} {b : GMatch W β} :
      GBuilt T has a → GBuilt T has b → GBuilt T has (GX.anyOf2 a b)
  | anyOf3 {T : Ty W → Prop} {has : Bool} {α β γ : Type} {a : GMatch W α} {b : GMatch W β} {c : GMatch W γ} :
      GBuilt T has a → GBuilt T has b → GBuilt T has c → GBuilt T has (GX.anyOf3 a b c)
  | seq2 {T : Ty W → Prop} {has : Bool} {α β : Type} {a : GMatch W α} {b : GMatch W β} :
      GBuilt T has a → GBuilt T has b → GBuilt T has (GX.seq2 a b)
  | seq3 {T : Ty W → Prop} {has : Bool} {α β γ : Type} {a : GMatch W α} {b : GMatch W β} {c : GMatch W γ} :
      GBuilt T has a → GBuilt T has b → GBuilt T has c → GBuilt T has (GX.seq3 a b c)
  | user {T : Ty W → Prop} {has : Bool} {I : Type} {A : I → Type} {Out : Type} (part : (i : I) → GMatch W (A i))
      (t : UserTree A Out) : (∀ i, GBuilt T has (part i)) → GBuilt T has (t.generic part)
  | limit {T : Ty W → Prop} {has : Bool} {Out : Type} (f : Nat → GMatch W Out) :
      (∀ n, GBuilt T has (f n)) → GBuilt T has (GX.limit f)
  | under {T T' : Ty W → Prop} {has has' : Bool} {Out : Type} {m : GMatch W Out} (w : Wrapper W)
      (hw : w.Generic T has T' has') : GBuilt T' has' m → GBuilt T has (m.under w)

/-! ### three directions of the user -/

/-- a direction that hides the types `hidden` and otherwise asks the one inside:
```
impl<'l, M: XDirection<'l>> XDirection<'l> for Hide<'_, M> {
    fn attr<T: 'static>(&self, l: &'l LLLine) -> Vec<(&'l T, ToIdx)> {
        if self.hidden.contains(&TypeId::of::<T>()) { vec![] } else { self.inner.attr(l) }
    }
    …
    fn after(&self, idx: usize, l: &'l LLLine) -> Option<Self> {
        self.inner.after(idx, l).map(|inner| Hide { inner, ..*self })
    }
}
``` -/
def Wrapper.hide (hidden : Ty W → Bool) : Wrapper W where
  State S := S
  start s := s
  dir D :=
    { attr := fun s k l => if hidden k then .ok [] else D.attr s k l
      attrEq := fun s k v l => if hidden k then .ok [] else D.attrEq s k v l
      tokenAttrOneOf := fun s k set l => if hidden k then .ok [] else D.tokenAttrOneOf s k set l
      textToken := fun s l => D.textToken s l
      after := fun s i l => D.after s i l }

/-- a direction that goes on at most `n` times: its `after` counts down and answers `None` at zero -/
def Wrapper.steps (n : Nat) : Wrapper W where
  State S := S × Nat
  start s := (s, n)
  dir D :=
    { attr := fun s k l => D.attr s.1 k l
      attrEq := fun s k v l => D.attrEq s.1 k v l
      tokenAttrOneOf := fun s k set l => D.tokenAttrOneOf s.1 k set l
      textToken := fun s l => D.textToken s.1 l
      after := fun s i l =>
        match s.2 with
        | 0 => .ok none
        | n + 1 =>
          match D.after s.1 i l with
          | .error e => .error e
          | .ok none => .ok none
          | .ok (some s') => .ok (some (s', n)) }

/-- `after` of `Wrapper.skip`: as long as the next token is a space, the one behind it -/
def skipSpaces {S : Type} (D : Direction W S) (l : LLLine W) (s : S) : Nat → Nat → R (Option S)
  | 0, _ => .ok none
  | fuel + 1, i =>
    match D.after s i l with
    | .error e => .error e
    | .ok none => .ok none
    | .ok (some s') =>
      match D.attrEq s' Ty.textTag TextTag.SPACE l with
      | .error e => .error e
      | .ok [] => .ok (some s')
      | .ok _ => skipSpaces D l s fuel (i + 1)

/-- A forward direction whose sequences do not see spaces:
```
fn after(&self, mut idx: usize, l: &'l LLLine) -> Option<Self> {
    loop {
        let inner = self.inner.after(idx, l)?;
        if inner.attr_eq(&TextTag::SPACE, l).is_empty() { return Some(Skip { inner }); }
        idx += 1;
    }
}
```
It makes up the index it goes on from, so it works forwards only. -/
def Wrapper.skip : Wrapper W where
  State S := S
  start s := s
  dir D :=
    { attr := fun s k l => D.attr s k l
      attrEq := fun s k v l => D.attrEq s k v l
      tokenAttrOneOf := fun s k set l => D.tokenAttrOneOf s k set l
      textToken := fun s l => D.textToken s l
      after := fun s i l => skipSpaces D l s (l.ll_tokens.length + 1) i }

/-- a space starts at token `i`: it got `TextTag::SPACE` over some range that starts there -/
def SpaceAt (h : History W) (i : Nat) : Prop := ∃ e, (⟨Ty.textTag, (i, e), TextTag.SPACE⟩ : Rec W) ∈ h

/-- token `j` is the next one behind `i` that is not a space -/
structure NextWord (l : LLLine W) (h : History W) (i j : Nat) : Prop where
  behind : i < j
  inside : j < l.ll_tokens.length
  spaces : ∀ k, i < k → k < j → SpaceAt h k
  word : ¬ SpaceAt h j

end LNlp
