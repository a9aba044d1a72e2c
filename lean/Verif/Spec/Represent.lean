import Verif.Spec.Program
import Verif.Spec.Pipeline
import Verif.Model.Currency
/-
Representing the values of attribute types differently (C131).

`Types` are the attribute types a program defines; `W.retype T` is the same world with these types.  A `Recoding` says
which type replaces which, and which values stand for which.  Two programs are related if they differ only in these
values, treating related values alike.
-/
namespace LNlp

/-- the attribute types of a program: their identities, values, `PartialEq` and `Debug` -/
structure Types where
  Key : Type
  decKey : DecidableEq Key
  UserVal : Key → Type
  userEq : (k : Key) → UserVal k → UserVal k → Bool
  userDbg : (k : Key) → UserVal k → Str

/-- the same world with other user types -/
def World.retype (W : World) (T : Types) : World :=
  { W with Key := T.Key, decKey := T.decKey, UserVal := T.UserVal, userEq := T.userEq, userDbg := T.userDbg }

/-- every type is replaced by a type of its own, and some values stand for others: any relation -/
structure Recoding (W : World) (T : Types) where
  key : W.Key → T.Key
  inj : ∀ a b, key a = key b → a = b
  rel : (k : W.Key) → W.UserVal k → T.UserVal (key k) → Prop

variable {W : World} {T : Types}

/-- the library's types stay themselves -/
def Recoding.ty (ρ : Recoding W T) : Ty W → Ty (W.retype T)
  | .char => .char
  | .textTag => .textTag
  | .amount => .amount
  | .clauseKeyword => .clauseKeyword
  | .clause => .clause
  | .tag => .tag
  | .user k => .user (ρ.key k)

/-- values of the library's types stand for themselves only -/
def Recoding.val (ρ : Recoding W T) : (k : Ty W) → Val k → Val (ρ.ty k) → Prop
  | .char => fun (a b : Char) => a = b
  | .textTag => fun (a b : TextTag) => a = b
  | .amount => fun (a b : W.Decimal) => a = b
  | .clauseKeyword => fun (a b : ClauseKeyword) => a = b
  | .clause => fun (a b : Clause) => a = b
  | .tag => fun (a b : W.Tag) => a = b
  | .user k => fun (a : W.UserVal k) (b : T.UserVal (ρ.key k)) => ρ.rel k a b

/-- lists of the same length whose members are related one by one -/
inductive AllRel {α β : Type _} (S : α → β → Prop) : List α → List β → Prop
  | nil : AllRel S [] []
  | cons {a b as bs} : S a b → AllRel S as bs → AllRel S (a :: as) (b :: bs)

/-- the same panic, or related results -/
def SameOutcome {α β : Type _} (S : α → β → Prop) : R α → R β → Prop
  | .ok a, .ok b => S a b
  | .error e, .error e' => e = e'
  | _, _ => False

/-- related things at the same place -/
def AtSame {α β : Type} (S : α → β → Prop) (p : α × Nat) (q : β × Nat) : Prop := S p.1 q.1 ∧ p.2 = q.2

/-- related assignments: related values on the same range -/
inductive RecRel (ρ : Recoding W T) : Rec W → Rec (W.retype T) → Prop
  | mk (k : Ty W) (r : LRange) {v : Val k} {v' : Val (ρ.ty k)} (h : ρ.val k v v') : RecRel ρ ⟨k, r, v⟩ ⟨ρ.ty k, r, v'⟩

/-- two lines a program can have made, with the same tokens, on which related values were assigned in the same order -/
def Recoded (ρ : Recoding W T) (l : LLLine W) (l' : LLLine (W.retype T)) : Prop :=
  ∃ h h', Reachable l h ∧ Reachable l' h' ∧ l'.ll_tokens = l.ll_tokens ∧ AllRel (RecRel ρ) h h'

/-- related attributes of an input token -/
inductive AttrRel (ρ : Recoding W T) : AnyAttribute W → AnyAttribute (W.retype T) → Prop
  | new (k : Ty W) {v : Val k} {v' : Val (ρ.ty k)} (h : ρ.val k v v') :
      AttrRel ρ (AnyAttribute.new k v) (AnyAttribute.new (ρ.ty k) v')

/-- the same input token with related attributes -/
inductive InputRel (ρ : Recoding W T) : InputToken W → InputToken (W.retype T) → Prop
  | text (s : Str) {as as'} : AllRel (AttrRel ρ) as as' → InputRel ρ (.Text s as) (.Text s as')
  | custom (n : Nat) {as as'} : AllRel (AttrRel ρ) as as' → InputRel ρ (.Custom n as) (.Custom n as')

/-- related results of `x::any_of` with two matchers -/
inductive AnyOf2Rel {α α' β β' : Type} (S : α → α' → Prop) (Q : β → β' → Prop) : AnyOf2 α β → AnyOf2 α' β' → Prop
  | A {a a'} : S a a' → AnyOf2Rel S Q (.A a) (.A a')
  | B {b b'} : Q b b' → AnyOf2Rel S Q (.B b) (.B b')

/-- related results of `x::any_of` with three matchers -/
inductive AnyOf3Rel {α α' β β' γ γ' : Type} (S : α → α' → Prop) (Q : β → β' → Prop) (P : γ → γ' → Prop) :
    AnyOf3 α β γ → AnyOf3 α' β' γ' → Prop
  | A {a a'} : S a a' → AnyOf3Rel S Q P (.A a) (.A a')
  | B {b b'} : Q b b' → AnyOf3Rel S Q P (.B b) (.B b')
  | C {c c'} : P c c' → AnyOf3Rel S Q P (.C c) (.C c')

/-- user code that treats related values alike -/
inductive TreeRel {I : Type} {A A' : I → Type} {Out Out' : Type} (SA : (i : I) → A i → A' i → Prop)
    (S : Out → Out' → Prop) : UserTree A Out → UserTree A' Out' → Prop
  | answer {out out'} : AllRel (AtSame S) out out' → TreeRel SA S (.answer out) (.answer out')
  | ask (i : I) {next next'} :
      (∀ xs xs' eqs, AllRel (SA i) xs xs' → TreeRel SA S (next xs eqs) (next' xs' eqs)) →
      TreeRel SA S (.ask i next) (.ask i next')

/-- `v` and `v'` are equal to the same values, up to the recoding -/
def EqAlike (ρ : Recoding W T) (k : Ty W) (v : Val k) (v' : Val (ρ.ty k)) : Prop :=
  ∀ a a', ρ.val k a a' → valEq k a v = valEq (ρ.ty k) a' v'

/-- the other way round, as `token_has_any` compares -/
def EqAlike' (ρ : Recoding W T) (k : Ty W) (v : Val k) (v' : Val (ρ.ty k)) : Prop :=
  ∀ a a', ρ.val k a a' → valEq k v a = valEq (ρ.ty k) v' a'

/-- the same matcher expression for the two types; `attr_eq` and `token_has_any` are the only ones that ask anything of
the recoding -/
inductive Paired (ρ : Recoding W T) : {Out Out' : Type} → (Out → Out' → Prop) → XMatch W Out →
    XMatch (W.retype T) Out' → Prop
  | attr (k : Ty W) : Paired ρ (ρ.val k) (X.attr k) (X.attr (ρ.ty k))
  | attrEq (k : Ty W) {v : Val k} {v' : Val (ρ.ty k)} (h : EqAlike ρ k v v') :
      Paired ρ Eq (X.attrEq k v) (X.attrEq (ρ.ty k) v')
  | tokenHasAny (k : Ty W) {set : List (Val k)} {set' : List (Val (ρ.ty k))} (h : AllRel (EqAlike' ρ k) set set') :
      Paired ρ (ρ.val k) (X.tokenHasAny k set) (X.tokenHasAny (ρ.ty k) set')
  | tokenText : Paired ρ Eq X.tokenText X.tokenText
  | all2 {α α' β β' : Type} {S : α → α' → Prop} {Q : β → β' → Prop} {a a' b b'} :
      Paired ρ S a a' → Paired ρ Q b b' →
      Paired ρ (fun p q => S p.1 q.1 ∧ Q p.2 q.2) (X.all2 a b) (X.all2 a' b')
  | all3 {α α' β β' γ γ' : Type} {S : α → α' → Prop} {Q : β → β' → Prop} {P : γ → γ' → Prop} {a a' b b' c c'} :
      Paired ρ S a a' → Paired ρ Q b b' → Paired ρ P c c' →
      Paired ρ (fun p q => S p.1 q.1 ∧ Q p.2.1 q.2.1 ∧ P p.2.2 q.2.2) (X.all3 a b c) (X.all3 a' b' c')
  | anyOf2 {α α' β β' : Type} {S : α → α' → Prop} {Q : β → β' → Prop} {a a' b b'} :
      Paired ρ S a a' → Paired ρ Q b b' → Paired ρ (AnyOf2Rel S Q) (X.anyOf2 a b) (X.anyOf2 a' b')
  | anyOf3 {α α' β β' γ γ' : Type} {S : α → α' → Prop} {Q : β → β' → Prop} {P : γ → γ' → Prop} {a a' b b' c c'} :
      Paired ρ S a a' → Paired ρ Q b b' → Paired ρ P c c' →
      Paired ρ (AnyOf3Rel S Q P) (X.anyOf3 a b c) (X.anyOf3 a' b' c')
  | seq2 {α α' β β' : Type} {S : α → α' → Prop} {Q : β → β' → Prop} {a a' b b'} :
      Paired ρ S a a' → Paired ρ Q b b' →
      Paired ρ (fun p q => S p.1 q.1 ∧ Q p.2 q.2) (X.seq2 a b) (X.seq2 a' b')
  | seq3 {α α' β β' γ γ' : Type} {S : α → α' → Prop} {Q : β → β' → Prop} {P : γ → γ' → Prop} {a a' b b' c c'} :
      Paired ρ S a a' → Paired ρ Q b b' → Paired ρ P c c' →
      Paired ρ (fun p q => S p.1 q.1 ∧ Q p.2.1 q.2.1 ∧ P p.2.2 q.2.2) (X.seq3 a b c) (X.seq3 a' b' c')
  | user {I : Type} {A A' : I → Type} {Out Out' : Type} {SA : (i : I) → A i → A' i → Prop} {S : Out → Out' → Prop}
      {part : (i : I) → XMatch W (A i)} {part' : (i : I) → XMatch (W.retype T) (A' i)} {t : UserTree A Out}
      {t' : UserTree A' Out'} : (∀ i, Paired ρ (SA i) (part i) (part' i)) → TreeRel SA S t t' →
      Paired ρ S (t.matcher part) (t'.matcher part')
  | recursive {Out Out' : Type} {S : Out → Out' → Prop} {f : Nat → XMatch W Out} {f' : Nat → XMatch (W.retype T) Out'} :
      (∀ n, Paired ρ S (f n) (f' n)) → Paired ρ S (X.limit f) (X.limit f')

/-- the same call with paired matchers; the first argument relates the answers -/
inductive OpRel (ρ : Recoding W T) : {Resp Resp' : Type} → (Resp → Resp' → Prop) → Op W Resp →
    Op (W.retype T) Resp' → Prop
  | fromLine (h : Nat) : OpRel ρ Eq (.fromLine h) (.fromLine h)
  | findBy {Out Out' : Type} {S : Out → Out' → Prop} (h : Nat) {m m'} (p : Paired ρ S m m') :
      OpRel ρ (AllRel S) (.findBy h m) (.findBy h m')
  | findBoth {Out Out' : Type} {S : Out → Out' → Prop} (h : Nat) {m m'} (p : Paired ρ S m m') :
      OpRel ρ (AllRel S) (.findBoth h m) (.findBoth h m')
  | matchForwards {Out Out' : Type} {S : Out → Out' → Prop} (h : Nat) {m m'} (p : Paired ρ S m m') :
      OpRel ρ (AllRel S) (.matchForwards h m) (.matchForwards h m')
  | matchBackwards {Out Out' : Type} {S : Out → Out' → Prop} (h : Nat) {m m'} (p : Paired ρ S m m') :
      OpRel ρ (AllRel S) (.matchBackwards h m) (.matchBackwards h m')
  | splitBy {Out Out' : Type} {S : Out → Out' → Prop} (h : Nat) {m m'} (p : Paired ρ S m m') :
      OpRel ρ Eq (.splitBy h m) (.splitBy h m')
  | splitWith (h g : Nat) : OpRel ρ Eq (.splitWith h g) (.splitWith h g)
  | trimSelection {Out Out' : Type} {S : Out → Out' → Prop} (h : Nat) {m m'} (p : Paired ρ S m m') (x y : Bool) :
      OpRel ρ Eq (.trimSelection h m x y) (.trimSelection h m' x y)
  | after (h : Nat) : OpRel ρ Eq (.after h) (.after h)

/-- the same program, except for values that it treats alike -/
inductive ApiRel (ρ : Recoding W T) {V V' : Type} (S : V → V' → Prop) : Api W V → Api (W.retype T) V' → Prop
  | finish {vs vs'} : AllRel (fun p q => p.1 = q.1 ∧ S p.2 q.2) vs vs' → ApiRel ρ S (.finish vs) (.finish vs')
  | panic (e : Panic) : ApiRel ρ S (.panic e) (.panic e)
  | call {Resp Resp' : Type} {Q : Resp → Resp' → Prop} {op op' next next'} : OpRel ρ Q op op' →
      (∀ rs x x', Q x x' → ApiRel ρ S (next rs x) (next' rs x')) → ApiRel ρ S (.call op next) (.call op' next')

/-- resolvers that behave, on every line they are run on, like the same program except for values treated alike -/
inductive ResolverRel (ρ : Recoding W T) : Resolver W → Resolver (W.retype T) → Prop
  | mk (k : Ty W) (p : LRange → Api W (Val k)) (p' : LRange → Api (W.retype T) (Val (ρ.ty k)))
      (same : ∀ x, ApiRel ρ (ρ.val k) (p x) (p' x))
      {go : LLSelection W → R (List (LLCursorAssignment (Val k)) × Bool)}
      {go' : LLSelection (W.retype T) → R (List (LLCursorAssignment (Val (ρ.ty k))) × Bool)}
      (h : ∀ (l : LLLine W) (ptr : Nat), l.ll_tokens ≠ [] → go (wholeLine l ptr) = (apiResolver k p).go (wholeLine l ptr))
      (h' : ∀ (l : LLLine (W.retype T)) (ptr : Nat), l.ll_tokens ≠ [] →
        go' (wholeLine l ptr) = (apiResolver (ρ.ty k) p').go (wholeLine l ptr)) :
      ResolverRel ρ ⟨k, go⟩ ⟨ρ.ty k, go'⟩

/-- the library's resolvers; tables have related values for the same texts -/
inductive StageRel (ρ : Recoding W T) : Stage W → Stage (W.retype T) → Prop
  | table (k : Ty W) {t : TextMatchAssignResolver W k} {t' : TextMatchAssignResolver (W.retype T) (ρ.ty k)}
      (hc : t.case_sensitive = t'.case_sensitive)
      (h : ∀ s, AllRel (ρ.val k) ((t.lookup.get? s).getD []) ((t'.lookup.get? s).getD [])) :
      StageRel ρ (.table t) (.table t')
  | pos : StageRel ρ .pos .pos
  | keywords (r : ClauseKeywordResolver) : StageRel ρ (.keywords r) (.keywords r)
  | clauses : StageRel ρ .clauses .clauses
  | amounts (r : AmountResolver) : StageRel ρ (.amounts r) (.amounts r)

end LNlp
