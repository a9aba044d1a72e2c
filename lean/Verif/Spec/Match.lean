import Verif.Spec.History
import Verif.Model.X
/- Specification for matching: the matcher expressions a user can write with `x::*`, and matchers of their own. -/
namespace LNlp
variable {W : World}

/-- What an `impl XMatch` of a user does in its `go` (src/ll_line/x.rs:24-36): it asks other matchers at its own
position, or the `XDirection` itself, which is the same as asking `x::attr` etc., looks at the values found, compares
the `ToIdx`s it got (x.rs:38: they are opaque and can only be compared), and answers with `ToIdx`s it got, named here by
their number in order of appearance.  The implementation is the same for both directions.
Not covered: implementations that look at the whole line (`ll_tokens()`, `query`, `find`) or jump in it with
`XDirection::after`, whose index they have to make up, as `ToIdx` hides it. -/
inductive UserTree {I : Type} (A : I → Type) (Out : Type) : Type
  | answer (out : List (Out × Nat))
  | ask (i : I) (next : List (A i) → (Nat → Nat → Bool) → UserTree A Out)

/-- run it at a position, with the `ToIdx`s got so far -/
def UserTree.run {I : Type} {A : I → Type} {Out : Type} (part : (i : I) → XMatch W (A i)) (d : Dir) (l : LLLine W) :
    List Nat → UserTree A Out → R (List (Out × Nat))
  | seen, .answer out => .ok (out.filterMap (fun x => (seen[x.2]?).map (fun e => (x.1, e))))
  | seen, .ask i next =>
    match (part i).go d l with
    | .error e => .error e
    | .ok rs =>
      (next (rs.map (·.1)) (fun a b => decide ((seen ++ rs.map (·.2))[a]? = (seen ++ rs.map (·.2))[b]?))).run part d l
        (seen ++ rs.map (·.2))

/-- the user's matcher -/
def UserTree.matcher {I : Type} {A : I → Type} {Out : Type} (t : UserTree A Out) (part : (i : I) → XMatch W (A i)) :
    XMatch W Out := ⟨fun d l => t.run part d l []⟩

/-- A matcher whose `go` calls itself.  `f n` is its code unrolled `n` levels deep; on a line it is unrolled deeper than
the line has tokens.  (`Built.recursive` asks that deeper levels make no difference.  On lines with an attribute that runs backwards
the code need not return, `C134_backwards_needed`; there this is only its unrolling, and nothing is claimed of the code.) -/
def X.limit {Out : Type} (f : Nat → XMatch W Out) : XMatch W Out := ⟨fun d l => (f (l.ll_tokens.length + 2)).go d l⟩

/-- Matchers built from `x::*` and matchers of the user, with attribute types in `T`, and `token_has_any` only if
`has`. -/
inductive Built (T : Ty W → Prop) (has : Bool) : {Out : Type} → XMatch W Out → Prop
  | attr (k : Ty W) (t : T k) : Built T has (X.attr k)
  | attrEq (k : Ty W) (t : T k) (v : Val k) : Built T has (X.attrEq k v)
  | tokenHasAny (k : Ty W) (t : T k) (hh : has = true) (set : List (Val k)) :
      Built T has (X.tokenHasAny k set)
  | tokenText : Built T has X.tokenText
  | all2 {α β : Type} {a : XMatch W α} {b : XMatch W β} :
      Built T has a → Built T has b → Built T has (X.all2 a b)
  | all3 {α β γ : Type} {a : XMatch W α} {b : XMatch W β} {c : XMatch W γ} :
      Built T has a → Built T has b → Built T has c → Built T has (X.all3 a b c)
  | anyOf2 {α β : Type} {a : XMatch W α} {b : XMatch W β} :
      Built T has a → Built T has b → Built T has (X.anyOf2 a b)
  | anyOf3 {α β γ : Type} {a : XMatch W α} {b : XMatch W β} {c : XMatch W γ} :
      Built T has a → Built T has b → Built T has c → Built T has (X.anyOf3 a b c)
  | seq2 {α β : Type} {a : XMatch W α} {b : XMatch W β} :
      Built T has a → Built T has b → Built T has (X.seq2 a b)
  | seq3 {α β γ : Type} {a : XMatch W α} {b : XMatch W β} {c : XMatch W γ} :
      Built T has a → Built T has b → Built T has c → Built T has (X.seq3 a b c)
  | user {I : Type} {A : I → Type} {Out : Type} (part : (i : I) → XMatch W (A i)) (t : UserTree A Out) :
      (∀ i, Built T has (part i)) → Built T has (t.matcher part)
  | recursive {Out : Type} (f : Nat → XMatch W Out) (hf : ∀ n, Built T has (f n))
      (settled : ∀ l h, Reachable l h → (∀ x ∈ h, x.range.1 ≤ x.range.2) → ∀ d n, l.ll_tokens.length + 2 ≤ n →
        (f n).go d l = (f (l.ll_tokens.length + 2)).go d l) : Built T has (X.limit f)

/-- every matcher expression built from `x::*` and matchers of the user -/
abbrev Builtin {Out : Type} (m : XMatch W Out) : Prop := Built (fun _ => True) true m

/-- `Mirrored m m' f`: `m'` is `m` with every sequence reversed, and `f` reorders `m`'s outputs
accordingly. -/
inductive Mirrored : {Out Out' : Type} → XMatch W Out → XMatch W Out' → (Out → Out') → Prop
  | attr (k : Ty W) : Mirrored (X.attr k) (X.attr k) id
  | attrEq (k : Ty W) (v : Val k) : Mirrored (X.attrEq k v) (X.attrEq k v) id
  | tokenText : Mirrored X.tokenText X.tokenText id
  | all2 {α α' β β' : Type} {a : XMatch W α} {a' : XMatch W α'} {f : α → α'}
      {b : XMatch W β} {b' : XMatch W β'} {g : β → β'} :
      Mirrored a a' f → Mirrored b b' g →
      Mirrored (X.all2 a b) (X.all2 a' b') (fun p => (f p.1, g p.2))
  | all3 {α α' β β' γ γ' : Type} {a : XMatch W α} {a' : XMatch W α'} {f : α → α'}
      {b : XMatch W β} {b' : XMatch W β'} {g : β → β'}
      {c : XMatch W γ} {c' : XMatch W γ'} {k : γ → γ'} :
      Mirrored a a' f → Mirrored b b' g → Mirrored c c' k →
      Mirrored (X.all3 a b c) (X.all3 a' b' c') (fun p => (f p.1, g p.2.1, k p.2.2))
  | seq2 {α α' β β' : Type} {a : XMatch W α} {a' : XMatch W α'} {f : α → α'}
      {b : XMatch W β} {b' : XMatch W β'} {g : β → β'} :
      Mirrored a a' f → Mirrored b b' g →
      Mirrored (X.seq2 a b) (X.seq2 b' a') (fun p => (g p.2, f p.1))
  | seq3 {α α' β β' γ γ' : Type} {a : XMatch W α} {a' : XMatch W α'} {f : α → α'}
      {b : XMatch W β} {b' : XMatch W β'} {g : β → β'}
      {c : XMatch W γ} {c' : XMatch W γ'} {k : γ → γ'} :
      Mirrored a a' f → Mirrored b b' g → Mirrored c c' k →
      Mirrored (X.seq3 a b c) (X.seq3 c' b' a') (fun p => (k p.2.2, g p.2.1, f p.1))

/-- the token at which a direction looks -/
def Dir.at : Dir → Nat
  | .fwd i => i
  | .bwd i => i

/-- the direction to continue in after a match that ended on token `idx`, if any token is left:
the next token forwards, the previous one backwards -/
def Dir.Next (d : Dir) (idx : Nat) (l : LLLine W) (d' : Dir) : Prop :=
  match d with
  | .fwd _ => d' = .fwd (idx + 1) ∧ idx + 1 < l.ll_tokens.length
  | .bwd _ => ∃ i, idx = i + 1 ∧ d' = .bwd i

end LNlp
