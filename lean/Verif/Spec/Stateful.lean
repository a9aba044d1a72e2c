import Verif.Model.Stateful
import Verif.Spec.Select
/- Specification for code of the user that counts, remembers, changes its mind or panics. -/
namespace LNlp
variable {W : World}

/-- What the user's code answers depends on all it was asked before; `none`: it panics. -/
abbrev Oracle (Q : Type) (A : Q → Type) : Type := List Q → (q : Q) → Option (A q)

namespace Dialog
variable {Q : Type} {A : Q → Type} {α : Type}

/-- the dialog with such code: all questions asked (after those asked before), and how it ends -/
def run (o : Oracle Q A) : Dialog Q A α → List Q → List Q × Except Stop α
  | .done a, asked => (asked, .ok a)
  | .panic p, asked => (asked, .error (.code p))
  | .ask q next, asked =>
    match o asked q with
    | none => (asked ++ [q], .error .callback)
    | some a => (next a).run o (asked ++ [q])

/-- the result if the user's code is the function `f` -/
def eval (f : (q : Q) → A q) : Dialog Q A α → R α
  | .done a => .ok a
  | .panic p => .error p
  | .ask q next => (next (f q)).eval f

/-- the questions asked if the user's code is the function `f` -/
def trace (f : (q : Q) → A q) : Dialog Q A α → List Q
  | .done _ => []
  | .panic _ => []
  | .ask q next => q :: (next (f q)).trace f

/-- however the questions are answered, it ends with a result of this kind or a panic of the library's code of this kind -/
def Always (P : α → Prop) (E : Panic → Prop) : Dialog Q A α → Prop
  | .done a => P a
  | .panic p => E p
  | .ask _ next => ∀ a, (next a).Always P E

/-- however they are answered, it asks exactly these questions in this order, and the library's code does not panic -/
def Asks : Dialog Q A α → List Q → Prop
  | .done _, qs => qs = []
  | .panic _, _ => False
  | .ask q next, qs => ∃ qs', qs = q :: qs' ∧ ∀ a, (next a).Asks qs'

end Dialog

/-- The oracle answers all these questions, asked one after the other after `asked`. -/
def AnswersAll {Q : Type} {A : Q → Type} (o : Oracle Q A) (asked qs : List Q) : Prop :=
  ∀ a q b, qs = a ++ q :: b → ∃ x, o (asked ++ a) q = some x

/-- It panics on `q` after having answered all of `a`, which are the first of `qs`. -/
def PanicsAt {Q : Type} {A : Q → Type} (o : Oracle Q A) (asked qs a : List Q) (q : Q) : Prop :=
  AnswersAll o asked a ∧ o (asked ++ a) q = none ∧ a ++ [q] <+: qs

/-- When it answers, it answers as the function does (it may count and remember, and panic at any time). -/
def AnswersLike {Q : Type} {A : Q → Type} (o : Oracle Q A) (f : (q : Q) → A q) : Prop := ∀ asked q x, o asked q = some x → x = f q

section
variable {U : Type} {Own : U → Type}

/-- the user's code as the other properties see it: `PartialEq` and `Debug` are functions -/
def answers (W : World) (own : (u : U) → Own u) : (q : Quest W U) → q.Answer Own
  | .eq k a b => valEq k a b
  | .dbg k v => valDbg k v
  | .own u => own u

/-- `Twin own md m`: `md` is the matcher expression `m`, written so that it asks the user's code.  Matchers of the user may
ask anything; as a function they are `m`. -/
inductive Twin (own : (u : U) → Own u) : {Out : Type} → XMatchD W Own Out → XMatch W Out → Prop
  | attr (k : Ty W) : Twin own (XD.plain (X.attr k)) (X.attr k)
  | attrEq (k : Ty W) (v : Val k) : Twin own (XD.attrEq k v) (X.attrEq k v)
  | tokenHasAny (k : Ty W) (set : List (Val k)) : Twin own (XD.tokenHasAny k set) (X.tokenHasAny k set)
  | tokenText : Twin own (XD.plain X.tokenText) X.tokenText
  | all2 {α β : Type} {a : XMatchD W Own α} {a' : XMatch W α} {b : XMatchD W Own β} {b' : XMatch W β} :
      Twin own a a' → Twin own b b' → Twin own (XD.all2 a b) (X.all2 a' b')
  | all3 {α β γ : Type} {a : XMatchD W Own α} {a' : XMatch W α} {b : XMatchD W Own β} {b' : XMatch W β}
      {c : XMatchD W Own γ} {c' : XMatch W γ} :
      Twin own a a' → Twin own b b' → Twin own c c' → Twin own (XD.all3 a b c) (X.all3 a' b' c')
  | anyOf2 {α β : Type} {a : XMatchD W Own α} {a' : XMatch W α} {b : XMatchD W Own β} {b' : XMatch W β} :
      Twin own a a' → Twin own b b' → Twin own (XD.anyOf2 a b) (X.anyOf2 a' b')
  | anyOf3 {α β γ : Type} {a : XMatchD W Own α} {a' : XMatch W α} {b : XMatchD W Own β} {b' : XMatch W β}
      {c : XMatchD W Own γ} {c' : XMatch W γ} :
      Twin own a a' → Twin own b b' → Twin own c c' → Twin own (XD.anyOf3 a b c) (X.anyOf3 a' b' c')
  | seq2 {α β : Type} {a : XMatchD W Own α} {a' : XMatch W α} {b : XMatchD W Own β} {b' : XMatch W β} :
      Twin own a a' → Twin own b b' → Twin own (XD.seq2 a b) (X.seq2 a' b')
  | seq3 {α β γ : Type} {a : XMatchD W Own α} {a' : XMatch W α} {b : XMatchD W Own β} {b' : XMatch W β}
      {c : XMatchD W Own γ} {c' : XMatch W γ} :
      Twin own a a' → Twin own b b' → Twin own c c' → Twin own (XD.seq3 a b c) (X.seq3 a' b' c')
  | user {Out : Type} (md : XMatchD W Own Out) :
      Twin own md ⟨fun d l => (md.go d l).eval (answers W own)⟩

/-- matcher expressions of the library, over matchers of the user that stay in the line on their side of the position -/
inductive BuiltD (l : LLLine W) : {Out : Type} → XMatchD W Own Out → Prop
  | attr (k : Ty W) : BuiltD l (XD.plain (X.attr k))
  | attrEq (k : Ty W) (v : Val k) : BuiltD l (XD.attrEq k v)
  | tokenHasAny (k : Ty W) (set : List (Val k)) : BuiltD l (XD.tokenHasAny k set)
  | tokenText : BuiltD l (XD.plain X.tokenText)
  | all2 {α β : Type} {a : XMatchD W Own α} {b : XMatchD W Own β} : BuiltD l a → BuiltD l b → BuiltD l (XD.all2 a b)
  | all3 {α β γ : Type} {a : XMatchD W Own α} {b : XMatchD W Own β} {c : XMatchD W Own γ} :
      BuiltD l a → BuiltD l b → BuiltD l c → BuiltD l (XD.all3 a b c)
  | anyOf2 {α β : Type} {a : XMatchD W Own α} {b : XMatchD W Own β} : BuiltD l a → BuiltD l b → BuiltD l (XD.anyOf2 a b)
  | anyOf3 {α β γ : Type} {a : XMatchD W Own α} {b : XMatchD W Own β} {c : XMatchD W Own γ} :
      BuiltD l a → BuiltD l b → BuiltD l c → BuiltD l (XD.anyOf3 a b c)
  | seq2 {α β : Type} {a : XMatchD W Own α} {b : XMatchD W Own β} : BuiltD l a → BuiltD l b → BuiltD l (XD.seq2 a b)
  | seq3 {α β γ : Type} {a : XMatchD W Own α} {b : XMatchD W Own β} {c : XMatchD W Own γ} :
      BuiltD l a → BuiltD l b → BuiltD l c → BuiltD l (XD.seq3 a b c)
  | user {Out : Type} (md : XMatchD W Own Out)
      (h : ∀ i, i < l.ll_tokens.length →
        (md.go (.fwd i) l).Always (fun out => ∀ r ∈ out, i ≤ r.2 ∧ r.2 < l.ll_tokens.length) (fun _ => False) ∧
        (md.go (.bwd i) l).Always (fun out => ∀ r ∈ out, r.2 ≤ i) (fun _ => False)) : BuiltD l md

/-- the one panic of the library's code in a search: a `Value` token without an attribute of its own -/
def BareValue (l : LLLine W) (h : History W) (p : Panic) : Prop :=
  p = .noTokenAttrs ∧ ∃ i t, l.ll_tokens[i]? = some t ∧ t.token = .Value ∧ ∀ x ∈ h, x.range ≠ (i, i)

/-- the comparisons `x::attr_eq(&v)` makes when it starts at token `i`: every value of the type on a range that starts there,
on the left of `==` -/
def comparisonsAt (h : History W) (k : Ty W) (v : Val k) (i : Nat) : List (Quest W U) :=
  ((rangesOf k h).filter (fun r => decide (r.1 = i))).flatMap (fun r => (valuesOf k r h).map (fun w => Quest.eq k w v))

/-- elements up to the first that satisfies `p`, included -/
def upTo {α : Type} (p : α → Bool) : List α → List α
  | [] => []
  | x :: xs => if p x then [x] else x :: upTo p xs

/-- the searches give `r` when the user's code answers, and otherwise end with the panic of the user's code -/
def Agrees {α : Type} (o : Oracle (Quest W U) (Quest.Answer Own)) (d : Talk W Own α) (r : R α) : Prop :=
  ∀ asked, (d.run o asked).2 = r.mapError Stop.code ∨ (d.run o asked).2 = .error .callback

/-- the results of a matcher if the user's code is the function `g`; none if it panics -/
def XMatchD.results {Out : Type} (g : (q : Quest W U) → q.Answer Own) (md : XMatchD W Own Out) (l : LLLine W) (d : Dir) :
    List (Out × Nat) :=
  match (md.go d l).eval g with
  | .ok out => out
  | .error _ => []

/-- the questions a matcher asks then -/
def XMatchD.questions {Out : Type} (g : (q : Quest W U) → q.Answer Own) (md : XMatchD W Own Out) (l : LLLine W) (d : Dir) :
    List (Quest W U) := (md.go d l).trace g

/-- it does not panic at any token of the line, and its results are tokens of the line -/
def XMatchD.Ready {Out : Type} (g : (q : Quest W U) → q.Answer Own) (md : XMatchD W Own Out) (l : LLLine W) : Prop :=
  ∀ d : Dir, d.at < l.ll_tokens.length → ∃ out, (md.go d l).eval g = .ok out ∧ ∀ r ∈ out, r.2 < l.ll_tokens.length

/-- the directions that go on behind (before) token `i`: one, or none at the end of the line -/
def Dir.beyond (d : Dir) (i n : Nat) : List Dir :=
  match d with
  | .fwd _ => if i + 1 < n then [.fwd (i + 1)] else []
  | .bwd _ => if i = 0 then [] else [.bwd (i - 1)]

end

end LNlp
