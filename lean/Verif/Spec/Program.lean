import Verif.Spec.Pipeline
import Verif.Spec.Display
/-
Resolvers written against the public API (C119-C121).

A resolver is Rust code that receives a selection and calls the selection API.  What such code can do is a
decision tree: call one of the operations on selections it already has, look at the answer, go on.  It names
its selections by handles (their number in order of appearance) and sees of each of them the token range, which
`Debug for LLSelection` prints.  Rust's privacy leaves no other way to get a selection or to see the line.
`find_first_by` and `match_first_*` are the heads of `find_by` and `match_*` (ll_selection.rs:128-133, 204-209,
250-255), `==` compares ranges (45-51), so they need no operations of their own.
-/
namespace LNlp
variable {W : World}

/-- the token range of a selection -/
def LLSelection.range (s : LLSelection W) : LRange := (s.start_idx, s.end_idx)

/-- the selection of a token range -/
def selAt (rc : Rc (LLLine W)) (r : LRange) : LLSelection W := { ll_line := rc, start_idx := r.1, end_idx := r.2 }

/-- one call of the API; `Resp` is what it answers besides the new selections -/
inductive Op (W : World) : Type → Type 1
  | fromLine (h : Nat) : Op W Unit
  | findBy {Out : Type} (h : Nat) (m : XMatch W Out) : Op W (List Out)
  | findBoth {Out : Type} (h : Nat) (m : XMatch W Out) : Op W (List Out)
  | matchForwards {Out : Type} (h : Nat) (m : XMatch W Out) : Op W (List Out)
  | matchBackwards {Out : Type} (h : Nat) (m : XMatch W Out) : Op W (List Out)
  | splitBy {Out : Type} (h : Nat) (m : XMatch W Out) : Op W Unit
  | splitWith (h g : Nat) : Op W (Bool × Bool)
  | trimSelection {Out : Type} (h : Nat) (m : XMatch W Out) (from_start from_end : Bool) : Op W Unit
  | after (h : Nat) : Op W Unit

/-- what a call yields: the ranges of the new selections, and the rest of the answer -/
abbrev Answer (Resp : Type) := R (List LRange × Resp)

def answerPairs {Out : Type} (x : R (List (LLSelection W × Out))) : Answer (List Out) :=
  match x with
  | .ok out => .ok (out.map (·.1.range), out.map (·.2))
  | .error e => .error e

def answerList (x : R (List (LLSelection W))) : Answer Unit :=
  match x with
  | .ok out => .ok (out.map (·.range), ())
  | .error e => .error e

def answerOption (x : R (Option (LLSelection W))) : Answer Unit :=
  match x with
  | .ok out => .ok (out.toList.map (·.range), ())
  | .error e => .error e

def answerTwo (x : R (Option (LLSelection W) × Option (LLSelection W))) : Answer (Bool × Bool) :=
  match x with
  | .ok out => .ok ((out.1.toList ++ out.2.toList).map (·.range), (out.1.isSome, out.2.isSome))
  | .error e => .error e

/-- apply an operation to the selection with a handle; no Rust program has a dangling handle -/
def onHandle {Resp : Type} (rc : Rc (LLLine W)) (store : List LRange) (h : Nat)
    (f : LLSelection W → Answer Resp) : Answer Resp :=
  match store[h]? with
  | some r => f (selAt rc r)
  | none => .error .user

/-- the call, made on a line -/
def Op.exec (rc : Rc (LLLine W)) (store : List LRange) : {Resp : Type} → Op W Resp → Answer Resp
  | _, .fromLine h => onHandle rc store h (fun s => answerOption (.ok (LLSelection.fromLine s.ll_line)))
  | _, .findBy h m => onHandle rc store h (fun s => answerPairs (s.findBy m))
  | _, .findBoth h m => onHandle rc store h (fun s => answerPairs (s.findByForwardsAndBackwards m))
  | _, .matchForwards h m => onHandle rc store h (fun s => answerPairs (s.matchForwards m))
  | _, .matchBackwards h m => onHandle rc store h (fun s => answerPairs (s.matchBackwards m))
  | _, .splitBy h m => onHandle rc store h (fun s => answerList (s.splitBy m))
  | _, .splitWith h g => onHandle rc store h (fun s => onHandle rc store g (fun t => answerTwo (s.splitWith t)))
  | _, .trimSelection h m a b => onHandle rc store h (fun s => answerOption (s.trimSelection m a b))
  | _, .after h => onHandle rc store h (fun s => answerOption (.ok s.after))

/-- A program using the API: it ends with values for some of its selections (`finish_with_attr`), panics, or
makes a call and goes on depending on the answer. -/
inductive Api (W : World) (V : Type) : Type 1
  | finish (values : List (Nat × V))
  | panic (e : Panic)
  | call {Resp : Type} (op : Op W Resp) (next : List LRange → Resp → Api W V)

/-- `sel.finish_with_attr(v)` for every listed handle -/
def finishAll {V : Type} (store : List LRange) : List (Nat × V) → R (List (LLCursorAssignment V))
  | [] => .ok []
  | (h, v) :: rest =>
    match store[h]? with
    | none => .error .user
    | some r =>
      match finishAll store rest with
      | .error e => .error e
      | .ok as => .ok ({ start_idx := r.1, end_idx := r.2, value := v } :: as)

/-- run a program on a line, with the selections it has so far -/
def Api.run {V : Type} (rc : Rc (LLLine W)) : List LRange → Api W V → R (List (LLCursorAssignment V))
  | store, .finish vs => finishAll store vs
  | _, .panic e => .error e
  | store, .call op next =>
    match op.exec rc store with
    | .error e => .error e
    | .ok (rs, x) => (next rs x).run rc (store ++ rs)

/-- the resolver of a program, which starts with the selection it is given as handle 0 -/
def apiResolver (k : Ty W) (p : LRange → Api W (Val k)) : Resolver W :=
  { attr := k
    go := fun sel => match (p sel.range).run sel.ll_line [sel.range] with
      | .ok as => .ok (as, false)
      | .error e => .error e }

/-- the matcher of a call satisfies `P` -/
def Op.Uses (P : {Out : Type} → XMatch W Out → Prop) : {Resp : Type} → Op W Resp → Prop
  | _, .fromLine _ => True
  | _, .findBy _ m => P m
  | _, .findBoth _ m => P m
  | _, .matchForwards _ m => P m
  | _, .matchBackwards _ m => P m
  | _, .splitBy _ m => P m
  | _, .splitWith _ _ => True
  | _, .trimSelection _ m _ _ => P m
  | _, .after _ => True

/-- all matchers of a program satisfy `P` -/
def Api.Uses {V : Type} (P : {Out : Type} → XMatch W Out → Prop) : Api W V → Prop
  | .finish _ => True
  | .panic _ => True
  | .call op next => op.Uses P ∧ ∀ rs x, (next rs x).Uses P

/-- `r` behaves, on every line it is run on, like a program that only uses matchers from `P` -/
def ByApi (P : {Out : Type} → XMatch W Out → Prop) (r : Resolver W) : Prop :=
  ∃ p : LRange → Api W (Val r.attr), (∀ x, (p x).Uses P) ∧
    ∀ (l : LLLine W) (ptr : Nat), l.ll_tokens ≠ [] → r.go (wholeLine l ptr) = (apiResolver r.attr p).go (wholeLine l ptr)

/-- the handles of a call exist and it is not `after` -/
def Op.Careful (n : Nat) : {Resp : Type} → Op W Resp → Prop
  | _, .fromLine h => h < n
  | _, .findBy h _ => h < n
  | _, .findBoth h _ => h < n
  | _, .matchForwards h _ => h < n
  | _, .matchBackwards h _ => h < n
  | _, .splitBy h _ => h < n
  | _, .splitWith h g => h < n ∧ g < n
  | _, .trimSelection h _ _ _ => h < n
  | _, .after _ => False

/-- answers of the right shape: one value per selection found, at most one selection from `trim`, … -/
def Op.Fits (rs : List LRange) : {Resp : Type} → Op W Resp → Resp → Prop
  | _, .fromLine _, _ => rs.length ≤ 1
  | _, .findBy _ _, x => rs.length = x.length
  | _, .findBoth _ _, x => rs.length = x.length
  | _, .matchForwards _ _, x => rs.length = x.length
  | _, .matchBackwards _ _, x => rs.length = x.length
  | _, .splitBy _ _, _ => True
  | _, .splitWith _ _, x => rs.length = x.1.toNat + x.2.toNat
  | _, .trimSelection _ _ _ _, _ => rs.length ≤ 1
  | _, .after _, _ => rs.length ≤ 1

/-- a program with `n` selections that does not panic by itself, does not call `after`, and uses only selections
it has -/
def Api.Careful {V : Type} : Nat → Api W V → Prop
  | n, .finish vs => ∀ v ∈ vs, v.1 < n
  | _, .panic _ => False
  | n, .call op next => op.Careful n ∧ ∀ rs x, op.Fits rs x → (next rs x).Careful (n + rs.length)

/-- two lines with the same tokens and attributes, at possibly different positions -/
def SameButPositions (l l' : LLLine W) : Prop :=
  l.ll_tokens.map (·.token) = l'.ll_tokens.map (·.token) ∧ l.attrs = l'.attrs

/-- both panic alike, or both succeed with lines that differ in positions only -/
def SameResult (x y : R (LLLine W)) : Prop :=
  match x, y with
  | .ok l, .ok l' => SameButPositions l l'
  | .error e, .error e' => e = e'
  | _, _ => False

/-- what `println!("{}", LLLineDisplay::new(&line).with::<A>().with::<B>()…)` prints -/
def shownWith (l : LLLine W) (ks : List (Ty W)) : R Str :=
  match displayWith l ks with
  | .error e => .error e
  | .ok d => d.fmt

/-- an input without the size of a custom token -/
def InputToken.withoutSize : InputToken W → InputToken W
  | .Text s as => .Text s as
  | .Custom _ as => .Custom 0 as

end LNlp
