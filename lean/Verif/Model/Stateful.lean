import Verif.Model.Selection
import Verif.Model.Display
import Verif.Model.Callback
/-
The matchers (/repo/src/ll_line/x.rs, /repo/src/ll_line/x/*.rs), the searches of /repo/src/ll_line/ll_selection.rs,
`LLLine::find` and `LLLineDisplay::include` once more, with code of the user that is not a mathematical function: a
`PartialEq` or `Debug` of an attribute type, or a matcher, can count, remember, answer now so and now so (interior
mutability), and can panic.  Everything such code is asked is a question; the library's code is a dialog of questions
and answers, written in the order in which Rust evaluates it (iterators are lazy; `flat_map` runs its closure item by
item).
-/
namespace LNlp
variable {W : World}

/-- questions and answers, then a result or a panic of the library's code -/
inductive Dialog (Q : Type) (A : Q → Type) (α : Type) : Type
  | done (a : α)
  | panic (p : Panic)
  | ask (q : Q) (next : A q → Dialog Q A α)

namespace Dialog
variable {Q : Type} {A : Q → Type} {α β : Type}

/-- the rest of the code, run with the result -/
protected def bind : Dialog Q A α → (α → Dialog Q A β) → Dialog Q A β
  | .done a, f => f a
  | .panic p, _ => .panic p
  | .ask q next, f => .ask q (fun a => (next a).bind f)

instance : Monad (Dialog Q A) where
  pure := .done
  bind := Dialog.bind

/-- code that may panic but asks nothing -/
def lift : R α → Dialog Q A α
  | .ok a => .done a
  | .error p => .panic p

/-- a question, and its answer -/
def question (q : Q) : Dialog Q A (A q) := .ask q .done

/-- `iter.flat_map(f).collect()` -/
def flatMapD (f : α → Dialog Q A (List β)) : List α → Dialog Q A (List β)
  | [] => return []
  | x :: xs => do
    let ys ← f x
    let zs ← flatMapD f xs
    return ys ++ zs

/-- `iter.filter_map(|x| if test(x) { Some(f(x)) } else { None }).collect()` -/
def filterD (test : α → Dialog Q A Bool) (f : α → β) : List α → Dialog Q A (List β)
  | [] => return []
  | x :: xs => do
    let b ← test x
    let zs ← filterD test f xs
    return (if b then f x :: zs else zs)

/-- `iter.any(test)` -/
def anyD (test : α → Dialog Q A Bool) : List α → Dialog Q A Bool
  | [] => return false
  | x :: xs => do
    let b ← test x
    if b then return true else anyD test xs

/-- `iter.map(f).collect()` -/
def mapD (f : α → Dialog Q A β) : List α → Dialog Q A (List β)
  | [] => return []
  | x :: xs => do
    let y ← f x
    let ys ← mapD f xs
    return y :: ys

end Dialog
open Dialog

/-- what code of the user is asked: `a == b`, `format!("{:?}", v)`, and whatever the user's matchers do on their own -/
inductive Quest (W : World) (U : Type)
  | eq (k : Ty W) (a b : Val k)
  | dbg (k : Ty W) (v : Val k)
  | own (u : U)

/-- the answers -/
def Quest.Answer {U : Type} (Own : U → Type) : Quest W U → Type
  | .eq _ _ _ => Bool
  | .dbg _ _ => Str
  | .own u => Own u

section
variable {U : Type} {Own : U → Type}

/-- a dialog with the user's code -/
abbrev Talk (W : World) {U : Type} (Own : U → Type) (α : Type) : Type := Dialog (Quest W U) (Quest.Answer Own) α

/-- `a == b` of an attribute type -/
def askEq (k : Ty W) (a b : Val k) : Talk W Own Bool := question (Quest.eq k a b)

/-- `format!("{:?}", v)`, type_bucket.rs:232 -/
def askDbg (k : Ty W) (v : Val k) : Talk W Own Str := question (Quest.dbg k v)

/-- `XForwards::attr_eq` (x.rs:87-112) and `XBackwards::attr_eq` (x.rs:190-218) -/
def Dir.attrEqD (d : Dir) (k : Ty W) (equals : Val k) (l : LLLine W) : Talk W Own (List (Unit × Nat)) :=
  match d with
  | .fwd i =>
    match l.attrs.starts_at[i]? with
    | none => .panic .dirOob
    | some m => flatMapD (fun range => do
        let vs ← lift (l.valuesAt k range)
        filterD (fun val => askEq k val equals) (fun _ => ((), range.2)) vs) (m.get k)
  | .bwd i =>
    match l.attrs.ends_at[i]? with
    | none => .panic .dirOob
    | some m => flatMapD (fun range => do
        let vs ← lift (l.valuesAt k range)
        filterD (fun val => askEq k val equals) (fun _ => ((), range.1)) vs) (m.get k)

/-- `set.contains(value)`, x.rs:150, 268: `set.iter().any(|e| *e == *value)` -/
def setContainsD (k : Ty W) (set : List (Val k)) (value : Val k) : Talk W Own Bool :=
  anyD (fun s => askEq k s value) set

/-- `XForwards::token_attr_one_of` (x.rs:135-157) and `XBackwards::token_attr_one_of` (x.rs:244-276) -/
def Dir.tokenAttrOneOfD (d : Dir) (k : Ty W) (set : List (Val k)) (l : LLLine W) : Talk W Own (List (Val k × Nat)) :=
  match d with
  | .fwd i =>
    match l.attrs.values.get? (i, i) with
    | none => .panic .noTokenAttrs
    | some b => do
      let vs ← lift (b.get k)
      filterD (setContainsD k set) (fun value => (value, i)) vs
  | .bwd i =>
    match l.attrs.ends_at[i]? with
    | none => .panic .dirOob
    | some m => flatMapD (fun range => do
        let vs ← lift (l.valuesAt k range)
        filterD (setContainsD k set) (fun val => (val, range.1)) vs) (m.get k)

/-- `XMatch`, x.rs:24-36: any matcher, whatever it asks -/
structure XMatchD (W : World) {U : Type} (Own : U → Type) (Out : Type) where
  go : Dir → LLLine W → Talk W Own (List (Out × Nat))

namespace XD

/-- a matcher that asks nothing: `x::attr`, `x::token_text` and matchers of the user that are functions -/
def plain {Out : Type} (m : XMatch W Out) : XMatchD W Own Out := ⟨fun d l => lift (m.go d l)⟩

/-- `x::attr_eq(&v)`, x/attr_eq.rs:3-16 -/
def attrEq (k : Ty W) (v : Val k) : XMatchD W Own Unit := ⟨fun d l => d.attrEqD k v l⟩

/-- `x::token_has_any(&[..])`, x/token_has_any.rs:3-16 -/
def tokenHasAny (k : Ty W) (oneOf : List (Val k)) : XMatchD W Own (Val k) := ⟨fun d l => d.tokenAttrOneOfD k oneOf l⟩

/-- `All2::go`, x/all.rs:25-66 (the second matcher runs first) -/
def all2 {α β : Type} (a : XMatchD W Own α) (b : XMatchD W Own β) : XMatchD W Own (α × β) :=
  ⟨fun d l => do
    let bs ← b.go d l
    let as ← a.go d l
    return as.flatMap (fun pa => bs.filterMap (fun pb =>
      if pa.2 = pb.2 then some ((pa.1, pb.1), pa.2) else none))⟩

/-- `All3::go`, x/all.rs:68-97 -/
def all3 {α β γ : Type} (a : XMatchD W Own α) (b : XMatchD W Own β) (c : XMatchD W Own γ) : XMatchD W Own (α × β × γ) :=
  ⟨fun d l => do
    let bs ← b.go d l
    let cs ← c.go d l
    let as ← a.go d l
    return as.flatMap (fun pa => bs.flatMap (fun pb => cs.filterMap (fun pc =>
      if pa.2 = pb.2 ∧ pa.2 = pc.2 then some ((pa.1, pb.1, pc.1), pa.2) else none)))⟩

/-- `AnyOf2Matcher::go`, x/any_of.rs:33-52 -/
def anyOf2 {α β : Type} (a : XMatchD W Own α) (b : XMatchD W Own β) : XMatchD W Own (AnyOf2 α β) :=
  ⟨fun d l => do
    let as ← a.go d l
    if !as.isEmpty then return as.map (fun p => (AnyOf2.A p.1, p.2))
    else do
      let bs ← b.go d l
      return bs.map (fun p => (AnyOf2.B p.1, p.2))⟩

/-- `AnyOf3Matcher::go`, x/any_of.rs:63-88 -/
def anyOf3 {α β γ : Type} (a : XMatchD W Own α) (b : XMatchD W Own β) (c : XMatchD W Own γ) :
    XMatchD W Own (AnyOf3 α β γ) :=
  ⟨fun d l => do
    let as ← a.go d l
    if !as.isEmpty then return as.map (fun p => (AnyOf3.A p.1, p.2))
    else do
      let bs ← b.go d l
      if !bs.isEmpty then return bs.map (fun p => (AnyOf3.B p.1, p.2))
      else do
        let cs ← c.go d l
        return cs.map (fun p => (AnyOf3.C p.1, p.2))⟩

/-- x/seq.rs:38-41 -/
def goAfter {α : Type} (m : XMatchD W Own α) (d : Dir) (idx : Nat) (l : LLLine W) : Talk W Own (List (α × Nat)) :=
  match d.after idx l with
  | some d' => m.go d' l
  | none => return []

/-- `Seq2::go`, x/seq.rs:25-47 -/
def seq2 {α β : Type} (a : XMatchD W Own α) (b : XMatchD W Own β) : XMatchD W Own (α × β) :=
  ⟨fun d l => do
    let as ← a.go d l
    flatMapD (fun pa => do
      let bs ← goAfter b d pa.2 l
      return bs.map (fun pb => ((pa.1, pb.1), pb.2))) as⟩

/-- `Seq3::go`, x/seq.rs:49-78 -/
def seq3 {α β γ : Type} (a : XMatchD W Own α) (b : XMatchD W Own β) (c : XMatchD W Own γ) : XMatchD W Own (α × β × γ) :=
  ⟨fun d l => do
    let as ← a.go d l
    flatMapD (fun pa => do
      let bs ← goAfter b d pa.2 l
      flatMapD (fun pb => do
        let cs ← goAfter c d pb.2 l
        return cs.map (fun pc => ((pa.1, pb.1, pc.1), pc.2))) bs) as⟩

end XD

variable {Out : Type}

/-- `find_by`, ll_selection.rs:105-126 -/
def LLSelection.findByD (s : LLSelection W) (matcher : XMatchD W Own Out) : Talk W Own (List (LLSelection W × Out)) :=
  flatMapD (fun i => do
    let rs ← matcher.go (.fwd i) s.ll_line.val
    return rs.map (fun r => ({ start_idx := i, end_idx := r.2, ll_line := s.ll_line }, r.1)))
    (rangeIncl s.start_idx s.end_idx)

/-- `find_first_by`, ll_selection.rs:128-133 -/
def LLSelection.findFirstByD (s : LLSelection W) (matcher : XMatchD W Own Out) :
    Talk W Own (Option (LLSelection W × Out)) := do
  let rs ← s.findByD matcher
  return rs.head?

/-- `split_by`, ll_selection.rs:68-103: after `find_by` nothing more is asked -/
def LLSelection.splitByD (s : LLSelection W) (matcher : XMatchD W Own Out) : Talk W Own (List (LLSelection W)) := do
  let ms ← s.findByD matcher
  match ms with
  | [] => return [s]
  | [m0] =>
    return (((checkedSub m0.1.start_idx 1).bind (fun end_idx => s.selectionFrom s.start_idx end_idx)).toList
      ++ (s.selectionFrom (m0.1.end_idx + 1) s.end_idx).toList)
  | m0 :: m1 :: ms =>
    let start_opt :=
      (checkedSub m0.1.start_idx 1).bind (fun end_idx => s.selectionFrom s.start_idx end_idx)
    let last := (m1 :: ms).getLast (by simp)
    let end_opt := s.selectionFrom (last.1.end_idx + 1) s.end_idx
    return (start_opt.toList
      ++ (windows2 (m0 :: m1 :: ms)).filterMap (fun m =>
          (checkedSub m.2.1.start_idx 1).bind (fun end_idx =>
            s.selectionFrom (m.1.1.end_idx + 1) end_idx))
      ++ end_opt.toList)

/-- `find_by_forwards_and_backwards`, ll_selection.rs:135-175 -/
def LLSelection.findByForwardsAndBackwardsD (s : LLSelection W) (matcher : XMatchD W Own Out) :
    Talk W Own (List (LLSelection W × Out)) :=
  flatMapD (fun i => do
    let fs ← matcher.go (.fwd i) s.ll_line.val
    let bs ← matcher.go (.bwd i) s.ll_line.val
    return fs.map (fun r => ({ start_idx := i, end_idx := r.2, ll_line := s.ll_line }, r.1))
      ++ bs.map (fun r => ({ start_idx := r.2, end_idx := i, ll_line := s.ll_line }, r.1)))
    (rangeIncl s.start_idx s.end_idx)

/-- `match_forwards`, ll_selection.rs:177-202 -/
def LLSelection.matchForwardsD (s : LLSelection W) (matcher : XMatchD W Own Out) :
    Talk W Own (List (LLSelection W × Out)) :=
  if s.end_idx + 1 = s.ll_line.val.ll_tokens.length then return []
  else do
    let rs ← matcher.go (.fwd (s.end_idx + 1)) s.ll_line.val
    return rs.map (fun r => ({ start_idx := s.start_idx, end_idx := r.2, ll_line := s.ll_line }, r.1))

/-- `match_first_forwards`, ll_selection.rs:204-209 -/
def LLSelection.matchFirstForwardsD (s : LLSelection W) (matcher : XMatchD W Own Out) :
    Talk W Own (Option (LLSelection W × Out)) := do
  let rs ← s.matchForwardsD matcher
  return rs.head?

/-- `match_backwards`, ll_selection.rs:225-248 -/
def LLSelection.matchBackwardsD (s : LLSelection W) (matcher : XMatchD W Own Out) :
    Talk W Own (List (LLSelection W × Out)) :=
  if s.start_idx = 0 then return []
  else do
    let rs ← matcher.go (.bwd (s.start_idx - 1)) s.ll_line.val
    return rs.map (fun r => ({ start_idx := r.2, end_idx := s.end_idx, ll_line := s.ll_line }, r.1))

/-- `match_first_backwards`, ll_selection.rs:250-255 -/
def LLSelection.matchFirstBackwardsD (s : LLSelection W) (matcher : XMatchD W Own Out) :
    Talk W Own (Option (LLSelection W × Out)) := do
  let rs ← s.matchBackwardsD matcher
  return rs.head?

/-- `trim_selection`, ll_selection.rs:309-358 -/
def LLSelection.trimSelectionD (s : LLSelection W) (matcher : XMatchD W Own Out) (from_start from_end : Bool) :
    Talk W Own (Option (LLSelection W)) := do
  let new_start ← (if from_start then do
      let rs ← matcher.go (.fwd s.start_idx) s.ll_line.val
      match rs.head? with
      | some first_match => pure (first_match.2 + 1)
      | none => pure s.start_idx
    else pure s.start_idx : Talk W Own Nat)
  let new_end ← (if from_end then do
      let rs ← matcher.go (.bwd s.end_idx) s.ll_line.val
      match rs.head? with
      | some first_match => pure ((checkedSub first_match.2 1).getD first_match.2)
      | none => pure s.end_idx
    else pure s.end_idx : Talk W Own Nat)
  if new_end ≥ s.start_idx ∧ new_start ≤ new_end then
    return some { ll_line := s.ll_line, start_idx := new_start, end_idx := new_end }
  else return none

/-- `LLLine::find`, ll_line.rs:214-230 -/
def LLLine.findD (l : LLLine W) (matcher : XMatchD W Own Out) : Talk W Own (List (LLLineFind Out)) :=
  flatMapD (fun i => do
    let rs ← matcher.go (.fwd i) l
    mapD (fun (r : Out × Nat) => do
      let s ← lift (l.posStartAt i)
      let e ← lift (l.posEndAt r.2)
      return { start_pos_at := s, end_pos_at := e, found := r.1 }) rs)
    (List.range l.ll_tokens.length)

/-- `TypeBucket::get_debug::<T>`, type_bucket.rs:224-236 -/
def TypeBucket.getDebugD (b : TypeBucket W) (k : Ty W) : Talk W Own (List Str) :=
  match b.map.get? k with
  | none => return []
  | some d =>
    match d.downcast k with
    | none => .panic .bucketType
    | some items => mapD (askDbg k) items

/-- `include::<T>`, display.rs:104-118 -/
def LLLineDisplay.includeD (d : LLLineDisplay W) (k : Ty W) : Talk W Own (LLLineDisplay W) := do
  let new ← flatMapD (fun ll_range =>
      match d.ll_line.attrs.values.get? ll_range with
      | none => return []
      | some b => do
        let ds ← b.getDebugD k
        return ds.reverse.map (fun debug_value => (ll_range, debug_value)))
      (d.ll_line.attrs.ranges.get k)
  return { d with include_attrs := d.include_attrs ++ new }

end

end LNlp
