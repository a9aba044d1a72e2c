import Verif.Model.TypeBucket
/-
Model of /repo/src/ll_line.rs (tokens, attributes, run, find, query) together with the direction
and matcher interfaces of /repo/src/ll_line/x.rs that `find` needs.
-/
namespace LNlp
variable {W : World}

/-- `LToken`, ll_line.rs:38-43 -/
inductive LToken
  | Text (s : Str) (tag : TextTag)
  | Value
deriving DecidableEq, Repr

/-- `LLToken`, ll_line.rs:45-54 -/
structure LLToken where
  token_idx : Nat
  pos_starts_at : Nat
  pos_ends_at : Nat
  token : LToken
deriving DecidableEq, Repr

/-- `LRange`, ll_line.rs:64: (starts at, ends at) token indexes, both inclusive -/
abbrev LRange := Nat × Nat

/-- `LLLineAttrs`, ll_line.rs:69-77 -/
structure LLLineAttrs (W : World) where
  ranges : TypeIdToMany W LRange
  starts_at : List (TypeIdToMany W LRange)
  ends_at : List (TypeIdToMany W LRange)
  values : HMap LRange (TypeBucket W)

/-- `LLLine`, ll_line.rs:106-110 -/
structure LLLine (W : World) where
  ll_tokens : List LLToken
  attrs : LLLineAttrs W

/-- `vec.get_mut(i).expect(..)` followed by an in-place update, ll_line.rs:189-197, 274-281 -/
def updateAt {α : Type} (l : List α) (i : Nat) (p : Panic) (f : α → α) : R (List α) :=
  match l[i]? with
  | some a => .ok (l.set i (f a))
  | none => .error p

/-- `LLLineAttrs::insert`, ll_line.rs:273-284 -/
def LLLineAttrs.insert (a : LLLineAttrs W) (range : LRange) (k : Ty W) (value : Val k) :
    R (LLLineAttrs W) :=
  match updateAt a.starts_at range.1 .startsAtOob (·.insertDistinct k range) with
  | .error e => .error e
  | .ok starts_at =>
    match updateAt a.ends_at range.2 .endsAtOob (·.insertDistinct k range) with
    | .error e => .error e
    | .ok ends_at =>
      let ranges := a.ranges.insertDistinct k range
      match ((a.values.get? range).getD TypeBucket.empty).insert k value with
      | .error e => .error e
      | .ok b => .ok { ranges, starts_at, ends_at, values := a.values.set range b }

/-- one iteration of the loop of `LLLine::add_any_attrs`, ll_line.rs:187-204 -/
def LLLineAttrs.addAny (range : LRange) (a : LLLineAttrs W) (attr : AnyAttribute W) :
    R (LLLineAttrs W) :=
  match updateAt a.starts_at range.1 .startsAtOob (·.insertAnyDistinct attr.typeId range) with
  | .error e => .error e
  | .ok starts_at =>
    match updateAt a.ends_at range.2 .endsAtOob (·.insertAnyDistinct attr.typeId range) with
    | .error e => .error e
    | .ok ends_at =>
      let ranges := a.ranges.insertAnyDistinct attr.typeId range
      match ((a.values.get? range).getD TypeBucket.empty).insertAnyAttribute attr with
      | .error e => .error e
      | .ok b => .ok { ranges, starts_at, ends_at, values := a.values.set range b }

/-- `LLLine::add_any_attrs`, ll_line.rs:179-205 -/
def LLLine.addAnyAttrs (l : LLLine W) (start_idx end_idx : Nat) (attrs : List (AnyAttribute W)) :
    R (LLLine W) :=
  match foldR (LLLineAttrs.addAny (start_idx, end_idx)) l.attrs attrs with
  | .ok attrs => .ok { l with attrs }
  | .error e => .error e

/-- the body of the loop of `LLLine::new`, ll_line.rs:126-141 -/
def LLLineAttrs.insertBuiltin (a : LLLineAttrs W) (it : LLToken × Nat) : R (LLLineAttrs W) :=
  match it.1.token with
  | .Text text tag =>
    match (match text with
      | [c] => a.insert (it.2, it.2) Ty.char c
      | _ => .ok a) with
    | .error e => .error e
    | .ok a' => a'.insert (it.2, it.2) Ty.textTag tag
  | .Value => .ok a

/-- `LLLine::new`, ll_line.rs:113-144 -/
def LLLine.new (ll_tokens : List LLToken) : R (LLLine W) :=
  let attrs : LLLineAttrs W :=
    { ranges := TypeIdToMany.empty
      starts_at := (List.range ll_tokens.length).map (fun _ => TypeIdToMany.empty)
      ends_at := (List.range ll_tokens.length).map (fun _ => TypeIdToMany.empty)
      values := HMap.empty }
  match foldR LLLineAttrs.insertBuiltin attrs ll_tokens.zipIdx with
  | .ok attrs => .ok { ll_tokens, attrs }
  | .error e => .error e

/-- `LLSelection`, ll_line/ll_selection.rs:27-34 -/
structure LLSelection (W : World) where
  ll_line : Rc (LLLine W)
  start_idx : Nat
  end_idx : Nat

/-- `LLCursorAssignment<Attr>`, ll_line.rs:296-302 -/
structure LLCursorAssignment (α : Type) where
  start_idx : Nat
  end_idx : Nat
  value : α

/-- `Resolver`, ll_line.rs:304-312: the attribute type, and `go`, which may panic.  The `Bool` of
the result says whether `go` left a clone of the line's `Rc` alive (stored a selection somewhere). -/
structure Resolver (W : World) where
  attr : Ty W
  go : LLSelection W → R (List (LLCursorAssignment (Val attr)) × Bool)

/-- one iteration of the assignment loop of `run`, ll_line.rs:168-175 -/
def LLLineAttrs.assign (k : Ty W) (a : LLLineAttrs W) (asg : LLCursorAssignment (Val k)) :
    R (LLLineAttrs W) :=
  a.insert (asg.start_idx, asg.end_idx) k asg.value

/-- `LLLine::run`, ll_line.rs:146-178.  `ptr` is the address `Rc::new` returns. -/
def LLLine.run (l : LLLine W) (ptr : Nat) (recognizer : Resolver W) : R (LLLine W) :=
  if l.ll_tokens.isEmpty then .ok l
  else
    match recognizer.go { ll_line := ⟨ptr, l⟩, start_idx := 0, end_idx := l.ll_tokens.length - 1 } with
    | .error e => .error e
    | .ok (assignments, leaked) =>
      if leaked then .error .rcShared
      else
        match foldR (LLLineAttrs.assign recognizer.attr) l.attrs assignments with
        | .ok attrs => .ok { l with attrs }
        | .error e => .error e

/-- The two implementors of `XDirection`: `XForwards { from_idx }` (ll_line/x.rs:66-68) and
`XBackwards { from_idx }` (x.rs:185-187). -/
inductive Dir
  | fwd (from_idx : Nat)
  | bwd (from_idx : Nat)
deriving DecidableEq, Repr

/-- `XMatch`, ll_line/x.rs:24-36: any matcher, library-provided or user-written.  `ToIdx` (x.rs:39)
is its index. -/
structure XMatch (W : World) (Out : Type) where
  go : Dir → LLLine W → R (List (Out × Nat))

/-- `pos_end_at`, ll_line.rs:233-238 -/
def LLLine.posEndAt (l : LLLine W) (idx : Nat) : R Nat :=
  match l.ll_tokens[idx]? with
  | some t => .ok t.pos_ends_at
  | none => .error .posOob

/-- `pos_start_at`, ll_line.rs:240-245 -/
def LLLine.posStartAt (l : LLLine W) (idx : Nat) : R Nat :=
  match l.ll_tokens[idx]? with
  | some t => .ok t.pos_starts_at
  | none => .error .posOob

/-- `LLLineFind`, ll_line.rs:79-103 -/
structure LLLineFind (Out : Type) where
  start_pos_at : Nat
  end_pos_at : Nat
  found : Out

/-- `LLLineFind::range`, ll_line.rs:97-99 -/
def LLLineFind.range {Out : Type} (f : LLLineFind Out) : Nat × Nat := (f.start_pos_at, f.end_pos_at)

/-- `LLLineFind::attr`, ll_line.rs:100-102 -/
def LLLineFind.attr {Out : Type} (f : LLLineFind Out) : Out := f.found

/-- `LLLine::find`, ll_line.rs:214-230 -/
def LLLine.find {Out : Type} (l : LLLine W) (matcher : XMatch W Out) : R (List (LLLineFind Out)) :=
  flatMapR (fun i =>
    match matcher.go (.fwd i) l with
    | .error e => .error e
    | .ok rs => mapR (fun (r : Out × Nat) =>
        match l.posStartAt i with
        | .error e => .error e
        | .ok s =>
          match l.posEndAt r.2 with
          | .error e => .error e
          | .ok e => .ok { start_pos_at := s, end_pos_at := e, found := r.1 }) rs)
    (List.range l.ll_tokens.length)

/-- the text of a token as `query` sees it, ll_line.rs:256-259 -/
def LLToken.queryText (t : LLToken) : Str :=
  match t.token with
  | .Text s _ => s
  | .Value => []

/-- `&v[a..=b]`, ll_line.rs:255: panics unless `a <= b + 1 <= len` -/
def sliceIncl {α : Type} (l : List α) (a b : Nat) : R (List α) :=
  if a ≤ b + 1 ∧ b + 1 ≤ l.length then .ok ((l.drop a).take (b + 1 - a)) else .error .sliceOob

/-- `LLLine::query::<T>`, ll_line.rs:248-269 -/
def LLLine.query (l : LLLine W) (k : Ty W) : R (List (LRange × Str × List (Val k))) :=
  mapR (fun range =>
    match sliceIncl l.ll_tokens range.1 range.2 with
    | .error e => .error e
    | .ok toks =>
      match l.attrs.values.get? range with
      | none => .error .missingValues
      | some b =>
        match b.get k with
        | .error e => .error e
        | .ok vs => .ok (range, (toks.map LLToken.queryText).flatten, vs))
    (l.attrs.ranges.get k)

end LNlp
