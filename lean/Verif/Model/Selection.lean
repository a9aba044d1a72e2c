import Verif.Model.X
/-
Model of /repo/src/ll_line/ll_selection.rs and /repo/src/ll_line/finish_with.rs.
`Debug for LLSelection` (36-43) is in `Debug.lean`.
-/
namespace LNlp
variable {W : World} {Out : Type}

/-- `PartialEq for LLSelection`, ll_selection.rs:45-51 -/
def LLSelection.eq (s other : LLSelection W) : Bool :=
  decide (s.start_idx = other.start_idx) && decide (s.end_idx = other.end_idx)
    && decide (s.ll_line.ptr = other.ll_line.ptr)

/-- `LLSelection::from_line`, ll_selection.rs:55-66 -/
def LLSelection.fromLine (ll_line : Rc (LLLine W)) : Option (LLSelection W) :=
  let line_len := ll_line.val.ll_tokens.length
  if line_len > 0 then some { ll_line, end_idx := line_len - 1, start_idx := 0 } else none

/-- `selection_from`, ll_selection.rs:271-283 -/
def LLSelection.selectionFrom (s : LLSelection W) (start_idx end_idx : Nat) :
    Option (LLSelection W) :=
  let start_idx := max start_idx s.start_idx
  let end_idx := min end_idx s.end_idx
  if start_idx ≤ end_idx then some { ll_line := s.ll_line, end_idx, start_idx } else none

/-- `usize::checked_sub`, used in ll_selection.rs:79, 89, 98, 344 -/
def checkedSub (a b : Nat) : Option Nat := if b ≤ a then some (a - b) else none

/-- `find_by`, ll_selection.rs:105-126 -/
def LLSelection.findBy (s : LLSelection W) (matcher : XMatch W Out) :
    R (List (LLSelection W × Out)) :=
  flatMapR (fun i =>
    match matcher.go (.fwd i) s.ll_line.val with
    | .error e => .error e
    | .ok rs => .ok (rs.map (fun r =>
        ({ start_idx := i, end_idx := r.2, ll_line := s.ll_line }, r.1))))
    (rangeIncl s.start_idx s.end_idx)

/-- `find_first_by`, ll_selection.rs:128-133 -/
def LLSelection.findFirstBy (s : LLSelection W) (matcher : XMatch W Out) :
    R (Option (LLSelection W × Out)) :=
  match s.findBy matcher with
  | .error e => .error e
  | .ok rs => .ok rs.head?

/-- `slice::windows(2)` as pairs, used in ll_selection.rs:95 -/
def windows2 {α : Type} : List α → List (α × α)
  | a :: b :: rest => (a, b) :: windows2 (b :: rest)
  | _ => []

/-- `split_by`, ll_selection.rs:68-103 -/
def LLSelection.splitBy (s : LLSelection W) (matcher : XMatch W Out) : R (List (LLSelection W)) :=
  match s.findBy matcher with
  | .error e => .error e
  | .ok [] => .ok [s]
  | .ok [m0] =>
    .ok (((checkedSub m0.1.start_idx 1).bind (fun end_idx => s.selectionFrom s.start_idx end_idx)).toList
      ++ (s.selectionFrom (m0.1.end_idx + 1) s.end_idx).toList)
  | .ok (m0 :: m1 :: ms) =>
    let start_opt :=
      (checkedSub m0.1.start_idx 1).bind (fun end_idx => s.selectionFrom s.start_idx end_idx)
    let last := (m1 :: ms).getLast (by simp)
    let end_opt := s.selectionFrom (last.1.end_idx + 1) s.end_idx
    .ok (start_opt.toList
      ++ (windows2 (m0 :: m1 :: ms)).filterMap (fun m =>
          (checkedSub m.2.1.start_idx 1).bind (fun end_idx =>
            s.selectionFrom (m.1.1.end_idx + 1) end_idx))
      ++ end_opt.toList)

/-- `find_by_forwards_and_backwards`, ll_selection.rs:135-175.  Per index the forward matcher runs,
then the backward one (the `chain` argument is evaluated when the closure builds the iterator). -/
def LLSelection.findByForwardsAndBackwards (s : LLSelection W) (matcher : XMatch W Out) :
    R (List (LLSelection W × Out)) :=
  flatMapR (fun i =>
    match matcher.go (.fwd i) s.ll_line.val with
    | .error e => .error e
    | .ok fs =>
      match matcher.go (.bwd i) s.ll_line.val with
      | .error e => .error e
      | .ok bs =>
        .ok (fs.map (fun r => ({ start_idx := i, end_idx := r.2, ll_line := s.ll_line }, r.1))
          ++ bs.map (fun r => ({ start_idx := r.2, end_idx := i, ll_line := s.ll_line }, r.1))))
    (rangeIncl s.start_idx s.end_idx)

/-- `match_forwards`, ll_selection.rs:177-202 -/
def LLSelection.matchForwards (s : LLSelection W) (matcher : XMatch W Out) :
    R (List (LLSelection W × Out)) :=
  if s.end_idx + 1 = s.ll_line.val.ll_tokens.length then .ok []
  else
    match matcher.go (.fwd (s.end_idx + 1)) s.ll_line.val with
    | .error e => .error e
    | .ok rs => .ok (rs.map (fun r =>
        ({ start_idx := s.start_idx, end_idx := r.2, ll_line := s.ll_line }, r.1)))

/-- `match_first_forwards`, ll_selection.rs:204-209 -/
def LLSelection.matchFirstForwards (s : LLSelection W) (matcher : XMatch W Out) :
    R (Option (LLSelection W × Out)) :=
  match s.matchForwards matcher with
  | .error e => .error e
  | .ok rs => .ok rs.head?

/-- `match_forwards_longest`, ll_selection.rs:211-216: the body is `todo!()` -/
def LLSelection.matchForwardsLongest (_s : LLSelection W) (_matcher : XMatch W Out) :
    R (Option (LLSelection W × Out)) := .error .notImplemented

/-- `match_forwards_shortest`, ll_selection.rs:218-223: the body is `todo!()` -/
def LLSelection.matchForwardsShortest (_s : LLSelection W) (_matcher : XMatch W Out) :
    R (Option (LLSelection W × Out)) := .error .notImplemented

/-- `match_backwards`, ll_selection.rs:225-248 -/
def LLSelection.matchBackwards (s : LLSelection W) (matcher : XMatch W Out) :
    R (List (LLSelection W × Out)) :=
  if s.start_idx = 0 then .ok []
  else
    match matcher.go (.bwd (s.start_idx - 1)) s.ll_line.val with
    | .error e => .error e
    | .ok rs => .ok (rs.map (fun r =>
        ({ start_idx := r.2, end_idx := s.end_idx, ll_line := s.ll_line }, r.1)))

/-- `match_first_backwards`, ll_selection.rs:250-255 -/
def LLSelection.matchFirstBackwards (s : LLSelection W) (matcher : XMatch W Out) :
    R (Option (LLSelection W × Out)) :=
  match s.matchBackwards matcher with
  | .error e => .error e
  | .ok rs => .ok rs.head?

/-- `after`, ll_selection.rs:257-269 (`len() - 1` cannot underflow: a selection's line has tokens) -/
def LLSelection.after (s : LLSelection W) : Option (LLSelection W) :=
  let ll_line_end := s.ll_line.val.ll_tokens.length - 1
  if s.start_idx + 1 = ll_line_end then none
  else some { ll_line := s.ll_line, start_idx := s.end_idx + 1, end_idx := ll_line_end }

/-- `split_with`, ll_selection.rs:286-306 (with `assert_ll_lines_equals`, ll_line.rs:288-292) -/
def LLSelection.splitWith (s other_selection : LLSelection W) :
    R (Option (LLSelection W) × Option (LLSelection W)) :=
  if s.ll_line.ptr = other_selection.ll_line.ptr then
    .ok (if other_selection.start_idx > 0 then
           s.selectionFrom s.start_idx (other_selection.start_idx - 1)
         else none,
         s.selectionFrom (other_selection.end_idx + 1) s.end_idx)
  else .error .differentLines

/-- `trim_selection`, ll_selection.rs:309-358 -/
def LLSelection.trimSelection (s : LLSelection W) (matcher : XMatch W Out)
    (from_start from_end : Bool) : R (Option (LLSelection W)) :=
  match (if from_start then
      match matcher.go (.fwd s.start_idx) s.ll_line.val with
      | .error e => .error e
      | .ok rs =>
        match rs.head? with
        | some first_match => .ok (first_match.2 + 1)
        | none => .ok s.start_idx
    else .ok s.start_idx : R Nat) with
  | .error e => .error e
  | .ok new_start =>
    match (if from_end then
        match matcher.go (.bwd s.end_idx) s.ll_line.val with
        | .error e => .error e
        | .ok rs =>
          match rs.head? with
          | some first_match => .ok ((checkedSub first_match.2 1).getD first_match.2)
          | none => .ok s.end_idx
      else .ok s.end_idx : R Nat) with
    | .error e => .error e
    | .ok new_end =>
      if new_end ≥ s.start_idx ∧ new_start ≤ new_end then
        .ok (some { ll_line := s.ll_line, start_idx := new_start, end_idx := new_end })
      else .ok none

/-- `trim_start`, ll_selection.rs:360-362 -/
def LLSelection.trimStart (s : LLSelection W) (matcher : XMatch W Out) :
    R (Option (LLSelection W)) := s.trimSelection matcher true false

/-- `trim_end`, ll_selection.rs:364-366 -/
def LLSelection.trimEnd (s : LLSelection W) (matcher : XMatch W Out) :
    R (Option (LLSelection W)) := s.trimSelection matcher false true

/-- `trim`, ll_selection.rs:368-370 -/
def LLSelection.trim (s : LLSelection W) (matcher : XMatch W Out) :
    R (Option (LLSelection W)) := s.trimSelection matcher true true

/-- `finish_with_attr`, ll_selection.rs:372-378 -/
def LLSelection.finishWithAttr {α : Type} (s : LLSelection W) (value : α) :
    LLCursorAssignment α :=
  { end_idx := s.end_idx, start_idx := s.start_idx, value }

/-- `FinishWith::finish_with`, finish_with.rs:7-13 -/
def finishWith {T α : Type} (items : List (LLSelection W × T)) (f : T → α) :
    List (LLCursorAssignment α) :=
  items.map (fun p => p.1.finishWithAttr (f p.2))

end LNlp
