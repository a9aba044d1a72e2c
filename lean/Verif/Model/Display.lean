import Verif.Model.Line
/-
Model of /repo/src/ll_line/display.rs.  Writing to the formatter never fails in the model (the
`fmt::Result` plumbing is dropped, see Model/Sink.lean for it); the result is the text written.
-/
namespace LNlp
variable {W : World}

/-- `LLLineDisplay`, display.rs:4-7 -/
structure LLLineDisplay (W : World) where
  ll_line : LLLine W
  include_attrs : List (LRange × Str)

/-- `LLLineDisplay::new`, display.rs:97-102 (`debug_line`, /repo/src/lib.rs:36-38, is the same) -/
def LLLineDisplay.new (l : LLLine W) : LLLineDisplay W := { ll_line := l, include_attrs := [] }

/-- `include::<T>`, display.rs:104-118 -/
def LLLineDisplay.include (d : LLLineDisplay W) (k : Ty W) : R (LLLineDisplay W) :=
  match flatMapR (fun ll_range =>
      match d.ll_line.attrs.values.get? ll_range with
      | none => .ok []
      | some b =>
        match b.getDebug k with
        | .error e => .error e
        | .ok ds => .ok (ds.reverse.map (fun debug_value => (ll_range, debug_value))))
      (d.ll_line.attrs.ranges.get k) with
  | .error e => .error e
  | .ok new => .ok { d with include_attrs := d.include_attrs ++ new }

/-- `with::<T>`, display.rs:120-123 -/
def LLLineDisplay.with (d : LLLineDisplay W) (k : Ty W) : R (LLLineDisplay W) := d.include k

/-- `SPACE_PADDING`, display.rs:34 -/
def SPACE_PADDING : Nat := 2

/-- The mutable variables of the first half of `fmt`, display.rs:35-41. -/
structure HeaderSt where
  starts : List Nat
  ends : List Nat
  opening_line : Str
  is_first : Bool

/-- display.rs:51-58 -/
def LLToken.displayText (t : LLToken) : Str :=
  match t.token with
  | .Text text _ => text
  | .Value => ['<', '>']

/-- the body of the first loop of `fmt`, display.rs:42-61 -/
def HeaderSt.step (W : World) (st : HeaderSt) (t : LLToken) : HeaderSt :=
  let opening_line :=
    if st.is_first then st.opening_line
    else st.opening_line ++ List.replicate SPACE_PADDING ' '
  let starts := st.starts ++ [W.strWidth opening_line]
  let opening_line := opening_line ++ t.displayText
  { starts, opening_line, is_first := false, ends := st.ends ++ [W.strWidth opening_line] }

/-- `usize` subtraction (`end_char_idx - start_char_idx`, display.rs:80): underflow panics with overflow checks, wraps without. -/
def World.subUsize (W : World) (a b : Nat) : R Nat :=
  if b ≤ a then .ok (a - b)
  else if W.overflowChecks then .error .displayUnderflow
  else .ok (W.usizeBound + a - b)

/-- one iteration of the second loop of `fmt`, display.rs:69-90: the text of one bracket line -/
def bracketLine (W : World) (starts ends : List Nat) (item : LRange × Str) : R Str :=
  match starts[item.1.1]? with
  | none => .error .displayOob
  | some start_char_idx =>
    match ends[item.1.2]? with
    | none => .error .displayOob
    | some end_char_idx =>
      match W.subUsize end_char_idx start_char_idx with
      | .error e => .error e
      | .ok char_len =>
        .ok (['\n'] ++ List.replicate start_char_idx ' ' ++ ['╰']
          ++ List.replicate ((end_char_idx - 1) - (start_char_idx + 1)) '─'
          ++ (if char_len > 1 then ['╯'] else [])
          ++ item.2)

/-- `Display for LLLineDisplay`, display.rs:32-94 -/
def LLLineDisplay.fmt (d : LLLineDisplay W) : R Str :=
  let st := d.ll_line.ll_tokens.foldl (HeaderSt.step W)
    { starts := [], ends := [], opening_line := [], is_first := true }
  match flatMapR (bracketLine W st.starts st.ends) d.include_attrs with
  | .error e => .error e
  | .ok rest => .ok (st.opening_line ++ rest)

end LNlp
