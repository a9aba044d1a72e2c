import Verif.Model.Display
/-
/repo/src/ll_line/display.rs once more, writing piece by piece to a formatter that may refuse (`fmt::Error`) or panic, as
`write!(file, "{}", line_display)` or `println!` into a closed pipe do.  `write_char(c)` is taken to be
`write_str` of the one character (the default implementation of `fmt::Write`).
-/
namespace LNlp
variable {W : World}

/-- what a sink does with a text -/
inductive Reply
  | taken
  | refused
  | panicked
deriving DecidableEq, Repr

/-- what a sink does depends on the texts it was given before -/
abbrev Sink := List Str → Str → Reply

/-- why writing stopped -/
inductive Halt
  /-- `Err(fmt::Error)` was returned -/
  | err
  /-- the sink panicked -/
  | sink
  /-- the code of display.rs panicked -/
  | code (p : Panic)
deriving DecidableEq, Repr

/-- a computation that writes; it threads the texts handed to the sink so far -/
def Put (α : Type) : Type := List Str → List Str × Except Halt α

/-- code that does nothing -/
def Put.pure {α : Type} (a : α) : Put α := fun calls => (calls, .ok a)

/-- `?` and unwinding -/
def Put.bind {α β : Type} (m : Put α) (f : α → Put β) : Put β := fun calls =>
  match m calls with
  | (calls', .ok a) => f a calls'
  | (calls', .error e) => (calls', .error e)

instance : Monad Put where
  pure := Put.pure
  bind := Put.bind

/-- code that may panic but does not write -/
def Put.lift {α : Type} (r : R α) : Put α := fun calls =>
  match r with
  | .ok a => (calls, .ok a)
  | .error p => (calls, .error (.code p))

/-- `f.write_str(s)?`, display.rs:64, 89 -/
def writeStr (snk : Sink) (s : Str) : Put Unit := fun calls =>
  (calls ++ [s], match snk calls s with
    | .taken => .ok ()
    | .refused => .error .err
    | .panicked => .error .sink)

/-- `f.write_char(c)?`, display.rs:70, 77, 86 -/
def writeChar (snk : Sink) (c : Char) : Put Unit := writeStr snk [c]

/-- `for _ in 0..n { f.write_char(c)?; }`, display.rs:73-75, 81-83 -/
def writeChars (snk : Sink) (c : Char) : Nat → Put Unit
  | 0 => return ()
  | n + 1 => do
    writeChar snk c
    writeChars snk c n

/-- `v[i]` of the two vectors of `fmt`, display.rs:72, 79 -/
def indexDisplay (v : List Nat) (i : Nat) : R Nat :=
  match v[i]? with
  | none => .error .displayOob
  | some x => .ok x

/-- one iteration of the second loop of `fmt`, display.rs:69-90 -/
def bracketTo (W : World) (snk : Sink) (starts ends : List Nat) (item : LRange × Str) : Put Unit := do
  writeChar snk '\n'
  let start_char_idx ← Put.lift (indexDisplay starts item.1.1)
  writeChars snk ' ' start_char_idx
  writeChar snk '╰'
  let end_char_idx ← Put.lift (indexDisplay ends item.1.2)
  let char_len ← Put.lift (W.subUsize end_char_idx start_char_idx)
  writeChars snk '─' ((end_char_idx - 1) - (start_char_idx + 1))
  if char_len > 1 then writeChar snk '╯' else pure ()
  writeStr snk item.2

/-- `for … in self.include_attrs.iter() { … }`, display.rs:69-90 -/
def bracketsTo (W : World) (snk : Sink) (starts ends : List Nat) : List (LRange × Str) → Put Unit
  | [] => return ()
  | item :: items => do
    bracketTo W snk starts ends item
    bracketsTo W snk starts ends items

/-- `Display for LLLineDisplay`, display.rs:32-94; writing `<>` into the String `opening_line` (line 56) cannot fail -/
def LLLineDisplay.fmtTo (d : LLLineDisplay W) (snk : Sink) : Put Unit := do
  let st := d.ll_line.ll_tokens.foldl (HeaderSt.step W)
    { starts := [], ends := [], opening_line := [], is_first := true }
  writeStr snk st.opening_line
  bracketsTo W snk st.starts st.ends d.include_attrs

/-- `format!("{}", d)` / `d.to_string()`: a String takes everything -/
def stringSink : Sink := fun _ _ => .taken

end LNlp
