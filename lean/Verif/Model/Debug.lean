import Verif.Model.X
import Verif.Model.Selection
/-
Model of the `Debug` output of selections, finds, assignments and prepared attributes, in the plain form `{:?}`:
/repo/src/ll_line/ll_selection.rs:36-43, /repo/src/ll_line.rs:86-94 and 295-302, /repo/src/type_bucket.rs:17-21;
then of tokens and of the results of `any_of`, and of all of them in both forms, `{:?}` and the pretty form `{:#?}`
(/repo/src/ll_line.rs:21,38-54, /repo/src/ll_line/x/any_of.rs:27-31,56-61).
Not modelled: width, precision and hexadecimal flags (`{:5?}`, `{:x?}`), which derived `Debug` passes on to numbers.
-/
namespace LNlp
variable {W : World}

/-- `Debug` of `usize` (standard library): decimal digits -/
def natDbg (n : Nat) : Str := Nat.toDigits 10 n

/-- the fields of `debug_struct`, `name: value` separated by commas -/
def debugFields : List (Str × Str) → Str
  | [] => []
  | [f] => f.1 ++ [':', ' '] ++ f.2
  | f :: fs => f.1 ++ [':', ' '] ++ f.2 ++ [',', ' '] ++ debugFields fs

/-- `f.debug_struct(name).field(..)….finish()` (standard library) -/
def debugStruct (name : Str) (fields : List (Str × Str)) : Str :=
  match fields with
  | [] => name
  | _ => name ++ [' ', '{', ' '] ++ debugFields fields ++ [' ', '}']

/-- `Debug for LLSelection`, ll_selection.rs:36-43 -/
def LLSelection.dbg (s : LLSelection W) : Str :=
  debugStruct "LLSelection".toList
    [("start_idx".toList, natDbg s.start_idx), ("end_idx".toList, natDbg s.end_idx)]

/-- `Debug for LLLineFind`, ll_line.rs:86-94 -/
def LLLineFind.dbg {Found : Type} (foundDbg : Found → Str) (f : LLLineFind Found) : Str :=
  debugStruct "LLLineFind".toList
    [("start".toList, natDbg f.start_pos_at), ("end".toList, natDbg f.end_pos_at), ("found".toList, foundDbg f.found)]

/-- `#[derive(Debug)]` of `LLCursorAssignment`, ll_line.rs:295-302 -/
def LLCursorAssignment.dbg {Attr : Type} (attrDbg : Attr → Str) (a : LLCursorAssignment Attr) : Str :=
  debugStruct "LLCursorAssignment".toList
    [("start_idx".toList, natDbg a.start_idx), ("end_idx".toList, natDbg a.end_idx), ("value".toList, attrDbg a.value)]

/-- `Debug for AnyAttribute`, type_bucket.rs:17-21: no field -/
def AnyAttribute.dbg (_a : AnyAttribute W) : Str := debugStruct "AnyAttribute".toList []

/-! ### Both forms -/

/-- the two forms of `Debug` output, `{:?}` and `{:#?}` (`Formatter::alternate`) -/
inductive Form
  | plain
  | pretty
deriving DecidableEq

/-- `PadAdapter::write_str` (standard library): four spaces before the first character of every line; `start` says that the
next character begins a line -/
def indent (start : Bool) : Str → Str
  | [] => []
  | c :: cs => (if start then [' ', ' ', ' ', ' '] else []) ++ c :: indent (c == '\n') cs

/-- plain: the entries separated by commas -/
def commaSep : List Str → Str
  | [] => []
  | [e] => e
  | e :: es => e ++ [',', ' '] ++ commaSep es

/-- pretty: every entry on lines of its own, indented and followed by a comma -/
def prettyEntries (es : List Str) : Str := es.flatMap (fun e => indent true (e ++ [',', '\n']))

/-- `f.debug_struct(name).field(..)….finish()` (standard library), the values being written in the same form -/
def Form.struct (m : Form) (name : Str) (fields : List (Str × Str)) : Str :=
  match m, fields with
  | .plain, fs => debugStruct name fs
  | .pretty, [] => name
  | .pretty, fs => name ++ [' ', '{', '\n'] ++ prettyEntries (fs.map (fun f => f.1 ++ [':', ' '] ++ f.2)) ++ ['}']

/-- `f.debug_tuple(name).field(..)….finish()` (standard library), for a name that is not empty -/
def Form.tuple (m : Form) (name : Str) (args : List Str) : Str :=
  match m, args with
  | _, [] => name
  | .plain, es => name ++ ['('] ++ commaSep es ++ [')']
  | .pretty, es => name ++ ['(', '\n'] ++ prettyEntries es ++ [')']

/-- `f.debug_list().entries(..).finish()`, which is `Debug` of slices and vectors (standard library) -/
def Form.list (m : Form) (items : List Str) : Str :=
  match m, items with
  | _, [] => ['[', ']']
  | .plain, es => ['['] ++ commaSep es ++ [']']
  | .pretty, es => ['[', '\n'] ++ prettyEntries es ++ [']']

/-- one character of `Debug` of `str` (standard library, `char::escape_debug_ext`).  `esc` are the characters the standard
library writes by their number (not printable, or extending a grapheme): any function. -/
def escapeChar (esc : Char → Bool) (c : Char) : Str :=
  if c = '\x00' then ['\\', '0']
  else if c = '\t' then ['\\', 't']
  else if c = '\r' then ['\\', 'r']
  else if c = '\n' then ['\\', 'n']
  else if c = '"' then ['\\', '"']
  else if c = '\\' then ['\\', '\\']
  else if esc c then ['\\', 'u', '{'] ++ Nat.toDigits 16 c.toNat ++ ['}']
  else [c]

/-- `Debug` of `str` (standard library), the same in both forms -/
def strDbg (esc : Char → Bool) (s : Str) : Str := ['"'] ++ s.flatMap (escapeChar esc) ++ ['"']

/-- `#[derive(Debug)]` of `LToken`, ll_line.rs:38-43 -/
def LToken.dbg (esc : Char → Bool) (m : Form) : LToken → Str
  | .Text s tag => m.tuple "Text".toList [strDbg esc s, tag.dbg]
  | .Value => "Value".toList

/-- `#[derive(Debug)]` of `LLToken`, ll_line.rs:45-54 -/
def LLToken.dbg (esc : Char → Bool) (m : Form) (t : LLToken) : Str :=
  m.struct "LLToken".toList [("token_idx".toList, natDbg t.token_idx), ("pos_starts_at".toList, natDbg t.pos_starts_at),
    ("pos_ends_at".toList, natDbg t.pos_ends_at), ("token".toList, t.token.dbg esc m)]

/-- `Debug` of `line.ll_tokens()`, ll_line.rs:208-210, as printed by tests/tokenizing.rs:3-5 -/
def LLLine.tokensDbg (esc : Char → Bool) (m : Form) (l : LLLine W) : Str := m.list (l.ll_tokens.map (LLToken.dbg esc m))

/-- `Debug for LLSelection` in either form, ll_selection.rs:36-43 -/
def LLSelection.dbgIn (m : Form) (s : LLSelection W) : Str :=
  m.struct "LLSelection".toList
    [("start_idx".toList, natDbg s.start_idx), ("end_idx".toList, natDbg s.end_idx)]

/-- `Debug for LLLineFind` in either form, ll_line.rs:86-94; `foundDbg` writes the value in that form -/
def LLLineFind.dbgIn {Found : Type} (foundDbg : Form → Found → Str) (m : Form) (f : LLLineFind Found) : Str :=
  m.struct "LLLineFind".toList
    [("start".toList, natDbg f.start_pos_at), ("end".toList, natDbg f.end_pos_at), ("found".toList, foundDbg m f.found)]

/-- `#[derive(Debug)]` of `LLCursorAssignment` in either form, ll_line.rs:295-302 -/
def LLCursorAssignment.dbgIn {Attr : Type} (attrDbg : Form → Attr → Str) (m : Form) (a : LLCursorAssignment Attr) : Str :=
  m.struct "LLCursorAssignment".toList
    [("start_idx".toList, natDbg a.start_idx), ("end_idx".toList, natDbg a.end_idx), ("value".toList, attrDbg m a.value)]

/-- `#[derive(Debug)]` of `AnyOf2`, x/any_of.rs:27-31 -/
def AnyOf2.dbg {α β : Type} (f : Form → α → Str) (g : Form → β → Str) (m : Form) : AnyOf2 α β → Str
  | .A a => m.tuple ['A'] [f m a]
  | .B b => m.tuple ['B'] [g m b]

/-- `#[derive(Debug)]` of `AnyOf3`, x/any_of.rs:56-61 -/
def AnyOf3.dbg {α β γ : Type} (f : Form → α → Str) (g : Form → β → Str) (h : Form → γ → Str) (m : Form) :
    AnyOf3 α β γ → Str
  | .A a => m.tuple ['A'] [f m a]
  | .B b => m.tuple ['B'] [g m b]
  | .C c => m.tuple ['C'] [h m c]

/-- `#[derive(PartialEq)]` of `AnyOf2`, x/any_of.rs:27-31 -/
def AnyOf2.eq {α β : Type} (f : α → α → Bool) (g : β → β → Bool) : AnyOf2 α β → AnyOf2 α β → Bool
  | .A a, .A a' => f a a'
  | .B b, .B b' => g b b'
  | _, _ => false

/-- `#[derive(PartialEq)]` of `AnyOf3`, x/any_of.rs:56-61 -/
def AnyOf3.eq {α β γ : Type} (f : α → α → Bool) (g : β → β → Bool) (h : γ → γ → Bool) :
    AnyOf3 α β γ → AnyOf3 α β γ → Bool
  | .A a, .A a' => f a a'
  | .B b, .B b' => g b b'
  | .C c, .C c' => h c c'
  | _, _ => false

end LNlp
