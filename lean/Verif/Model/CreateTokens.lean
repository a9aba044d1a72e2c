import Verif.Model.Line
/-
Model of /repo/src/create_tokens.rs, /repo/src/create_tokens/get_word_tag.rs and
`create_line_from_string` of /repo/src/lib.rs.
-/
namespace LNlp
variable {W : World}

/-- `InputToken`, create_tokens.rs:7-20 -/
inductive InputToken (W : World)
  | Text (text : Str) (attrs : List (AnyAttribute W))
  | Custom (size : Nat) (attrs : List (AnyAttribute W))

/-- `InputToken::add_attr`, create_tokens.rs:31-36 -/
def InputToken.addAttr (t : InputToken W) (k : Ty W) (value : Val k) : InputToken W :=
  match t with
  | .Text text attrs => .Text text (attrs ++ [AnyAttribute.new k value])
  | .Custom size attrs => .Custom size (attrs ++ [AnyAttribute.new k value])

/-- `char::is_ascii_digit`, used in create_tokens.rs:105, 143 -/
def isAsciiDigit (c : Char) : Bool := decide (48 ≤ c.toNat) && decide (c.toNat ≤ 57)

/-- `char::is_ascii`, used (for all characters, `str::is_ascii`) in create_tokens.rs:108 -/
def isAscii (c : Char) : Bool := decide (c.toNat < 128)

/-- `PUNCTUATION`, get_word_tag.rs:4 -/
def PUNCTUATION : List Char := [',', '.', '!', ';', ':', '?', '\'', '"']

/-- `is_spaces`, get_word_tag.rs:18-25 -/
def isSpaces (W : World) : Str → Bool
  | [] => true
  | c :: cs => if !W.isWhitespace c then false else isSpaces W cs

/-- the loop over the remaining characters of `is_word`, get_word_tag.rs:37-50 -/
def isWordRest (W : World) : Str → Bool
  | [] => true
  | c :: cs =>
    if W.isAlphabetic c then isWordRest W cs
    else if c = '\'' ∨ c = '-' ∨ c = '–' then isWordRest W cs
    else false

/-- `is_word`, get_word_tag.rs:28-53 -/
def isWord (W : World) : Str → Bool
  | [] => false
  | c :: cs => if W.isAlphabetic c then isWordRest W cs else false

/-- `get_unicode_word_tag`, get_word_tag.rs:6-16 (the `unwrap` cannot fail: `len() == 1`) -/
def getUnicodeWordTag (W : World) (word : Str) : TextTag :=
  if isSpaces W word then .SPACE
  else if decide (utf8Len word = 1)
      && (match word with | c :: _ => PUNCTUATION.contains c | [] => false) then .PUNC
  else if isWord W word then .WORD
  else .SYMB

/-- The three mutable variables of the digit branch of `create_tokens_for_string`,
create_tokens.rs:100-114. -/
structure DigitSt where
  ltokens : List (LToken × Nat)
  collected_digits : Str
  collected_letters : Str

/-- `insert_collected_digits!`, create_tokens.rs:118-128 -/
def DigitSt.insertDigits (size : Str → Nat) (st : DigitSt) : DigitSt :=
  if st.collected_digits.length > 0 then
    { ltokens := st.ltokens ++ [(LToken.Text st.collected_digits .NATN, size st.collected_digits)]
      collected_digits := []
      collected_letters := st.collected_letters }
  else st

/-- `insert_collected_letters!`, create_tokens.rs:130-140 -/
def DigitSt.insertLetters (size : Str → Nat) (st : DigitSt) : DigitSt :=
  if st.collected_letters.length > 0 then
    { ltokens := st.ltokens ++ [(LToken.Text st.collected_letters .WORD, size st.collected_letters)]
      collected_digits := st.collected_digits
      collected_letters := [] }
  else st

/-- the body of `for ch in unicode_word.chars()`, create_tokens.rs:142-156 -/
def DigitSt.step (W : World) (size : Str → Nat) (st : DigitSt) (ch : Char) : DigitSt :=
  if isAsciiDigit ch then
    let st := st.insertLetters size
    { st with collected_digits := st.collected_digits ++ [ch] }
  else if W.isAlphabetic ch then
    let st := st.insertDigits size
    { st with collected_letters := st.collected_letters ++ [ch] }
  else
    let st := (st.insertLetters size).insertDigits size
    { st with ltokens := st.ltokens ++ [(LToken.Text [ch] .PUNC, size [ch])] }

/-- the `fold` closure of `create_tokens_for_string`, create_tokens.rs:100-203 -/
def foldWord (W : World) (size : Str → Nat) (ltokens : List (LToken × Nat)) (word : Str) :
    R (List (LToken × Nat)) :=
  match word with
  | [] => .error .emptyWord
  | c :: _ =>
    if isAsciiDigit c then
      if word.all isAscii then
        let st := word.foldl (DigitSt.step W size)
          { ltokens := ltokens, collected_digits := [], collected_letters := [] }
        .ok ((st.insertLetters size).insertDigits size).ltokens
      else .error .nonAsciiDigitWord
    else
      .ok (ltokens ++ [(LToken.Text word (getUnicodeWordTag W word), size word)])

/-- `create_tokens_for_string`, create_tokens.rs:93-204 -/
def createTokensForString (W : World) (input : Str) (size : Str → Nat) : R (List (LToken × Nat)) :=
  foldR (foldWord W size) [] (W.splitWordBounds input)

/-- the loop `for (ltoken, size) in ltokens`, create_tokens.rs:68-78: pushes the tokens and advances
`current_size` -/
def pushTokens (W : World) : List LLToken × Nat → LToken × Nat → R (List LLToken × Nat)
  | (lltokens, current_size), (ltoken, size) =>
    match W.addUsize current_size size with
    | .error e => .error e
    | .ok next_size =>
      .ok (lltokens ++ [{ token_idx := lltokens.length, pos_starts_at := current_size,
                          pos_ends_at := next_size, token := ltoken }], next_size)

/-- The mutable variables of `create_line_from_input_tokens`, create_tokens.rs:52-54. -/
structure CreateSt (W : World) where
  spans : List (Nat × Nat × List (AnyAttribute W))
  lltokens : List LLToken
  current_size : Nat

/-- the `map` closure, create_tokens.rs:56-61 -/
def inputTokens (W : World) (size : Str → Nat) (t : InputToken W) :
    R (List (LToken × Nat) × List (AnyAttribute W)) :=
  match t with
  | .Text text attrs =>
    match createTokensForString W text size with
    | .ok lt => .ok (lt, attrs)
    | .error e => .error e
  | .Custom sz attrs => .ok ([(LToken.Value, sz)], attrs)

/-- the body of the outer loop, create_tokens.rs:56-82 -/
def createStep (W : World) (size : Str → Nat) (st : CreateSt W) (t : InputToken W) :
    R (CreateSt W) :=
  match inputTokens W size t with
  | .error e => .error e
  | .ok (ltokens, attrs) =>
    if ltokens.isEmpty then .error .emptyText
    else
      let from_idx := st.lltokens.length
      match foldR (pushTokens W) (st.lltokens, st.current_size) ltokens with
      | .error e => .error e
      | .ok (lltokens, current_size) =>
        let to_idx := lltokens.length - 1
        .ok { spans := st.spans ++ [(from_idx, to_idx, attrs)], lltokens, current_size }

/-- `create_line_from_input_tokens`, create_tokens.rs:48-90 (`create_tokens`, 41-46, is the same
function under its deprecated name) -/
def createLineFromInputTokens (W : World) (input : List (InputToken W)) (size : Str → Nat) :
    R (LLLine W) :=
  match foldR (createStep W size) { spans := [], lltokens := [], current_size := 0 } input with
  | .error e => .error e
  | .ok st =>
    match LLLine.new st.lltokens with
    | .error e => .error e
    | .ok line =>
      foldR (fun (l : LLLine W) (s : Nat × Nat × List (AnyAttribute W)) =>
        l.addAnyAttrs s.1 s.2.1 s.2.2) line st.spans

/-- `create_line_from_string`, /repo/src/lib.rs:23-26 -/
def createLineFromString (W : World) (input : Str) : R (LLLine W) :=
  createLineFromInputTokens W [InputToken.Text input []] utf8Len

end LNlp
