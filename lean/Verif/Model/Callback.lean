import Verif.Model.CreateTokens
/-
/repo/src/create_tokens.rs once more, with a `get_text_size` that is not a mathematical function: a Rust
`Fn(&str) -> usize` can count, log or remember (interior mutability), and can panic.
-/
namespace LNlp
variable {W : World}

/-- What a callback answers to a text depends on the texts it was called with before; `none`: it panics. -/
abbrev Callback := List Str → Str → Option Nat

/-- why creation stopped -/
inductive Stop
  | code (p : Panic)
  | callback
deriving DecidableEq, Repr

/-- a computation that calls the callback; it threads the calls so far -/
def Ask (α : Type) : Type := List Str → List Str × Except Stop α

/-- code that calls nothing -/
def Ask.pure {α : Type} (a : α) : Ask α := fun calls => (calls, .ok a)

/-- one piece of code after the other; a panic stops -/
def Ask.bind {α β : Type} (m : Ask α) (f : α → Ask β) : Ask β := fun calls =>
  match m calls with
  | (calls', .ok a) => f a calls'
  | (calls', .error e) => (calls', .error e)

instance : Monad Ask where
  pure := Ask.pure
  bind := Ask.bind

/-- code that may panic but does not call the callback -/
def Ask.lift {α : Type} (r : R α) : Ask α := fun calls =>
  match r with
  | .ok a => (calls, .ok a)
  | .error p => (calls, .error (.code p))

/-- `get_text_size(&text)`, create_tokens.rs:121, 133, 153, 197 -/
def getTextSize (cb : Callback) (text : Str) : Ask Nat := fun calls =>
  (calls ++ [text], match cb calls text with
    | some n => .ok n
    | none => .error .callback)

/-- `insert_collected_digits!`, create_tokens.rs:118-128 -/
def DigitSt.insertDigitsE (cb : Callback) (st : DigitSt) : Ask DigitSt :=
  if st.collected_digits.length > 0 then do
    let size ← getTextSize cb st.collected_digits
    return { ltokens := st.ltokens ++ [(LToken.Text st.collected_digits .NATN, size)]
             collected_digits := []
             collected_letters := st.collected_letters }
  else return st

/-- `insert_collected_letters!`, create_tokens.rs:130-140 -/
def DigitSt.insertLettersE (cb : Callback) (st : DigitSt) : Ask DigitSt :=
  if st.collected_letters.length > 0 then do
    let size ← getTextSize cb st.collected_letters
    return { ltokens := st.ltokens ++ [(LToken.Text st.collected_letters .WORD, size)]
             collected_digits := st.collected_digits
             collected_letters := [] }
  else return st

/-- the body of `for ch in unicode_word.chars()`, create_tokens.rs:142-156 -/
def DigitSt.stepE (W : World) (cb : Callback) (st : DigitSt) (ch : Char) : Ask DigitSt :=
  if isAsciiDigit ch then do
    let st ← st.insertLettersE cb
    return { st with collected_digits := st.collected_digits ++ [ch] }
  else if W.isAlphabetic ch then do
    let st ← st.insertDigitsE cb
    return { st with collected_letters := st.collected_letters ++ [ch] }
  else do
    let st ← st.insertLettersE cb
    let st ← st.insertDigitsE cb
    let size ← getTextSize cb [ch]
    return { st with ltokens := st.ltokens ++ [(LToken.Text [ch] .PUNC, size)] }

/-- `for x in xs` with one mutable variable -/
def foldE {σ α : Type} (f : σ → α → Ask σ) : σ → List α → Ask σ
  | s, [] => return s
  | s, x :: xs => do
    let s' ← f s x
    foldE f s' xs

/-- the `fold` closure of `create_tokens_for_string`, create_tokens.rs:100-203 -/
def foldWordE (W : World) (cb : Callback) (ltokens : List (LToken × Nat)) (word : Str) :
    Ask (List (LToken × Nat)) :=
  match word with
  | [] => Ask.lift (.error .emptyWord)
  | c :: _ =>
    if isAsciiDigit c then
      if word.all isAscii then do
        let st ← foldE (DigitSt.stepE W cb) { ltokens := ltokens, collected_digits := [], collected_letters := [] } word
        let st ← st.insertLettersE cb
        let st ← st.insertDigitsE cb
        return st.ltokens
      else Ask.lift (.error .nonAsciiDigitWord)
    else do
      let size ← getTextSize cb word
      return ltokens ++ [(LToken.Text word (getUnicodeWordTag W word), size)]

/-- `create_tokens_for_string`, create_tokens.rs:93-204 -/
def createTokensForStringE (W : World) (cb : Callback) (input : Str) : Ask (List (LToken × Nat)) :=
  foldE (foldWordE W cb) [] (W.splitWordBounds input)

/-- the `map` closure, create_tokens.rs:56-61; `map` is lazy: the closure runs when the loop gets to the input -/
def inputTokensE (W : World) (cb : Callback) (t : InputToken W) : Ask (List (LToken × Nat) × List (AnyAttribute W)) :=
  match t with
  | .Text text attrs => do
    let lt ← createTokensForStringE W cb text
    return (lt, attrs)
  | .Custom sz attrs => return ([(LToken.Value, sz)], attrs)

/-- the rest of the body of the outer loop, create_tokens.rs:62-82 -/
def createPush (W : World) (st : CreateSt W) (ltokens : List (LToken × Nat)) (attrs : List (AnyAttribute W)) :
    R (CreateSt W) :=
  if ltokens.isEmpty then .error .emptyText
  else
    let from_idx := st.lltokens.length
    match foldR (pushTokens W) (st.lltokens, st.current_size) ltokens with
    | .error e => .error e
    | .ok (lltokens, current_size) =>
      let to_idx := lltokens.length - 1
      .ok { spans := st.spans ++ [(from_idx, to_idx, attrs)], lltokens, current_size }

/-- the body of the outer loop, create_tokens.rs:56-82 -/
def createStepE (W : World) (cb : Callback) (st : CreateSt W) (t : InputToken W) : Ask (CreateSt W) := do
  let p ← inputTokensE W cb t
  Ask.lift (createPush W st p.1 p.2)

/-- the end of `create_line_from_input_tokens`, create_tokens.rs:84-90 -/
def createFinish (W : World) (st : CreateSt W) : R (LLLine W) :=
  match LLLine.new st.lltokens with
  | .error e => .error e
  | .ok line =>
    foldR (fun (l : LLLine W) (s : Nat × Nat × List (AnyAttribute W)) => l.addAnyAttrs s.1 s.2.1 s.2.2) line st.spans

/-- `create_line_from_input_tokens`, create_tokens.rs:48-90: the calls, and the line or why there is none -/
def createLineFromInputTokensE (W : World) (input : List (InputToken W)) (cb : Callback) : List Str × Except Stop (LLLine W) :=
  (do
    let st ← foldE (createStepE W cb) { spans := [], lltokens := [], current_size := 0 } input
    Ask.lift (createFinish W st) : Ask (LLLine W)) []

end LNlp
