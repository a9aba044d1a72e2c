import Verif.Model.CreateTokens
/-
Specification: what a line is *supposed* to hold, without the four indexes of the implementation.
A history is the plain list of all attribute assignments so far, oldest first.
Nothing here calls a function of the model except the record types and (in `Reachable`) the
entry points `createLineFromInputTokens` and `LLLine.run` whose executions are being described.
-/
namespace LNlp
variable {W : World}

/-- one assignment: "`val` of type `ty` on the token range `range`" -/
structure Rec (W : World) where
  ty : Ty W
  range : LRange
  val : Val ty

/-- all assignments made so far, oldest first -/
abbrev History (W : World) := List (Rec W)

/-- the value of a record, if the record is of type `k` -/
def Rec.valAs (x : Rec W) (k : Ty W) : Option (Val k) :=
  if h : x.ty = k then some (h ▸ x.val) else none

/-- the values of type `k` assigned on range `r`, oldest first -/
def valuesOf (k : Ty W) (r : LRange) (h : History W) : List (Val k) :=
  h.filterMap (fun x => if x.range = r then x.valAs k else none)

/-- first occurrences, in order -/
def firsts {α : Type} [DecidableEq α] : List α → List α
  | [] => []
  | x :: xs => x :: (firsts xs).filter (fun y => decide (y ≠ x))

/-- the distinct ranges that ever got a value of type `k`, in order of first assignment -/
def rangesOf (k : Ty W) (h : History W) : List LRange :=
  firsts ((h.filter (fun x => decide (x.ty = k))).map (·.range))

/-- the text of a token -/
def LToken.str : LToken → Str
  | .Text s _ => s
  | .Value => []

/-- concatenated text of the tokens `r.1 ..= r.2` -/
def coveredText (toks : List LLToken) (r : LRange) : Str :=
  (((toks.drop r.1).take (r.2 + 1 - r.1)).map (fun t => t.token.str)).flatten

/-! ### Tokenization -/

/-- ASCII digit, by character order -/
def IsDigit (c : Char) : Prop := '0' ≤ c ∧ c ≤ '9'
instance (c : Char) : Decidable (IsDigit c) := by unfold IsDigit; infer_instance

/-- the eight punctuation characters the documentation of `TextTag::PUNC` lists -/
def DocPunct (c : Char) : Prop :=
  c = ',' ∨ c = '.' ∨ c = '!' ∨ c = ';' ∨ c = ':' ∨ c = '?' ∨ c = '\'' ∨ c = '"'
instance (c : Char) : Decidable (DocPunct c) := by unfold DocPunct; infer_instance

/-- text that counts as a word: a letter, then letters, apostrophes, hyphens and en dashes -/
def WordText (W : World) (s : Str) : Prop :=
  ∃ c cs, s = c :: cs ∧ W.isAlphabetic c = true ∧
    ∀ d ∈ cs, W.isAlphabetic d = true ∨ d = '\'' ∨ d = '-' ∨ d = '–'
instance (W : World) : (s : Str) → Decidable (WordText W s)
  | [] => isFalse (by rintro ⟨c, cs, h, _⟩; cases h)
  | c :: cs => decidable_of_iff
      (W.isAlphabetic c = true ∧ ∀ d ∈ cs, W.isAlphabetic d = true ∨ d = '\'' ∨ d = '-' ∨ d = '–')
      ⟨fun h => ⟨c, cs, rfl, h⟩, by rintro ⟨_, _, h, h'⟩; cases h; exact h'⟩

/-- the tag of a word that does not start with a digit -/
def wordTag (W : World) (w : Str) : TextTag :=
  if ∀ c ∈ w, W.isWhitespace c = true then .SPACE
  else if ∃ c ∈ w, w = [c] ∧ DocPunct c then .PUNC
  else if WordText W w then .WORD
  else .SYMB

/-- the tag of one character of a word that starts with a digit -/
def charTag (W : World) (c : Char) : TextTag :=
  if IsDigit c then .NATN else if W.isAlphabetic c = true then .WORD else .PUNC

/-- cut a string into maximal runs of digits, maximal runs of letters, and single other characters -/
def runsOf (W : World) : Str → List (Str × TextTag)
  | [] => []
  | c :: cs =>
    match runsOf W cs with
    | (s, t) :: rest =>
      if charTag W c = t ∧ t ≠ .PUNC then (c :: s, t) :: rest
      else ([c], charTag W c) :: (s, t) :: rest
    | [] => [([c], charTag W c)]

/-- the pieces of one word -/
def wordPieces (W : World) (w : Str) : List (Str × TextTag) :=
  if ∃ c ∈ w.head?, IsDigit c then runsOf W w else [(w, wordTag W w)]

/-- the pieces of a text -/
def textPieces (W : World) (s : Str) : List (Str × TextTag) :=
  (W.splitWordBounds s).flatMap (wordPieces W)

/-- the tokens of one input, with their sizes -/
def tokensOf (W : World) (size : Str → Nat) : InputToken W → List (LToken × Nat)
  | .Text s _ => (textPieces W s).map (fun p => (.Text p.1 p.2, size p.1))
  | .Custom n _ => [(.Value, n)]

/-- the custom attributes of one input -/
def InputToken.attrList : InputToken W → List (AnyAttribute W)
  | .Text _ as => as
  | .Custom _ as => as

/-- Rust's privacy makes `AnyAttribute::new` the only way to get an `AnyAttribute`
(type_bucket.rs:15-30: the fields are private). -/
def AnyAttribute.WF (a : AnyAttribute W) : Prop := ∃ k v, a = AnyAttribute.new k v

/-- inputs whose attributes were made by `AnyAttribute::new` (all inputs a Rust program can build) -/
def InputToken.WF (t : InputToken W) : Prop := ∀ a ∈ t.attrList, a.WF

/-! ### Histories of reachable lines -/

/-- the attributes every token gets by itself -/
def builtinOf (W : World) (t : LToken) (i : Nat) : History W :=
  match t with
  | .Text [c] tag => [⟨.char, (i, i), c⟩, ⟨.textTag, (i, i), tag⟩]
  | .Text _ tag => [⟨.textTag, (i, i), tag⟩]
  | .Value => []

/-- the attributes of the tokens of a fresh line -/
def builtinHistory (W : World) (toks : List LToken) : History W :=
  toks.zipIdx.flatMap (fun p => builtinOf W p.1 p.2)

/-- the custom attributes of the inputs; the first input's tokens start at index `i` -/
def inputHistory (W : World) (size : Str → Nat) : Nat → List (InputToken W) → History W
  | _, [] => []
  | i, t :: ts =>
    let n := (tokensOf W size t).length
    t.attrList.map (fun a => ⟨a.value.ty, (i, i + n - 1), a.value.val⟩) ++ inputHistory W size (i + n) ts

/-- everything assigned when a line is created -/
def creationHistory (W : World) (size : Str → Nat) (input : List (InputToken W)) : History W :=
  builtinHistory W ((input.flatMap (tokensOf W size)).map (·.1)) ++ inputHistory W size 0 input

/-- an assignment returned by a resolver, as a record -/
def recOf (k : Ty W) (a : LLCursorAssignment (Val k)) : Rec W := ⟨k, (a.start_idx, a.end_idx), a.value⟩

/-- the selection `run` hands to a resolver: the whole line -/
def wholeLine (l : LLLine W) (ptr : Nat) : LLSelection W :=
  { ll_line := ⟨ptr, l⟩, start_idx := 0, end_idx := l.ll_tokens.length - 1 }

/-- `Reachable l h`: line `l` comes from some creation followed by any number of runs of arbitrary
resolvers, and `h` lists everything assigned on the way. -/
inductive Reachable {W : World} : LLLine W → History W → Prop
  | create (input : List (InputToken W)) (size : Str → Nat) (l : LLLine W)
      (wf : ∀ t ∈ input, t.WF) (ok : createLineFromInputTokens W input size = .ok l) :
      Reachable l (creationHistory W size input)
  | run (l : LLLine W) (h : History W) (ptr : Nat) (r : Resolver W)
      (asgs : List (LLCursorAssignment (Val r.attr))) (leaked : Bool) (l' : LLLine W)
      (prev : Reachable l h) (ne : l.ll_tokens ≠ [])
      (go : r.go (wholeLine l ptr) = .ok (asgs, leaked))
      (ok : l.run ptr r = .ok l') :
      Reachable l' (h ++ asgs.map (recOf r.attr))
  | runEmpty (l : LLLine W) (h : History W) (ptr : Nat) (r : Resolver W) (l' : LLLine W)
      (prev : Reachable l h) (empty : l.ll_tokens = []) (ok : l.run ptr r = .ok l') :
      Reachable l' h

end LNlp
