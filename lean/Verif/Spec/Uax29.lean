import Verif.Spec.Laws
/- Unicode Standard Annex #29, section 4 (default word boundaries), the specification of
`UnicodeSegmentation::split_word_bounds` (crate unicode-segmentation, used in src/create_tokens.rs).  The table of the
word break classes of characters is a parameter. -/
namespace LNlp

/-- values of the property Word_Break -/
inductive WB
  | cr | lf | newline | extend | zwj | format | regional | katakana | hebrew | aletter | singleQuote | doubleQuote
  | midNumLet | midLetter | midNum | numeric | extendNumLet | wSegSpace | other
deriving DecidableEq, Repr

/-- what the rules look at in a character: its class, and whether it is Extended_Pictographic -/
structure WBChar where
  cls : WB
  pict : Bool
deriving DecidableEq, Repr

namespace WB
/-- rules WB3a and WB3b -/
def isNewline : WB → Bool
  | cr | lf | newline => true
  | _ => false
/-- rule WB4 -/
def ignored : WB → Bool
  | extend | format | zwj => true
  | _ => false
/-- the macro AHLetter -/
def ahLetter : WB → Bool
  | aletter | hebrew => true
  | _ => false
/-- `MidLetter | MidNumLetQ` -/
def midL : WB → Bool
  | midLetter | midNumLet | singleQuote => true
  | _ => false
/-- `MidNum | MidNumLetQ` -/
def midN : WB → Bool
  | midNum | midNumLet | singleQuote => true
  | _ => false
/-- `AHLetter | Numeric | Katakana` -/
def wordy : WB → Bool
  | aletter | hebrew | numeric | katakana => true
  | _ => false
end WB

/-- the classes that rules WB5 to WB16 see (WB4: `X (Extend | Format | ZWJ)* → X`) -/
def bases (cs : List WBChar) : List WB := (cs.map (·.cls)).filter (fun c => !c.ignored)

/-- rules WB5 to WB16 at one place: the class before, the class before that, the class after, the class after that,
and whether the number of Regional_Indicators directly before is odd -/
def wbRules (l1 l2 r1 r2 : Option WB) (oddRI : Bool) : Bool :=
  let is (p : WB → Bool) (o : Option WB) : Bool := o.any p
  (is WB.ahLetter l1 && is WB.ahLetter r1)                                        -- WB5
  || (is WB.ahLetter l1 && is WB.midL r1 && is WB.ahLetter r2)                      -- WB6
  || (is WB.ahLetter l2 && is WB.midL l1 && is WB.ahLetter r1)                      -- WB7
  || (l1 == some .hebrew && r1 == some .singleQuote)                          -- WB7a
  || (l1 == some .hebrew && r1 == some .doubleQuote && r2 == some .hebrew)    -- WB7b
  || (l2 == some .hebrew && l1 == some .doubleQuote && r1 == some .hebrew)    -- WB7c
  || (l1 == some .numeric && r1 == some .numeric)                             -- WB8
  || (is WB.ahLetter l1 && r1 == some .numeric)                                 -- WB9
  || (l1 == some .numeric && is WB.ahLetter r1)                                 -- WB10
  || (l2 == some .numeric && is WB.midN l1 && r1 == some .numeric)              -- WB11
  || (l1 == some .numeric && is WB.midN r1 && r2 == some .numeric)              -- WB12
  || (l1 == some .katakana && r1 == some .katakana)                           -- WB13
  || ((is WB.wordy l1 || l1 == some .extendNumLet) && r1 == some .extendNumLet) -- WB13a
  || (l1 == some .extendNumLet && is WB.wordy r1)                               -- WB13b
  || (oddRI && r1 == some .regional)                                          -- WB15, WB16

/-- how many Regional_Indicators there are at the front -/
def countRI : List WB → Nat
  | .regional :: cs => countRI cs + 1
  | _ => 0

/-- there is no word boundary between `bef` (nearest character first) and `aft`, both not empty -/
def joins (bef aft : List WBChar) : Bool :=
  match bef, aft with
  | l :: _, r :: aft' =>
    if l.cls = .cr ∧ r.cls = .lf then true                          -- WB3
    else if l.cls.isNewline then false                              -- WB3a
    else if r.cls.isNewline then false                              -- WB3b
    else if l.cls = .zwj ∧ r.pict = true then true                  -- WB3c
    else if l.cls = .wSegSpace ∧ r.cls = .wSegSpace then true       -- WB3d
    else if r.cls.ignored then true                                 -- WB4
    else wbRules (bases bef)[0]? (bases bef)[1]? (some r.cls) (bases aft')[0]? (decide (countRI (bases bef) % 2 = 1))
  | _, _ => false                                                   -- WB1, WB2

/-- the words: `bef` are the characters so far, nearest first, `cur` the word so far -/
def wordsGo (cls : Char → WBChar) (bef cur : Str) : Str → List Str
  | [] => [cur]
  | c :: rest =>
    if joins (bef.map cls) ((c :: rest).map cls) then wordsGo cls (c :: bef) (cur ++ [c]) rest
    else cur :: wordsGo cls (c :: bef) [c] rest

/-- the words of a text -/
def uaxWords (cls : Char → WBChar) : Str → List Str
  | [] => []
  | c :: rest => wordsGo cls [c] [c] rest

/-- The world splits words as UAX #29 says, with a table that has ASCII letters and digits, the hyphen and the en dash
where the Unicode Character Database has them. -/
structure Uax29 (W : World) (cls : Char → WBChar) : Prop where
  split : ∀ s, W.splitWordBounds s = uaxWords cls s
  letter : ∀ c : Char, c.toNat < 128 → W.isAlphabetic c = true → (cls c).cls = .aletter
  digit : ∀ c : Char, IsDigit c → (cls c).cls = .numeric
  hyphen : cls '-' = ⟨.other, false⟩
  enDash : cls '–' = ⟨.other, false⟩

/-- `t` is `s` with every character replaced by one of the same class (its case changed), after letters possibly with
combining marks added, as in the lowercase of `İ`; digits are kept and made from digits only -/
inductive Lowers (cls : Char → WBChar) : Str → Str → Prop
  | nil : Lowers cls [] []
  | cons (c d : Char) (ext : Str) {s t : Str} (same : (cls d).cls = (cls c).cls) (marks : ∀ e ∈ ext, (cls e).cls = .extend)
      (letter : ext ≠ [] → (cls c).cls = .aletter) (digit : IsDigit c ∨ IsDigit d → d = c ∧ ext = []) (rest : Lowers cls s t) :
      Lowers cls (c :: s) (d :: (ext ++ t))

/-- what the Unicode Character Database has about lowercasing, and about the only character of class ZWJ -/
structure LowerTable (W : World) (cls : Char → WBChar) : Prop where
  lowers : ∀ s, Lowers cls s (W.toLowercase s)
  zwj : ∀ c, (cls c).cls = .zwj → c = '\u200d'

end LNlp
