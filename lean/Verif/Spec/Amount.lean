import Verif.Spec.Resolve
/- Specification of the amount resolver: the grammar of amounts over the tokens of a line. -/
namespace LNlp
variable {W : World}

/-- token `i` is a text token `t` tagged as a number -/
def NumAt (l : LLLine W) (h : History W) (i : Nat) (t : Str) : Prop :=
  textAt l i = some t ∧ TextTag.NATN ∈ tagsOn h i

/-- the `char` attributes on token `i` -/
def charsOn (h : History W) (i : Nat) : List Char := valuesOf (W := W) .char (i, i) h

/-- token `i` is a delimiter -/
def DelimAt (r : AmountResolver) (h : History W) (i : Nat) : Prop := ∃ c ∈ charsOn h i, c ∈ r.delimiters

/-- token `i` is a decimal point -/
def DecAt (r : AmountResolver) (h : History W) (i : Nat) : Prop := r.decimal ∈ charsOn h i

/-- token `i` carries an attribute of some type -/
def HasAttr (h : History W) (i : Nat) : Prop := ∃ x ∈ h, x.range = (i, i)

/-- tokens `a ..= e` are digit groups with one delimiter between any two; `s` is the groups without the
delimiters -/
inductive Groups (r : AmountResolver) (l : LLLine W) (h : History W) : Nat → Nat → Str → Prop
  | one {a : Nat} {t : Str} : NumAt l h a t → Groups r l h a a t
  | more {a e : Nat} {s t : Str} : Groups r l h a e s → DelimAt r h (e + 1) → NumAt l h (e + 2) t →
      Groups r l h a (e + 2) (s ++ t)

/-- What follows the groups that end at token `e` and read `s`: the amount ends at token `b`, its number is
`str`, and the search goes on at token `next`. -/
inductive AmountEnd (r : AmountResolver) (l : LLLine W) (h : History W) (e : Nat) (s : Str) : Nat → Str → Nat → Prop
  /-- a delimiter that no digits follow does not belong to the amount -/
  | trailing : DelimAt r h (e + 1) → (∀ t, ¬ NumAt l h (e + 2) t) → AmountEnd r l h e s e s (e + 2)
  /-- a decimal point and one more group -/
  | fraction {t : Str} : ¬ DelimAt r h (e + 1) → DecAt r h (e + 1) → NumAt l h (e + 2) t →
      AmountEnd r l h e s (e + 2) (s ++ ['.'] ++ t) (e + 3)
  /-- a decimal point without digits after it does not belong to the amount, but to the number -/
  | point : ¬ DelimAt r h (e + 1) → DecAt r h (e + 1) → (∀ t, ¬ NumAt l h (e + 2) t) →
      AmountEnd r l h e s e (s ++ ['.']) (e + 2)
  /-- an adjacent number token is appended -/
  | adjacent {t : Str} : ¬ DelimAt r h (e + 1) → ¬ DecAt r h (e + 1) → NumAt l h (e + 1) t →
      AmountEnd r l h e s (e + 1) (s ++ t) (e + 2)
  /-- anything else, or the end of the line -/
  | plain : ¬ DelimAt r h (e + 1) → ¬ DecAt r h (e + 1) → (∀ t, ¬ NumAt l h (e + 1) t) →
      AmountEnd r l h e s e s (e + 1)

/-- token `i` can be tested for characters: it carries an attribute or lies behind the end of the line -/
def Testable (l : LLLine W) (h : History W) (i : Nat) : Prop := i < l.ll_tokens.length → HasAttr h i

/-- an amount that starts at token `a` and ends at token `b`, whose number is `str`; the search goes on at
token `next` -/
def IsAmount (r : AmountResolver) (l : LLLine W) (h : History W) (a b : Nat) (str : Str) (next : Nat) : Prop :=
  ∃ e s, Groups r l h a e s ∧ Testable l h (e + 1) ∧ AmountEnd r l h e s b str next

/-- token `i` is the first number token in `from ..= stop` -/
def FirstNum (l : LLLine W) (h : History W) (start stop i : Nat) : Prop :=
  start ≤ i ∧ i ≤ stop ∧ (∃ t, NumAt l h i t) ∧ ∀ j, start ≤ j → j < i → ∀ t, ¬ NumAt l h j t

/-- the amounts found in tokens `start ..= stop` -/
inductive Amounts (r : AmountResolver) (l : LLLine W) (h : History W) (stop : Nat) :
    Nat → List (LLCursorAssignment W.Decimal) → Prop
  | done {start : Nat} : (∀ j, start ≤ j → j ≤ stop → ∀ t, ¬ NumAt l h j t) → Amounts r l h stop start []
  | next {start i b next : Nat} {str : Str} {d : W.Decimal} {rest : List (LLCursorAssignment W.Decimal)} :
      FirstNum l h start stop i → IsAmount r l h i b str next → W.parseDecimal str = some d →
      Amounts r l h stop next rest → Amounts r l h stop start (⟨i, b, d⟩ :: rest)

/-- the search that begins at token `start` panics with `p` -/
inductive AmountsFail (r : AmountResolver) (l : LLLine W) (h : History W) (stop : Nat) : Panic → Nat → Prop
  /-- a token without attributes follows a digit group -/
  | noAttrs {start i e : Nat} {s : Str} : FirstNum l h start stop i → Groups r l h i e s →
      ¬ Testable l h (e + 1) → AmountsFail r l h stop .noTokenAttrs start
  /-- the number of an amount does not parse -/
  | number {start i b next : Nat} {str : Str} : FirstNum l h start stop i → IsAmount r l h i b str next →
      W.parseDecimal str = none → AmountsFail r l h stop .decimal start
  /-- after an amount -/
  | later {start i b next : Nat} {str : Str} {d : W.Decimal} {p : Panic} : FirstNum l h start stop i →
      IsAmount r l h i b str next → W.parseDecimal str = some d → AmountsFail r l h stop p next →
      AmountsFail r l h stop p start

/-- no configured character is a digit -/
def NoDigits (r : AmountResolver) : Prop := ¬ IsDigit r.decimal ∧ ∀ c ∈ r.delimiters, ¬ IsDigit c

/-- tokens `a, a + 1, …` read `gs[0] seps[0] gs[1] seps[1] … gs[n]`, where the `gs` are non-empty digit strings -/
def Reads (l : LLLine W) (a : Nat) (gs : List Str) (seps : List Char) : Prop :=
  gs.length = seps.length + 1 ∧
  (∀ k (hk : k < gs.length), textAt l (a + 2 * k) = some gs[k] ∧ gs[k] ≠ [] ∧ ∀ c ∈ gs[k], IsDigit c) ∧
  ∀ k (hk : k < seps.length), textAt l (a + 2 * k + 1) = some [seps[k]]

end LNlp
