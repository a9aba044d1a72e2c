import Verif.Spec.Observe
/- Specification of what the resolvers produce on a line, in terms of its tokens only. -/
namespace LNlp
variable {W : World}

/-- the entries of a query if token `i` carries the values `f i` and there are no other ranges: one entry
per token with values, in order -/
def tokenEntries {α : Type} (l : LLLine W) (f : Nat → List α) : List (LRange × Str × List α) :=
  (List.range l.ll_tokens.length).filterMap (fun i =>
    if (f i).isEmpty then none else some ((i, i), (textAt l i).getD [], f i))

/-- the tags POSTagResolver gives token `i`: for a `WORD` token those of the dictionary for its lowercase
text, `Noun` if there are none -/
def wordTags (l : LLLine W) (i : Nat) : List W.Tag :=
  if tagAt l i = some .WORD then
    (W.tagLookup (W.toLowercase ((textAt l i).getD []))).getD [W.nounTag]
  else []

/-- token `i` is the clause keyword `kw` -/
def KeywordAt (r : ClauseKeywordResolver) (l : LLLine W) (i : Nat) (kw : ClauseKeyword) : Prop :=
  ∃ t, textAt l i = some t ∧ IsKeyword r (W.toLowercase t) kw

/-- token `i` separates clauses -/
def Separates (r : ClauseKeywordResolver) (l : LLLine W) (i : Nat) : Prop :=
  (∃ kw, KeywordAt r l i kw) ∨ tagAt l i = some .PUNC

/-- tokens `a ..= b` lie between two separators (or ends of the line) -/
structure IsRun (r : ClauseKeywordResolver) (l : LLLine W) (a b : Nat) : Prop where
  le : a ≤ b
  lt : b < l.ll_tokens.length
  free : ∀ t, a ≤ t → t ≤ b → ¬ Separates r l t
  left : a = 0 ∨ Separates r l (a - 1)
  right : b + 1 = l.ll_tokens.length ∨ Separates r l (b + 1)

/-- `i ..= j` is `a ..= b` without a space token at either end -/
structure Strip (l : LLLine W) (a b i j : Nat) : Prop where
  first : i = if tagAt l a = some .SPACE then a + 1 else a
  last : j + 1 = if tagAt l b = some .SPACE then b else b + 1
  le : i ≤ j

/-- the run starting at `a` follows the keyword `kw` -/
def Follows (r : ClauseKeywordResolver) (l : LLLine W) (a : Nat) (kw : ClauseKeyword) : Prop :=
  0 < a ∧ KeywordAt r l (a - 1) kw

/-- a run before `a` is a condition -/
def ConditionBefore (r : ClauseKeywordResolver) (l : LLLine W) (a : Nat) : Prop :=
  ∃ a' b' i j, b' < a ∧ IsRun r l a' b' ∧ Strip l a' b' i j ∧ Follows r l a' .ConditionStart

/-- the run starting at `a` is the only one -/
def OnlyRun (r : ClauseKeywordResolver) (l : LLLine W) (a : Nat) : Prop := ∀ a' b', IsRun r l a' b' → a' = a

/-- tokens `i ..= j` are a clause of the given kind -/
inductive ClauseAt (r : ClauseKeywordResolver) (l : LLLine W) (i j : Nat) : Clause → Prop
  /-- after a condition word -/
  | condition {a b : Nat} (run : IsRun r l a b) (strip : Strip l a b i j) (kw : Follows r l a .ConditionStart) :
      ClauseAt r l i j .Condition
  /-- the only part of the line -/
  | independent {a b : Nat} (run : IsRun r l a b) (strip : Strip l a b i j) (kw : ¬ Follows r l a .ConditionStart)
      (only : OnlyRun r l a) : ClauseAt r l i j .Independent
  /-- after a then word -/
  | then_ {a b : Nat} (run : IsRun r l a b) (strip : Strip l a b i j) (kw : Follows r l a .Then)
      (several : ¬ OnlyRun r l a) : ClauseAt r l i j .TrailingEffect
  /-- after a condition -/
  | trailing {a b : Nat} (run : IsRun r l a b) (strip : Strip l a b i j) (kw : ¬ Follows r l a .ConditionStart)
      (several : ¬ OnlyRun r l a) (cond : ConditionBefore r l a) : ClauseAt r l i j .TrailingEffect
  /-- before any condition -/
  | leading {a b : Nat} (run : IsRun r l a b) (strip : Strip l a b i j) (kw : ¬ Follows r l a .ConditionStart)
      (kw' : ¬ Follows r l a .Then) (several : ¬ OnlyRun r l a) (cond : ¬ ConditionBefore r l a) :
      ClauseAt r l i j .LeadingEffect

end LNlp
