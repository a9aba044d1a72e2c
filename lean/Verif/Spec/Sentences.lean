import Verif.Spec.EndToEnd
/- Specification vocabulary: clauses of a line made of two parts, the first of which ends a sentence. -/
namespace LNlp
variable {W : World}

/-- the line ends with a punctuation token that is no clause keyword -/
structure EndsSentence (r : ClauseKeywordResolver) (l : LLLine W) : Prop where
  ne : 0 < l.ll_tokens.length
  punc : tagAt l (l.ll_tokens.length - 1) = some .PUNC
  plain : ∀ kw, ¬ KeywordAt r l (l.ll_tokens.length - 1) kw

/-- some token of the line does not separate clauses -/
def HasPart (r : ClauseKeywordResolver) (l : LLLine W) : Prop := ∃ a b, IsRun r l a b

/-- token `i` lies in a part that follows a then word -/
def AfterThen (r : ClauseKeywordResolver) (l : LLLine W) (i : Nat) : Prop :=
  ∃ a b, IsRun r l a b ∧ a ≤ i ∧ i ≤ b ∧ Follows r l a .Then

open Classical in
/-- The kind a clause of kind `k` gets in a longer line: `more`, there are parts outside; `condition`, a
condition comes before; `thenWord`, the clause follows a then word. -/
noncomputable def kindWithin (more condition thenWord : Prop) : Clause → Clause
  | .Condition => .Condition
  | .TrailingEffect => .TrailingEffect
  | .LeadingEffect => if condition then .TrailingEffect else .LeadingEffect
  | .Independent =>
    if more then (if condition ∨ thenWord then .TrailingEffect else .LeadingEffect) else .Independent

/-- `q` is the query for clauses after the keyword resolver and the clause resolver ran on the line -/
def ClauseQuery (r : ClauseKeywordResolver) (l : LLLine W) (q : List (LRange × Str × List Clause)) : Prop :=
  ∃ p1 p2 l1 l2, l.run p1 (r.resolver W) = .ok l1 ∧ l1.run p2 (clauseResolver W) = .ok l2 ∧ l2.query .clause = .ok q

end LNlp
