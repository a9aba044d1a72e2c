import Verif.Spec.Sentences
/- Specification vocabulary: clauses of a line made of many parts, all but the last of which end a sentence. -/
namespace LNlp
variable {W : World}

/-- all the lines but the last end a sentence -/
def SentencesEnd (r : ClauseKeywordResolver) : List (LLLine W) → Prop
  | [] => True
  | [_] => True
  | l :: m :: ls => EndsSentence r l ∧ SentencesEnd r (m :: ls)

/-- the number of tokens of several lines -/
def tokenCount (ls : List (LLLine W)) : Nat := (ls.map (fun l => l.ll_tokens.length)).sum

/-- a line with its clauses -/
abbrev WithClauses (W : World) := LLLine W × List (LRange × Str × List Clause)

/-- the lines that `make` makes from the parts, none of them empty, with their clauses -/
def ClausedAll {α : Type} (make : α → R (LLLine W)) (r : ClauseKeywordResolver) : List α → List (WithClauses W) → Prop
  | [], [] => True
  | x :: xs, p :: ps => make x = .ok p.1 ∧ p.1.ll_tokens ≠ [] ∧ ClauseQuery r p.1 p.2 ∧ ClausedAll make r xs ps
  | _, _ => False

/-- one of the clauses is a condition -/
def HasCondition (p : WithClauses W) : Prop := ∃ c ∈ p.2, c.2.2 = [.Condition]

/-- the clause of kind `kind` on tokens `i ..= j` that reads `text` comes from one of the parts: it is there on the range
counted from the start of that part, and its kind there becomes `kind` in view of the parts before and behind -/
def FromPart (r : ClauseKeywordResolver) (ps : List (WithClauses W)) (i j : Nat) (text : Str) (kind : Clause) : Prop :=
  ∃ before p behind i' j' k, ps = before ++ p :: behind ∧ i = tokenCount (before.map (·.1)) + i' ∧
    j = tokenCount (before.map (·.1)) + j' ∧ ((i', j'), text, [k]) ∈ p.2 ∧
    kind = kindWithin (∃ o ∈ before ++ behind, HasPart r o.1) (∃ o ∈ before, HasCondition o) (AfterThen r p.1 i') k

end LNlp
