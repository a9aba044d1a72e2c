import Verif.Spec.Tokenize
/- Positions as names of tokens. -/
namespace LNlp
variable {W : World}

/-- no token has size zero: texts have a size, custom tokens too -/
def TakesSpace (size : Str → Nat) (input : List (InputToken W)) : Prop :=
  (∀ s : Str, s ≠ [] → 0 < size s) ∧ ∀ n as, InputToken.Custom n as ∈ input → 0 < n

/-- the position at which token `i` starts -/
def startPos (l : LLLine W) (i : Nat) : Nat := ((l.ll_tokens[i]?).map (·.pos_starts_at)).getD 0
/-- the position at which token `i` ends -/
def endPos (l : LLLine W) (i : Nat) : Nat := ((l.ll_tokens[i]?).map (·.pos_ends_at)).getD 0

end LNlp
