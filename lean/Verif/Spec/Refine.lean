import Verif.Spec.Sentences
import Verif.Spec.Amount
/- Specification vocabulary: comparing configurations of the keyword resolver and of the amount resolver. -/
namespace LNlp
variable {W : World}

/-- `w` is a keyword of one of the three lists -/
def ClauseKeywordResolver.Word (r : ClauseKeywordResolver) (w : Str) : Prop :=
  w ∈ r.cond_start ∨ w ∈ r.and ∨ w ∈ r.then_

/-- range `a` lies in range `b` -/
def Within (a b : LRange) : Prop := b.1 ≤ a.1 ∧ a.2 ≤ b.2

/-- no two neighbouring tokens are numbers -/
def NumbersApart (l : LLLine W) (h : History W) : Prop := ∀ i t u, NumAt l h i t → ¬ NumAt l h (i + 1) u

end LNlp
