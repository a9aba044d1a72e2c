import Verif.Spec.Steps
import Verif.Spec.EndToEnd
/- Specification vocabulary: steps that do nothing with a given text, checked one by one. -/
namespace LNlp
variable {W : World}

/-- the resolver of the library has nothing to say about a token with this text -/
def Stage.Silent (w : Str) : Stage W → Prop
  | .table t => (t.lookup (if t.case_sensitive then w else W.toLowercase w)).getD [] = []
  | .pos => ∀ l, createLineFromString W w = .ok l → tagAt l 0 ≠ some .WORD
  | .keywords r => ∀ kw, ¬ IsKeyword r (W.toLowercase w) kw
  | .clauses => False
  | .amounts _ => True

/-- the rule, by itself, stops on a text that is just this, and has no exception over it -/
def ERule.StopsOn (w : Str) (r : ERule W) : Prop :=
  ∀ l, createLineFromString W w = .ok l → r.Stops l (· ∈ creationHistory W utf8Len [.Text w []]) 0 ∧
    r.pat.Clear l (· ∈ creationHistory W utf8Len [.Text w []]) 0

/-- the step by itself does nothing with a text that is just this -/
def Step.Silent (w : Str) : Step W → Prop
  | .stage s => s.Silent w
  | .rule _ r => r.StopsOn w
  | .erule _ r => r.StopsOn w

end LNlp
