import Verif.Spec.Display
import Verif.Spec.EndToEnd
/- Specification vocabulary: what the rendering of a line shows of its queries. -/
namespace LNlp
variable {W : World}

/-- the entries of a query of type `k`, none if it panics -/
def queried (l : LLLine W) (k : Ty W) : List (LRange × Str × List (Val k)) :=
  match l.query k with
  | .ok q => q
  | .error _ => []

/-- the values of query entries with their ranges, the newest value of a range first -/
def entryLines (k : Ty W) (q : List (LRange × Str × List (Val k))) : List (LRange × Str) :=
  q.flatMap (fun e => e.2.2.reverse.map (fun v => (e.1, valDbg k v)))

/-- a line shown with the types `ks` reads `out` -/
def Shows (l : LLLine W) (ks : List (Ty W)) (out : Str) : Prop := ∃ d, displayWith l ks = .ok d ∧ d.fmt = .ok out

/-- the name of a clause kind -/
def Clause.kindName : Clause → String
  | .LeadingEffect => "LeadingEffect" | .TrailingEffect => "TrailingEffect"
  | .Condition => "Condition" | .Independent => "Independent"
/-- the name of a clause keyword -/
def ClauseKeyword.kindName : ClauseKeyword → String
  | .ConditionStart => "ConditionStart" | .Then => "Then" | .And => "And"
/-- the name of a text tag -/
def TextTag.kindName : TextTag → String
  | .NATN => "NATN" | .PUNC => "PUNC" | .SYMB => "SYMB" | .SPACE => "SPACE" | .WORD => "WORD"

end LNlp
