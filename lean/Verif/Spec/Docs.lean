import Verif.Spec.EndToEnd
import Verif.Spec.Laws
/- Vocabulary for claims made in the documentation comments of the library. -/
namespace LNlp
variable {W : World}

/-- UAX #29: there is a word boundary before every hyphen-minus and every en dash (both have the word break
class Other, so only rule WB999 applies before them) -/
def DashBreak (W : World) : Prop :=
  ∀ s, ∀ w ∈ W.splitWordBounds s, ∀ c ∈ w.tail, c ≠ '-' ∧ c ≠ '–'

/-- apply a function to the value of the alternative that matched -/
def AnyOf2.map {α α' β β' : Type} (f : α → α') (g : β → β') : AnyOf2 α β → AnyOf2 α' β'
  | .A a => .A (f a)
  | .B b => .B (g b)

/-- on line `l` the matcher `m` only ever matches one token -/
def MatchesOneToken {Out : Type} (m : XMatch W Out) (l : LLLine W) : Prop :=
  ∀ i, i < l.ll_tokens.length → ∀ out, m.go (.fwd i) l = .ok out → ∀ x ∈ out, x.2 = i

end LNlp
