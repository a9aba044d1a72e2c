import Verif.Spec.Tokenize
/- Specification functions for attributes given with the input, and for lines whose attributes never
run backwards. -/
namespace LNlp
variable {W : World}

/-- the whole text of an input; a custom input has none -/
def InputToken.str : InputToken W → Str
  | .Text s _ => s
  | .Custom _ _ => []

/-- the values of type `k` given with an input token, in the given order -/
def InputToken.valuesOf (k : Ty W) (t : InputToken W) : List (Val k) :=
  t.attrList.filterMap (fun a => if h : a.value.ty = k then some (h ▸ a.value.val) else none)

/-- the token ranges of the inputs: the groups follow each other, starting at index `i` -/
def inputSpans (W : World) (size : Str → Nat) : Nat → List (InputToken W) → List (LRange × InputToken W)
  | _, [] => []
  | i, t :: ts =>
    let n := (tokensOf W size t).length
    ((i, i + n - 1), t) :: inputSpans W size (i + n) ts

/-- every record of the history starts at or before the token where it ends -/
def Ordered (h : History W) : Prop := ∀ x ∈ h, x.range.1 ≤ x.range.2

end LNlp
