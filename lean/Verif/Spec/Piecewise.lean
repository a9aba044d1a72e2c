import Verif.Spec.Amount
import Verif.Spec.Compose
/- Specification vocabulary: what a resolver assigns on a line put together from two parts. -/
namespace LNlp
variable {W : World}

/-- the assignment `n` tokens further right -/
def LLCursorAssignment.shift {α : Type} (n : Nat) (a : LLCursorAssignment α) : LLCursorAssignment α :=
  { start_idx := a.start_idx + n, end_idx := a.end_idx + n, value := a.value }

/-- what was assigned on the first part, then what was assigned on the second part (which begins at token
`n`); the first panic if there is one -/
def joinAssigned {α : Type} (n : Nat) (x y : R (List (LLCursorAssignment α))) : R (List (LLCursorAssignment α)) :=
  match x with
  | .error e => .error e
  | .ok as =>
    match y with
    | .error e => .error e
    | .ok bs => .ok (as ++ bs.map (LLCursorAssignment.shift n))

/-- token `i` cannot belong to an amount: it is no number, no delimiter and no decimal point -/
def Separator (r : AmountResolver) (l : LLLine W) (h : History W) (i : Nat) : Prop :=
  (∀ t, ¬ NumAt l h i t) ∧ ¬ DelimAt r h i ∧ ¬ DecAt r h i

end LNlp
