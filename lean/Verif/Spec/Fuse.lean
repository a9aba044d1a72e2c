import Verif.Spec.Case
/- Specification vocabulary: assigning in one run or in several. -/
namespace LNlp
variable {W : World}

/-- a resolver that returns these assignments -/
def assigning (k : Ty W) (as : List (LLCursorAssignment (Val k))) : Resolver W := ⟨k, fun _ => .ok (as, false)⟩

/-- run one resolver, then another -/
def runTwo (l : LLLine W) (p : Nat) (a : Resolver W) (q : Nat) (b : Resolver W) : R (LLLine W) :=
  match l.run p a with
  | .error e => .error e
  | .ok l' => l'.run q b

/-- the assignments on ranges that start at token `i`, in order -/
def startingAt (i : Nat) (h : History W) : History W := h.filter (fun x => decide (x.range.1 = i))
/-- the assignments on ranges that end at token `i`, in order -/
def endingAt (i : Nat) (h : History W) : History W := h.filter (fun x => decide (x.range.2 = i))

/-- the table `m` gives every text the values of `a` followed by those of `b` -/
structure Merges {k : Ty W} (m a b : TextMatchAssignResolver W k) : Prop where
  caseA : a.case_sensitive = m.case_sensitive
  caseB : b.case_sensitive = m.case_sensitive
  values : ∀ t, (m.lookup t).getD [] = (a.lookup t).getD [] ++ (b.lookup t).getD []

end LNlp
