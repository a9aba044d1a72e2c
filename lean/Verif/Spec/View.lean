import Verif.Spec.Program
import Verif.Spec.Fuse
/-
What resolvers can tell apart (C133).
-/
namespace LNlp
variable {W : World}

/-- the lines show the same token texts, and at every place, in both directions, the same attributes in the same
order -/
def Looks (l l' : LLLine W) : Prop :=
  l.ll_tokens.map (·.token) = l'.ll_tokens.map (·.token) ∧ ∀ (k : Ty W) d, (X.attr k).go d l = (X.attr k).go d l'

/-- For every type, the ranges that start at one token came in the same order, so did the ranges that end at one
token, and every range has the same values in the same order.  Nothing is said about the order of assignments of
different types, of assignments to ranges that share no end, or of an assignment to a range and a second value of
another range. -/
def SameOrder (h h' : History W) : Prop :=
  ∀ k : Ty W, (∀ i, (rangesOf k h).filter (fun r => decide (r.1 = i)) = (rangesOf k h').filter (fun r => decide (r.1 = i))) ∧
    (∀ i, (rangesOf k h).filter (fun r => decide (r.2 = i)) = (rangesOf k h').filter (fun r => decide (r.2 = i))) ∧
    ∀ r, valuesOf k r h = valuesOf k r h'

/-- both panic alike, or both succeed with lines that look the same -/
def LooksResult (x y : R (LLLine W)) : Prop :=
  match x, y with
  | .ok l, .ok l' => Looks l l'
  | .error e, .error e' => e = e'
  | _, _ => False

/-- all resolvers written against the public API do the same on both lines -/
def NoResolverTells (l l' : LLLine W) : Prop :=
  ∀ r : Resolver W, ByApi (fun m => Builtin m) r → ∀ ptr ptr', r.go (wholeLine l ptr) = r.go (wholeLine l' ptr')

end LNlp
