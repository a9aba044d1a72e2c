import Verif.Spec.Local
import Verif.Spec.Grammar
import Verif.Spec.Observe
import Verif.Spec.Once
/- A stretch of a line, seen by itself (C145): the `w` tokens from token `n` on. -/
namespace LNlp
variable {W : World}

/-- the range lies in the stretch -/
def inWindow (n w : Nat) (r : LRange) : Bool := decide (n ≤ r.1) && decide (r.2 < n + w)

/-- the tokens of the stretch, without their positions -/
def tokensIn (n w : Nat) (l : LLLine W) : List LToken := ((l.ll_tokens.drop n).take w).map (·.token)

/-- the assignments on ranges in the stretch, counted from its start -/
def recordsIn (n w : Nat) (h : History W) : History W := (h.filter (fun x => inWindow n w x.range)).map (Rec.from n)

/-- what a matcher found that ends in the stretch, counted from its start -/
def resultsIn {α : Type} (n w : Nat) (rs : List (α × Nat)) : List (α × Nat) :=
  (rs.filter (fun r => decide (r.2 < n + w))).map (fun r => (r.1, r.2 - n))

/-- what a query lists for ranges in the stretch, counted from its start -/
def queryIn (n w : Nat) {β : Type} (q : List (LRange × β)) : List (LRange × β) :=
  (q.filter (fun e => inWindow n w e.1)).map (fun e => ((e.1.1 - n, e.1.2 - n), e.2))

/-- stretches of two lines with the same tokens and the same assignments, in the same order -/
structure SameWindow (l : LLLine W) (h : History W) (n : Nat) (l' : LLLine W) (h' : History W) (n' : Nat) (w : Nat) : Prop where
  fits : n + w ≤ l.ll_tokens.length
  fits' : n' + w ≤ l'.ll_tokens.length
  tokens : tokensIn n w l = tokensIn n' w l'
  records : recordsIn n w h = recordsIn n' w h'

/-- the direction, started `n` tokens further -/
def Dir.from (n : Nat) : Dir → Dir
  | .fwd i => .fwd (n + i)
  | .bwd i => .bwd (n + i)

/-- what a matcher found, in either direction, that ends in the stretch, counted from its start -/
def foundIn {α : Type} (n w : Nat) (rs : List (α × Nat)) : List (α × Nat) :=
  (rs.filter (fun r => decide (n ≤ r.2 ∧ r.2 < n + w))).map (fun r => (r.1, r.2 - n))

/-- a resolver that searches its selection for any expression and assigns values made of what is found -/
structure Finder (W : World) where
  attr : Ty W
  Found : Type
  expr : XMatch W Found
  values : Found → List (Val attr)

/-- `selection.find_by(&expr).into_iter().flat_map(|(sel, x)| values(x).map(|v| sel.finish_with_attr(v))).collect()` -/
def Finder.resolver (r : Finder W) : Resolver W :=
  { attr := r.attr
    go := fun sel => match sel.findBy r.expr with
      | .ok found => .ok (found.flatMap (fun st => (r.values st.2).map (fun v => st.1.finishWithAttr v)), false)
      | .error e => .error e }

/-- the runs of finders, each with its allocation -/
def finderRuns (prog : List (Nat × Finder W)) : List (Nat × Resolver W) := prog.map (fun p => (p.1, p.2.resolver))

/-- the runs of rules, each with its `Rc`; the ones marked look first -/
def mixedRuns (prog : List (Nat × Bool × Rule W)) : List (Nat × Resolver W) :=
  prog.map (fun p => (p.1, if p.2.1 then p.2.2.once else p.2.2.resolver))

end LNlp
