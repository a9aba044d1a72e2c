import Verif.Spec.Exceptions
/- Resolvers in order of priority (C149): each assigns attributes of one type only at tokens where no attribute of this type
begins yet. -/
namespace LNlp
variable {W : World}

/-- what to look for, and the values of type `k` to assign there -/
structure Reading (W : World) (k : Ty W) where
  Found : Type
  pat : EPat W Found
  values : Found → List (Val k)

variable {k : Ty W}

/-- as a rule that assigns everywhere -/
def Reading.rule (r : Reading W k) : ERule W := ⟨k, r.Found, r.pat, r.values⟩

/-- as a rule that assigns only where no attribute of the type begins: it looks for `X.unless(pat, x::attr::<K>())` -/
def Reading.guarded (r : Reading W k) : ERule W := ⟨k, r.Found, .unless r.pat (.attr k), r.values⟩

/-- the reading does not itself look at attributes of the type -/
def Reading.Blind (r : Reading W k) : Prop := ¬ r.pat.Mentions k ∧ ¬ r.pat.Excepts k

/-- `x::any_of((a, b))` as one reading -/
def Reading.orElse (a b : Reading W k) : Reading W k :=
  ⟨AnyOf2 a.Found b.Found, .anyOf a.pat b.pat, fun f => match f with
    | .A x => a.values x
    | .B y => b.values y⟩

/-- `x::any_of((a, x::any_of((b, …))))` -/
def Reading.firstOf (a : Reading W k) : List (Reading W k) → Reading W k
  | [] => a
  | b :: rest => a.orElse (b.firstOf rest)

/-- no attribute of type `k` begins at token `i` -/
def FreeAt (k : Ty W) (h : History W) (i : Nat) : Prop := ∀ x ∈ h, x.ty = k → x.range.1 ≠ i

/-- the reading concludes the fact from the facts `h` -/
def Reading.Reads (l : LLLine W) (h : History W) (r : Reading W k) (x : Rec W) : Prop :=
  ∃ i j found v, r.pat.Holds l (· ∈ h) (· ∈ h) i j found ∧ v ∈ r.values found ∧ x = ⟨k, (i, j), v⟩

/-- at every token, forwards, the same attributes in the same order; and queries list the same ranges and texts, each with
the same values in the same order, but perhaps in another order of the ranges -/
def SameForwards (l l' : LLLine W) : Prop :=
  (∀ t i, (X.attr t).go (.fwd i) l = (X.attr t).go (.fwd i) l') ∧
  ∀ t, ∃ q q', l.query t = .ok q ∧ l'.query t = .ok q' ∧ q.Perm q'

/-- one run of each, in this order -/
def priorityRuns (prog : List (Nat × Reading W k)) : List (Nat × Resolver W) :=
  prog.map (fun p => (p.1, p.2.guarded.resolver))

end LNlp
