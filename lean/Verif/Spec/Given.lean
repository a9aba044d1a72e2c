import Verif.Spec.Fuse
import Verif.Spec.Compose
/- Specification vocabulary: attributes given with the input, and the same attributes assigned by resolvers. -/
namespace LNlp
variable {W : World}

/-- one resolver for every attribute, run one after the other: each assigns its attribute -/
def assignEach (l : LLLine W) : List (Rec W) → R (LLLine W)
  | [] => .ok l
  | x :: xs =>
    match l.run 0 (assigning x.ty [⟨x.range.1, x.range.2, x.val⟩]) with
    | .error e => .error e
    | .ok l' => assignEach l' xs

/-- the attributes of type `k` among these, as assignments -/
def assignmentsOf (k : Ty W) (h : History W) : List (LLCursorAssignment (Val k)) :=
  h.filterMap (fun x => (x.valAs k).map (fun v => ⟨x.range.1, x.range.2, v⟩))

/-- one resolver for every type, run one after the other: each assigns the attributes of its type -/
def assignTypes (l : LLLine W) (h : History W) : List (Ty W) → R (LLLine W)
  | [] => .ok l
  | k :: ks =>
    match l.run 0 (assigning k (assignmentsOf k h)) with
    | .error e => .error e
    | .ok l' => assignTypes l' h ks

/-- the attributes that the inputs are given with, on the tokens of the inputs; the first input's tokens start at `i` -/
def attrsOfInputs (W : World) (size : Str → Nat) (i : Nat) : List (InputToken W) → List (Rec W)
  | [] => []
  | t :: ts =>
    t.attrList.map (fun a => ⟨a.value.ty, (i, i + (tokensOf W size t).length - 1), a.value.val⟩) ++
      attrsOfInputs W size (i + (tokensOf W size t).length) ts

/-- the input with more attributes -/
def InputToken.with (t : InputToken W) (k : Ty W) (vs : List (Val k)) : InputToken W :=
  match t with
  | .Text s as => .Text s (as ++ vs.map (AnyAttribute.new k))
  | .Custom n as => .Custom n (as ++ vs.map (AnyAttribute.new k))

/-- the assignments of values to whole inputs -/
def onInputs (W : World) (size : Str → Nat) (k : Ty W) (i : Nat) :
    List (InputToken W × List (Val k)) → List (LLCursorAssignment (Val k))
  | [] => []
  | p :: ps =>
    p.2.map (fun v => ⟨i, i + (tokensOf W size p.1).length - 1, v⟩) ++ onInputs W size k (i + (tokensOf W size p.1).length) ps

end LNlp
