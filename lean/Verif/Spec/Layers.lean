import Verif.Spec.Program
import Verif.Spec.Pipeline
/- README.md, "Layering", for resolvers of any kind (with choices, negations and computations of their own): what the
finished line is, said without the order of the runs. -/
namespace LNlp
variable {W : World}

/-- the assignments of one type, oldest first -/
def ofType (k : Ty W) (h : History W) : History W := h.filter (fun x => decide (x.ty = k))

/-- In layers: the attribute types are all different, and no resolver looks at the type that it, or a later one,
assigns. `looks a k` says that the resolver of type `a` looks at attributes of type `k`. -/
def InLayers (looks : Ty W → Ty W → Prop) : List (Resolver W) → Prop
  | [] => True
  | r :: rs => (∀ r' ∈ r :: rs, ¬ looks r.attr r'.attr) ∧ (∀ r' ∈ rs, r'.attr ≠ r.attr) ∧ InLayers looks rs

/-- `l'` is `l` together with what each of the resolvers `rs` answers when it is asked about `l'` itself: of the
type of a resolver, `l'` has the attributes of `l` and then the answers of that resolver on `l'`; of other types,
the attributes of `l`. The order of `rs` does not enter. -/
structure Consistent (l : LLLine W) (h : History W) (rs : List (Resolver W)) (l' : LLLine W) (h' : History W) : Prop where
  reachable : Reachable l' h'
  tokens : l'.ll_tokens = l.ll_tokens
  answered : ∀ r ∈ rs, ∃ asgs, (∀ ptr, r.go (wholeLine l' ptr) = .ok (asgs, false)) ∧
    ofType r.attr h' = ofType r.attr h ++ asgs.map (recOf r.attr)
  others : ∀ k, (∀ r ∈ rs, r.attr ≠ k) → ofType k h' = ofType k h

end LNlp
