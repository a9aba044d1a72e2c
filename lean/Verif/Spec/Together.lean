import Verif.Spec.Parts
/- Specification vocabulary: pipelines in which several stages assign the same type, on a line put together from parts. -/
namespace LNlp
variable {W : World}

/-- the attributes of type `k` of `lx`, and those of `ly`, counted from behind `lx`, in any order; the values of a range
are in the same order -/
def QueryTogether (l lx ly : LLLine W) (k : Ty W) : Prop :=
  (queried l k).Perm (queried lx k ++ (queried ly k).map (shiftEntry lx.ll_tokens.length))

/-- no stage assigns the types that the creation of the line assigns -/
def OwnTypes (ss : List (Stage W)) : Prop := ∀ s ∈ ss, s.resolver.attr ≠ .char ∧ s.resolver.attr ≠ .textTag

end LNlp
