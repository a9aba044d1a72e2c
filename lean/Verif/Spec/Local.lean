import Verif.Spec.Compose
import Verif.Spec.Match
/- Specification vocabulary: the part of a line a matcher can look at. -/
namespace LNlp
variable {W : World}

/-- the record with its range counted from token `n` -/
def Rec.from (n : Nat) (x : Rec W) : Rec W := ⟨x.ty, (x.range.1 - n, x.range.2 - n), x.val⟩

/-- the tokens from `n` on, without their positions -/
def tokensFrom (n : Nat) (l : LLLine W) : List LToken := (l.ll_tokens.drop n).map (·.token)

/-- the assignments on ranges that start at token `n` or later, counted from `n` -/
def recordsFrom (n : Nat) (h : History W) : History W :=
  (h.filter (fun x => decide (n ≤ x.range.1))).map (Rec.from n)

/-- the tokens up to `n`, without their positions -/
def tokensUpTo (n : Nat) (l : LLLine W) : List LToken := (l.ll_tokens.take (n + 1)).map (·.token)

/-- the assignments on ranges that end at token `n` or earlier -/
def recordsUpTo (n : Nat) (h : History W) : History W := h.filter (fun x => decide (x.range.2 ≤ n))

/-- the spans and values of found matches, with `n` added to the token indexes -/
def spansAt {Out : Type} (n : Nat) : R (List (LLSelection W × Out)) → R (List ((Nat × Nat) × Out))
  | .error e => .error e
  | .ok rs => .ok (rs.map (fun r => ((r.1.start_idx + n, r.1.end_idx + n), r.2)))

end LNlp
