import Verif.Spec.Select
/- What resolvers can select (C151): where attributes begin and end. -/
namespace LNlp
variable {W : World}

/-- before token `c` the line or an attribute begins or ends -/
def Edge (l : LLLine W) (h : History W) (c : Nat) : Prop :=
  c = 0 ∨ c = l.ll_tokens.length ∨ ∃ x ∈ h, x.range.1 = c ∨ x.range.2 + 1 = c

/-- … or it is the place behind token 0, and an attribute begins at token 0: `trim_end` keeps token 0 of such an attribute (C50) -/
def Cuttable (l : LLLine W) (h : History W) (c : Nat) : Prop :=
  Edge l h c ∨ (c = 1 ∧ ∃ x ∈ h, x.range.1 = 0)

/-- the attribute lies on token `i` -/
def Rec.On (x : Rec W) (i : Nat) : Prop := x.range.1 ≤ i ∧ i ≤ x.range.2

/-- where a match from this position starts, an attribute starts (ends, if backwards) -/
def Dir.From (h : History W) : Dir → Prop
  | .fwd i => ∃ x ∈ h, x.range.1 = i
  | .bwd i => ∃ x ∈ h, x.range.2 = i

/-- where it ends, an attribute ends (starts, if backwards) -/
def Dir.To (h : History W) : Dir → Nat → Prop
  | .fwd _, j => ∃ x ∈ h, x.range.2 = j
  | .bwd _, j => ∃ x ∈ h, x.range.1 = j

/-- `HonestFrom l0 h0 l h`: line `l` with everything assigned so far, `h`, comes from `l0` with `h0` by any number of honest runs -/
inductive HonestFrom {W : World} (l0 : LLLine W) (h0 : History W) : LLLine W → History W → Prop
  | refl : HonestFrom l0 h0 l0 h0
  | run {l : LLLine W} {h : History W} (ptr : Nat) (r : Resolver W) (asgs : List (LLCursorAssignment (Val r.attr))) {l' : LLLine W}
      (prev : HonestFrom l0 h0 l h) (ne : l.ll_tokens ≠ []) (honest : HonestRun l ptr r asgs) (ok : l.run ptr r = .ok l') :
      HonestFrom l0 h0 l' (h ++ asgs.map (recOf r.attr))
  | runEmpty {l : LLLine W} {h : History W} (ptr : Nat) (r : Resolver W) {l' : LLLine W}
      (prev : HonestFrom l0 h0 l h) (empty : l.ll_tokens = []) (ok : l.run ptr r = .ok l') : HonestFrom l0 h0 l' h

/-- the resolver that puts one attribute on the whole line -/
def markLine (k : Ty W) (v : Val k) : Resolver W := { attr := k, go := fun s => .ok ([s.finishWithAttr v], false) }

end LNlp
