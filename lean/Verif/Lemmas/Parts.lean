import Verif.Lemmas.Piecewise
import Verif.Props.Compose
import Verif.Props.Amount
/- Resolvers on lines that look like two lines one after the other. -/
namespace LNlp
variable {W : World}

section
variable {l lx ly : LLLine W} {h hx hy : History W} (J : Joined l h lx hx ly hy) (nex : lx.ll_tokens ≠ []) (ney : ly.ll_tokens ≠ [])
include J nex ney

omit ney in
theorem joined_ne : l.ll_tokens ≠ [] := by
  have := List.length_pos_iff.2 nex
  exact List.length_pos_iff.1 (by rw [J.len]; omega)

theorem joined_table {k : Ty W} (r : TextMatchAssignResolver W k) (p px py : Nat) :
    r.go (wholeLine l p) = joinAssigned lx.ll_tokens.length (r.go (wholeLine lx px)) (r.go (wholeLine ly py)) := by
  have ne := joined_ne J nex
  rw [C58_table r _ (wholeLine_inside ne p), C58_table r _ (wholeLine_inside nex px), C58_table r _ (wholeLine_inside ney py)]
  refine congrArg Except.ok (joined_tokens J nex ney _ _ _ (fun i hi => ?_) (fun i => ?_))
  · unfold tableValues; rw [show textAt (wholeLine l p).ll_line.val i = _ from J.textL i hi]; rfl
  · unfold tableValues; rw [show textAt (wholeLine l p).ll_line.val _ = _ from J.textR i]; rfl

theorem joined_keywords (r : ClauseKeywordResolver) (p px py : Nat) :
    r.go (wholeLine l p) = joinAssigned lx.ll_tokens.length (r.go (wholeLine lx px)) (r.go (wholeLine ly py)) := by
  have ne := joined_ne J nex
  rw [keywordGo_eq r (wholeLine_inside ne p), keywordGo_eq r (wholeLine_inside nex px), keywordGo_eq r (wholeLine_inside ney py)]
  refine congrArg Except.ok (joined_tokens J nex ney _ _ _ (fun i hi => ?_) (fun i => ?_))
  · rw [show textAt (wholeLine l p).ll_line.val i = _ from J.textL i hi]; rfl
  · rw [show textAt (wholeLine l p).ll_line.val _ = _ from J.textR i]; rfl

variable (hr : Reachable l h) (hrx : Reachable lx hx) (hry : Reachable ly hy)
include hr hrx hry

theorem joined_pos (p px py : Nat) :
    posTagGo (wholeLine l p) = joinAssigned lx.ll_tokens.length (posTagGo (wholeLine lx px)) (posTagGo (wholeLine ly py)) := by
  have ne := joined_ne J nex
  rw [C63_pos (s := wholeLine l p) hr (wholeLine_inside ne p),
    C63_pos (s := wholeLine lx px) hrx (wholeLine_inside nex px),
    C63_pos (s := wholeLine ly py) hry (wholeLine_inside ney py)]
  refine congrArg Except.ok (joined_tokens J nex ney _ _ _ (fun i hi => ?_) (fun i => ?_))
  · unfold posTags tagsOn
    rw [show textAt (wholeLine l p).ll_line.val i = _ from J.textL i hi, J.valL _ i hi]; rfl
  · unfold posTags tagsOn
    rw [show textAt (wholeLine l p).ll_line.val _ = _ from J.textR i, J.valR _ i]; rfl

theorem joined_amounts (r : AmountResolver)
    (hsep : Separator r lx hx (lx.ll_tokens.length - 1)) (p px py : Nat) :
    r.go (wholeLine l p) = joinAssigned lx.ll_tokens.length (r.go (wholeLine lx px)) (r.go (wholeLine ly py)) := by
  have ne := joined_ne J nex
  have hpx := List.length_pos_iff.2 nex
  have hpy := List.length_pos_iff.2 ney
  have hn : lx.ll_tokens.length = lx.ll_tokens.length - 1 + 1 := by omega
  have hend : lx.ll_tokens.length + (ly.ll_tokens.length - 1) = l.ll_tokens.length - 1 := by rw [J.len]; omega
  have hstop : lx.ll_tokens.length - 1 ≤ l.ll_tokens.length - 1 := by rw [J.len]; omega
  have D := C67_amounts r (s := wholeLine l p) hr (wholeLine_inside ne p)
  have F := fun e => (C68_panics_iff r (s := wholeLine l p) hr (wholeLine_inside ne p) e).1
  cases hgx : r.go (wholeLine lx px) with
  | error e =>
    have hf := (C68_panics_iff r (s := wholeLine lx px) hrx (wholeLine_inside nex px) e).1.1 hgx
    exact (F e).2 (failL J hn hsep hstop hf)
  | ok ox =>
    have ox' := (C67_amounts r (s := wholeLine lx px) hrx (wholeLine_inside nex px) ox).1 hgx
    cases hgy : r.go (wholeLine ly py) with
    | error e =>
      have hf := (C68_panics_iff r (s := wholeLine ly py) hry (wholeLine_inside ney py) e).1.1 hgy
      have hf' := failR J hf
      rw [show (wholeLine ly py).end_idx = ly.ll_tokens.length - 1 from rfl, hend] at hf'
      exact (F e).2 (failLR J hn hsep hstop ox' (by rw [← hn]; exact hf') (Nat.zero_le _))
    | ok oy =>
      have oy' := (C67_amounts r (s := wholeLine ly py) hry (wholeLine_inside ney py) oy).1 hgy
      have hy' := amountsR J oy'
      rw [show (wholeLine ly py).end_idx = ly.ll_tokens.length - 1 from rfl, hend] at hy'
      exact (D _).2 (amountsL J hn hsep hstop ox' (by rw [← hn]; exact hy') (Nat.zero_le _))

theorem joined_amounts_before (r : AmountResolver) (hsep : Separator r ly hy 0)
    (hat : HasAttr hy 0) (p px py : Nat) :
    r.go (wholeLine l p) = joinAssigned lx.ll_tokens.length (r.go (wholeLine lx px)) (r.go (wholeLine ly py)) := by
  have ne := joined_ne J nex
  have hpx := List.length_pos_iff.2 nex
  have hpy := List.length_pos_iff.2 ney
  have hn : lx.ll_tokens.length = lx.ll_tokens.length - 1 + 1 := by omega
  have far : ∀ i, lx.ll_tokens.length - 1 < i → ∀ k : Ty W, valuesOf k (i, i) hx = [] := by
    intro i hi k
    refine List.eq_nil_iff_forall_not_mem.2 fun v hv => ?_
    have := (hrx.rep.bounds _ (mem_valuesOf.1 hv)).2
    simp only at this
    omega
  have hend : lx.ll_tokens.length + (ly.ll_tokens.length - 1) = l.ll_tokens.length - 1 := by rw [J.len]; omega
  have hstop : lx.ll_tokens.length - 1 ≤ l.ll_tokens.length - 1 := by rw [J.len]; omega
  have D := C67_amounts r (s := wholeLine l p) hr (wholeLine_inside ne p)
  have F := fun e => (C68_panics_iff r (s := wholeLine l p) hr (wholeLine_inside ne p) e).1
  cases hgx : r.go (wholeLine lx px) with
  | error e =>
    have hf := (C68_panics_iff r (s := wholeLine lx px) hrx (wholeLine_inside nex px) e).1.1 hgx
    exact (F e).2 (failL' J hn hsep hat far hstop hf)
  | ok ox =>
    have ox' := (C67_amounts r (s := wholeLine lx px) hrx (wholeLine_inside nex px) ox).1 hgx
    cases hgy : r.go (wholeLine ly py) with
    | error e =>
      have hf := (C68_panics_iff r (s := wholeLine ly py) hry (wholeLine_inside ney py) e).1.1 hgy
      have hf' := failR J hf
      rw [show (wholeLine ly py).end_idx = ly.ll_tokens.length - 1 from rfl, hend] at hf'
      exact (F e).2 (failLR' J hn hsep hat far hstop ox' (by rw [← hn]; exact hf') (Nat.zero_le _))
    | ok oy =>
      have oy' := (C67_amounts r (s := wholeLine ly py) hry (wholeLine_inside ney py) oy).1 hgy
      have hy' := amountsR J oy'
      rw [show (wholeLine ly py).end_idx = ly.ll_tokens.length - 1 from rfl, hend] at hy'
      exact (D _).2 (amountsL' J hn hsep hat far hstop ox' (by rw [← hn]; exact hy') (Nat.zero_le _))

end

end LNlp
