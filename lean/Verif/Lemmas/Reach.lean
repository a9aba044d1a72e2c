import Verif.Lemmas.Tokens
import Verif.Model.X
/- Reachable lines represent their histories; what the read operations then return. -/
namespace LNlp
variable {W : World}

/-- what a successful `run` on a non-empty line did -/
theorem run_inv {l l' : LLLine W} {ptr : Nat} {r : Resolver W} (ne : l.ll_tokens ≠ [])
    (h : l.run ptr r = .ok l') :
    ∃ asgs a', r.go (wholeLine l ptr) = .ok (asgs, false) ∧
      foldR (LLLineAttrs.assign r.attr) l.attrs asgs = .ok a' ∧ l' = { l with attrs := a' } := by
  have he : l.ll_tokens.isEmpty = false := by
    cases h' : l.ll_tokens with
    | nil => exact absurd h' ne
    | cons _ _ => rfl
  simp only [LLLine.run, he] at h
  simp only [Bool.false_eq_true, if_false] at h
  change (match r.go (wholeLine l ptr) with | .error e => _ | .ok (a, b) => _) = _ at h
  cases hg : r.go (wholeLine l ptr) with
  | error e => simp [hg] at h
  | ok p =>
    obtain ⟨asgs, leaked⟩ := p
    simp only [hg] at h
    cases leaked with
    | true => simp at h
    | false =>
      simp only [Bool.false_eq_true, if_false] at h
      cases hf : foldR (LLLineAttrs.assign r.attr) l.attrs asgs with
      | error e => simp [hf] at h
      | ok a' => simp only [hf, Except.ok.injEq] at h; exact ⟨asgs, a', rfl, hf, h.symm⟩

theorem run_empty {l : LLLine W} {ptr : Nat} {r : Resolver W} (e : l.ll_tokens = []) :
    l.run ptr r = .ok l := by simp [LLLine.run, e]

/-- `run` on a non-empty line whose resolver returned `asgs` without leaking -/
theorem run_of_go {l : LLLine W} {ptr : Nat} {r : Resolver W} (ne : l.ll_tokens ≠ [])
    {asgs : List (LLCursorAssignment (Val r.attr))}
    (hg : r.go (wholeLine l ptr) = .ok (asgs, false)) :
    l.run ptr r = (match foldR (LLLineAttrs.assign r.attr) l.attrs asgs with
      | .ok attrs => .ok { l with attrs }
      | .error e => .error e) := by
  have he : l.ll_tokens.isEmpty = false := by
    cases h' : l.ll_tokens with
    | nil => exact absurd h' ne
    | cons _ _ => rfl
  have hg' : r.go { ll_line := ⟨ptr, l⟩, start_idx := 0, end_idx := l.ll_tokens.length - 1 }
    = .ok (asgs, false) := hg
  simp only [LLLine.run, he, hg', Bool.false_eq_true, if_false]
  rfl

theorem assign_fold_inv {n : Nat} {k : Ty W} {asgs : List (LLCursorAssignment (Val k))}
    {a a' : LLLineAttrs W} {h : History W} (rep : RepA n a h)
    (e : foldR (LLLineAttrs.assign k) a asgs = .ok a') :
    (∀ x ∈ asgs, x.start_idx < n ∧ x.end_idx < n) ∧ RepA n a' (h ++ asgs.map (recOf k)) := by
  have hb : ∀ x ∈ asgs, x.start_idx < n ∧ x.end_idx < n := by
    apply Classical.byContradiction
    intro hn
    have : ∃ x ∈ asgs, ¬ (x.start_idx < n ∧ x.end_idx < n) := by
      apply Classical.byContradiction
      intro hn2
      exact hn fun x hx => Classical.byContradiction fun hc => hn2 ⟨x, hx, hc⟩
    rcases assign_fold_oob asgs rep this with e' | e' <;> rw [e'] at e <;> cases e
  obtain ⟨a2, e2, r2⟩ := assign_fold asgs rep hb
  rw [e2] at e
  obtain rfl := Except.ok.inj e
  exact ⟨hb, r2⟩

theorem Reachable.rep {l : LLLine W} {h : History W} (hr : Reachable l h) : Rep l h := by
  induction hr with
  | create input size l wf ok => exact (create_inv wf ok).2.2
  | run l h ptr r asgs leaked l' prev ne go ok ih =>
    obtain ⟨asgs', a', hg, hf, rfl⟩ := run_inv ne ok
    rw [go] at hg
    have := Except.ok.inj hg
    simp only [Prod.mk.injEq] at this
    obtain ⟨rfl, _⟩ := this
    exact (assign_fold_inv ih hf).2
  | runEmpty l h ptr r l' prev empty ok ih =>
    rw [run_empty empty] at ok
    obtain rfl := Except.ok.inj ok
    exact ih

/-! ### reading -/

theorem rep_bucket_get {n : Nat} {a : LLLineAttrs W} {h : History W} (rep : RepA n a h) {r : LRange}
    {b : TypeBucket W} (hb : a.values.get? r = some b) (k : Ty W) : b.get k = .ok (valuesOf k r h) := by
  have := rep.buckets r b hb k
  simp only [TypeBucket.get, this]
  by_cases he : valuesOf k r h = []
  · simp [he]
  · simp [he, expect]

theorem rep_present {n : Nat} {a : LLLineAttrs W} {h : History W} (rep : RepA n a h) {r : LRange}
    {x : Rec W} (hx : x ∈ h) (hr : x.range = r) : ∃ b, a.values.get? r = some b := by
  cases hv : a.values.get? r with
  | some b => exact ⟨b, rfl⟩
  | none => exact absurd hr ((rep.absent r).1 hv x hx)

theorem rep_present_range {n : Nat} {a : LLLineAttrs W} {h : History W} (rep : RepA n a h) {k : Ty W}
    {r : LRange} (hr : r ∈ rangesOf k h) : ∃ b, a.values.get? r = some b := by
  obtain ⟨v, hv⟩ := mem_rangesOf.1 hr
  exact rep_present rep hv rfl

theorem rep_valuesAt {l : LLLine W} {h : History W} (rep : Rep l h) {k : Ty W} {r : LRange}
    (hr : r ∈ rangesOf k h) : l.valuesAt k r = .ok (valuesOf k r h) := by
  obtain ⟨b, hb⟩ := rep_present_range rep hr
  simp only [LLLine.valuesAt, hb, rep_bucket_get rep hb]

theorem queryText_eq (t : LLToken) : t.queryText = t.token.str := by
  unfold LLToken.queryText LToken.str; cases t.token <;> rfl

theorem rep_query {l : LLLine W} {h : History W} (rep : Rep l h) (k : Ty W)
    (ho : ∀ r ∈ rangesOf k h, r.1 ≤ r.2 + 1) :
    l.query k = .ok ((rangesOf k h).map (fun r => (r, coveredText l.ll_tokens r, valuesOf k r h))) := by
  simp only [LLLine.query]
  rw [rep.ranges k]
  apply mapR_ok
  intro r hr
  obtain ⟨v, hv⟩ := mem_rangesOf.1 hr
  have hb := rep.bounds _ hv
  simp only at hb
  obtain ⟨b, hb'⟩ := rep_present_range rep hr
  have hs : sliceIncl l.ll_tokens r.1 r.2 = .ok ((l.ll_tokens.drop r.1).take (r.2 + 1 - r.1)) := by
    rw [sliceIncl, if_pos ⟨ho r hr, by omega⟩]
  simp only [hs, hb', rep_bucket_get rep hb' k]
  congr 3

theorem rep_query_error {l : LLLine W} {h : History W} (rep : Rep l h) (k : Ty W)
    (ho : ∃ r ∈ rangesOf k h, ¬ r.1 ≤ r.2 + 1) : ∃ e, l.query k = .error e := by
  simp only [LLLine.query]
  rw [rep.ranges k, mapR_error_iff]
  obtain ⟨r, hr, hn⟩ := ho
  refine ⟨r, hr, .sliceOob, ?_⟩
  have : sliceIncl l.ll_tokens r.1 r.2 = .error .sliceOob := by
    rw [sliceIncl, if_neg (fun h => hn h.1)]
  simp only [this]

end LNlp
