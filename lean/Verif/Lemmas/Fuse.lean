import Verif.Spec.Fuse
import Verif.Lemmas.Local
import Verif.Lemmas.Pipeline
import Verif.Lemmas.EndToEnd
/- Lines whose assignments were made in another order. -/
namespace LNlp
variable {W : World}

/-- matchers do not look at the list of all ranges of a type -/
theorem go_ranges (ranges : TypeIdToMany W LRange) (l : LLLine W) {Out : Type} {m : XMatch W Out} {T : Ty W → Prop} {b : Bool}
    (hm : Built T b m) : ∀ d, m.go d { l with attrs := { l.attrs with ranges } } = m.go d l := by
  have after : ∀ (d : Dir) j, d.after j { l with attrs := { l.attrs with ranges } } = d.after j l := by
    intro d j; cases d <;> rfl
  have goAfter : ∀ {Out : Type} {m : XMatch W Out}, (∀ d, m.go d { l with attrs := { l.attrs with ranges } } = m.go d l) →
      ∀ d j, X.goAfter m d j { l with attrs := { l.attrs with ranges } } = X.goAfter m d j l := by
    intro Out m h d j
    simp only [X.goAfter, after, h]
  induction hm with
  | attr k t => intro d; cases d <;> rfl
  | attrEq k t v => intro d; cases d <;> rfl
  | tokenHasAny k t hh set => intro d; cases d <;> rfl
  | tokenText => intro d; cases d <;> rfl
  | all2 _ _ ha hb => intro d; simp only [X.all2, ha, hb]
  | all3 _ _ _ ha hb hc => intro d; simp only [X.all3, ha, hb, hc]
  | anyOf2 _ _ ha hb => intro d; simp only [X.anyOf2, ha, hb]
  | anyOf3 _ _ _ ha hb hc => intro d; simp only [X.anyOf3, ha, hb, hc]
  | seq2 _ _ ha hb => intro d; simp only [X.seq2, ha, goAfter hb]
  | seq3 _ _ _ ha hb hc => intro d; simp only [X.seq3, ha, goAfter hb, goAfter hc]
  | user part t _ ih =>
    intro d
    simp only [UserTree.matcher]
    generalize ([] : List Nat) = seen
    induction t generalizing seen with
    | answer o => rfl
    | ask i next iht =>
      simp only [UserTree.run, ih i d]
      cases (part i).go d l with
      | error e => rfl
      | ok rs => exact iht _ _ _
  | recursive f _ _ ih => exact fun d => ih _ d

section
variable {h h' : History W} (hs : ∀ i, startingAt i h = startingAt i h')
include hs

theorem same_values (k : Ty W) (r : LRange) : valuesOf k r h = valuesOf k r h' := by
  have key : ∀ h : History W, valuesOf k r h = valuesOf k r (startingAt r.1 h) := by
    intro h
    unfold valuesOf startingAt
    rw [List.filterMap_filter]
    congr 1
    funext x
    by_cases hx : x.range = r
    · simp [hx]
    · simp [hx]
  rw [key, key h', hs]

theorem same_starts (k : Ty W) (i : Nat) :
    (rangesOf k h).filter (fun r => decide (r.1 = i)) = (rangesOf k h').filter (fun r => decide (r.1 = i)) := by
  rw [← rangesOf_filter k h (fun r => decide (r.1 = i)), ← rangesOf_filter k h' (fun r => decide (r.1 = i))]
  exact congrArg _ (hs i)

theorem same_ranges_perm (k : Ty W) : (rangesOf k h).Perm (rangesOf k h') := by
  rw [List.perm_ext_iff_of_nodup (rangesOf_nodup k h) (rangesOf_nodup k h')]
  intro r
  rw [mem_rangesOf_iff_values, mem_rangesOf_iff_values, same_values hs]

/-- the lines differ in the lists of all ranges of a type only -/
theorem same_but_ranges (he : ∀ i, endingAt i h = endingAt i h') {l l' : LLLine W} (rep : Rep l h) (rep' : Rep l' h')
    (ht : l.ll_tokens = l'.ll_tokens) : l' = { l with attrs := { l.attrs with ranges := l'.attrs.ranges } } := by
  have hlen : l.ll_tokens.length = l'.ll_tokens.length := by rw [ht]
  have e2 : l'.attrs.starts_at = l.attrs.starts_at := by
    apply List.ext_getElem (by rw [rep.lenS, rep'.lenS, hlen])
    intro i h1 h2
    refine TypeIdToMany.ext_get (rep'.tightS _ (List.getElem_mem _)) (rep.tightS _ (List.getElem_mem _)) (fun k => ?_)
    rw [rep'.starts i _ (List.getElem?_eq_getElem h1), rep.starts i _ (List.getElem?_eq_getElem h2), same_starts hs]
  have e3 : l'.attrs.ends_at = l.attrs.ends_at := by
    apply List.ext_getElem (by rw [rep.lenE, rep'.lenE, hlen])
    intro i h1 h2
    refine TypeIdToMany.ext_get (rep'.tightE _ (List.getElem_mem _)) (rep.tightE _ (List.getElem_mem _)) (fun k => ?_)
    rw [rep'.ends i _ (List.getElem?_eq_getElem h1), rep.ends i _ (List.getElem?_eq_getElem h2),
      ← rangesOf_filter k h (fun r => decide (r.2 = i)), ← rangesOf_filter k h' (fun r => decide (r.2 = i))]
    exact congrArg _ (he i).symm
  have habs : ∀ r, (∀ x ∈ h', x.range ≠ r) ↔ ∀ x ∈ h, x.range ≠ r := by
    have mem : ∀ {h h' : History W}, (∀ i, startingAt i h = startingAt i h') → ∀ x ∈ h, x ∈ h' := by
      intro h h' hs x hx
      have : x ∈ startingAt x.range.1 h' := by
        rw [← hs]; exact List.mem_filter.2 ⟨hx, by simp⟩
      exact (List.mem_filter.1 this).1
    intro r
    exact ⟨fun hh x hx => hh x (mem hs x hx), fun hh x hx => hh x (mem (fun i => (hs i).symm) x hx)⟩
  have e4 : l'.attrs.values = l.attrs.values := by
    funext r
    show l'.attrs.values.get? r = l.attrs.values.get? r
    cases hv : l.attrs.values.get? r with
    | none => exact (rep'.absent r).2 ((habs r).2 ((rep.absent r).1 hv))
    | some b =>
      cases hv' : l'.attrs.values.get? r with
      | none =>
        have := (rep.absent r).2 ((habs r).1 ((rep'.absent r).1 hv'))
        rw [hv] at this; cases this
      | some b' =>
        congr 1
        obtain ⟨mb⟩ := b
        obtain ⟨mb'⟩ := b'
        congr 1
        funext k
        have h1 := rep.buckets r _ hv k
        have h2 := rep'.buckets r _ hv' k
        rw [same_values hs] at h1
        exact h2.trans h1.symm
  obtain ⟨toks, attrs⟩ := l
  obtain ⟨toks', attrs'⟩ := l'
  cases attrs
  cases attrs'
  simp only at ht e2 e3 e4 ⊢
  subst ht e2 e3 e4
  rfl

end

/-- the assignments to single tokens that start, or end, at token `i` -/
theorem tokens_startingAt {k : Ty W} (f : Nat → List (Val k)) (n i : Nat) :
    startingAt i ((List.range n).flatMap (fun j => (f j).map (fun v => (⟨k, (j, j), v⟩ : Rec W)))) =
      if i < n then (f i).map (fun v => ⟨k, (i, i), v⟩) else [] := by
  unfold startingAt
  have one : ∀ j, ((f j).map (fun v => (⟨k, (j, j), v⟩ : Rec W))).filter (fun x => decide (x.range.1 = i)) =
      if j = i then (f i).map (fun v => ⟨k, (i, i), v⟩) else [] := by
    intro j
    by_cases hj : j = i
    · subst hj
      rw [if_pos rfl, List.filter_eq_self]
      intro x hx
      obtain ⟨v, _, rfl⟩ := List.mem_map.1 hx
      simp
    · rw [if_neg hj, List.filter_eq_nil_iff]
      intro x hx
      obtain ⟨v, _, rfl⟩ := List.mem_map.1 hx
      simpa using hj
  induction n with
  | zero => rfl
  | succ n ih =>
    rw [List.range_succ, List.flatMap_append, List.filter_append, ih]
    simp only [List.flatMap_cons, List.flatMap_nil, List.append_nil, one]
    by_cases h1 : i < n
    · simp [h1, show i < n + 1 by omega, show ¬ n = i by omega]
    · by_cases h2 : n = i
      · simp [h1, h2]
      · simp [h1, h2, show ¬ i < n + 1 by omega]

theorem tokens_endingAt {k : Ty W} (f : Nat → List (Val k)) (n i : Nat) :
    endingAt i ((List.range n).flatMap (fun j => (f j).map (fun v => (⟨k, (j, j), v⟩ : Rec W)))) =
      if i < n then (f i).map (fun v => ⟨k, (i, i), v⟩) else [] := by
  rw [← tokens_startingAt]
  unfold endingAt startingAt
  apply List.filter_congr
  intro x hx
  obtain ⟨j, _, hx⟩ := List.mem_flatMap.1 hx
  obtain ⟨v, _, rfl⟩ := List.mem_map.1 hx
  rfl

end LNlp
