import Verif.Spec.View
import Verif.Lemmas.ProgramLines
import Verif.Lemmas.Fuse
import Verif.Lemmas.RepresentRun
/- Lines that look the same to matchers. -/
namespace LNlp
variable {W : World}

/-! ### blocks of values -/

theorem keyed_keys {α β : Type} {f : α → List β} {g : α → Nat} : ∀ {R : List α}, (R.map g).Nodup → (∀ r ∈ R, f r ≠ []) →
    firsts ((R.flatMap (fun r => (f r).map (fun v => (v, g r)))).map (·.2)) = R.map g
  | [], _, _ => rfl
  | r :: R, hn, hf => by
    simp only [List.map_cons, List.nodup_cons] at hn
    have ih := keyed_keys hn.2 (fun x hx => hf x (by simp [hx]))
    rw [List.flatMap_cons, List.map_append, firsts_block (g r), ih]
    · rw [if_neg (by simpa using hf r (by simp))]
      simp
    · intro x hx
      simp only [List.map_map, List.mem_map, Function.comp] at hx
      obtain ⟨_, _, rfl⟩ := hx; rfl
    · intro hx
      simp only [List.mem_map, List.mem_flatMap] at hx
      obtain ⟨p, ⟨x, hx, v, _, rfl⟩, he⟩ := hx
      exact hn.1 (List.mem_map.2 ⟨x, hx, he⟩)

theorem keyed_values {α β : Type} {f : α → List β} {g : α → Nat} : ∀ {R : List α}, (R.map g).Nodup → ∀ r ∈ R,
    ((R.flatMap (fun r => (f r).map (fun v => (v, g r)))).filter (fun p => decide (p.2 = g r))).map (·.1) = f r
  | [], _, _, h => by cases h
  | x :: R, hn, r, hr => by
    simp only [List.map_cons, List.nodup_cons] at hn
    have none : ∀ y, y ∉ R.map g → (R.flatMap (fun r => (f r).map (fun v => (v, g r)))).filter (fun p => decide (p.2 = y)) = [] := by
      intro y hy
      rw [List.filter_eq_nil_iff]
      intro p hp
      simp only [List.mem_map, List.mem_flatMap] at hp
      obtain ⟨z, hz, v, _, rfl⟩ := hp
      simp only [decide_eq_true_eq]
      rintro rfl
      exact hy (List.mem_map.2 ⟨z, hz, rfl⟩)
    rw [List.flatMap_cons, List.filter_append, List.map_append]
    rcases List.mem_cons.1 hr with rfl | hr
    · rw [none _ hn.1, List.filter_eq_self.2]
      · simp [Function.comp_def]
      · intro p hp
        obtain ⟨_, _, rfl⟩ := List.mem_map.1 hp
        simp
    · rw [keyed_values hn.2 r hr, List.filter_eq_nil_iff.2]
      · rfl
      · intro p hp
        obtain ⟨_, _, rfl⟩ := List.mem_map.1 hp
        simp only [decide_eq_true_eq]
        intro he
        exact hn.1 (List.mem_map.2 ⟨r, hr, he.symm⟩)

/-- the ranges that start at `i` and their values, from what the attribute matcher returns there -/
theorem starts_determined {k : Ty W} {h h' : History W} {i : Nat}
    (e : ((rangesOf k h).filter (fun r => decide (r.1 = i))).flatMap (fun r => (valuesOf k r h).map (fun v => (v, r.2))) =
      ((rangesOf k h').filter (fun r => decide (r.1 = i))).flatMap (fun r => (valuesOf k r h').map (fun v => (v, r.2)))) :
    (rangesOf k h).filter (fun r => decide (r.1 = i)) = (rangesOf k h').filter (fun r => decide (r.1 = i)) ∧
    ∀ r : LRange, r.1 = i → valuesOf k r h = valuesOf k r h' := by
  have nd : ∀ h : History W, (((rangesOf k h).filter (fun r => decide (r.1 = i))).map (·.2)).Nodup := by
    intro h
    refine List.Pairwise.map _ ?_ (List.Pairwise.and_mem.1 (List.Pairwise.filter (fun r : LRange => decide (r.1 = i)) (rangesOf_nodup k h)))
    rintro ⟨a, b⟩ ⟨c, d⟩ ⟨h1, h2, h3⟩ hbd
    have e1 : a = i := by simpa using (List.mem_filter.1 h1).2
    have e2 : c = i := by simpa using (List.mem_filter.1 h2).2
    apply h3
    simp only at hbd
    rw [e1, e2, hbd]
  have ne : ∀ h : History W, ∀ r ∈ (rangesOf k h).filter (fun r => decide (r.1 = i)), valuesOf k r h ≠ [] := by
    intro h r hr
    exact mem_rangesOf_iff_values.1 (List.mem_filter.1 hr).1
  have back : ∀ h : History W, (((rangesOf k h).filter (fun r => decide (r.1 = i))).map (·.2)).map (fun e => (i, e)) =
      (rangesOf k h).filter (fun r => decide (r.1 = i)) := by
    intro h
    rw [List.map_map]
    conv => rhs; rw [← List.map_id ((rangesOf k h).filter _)]
    apply List.map_congr_left
    rintro ⟨a, b⟩ hr
    have e1 : a = i := by simpa using (List.mem_filter.1 hr).2
    simp [e1]
  have hk : (rangesOf k h).filter (fun r => decide (r.1 = i)) = (rangesOf k h').filter (fun r => decide (r.1 = i)) := by
    rw [← back h, ← back h', ← keyed_keys (nd h) (ne h), ← keyed_keys (nd h') (ne h'), e]
  refine ⟨hk, fun r hr => ?_⟩
  by_cases hm : r ∈ rangesOf k h
  · have h1 : r ∈ (rangesOf k h).filter (fun r => decide (r.1 = i)) := List.mem_filter.2 ⟨hm, by simpa using hr⟩
    have h2 := hk ▸ h1
    rw [← keyed_values (f := fun r => valuesOf k r h) (nd h) r h1, ← keyed_values (f := fun r => valuesOf k r h') (nd h') r h2, e]
  · have hm' : r ∉ rangesOf k h' := by
      intro hm'
      have h1 : r ∈ (rangesOf k h').filter (fun r => decide (r.1 = i)) := List.mem_filter.2 ⟨hm', by simpa using hr⟩
      exact hm (List.mem_filter.1 (hk ▸ h1)).1
    rw [mem_rangesOf_iff_values, Classical.not_not] at hm hm'
    rw [hm, hm']

theorem ends_determined {k : Ty W} {h h' : History W} {i : Nat}
    (e : ((rangesOf k h).filter (fun r => decide (r.2 = i))).flatMap (fun r => (valuesOf k r h).map (fun v => (v, r.1))) =
      ((rangesOf k h').filter (fun r => decide (r.2 = i))).flatMap (fun r => (valuesOf k r h').map (fun v => (v, r.1)))) :
    (rangesOf k h).filter (fun r => decide (r.2 = i)) = (rangesOf k h').filter (fun r => decide (r.2 = i)) := by
  have nd : ∀ h : History W, (((rangesOf k h).filter (fun r => decide (r.2 = i))).map (·.1)).Nodup := by
    intro h
    refine List.Pairwise.map _ ?_ (List.Pairwise.and_mem.1 (List.Pairwise.filter (fun r : LRange => decide (r.2 = i)) (rangesOf_nodup k h)))
    rintro ⟨a, b⟩ ⟨c, d⟩ ⟨h1, h2, h3⟩ hbd
    have e1 : b = i := by simpa using (List.mem_filter.1 h1).2
    have e2 : d = i := by simpa using (List.mem_filter.1 h2).2
    apply h3
    simp only at hbd
    rw [e1, e2, hbd]
  have ne : ∀ h : History W, ∀ r ∈ (rangesOf k h).filter (fun r => decide (r.2 = i)), valuesOf k r h ≠ [] := by
    intro h r hr
    exact mem_rangesOf_iff_values.1 (List.mem_filter.1 hr).1
  have back : ∀ h : History W, (((rangesOf k h).filter (fun r => decide (r.2 = i))).map (·.1)).map (fun e => (e, i)) =
      (rangesOf k h).filter (fun r => decide (r.2 = i)) := by
    intro h
    rw [List.map_map]
    conv => rhs; rw [← List.map_id ((rangesOf k h).filter _)]
    apply List.map_congr_left
    rintro ⟨a, b⟩ hr
    have e1 : b = i := by simpa using (List.mem_filter.1 hr).2
    simp [e1]
  rw [← back h, ← back h', ← keyed_keys (nd h) (ne h), ← keyed_keys (nd h') (ne h'), e]

/-! ### orders -/

theorem firsts_firsts_append {α : Type} [DecidableEq α] (xs ys : List α) : firsts (firsts xs ++ ys) = firsts (xs ++ ys) := by
  rw [← ys.reverse_reverse]
  induction ys.reverse with
  | nil => simp [firsts_of_nodup (nodup_firsts xs)]
  | cons y ys ih =>
    simp only [List.reverse_cons, ← List.append_assoc, firsts_append_singleton, ih, List.mem_append, mem_firsts]

theorem SameOrder.refl (h : History W) : SameOrder h h := fun _ => ⟨fun _ => rfl, fun _ => rfl, fun _ => rfl⟩

theorem rangesOf_filter_append (k : Ty W) (h n : History W) (p : LRange → Bool) : (rangesOf k (h ++ n)).filter p =
    firsts ((rangesOf k h).filter p ++ ((n.filter (fun x => decide (x.ty = k))).map (·.range)).filter p) := by
  unfold rangesOf
  rw [List.filter_append, List.map_append, firsts_filter, firsts_filter, List.filter_append, firsts_firsts_append]

theorem SameOrder.append {h h' : History W} (s : SameOrder h h') (n : History W) : SameOrder (h ++ n) (h' ++ n) := by
  intro k
  obtain ⟨s1, s2, s3⟩ := s k
  refine ⟨fun i => ?_, fun i => ?_, fun r => ?_⟩
  · rw [rangesOf_filter_append, rangesOf_filter_append, s1]
  · rw [rangesOf_filter_append, rangesOf_filter_append, s2]
  · rw [valuesOf_append, valuesOf_append, s3]

theorem SameOrder.swap (h : History W) {a b : Rec W}
    (apart : a.ty ≠ b.ty ∨ (a.range.1 ≠ b.range.1 ∧ a.range.2 ≠ b.range.2)) : SameOrder (h ++ [a, b]) (h ++ [b, a]) := by
  have key : ∀ (k : Ty W) (p : LRange → Bool), ¬ (a.ty = b.ty ∧ p a.range = true ∧ p b.range = true) →
      (([a, b].filter (fun x => decide (x.ty = k))).map (·.range)).filter p =
        (([b, a].filter (fun x => decide (x.ty = k))).map (·.range)).filter p := by
    intro k p hp
    by_cases ha : a.ty = k <;> by_cases hb : b.ty = k <;> simp [ha, hb]
    by_cases pa : p a.range = true <;> by_cases pb : p b.range = true <;> simp [pa, pb]
    exact absurd ⟨ha.trans hb.symm, pa, pb⟩ hp
  intro k
  refine ⟨fun i => ?_, fun i => ?_, fun r => ?_⟩
  · rw [rangesOf_filter_append, rangesOf_filter_append, key]
    rintro ⟨h1, h2, h3⟩
    rcases apart with h4 | ⟨h4, _⟩
    · exact h4 h1
    · simp only [decide_eq_true_eq] at h2 h3
      exact h4 (h2.trans h3.symm)
  · rw [rangesOf_filter_append, rangesOf_filter_append, key]
    rintro ⟨h1, h2, h3⟩
    rcases apart with h4 | ⟨_, h4⟩
    · exact h4 h1
    · simp only [decide_eq_true_eq] at h2 h3
      exact h4 (h2.trans h3.symm)
  · rw [valuesOf_append, valuesOf_append]
    congr 1
    have none : ∀ x : Rec W, ¬ (x.range = r ∧ x.ty = k) → (if x.range = r then x.valAs k else none) = none := by
      intro x hx
      by_cases h1 : x.range = r
      · rw [if_pos h1]
        exact dif_neg (fun h2 => hx ⟨h1, h2⟩)
      · rw [if_neg h1]
    unfold valuesOf
    by_cases ha : a.range = r ∧ a.ty = k
    · have hb : ¬ (b.range = r ∧ b.ty = k) := by
        rintro ⟨h1, h2⟩
        rcases apart with h3 | h3
        · exact h3 (ha.2.trans h2.symm)
        · exact h3.1 (by rw [ha.1, h1])
      simp only [List.filterMap_cons, none b hb, List.filterMap_nil]
    · simp only [List.filterMap_cons, none a ha, List.filterMap_nil]

theorem SameOrder.ranges_perm {h h' : History W} (s : SameOrder h h') (k : Ty W) : (rangesOf k h).Perm (rangesOf k h') := by
  rw [List.perm_ext_iff_of_nodup (rangesOf_nodup k h) (rangesOf_nodup k h')]
  intro r
  rw [mem_rangesOf_iff_values, mem_rangesOf_iff_values, (s k).2.2]

theorem SameOrder.present {h h' : History W} (s : SameOrder h h') {x : Rec W} (hx : x ∈ h) : ∃ y ∈ h', y.range = x.range := by
  have h1 : x.range ∈ rangesOf x.ty h := mem_rangesOf.2 ⟨x.val, hx⟩
  rw [(s.ranges_perm x.ty).mem_iff] at h1
  obtain ⟨v, hv⟩ := mem_rangesOf.1 h1
  exact ⟨_, hv, rfl⟩

theorem SameOrder.symm {h h' : History W} (s : SameOrder h h') : SameOrder h' h :=
  fun k => ⟨fun i => ((s k).1 i).symm, fun i => ((s k).2.1 i).symm, fun r => ((s k).2.2 r).symm⟩

/-! ### from orders to lines -/

theorem SameOrder.agree {h h' : History W} (s : SameOrder h h') {l l' : LLLine W} (rep : Rep l h) (rep' : Rep l' h')
    (ht : l.ll_tokens.map (·.token) = l'.ll_tokens.map (·.token)) : LineAgree true (fun _ => True) l l' := by
  have hlen : l.ll_tokens.length = l'.ll_tokens.length := by simpa using congrArg List.length ht
  refine ⟨ht, fun k _ i => ?_, fun k _ i => ?_, fun k _ r => ?_⟩
  · by_cases hi : i < l.ll_tokens.length
    · have h1 : i < l.attrs.starts_at.length := by rw [rep.lenS]; exact hi
      have h2 : i < l'.attrs.starts_at.length := by rw [rep'.lenS, ← hlen]; exact hi
      rw [List.getElem?_eq_getElem h1, List.getElem?_eq_getElem h2]
      simp only [Option.map_some]
      rw [rep.starts i _ (List.getElem?_eq_getElem h1), rep'.starts i _ (List.getElem?_eq_getElem h2), (s k).1 i]
    · rw [List.getElem?_eq_none (by rw [rep.lenS]; omega), List.getElem?_eq_none (by rw [rep'.lenS]; omega)]
  · by_cases hi : i < l.ll_tokens.length
    · have h1 : i < l.attrs.ends_at.length := by rw [rep.lenE]; exact hi
      have h2 : i < l'.attrs.ends_at.length := by rw [rep'.lenE, ← hlen]; exact hi
      rw [List.getElem?_eq_getElem h1, List.getElem?_eq_getElem h2]
      simp only [Option.map_some]
      rw [rep.ends i _ (List.getElem?_eq_getElem h1), rep'.ends i _ (List.getElem?_eq_getElem h2), (s k).2.1 i]
    · rw [List.getElem?_eq_none (by rw [rep.lenE]; omega), List.getElem?_eq_none (by rw [rep'.lenE]; omega)]
  · cases hv : l.attrs.values.get? r with
    | none =>
      refine .inl ⟨rfl, .inr ((rep'.absent r).2 (fun y hy hyr => ?_))⟩
      obtain ⟨z, hz, hzr⟩ := s.symm.present hy
      exact (rep.absent r).1 hv z hz (hzr.trans hyr)
    | some b =>
      cases hv' : l'.attrs.values.get? r with
      | none =>
        exfalso
        have : l.attrs.values.get? r = none := (rep.absent r).2 (fun y hy hyr => by
          obtain ⟨z, hz, hzr⟩ := s.present hy
          exact (rep'.absent r).1 hv' z hz (hzr.trans hyr))
        rw [hv] at this; cases this
      | some b' =>
        refine .inr ⟨b, b', rfl, rfl, ?_⟩
        rw [rep_bucket_get rep hv, rep_bucket_get rep' hv', (s k).2.2 r]

theorem SameOrder.looks {h h' : History W} (s : SameOrder h h') {l l' : LLLine W} (rep : Rep l h) (rep' : Rep l' h')
    (ht : l.ll_tokens.map (·.token) = l'.ll_tokens.map (·.token)) : Looks l l' :=
  ⟨ht, fun _ d => ((s.agree rep rep' ht).attr trivial d).eq⟩

theorem values_oob {l : LLLine W} {h : History W} (rep : Rep l h) {k : Ty W} {r : LRange} (hr : ¬ r.1 < l.ll_tokens.length) :
    valuesOf k r h = [] :=
  valuesOf_no_range k r h (fun x hx he => hr (he ▸ (rep.bounds x hx).1))

theorem Looks.order {h h' : History W} {l l' : LLLine W} (s : Looks l l') (rep : Rep l h) (rep' : Rep l' h') : SameOrder h h' := by
  have hlen : l.ll_tokens.length = l'.ll_tokens.length := by simpa using congrArg List.length s.1
  have none1 : ∀ {l : LLLine W} {h : History W}, Rep l h → ∀ (k : Ty W) i, ¬ i < l.ll_tokens.length →
      (rangesOf k h).filter (fun r => decide (r.1 = i)) = [] ∧ (rangesOf k h).filter (fun r => decide (r.2 = i)) = [] := by
    intro l h rep k i hi
    constructor <;>
    · rw [List.filter_eq_nil_iff]
      intro r hr
      obtain ⟨v, hv⟩ := mem_rangesOf.1 hr
      have := rep.bounds _ hv
      simp only [decide_eq_true_eq]
      rintro rfl
      exact hi (by first | exact this.1 | exact this.2)
  intro k
  have fw : ∀ i, i < l.ll_tokens.length → _ := fun i hi => by
    have e := s.2 k (.fwd i)
    simp only [X.attr] at e
    rw [rep_attr_fwd rep k hi, rep_attr_fwd rep' k (hlen ▸ hi)] at e
    exact starts_determined (Except.ok.inj e)
  refine ⟨fun i => ?_, fun i => ?_, fun r => ?_⟩
  · by_cases hi : i < l.ll_tokens.length
    · exact (fw i hi).1
    · rw [(none1 rep k i hi).1, (none1 rep' k i (hlen ▸ hi)).1]
  · by_cases hi : i < l.ll_tokens.length
    · have e := s.2 k (.bwd i)
      simp only [X.attr] at e
      rw [rep_attr_bwd rep k hi, rep_attr_bwd rep' k (hlen ▸ hi)] at e
      exact ends_determined (Except.ok.inj e)
    · rw [(none1 rep k i hi).2, (none1 rep' k i (hlen ▸ hi)).2]
  · by_cases hi : r.1 < l.ll_tokens.length
    · exact (fw _ hi).2 r rfl
    · rw [values_oob rep hi, values_oob rep' (hlen ▸ hi)]

/-! ### running -/

theorem assign_same {n : Nat} {k : Ty W} (asgs : List (LLCursorAssignment (Val k))) :
    ∀ {a a' : LLLineAttrs W} {h h' : History W}, RepA n a h → RepA n a' h' → ∀ e,
      foldR (LLLineAttrs.assign k) a asgs = .error e → foldR (LLLineAttrs.assign k) a' asgs = .error e := by
  induction asgs with
  | nil => intro a a' h h' _ _ e he; cases he
  | cons x xs ih =>
    intro a a' h h' rep rep' e he
    by_cases s1 : x.start_idx < n
    · by_cases s2 : x.end_idx < n
      · obtain ⟨a1, e1, r1⟩ := insert_rep rep (x.start_idx, x.end_idx) k x.value s1 s2
        obtain ⟨a2, e2, r2⟩ := insert_rep rep' (x.start_idx, x.end_idx) k x.value s1 s2
        simp only [foldR, LLLineAttrs.assign, e1, e2] at he ⊢
        exact ih r1 r2 e he
      · have q1 : x.start_idx < a.starts_at.length := by rw [rep.lenS]; exact s1
        have q2 : ¬ x.end_idx < a.ends_at.length := by rw [rep.lenE]; exact s2
        have q3 : x.start_idx < a'.starts_at.length := by rw [rep'.lenS]; exact s1
        have q4 : ¬ x.end_idx < a'.ends_at.length := by rw [rep'.lenE]; exact s2
        simp only [foldR, LLLineAttrs.assign, LLLineAttrs.insert, updateAt_ok q1, updateAt_oob q2, updateAt_ok q3,
          updateAt_oob q4] at he ⊢
        exact he
    · have q1 : ¬ x.start_idx < a.starts_at.length := by rw [rep.lenS]; exact s1
      have q3 : ¬ x.start_idx < a'.starts_at.length := by rw [rep'.lenS]; exact s1
      simp only [foldR, LLLineAttrs.assign, LLLineAttrs.insert, updateAt_oob q1, updateAt_oob q3] at he ⊢
      exact he

/-- both panic alike, or both succeed with reachable lines that look the same -/
def LooksReach (x y : R (LLLine W)) : Prop :=
  match x, y with
  | .ok l, .ok l' => (∃ h, Reachable l h) ∧ (∃ h, Reachable l' h) ∧ Looks l l'
  | .error e, .error e' => e = e'
  | _, _ => False

theorem looks_run {l l' : LLLine W} {h h' : History W} (hr : Reachable l h) (hr' : Reachable l' h') (s : Looks l l')
    {r : Resolver W} (api : ByApi (fun m => Builtin m) r) (ptr ptr' : Nat) : LooksReach (l.run ptr r) (l'.run ptr' r) := by
  have hlen : l.ll_tokens.length = l'.ll_tokens.length := by simpa using congrArg List.length s.1
  have so := s.order hr.rep hr'.rep
  by_cases ne : l.ll_tokens = []
  · have ne' : l'.ll_tokens = [] := by
      rw [ne] at hlen; exact List.length_eq_zero_iff.1 hlen.symm
    rw [run_empty ne, run_empty ne']
    exact ⟨⟨h, hr⟩, ⟨h', hr'⟩, s⟩
  · have ne' : l'.ll_tokens ≠ [] := by
      intro he; rw [he] at hlen; exact ne (List.length_eq_zero_iff.1 hlen)
    have eg := (byApi_sim (b := true) hlen ne (fun m hm => (so.agree hr.rep hr'.rep s.1).built hm) api ptr ptr').eq
    cases hg : r.go (wholeLine l ptr) with
    | error e =>
      rw [run_error_of_go ne hg, run_error_of_go ne' (eg ▸ hg)]
      rfl
    | ok p =>
      obtain ⟨asgs, leaked⟩ := p
      have hg' : r.go (wholeLine l' ptr') = .ok (asgs, leaked) := eg ▸ hg
      cases leaked with
      | true =>
        have both : ∀ {l : LLLine W} {ptr : Nat}, l.ll_tokens ≠ [] → r.go (wholeLine l ptr) = .ok (asgs, true) →
            l.run ptr r = .error .rcShared := by
          intro l ptr ne hg
          have he : l.ll_tokens.isEmpty = false := by simpa using ne
          simp only [wholeLine] at hg
          simp only [LLLine.run, he, Bool.false_eq_true, if_false, hg, if_true]
        rw [both ne hg, both ne' hg']
        rfl
      | false =>
        have e1 := run_of_go ne hg
        have e2 := run_of_go ne' hg'
        have rep : RepA l.ll_tokens.length l.attrs h := hr.rep
        have rep' : RepA l.ll_tokens.length l'.attrs h' := by rw [hlen]; exact hr'.rep
        cases hf : foldR (LLLineAttrs.assign r.attr) l.attrs asgs with
        | error e =>
          rw [hf] at e1
          rw [assign_same asgs rep rep' e hf] at e2
          rw [e1, e2]
          rfl
        | ok a =>
          cases hf' : foldR (LLLineAttrs.assign r.attr) l'.attrs asgs with
          | error e => rw [assign_same asgs rep' rep e hf'] at hf; cases hf
          | ok a' =>
            rw [hf] at e1
            rw [hf'] at e2
            have R1 := Reachable.run l h ptr r asgs false _ hr ne hg e1
            have R2 := Reachable.run l' h' ptr' r asgs false _ hr' ne' hg' e2
            rw [e1, e2]
            exact ⟨⟨_, R1⟩, ⟨_, R2⟩, (so.append _).looks R1.rep R2.rep s.1⟩

theorem looks_runAll : ∀ {rs rs' : List (Nat × Resolver W)} {l l' : LLLine W} {h h' : History W}, Reachable l h →
    Reachable l' h' → Looks l l' → rs.map (·.2) = rs'.map (·.2) → (∀ p ∈ rs, ByApi (fun m => Builtin m) p.2) →
    LooksResult (runAll l rs) (runAll l' rs')
  | [], [], l, l', _, _, _, _, s, _, _ => s
  | [], _ :: _, _, _, _, _, _, _, _, h, _ => by cases h
  | _ :: _, [], _, _, _, _, _, _, _, h, _ => by cases h
  | (ptr, r) :: rs, (ptr', r') :: rs', l, l', _, _, hr, hr', s, he, hb => by
    simp only [List.map_cons, List.cons.injEq] at he
    obtain ⟨rfl, he⟩ := he
    have := looks_run hr hr' s (hb (ptr, r) (by simp)) ptr ptr'
    simp only [runAll]
    cases h1 : l.run ptr r with
    | error e =>
      cases h2 : l'.run ptr' r with
      | error e' => rw [h1, h2] at this; exact this
      | ok _ => rw [h1, h2] at this; exact this.elim
    | ok l1 =>
      cases h2 : l'.run ptr' r with
      | error e' => rw [h1, h2] at this; exact this.elim
      | ok l1' =>
        rw [h1, h2] at this
        obtain ⟨⟨_, R1⟩, ⟨_, R2⟩, s'⟩ := this
        exact looks_runAll R1 R2 s' he (fun p hp => hb p (by simp [hp]))

/-! ### telling lines apart -/

theorem told_length {l l' : LLLine W} (ne : l.ll_tokens ≠ []) (ne' : l'.ll_tokens ≠ []) (t : NoResolverTells l l') :
    l.ll_tokens.length = l'.ll_tokens.length := by
  have h1 : 0 < l.ll_tokens.length := List.length_pos_iff.2 ne
  have h2 : 0 < l'.ll_tokens.length := List.length_pos_iff.2 ne'
  have := t (apiResolver Ty.char (fun _ => .finish [(0, 'x')])) ⟨fun _ => .finish [(0, 'x')], fun _ => trivial, fun _ _ _ => rfl⟩ 0 0
  have e : l.ll_tokens.length - 1 = l'.ll_tokens.length - 1 :=
    congrArg (fun x : R (List (LLCursorAssignment Char) × Bool) => match x with | .ok (a :: _, _) => a.end_idx | _ => 0) this
  omega

theorem told_answer {l l' : LLLine W} (t : NoResolverTells l l') {Resp : Type} (op : Op W Resp)
    (uses : op.Uses (fun m => Builtin m)) {A : List LRange × Resp}
    (hA : op.exec ⟨0, l⟩ [(wholeLine l 0).range] = .ok A) : op.exec ⟨0, l'⟩ [(wholeLine l' 0).range] = .ok A := by
  classical
  let p : LRange → Api W (Val (Ty.char (W := W))) := fun _ =>
    .call op (fun rs x => if (rs, x) = A then .finish [(0, 'x')] else .finish [])
  have up : ∀ x, (p x).Uses (fun m => Builtin m) := by
    intro x
    refine ⟨uses, fun rs y => ?_⟩
    show Api.Uses _ (if (rs, y) = A then _ else _)
    split <;> trivial
  have := t (apiResolver Ty.char p) ⟨p, up, fun _ _ _ => rfl⟩ 0 0
  simp only [apiResolver, p, Api.run] at this
  rw [show (wholeLine l 0).ll_line = ⟨0, l⟩ from rfl, show (wholeLine l' 0).ll_line = ⟨0, l'⟩ from rfl, hA] at this
  simp only [if_true] at this
  cases hB : op.exec ⟨0, l'⟩ [(wholeLine l' 0).range] with
  | error e =>
    rw [hB] at this
    simp only [Api.run, finishAll] at this
    cases this
  | ok B =>
    rw [hB] at this
    by_cases hAB : B = A
    · rw [hAB]
    · exfalso
      obtain ⟨b1, b2⟩ := B
      simp only [if_neg hAB, Api.run, finishAll] at this
      cases this

theorem pairs_inj {α β : Type} : ∀ {xs ys : List (α × β)}, xs.map (·.1) = ys.map (·.1) → xs.map (·.2) = ys.map (·.2) → xs = ys
  | [], [], _, _ => rfl
  | [], _ :: _, h, _ => by cases h
  | _ :: _, [], h, _ => by cases h
  | (a, b) :: xs, (c, d) :: ys, h1, h2 => by
    simp only [List.map_cons, List.cons.injEq] at h1 h2
    rw [h1.1, h2.1, pairs_inj h1.2 h2.2]

theorem told_found {Out : Type} {L : List Nat} (nd : L.Nodup) {F F' : Nat → List (Out × Nat)}
    (e : L.flatMap (fun i => (F i).map (fun r => ((i, r.2), r.1))) = L.flatMap (fun i => (F' i).map (fun r => ((i, r.2), r.1)))) :
    ∀ i ∈ L, F i = F' i := by
  have one : ∀ F : Nat → List (Out × Nat), L.flatMap (fun i => (F i).map (fun v => (v, id i))) =
      (L.flatMap (fun i => (F i).map (fun r => ((i, r.2), r.1)))).map (fun q => ((q.2, q.1.2), q.1.1)) := by
    intro F
    rw [List.map_flatMap]
    simp [Function.comp_def]
  intro i hi
  have nd' : (L.map id).Nodup := by simpa using nd
  rw [← keyed_values (f := F) nd' i hi, ← keyed_values (f := F') nd' i hi, one, one, e]

theorem told_backwards {Out : Type} : ∀ {L : List Nat} {F B B' : Nat → List (Out × Nat)}, (∀ i ∈ L, (B i).length = (B' i).length) →
    L.flatMap (fun i => (F i).map (fun r => ((i, r.2), r.1)) ++ (B i).map (fun r => ((r.2, i), r.1))) =
      L.flatMap (fun i => (F i).map (fun r => ((i, r.2), r.1)) ++ (B' i).map (fun r => ((r.2, i), r.1))) →
    ∀ i ∈ L, B i = B' i
  | [], _, _, _, _, _, _, h => by cases h
  | j :: L, F, B, B', hl, e, i, hi => by
    simp only [List.flatMap_cons, List.append_assoc] at e
    have e1 := List.append_cancel_left e
    obtain ⟨e2, e3⟩ := List.append_inj e1 (by simpa using hl j (by simp))
    rcases List.mem_cons.1 hi with rfl | hi
    · have := congrArg (List.map (fun q : LRange × Out => (q.2, q.1.1))) e2
      simpa [Function.comp_def] using this
    · exact told_backwards (fun i hi => hl i (by simp [hi])) e3 i hi


theorem told_pairs {l l' : LLLine W} (ne : l.ll_tokens ≠ []) (ne' : l'.ll_tokens ≠ []) (t : NoResolverTells l l') {Out : Type}
    {m : XMatch W Out} (hm : Builtin m) {F F' : Nat → List (Out × Nat)}
    (h : ∀ i < l.ll_tokens.length, m.go (.fwd i) l = .ok (F i)) (h' : ∀ i < l'.ll_tokens.length, m.go (.fwd i) l' = .ok (F' i)) :
    ∀ i < l.ll_tokens.length, F i = F' i := by
  have hlen := told_length ne ne' t
  have pos : 0 < l.ll_tokens.length := List.length_pos_iff.2 ne
  have comp : ∀ {l : LLLine W} {F : Nat → List (Out × Nat)}, 0 < l.ll_tokens.length →
      (∀ i < l.ll_tokens.length, m.go (.fwd i) l = .ok (F i)) →
      (Op.findBy 0 m).exec ⟨0, l⟩ [(wholeLine l 0).range] =
        .ok (((rangeIncl 0 (l.ll_tokens.length - 1)).flatMap (fun i => (F i).map (fun r => ((i, r.2), r.1)))).map (·.1),
          ((rangeIncl 0 (l.ll_tokens.length - 1)).flatMap (fun i => (F i).map (fun r => (((i, r.2) : LRange), r.1)))).map (·.2)) := by
    intro l F pos h
    show answerPairs ((selAt ⟨0, l⟩ (wholeLine l 0).range).findBy m) = _
    unfold LLSelection.findBy
    rw [flatMapR_ok _ (fun i => (F i).map (fun r => (selAt ⟨0, l⟩ (i, r.2), r.1)))]
    · simp [answerPairs, List.map_flatMap, Function.comp_def, selAt, LLSelection.range, wholeLine]
    · intro i hi
      have hi := (mem_rangeIncl.1 hi).2
      simp only [selAt, wholeLine, LLSelection.range] at hi ⊢
      rw [h i (by omega)]
  have e := told_answer t (Op.findBy 0 m) hm (comp pos h)
  rw [comp (by omega) h'] at e
  simp only [Except.ok.injEq, Prod.mk.injEq] at e
  have e1 := pairs_inj e.1 e.2
  rw [← hlen] at e1
  intro i hi
  refine (told_found ?_ e1 i (mem_rangeIncl.2 ⟨by omega, by omega⟩)).symm
  exact (rangeIncl_pairwise _ _).imp (fun h => by omega)

theorem told_both {l l' : LLLine W} (ne : l.ll_tokens ≠ []) (ne' : l'.ll_tokens ≠ []) (t : NoResolverTells l l') {Out : Type}
    {m : XMatch W Out} (hm : Builtin m) {F B B' : Nat → List (Out × Nat)}
    (h : ∀ i < l.ll_tokens.length, m.go (.fwd i) l = .ok (F i)) (h' : ∀ i < l'.ll_tokens.length, m.go (.fwd i) l' = .ok (F i))
    (g : ∀ i < l.ll_tokens.length, m.go (.bwd i) l = .ok (B i)) (g' : ∀ i < l'.ll_tokens.length, m.go (.bwd i) l' = .ok (B' i))
    (hl : ∀ i, (B i).length = (B' i).length) :
    ∀ i < l.ll_tokens.length, B i = B' i := by
  have hlen := told_length ne ne' t
  have pos : 0 < l.ll_tokens.length := List.length_pos_iff.2 ne
  have comp : ∀ {l : LLLine W} {B : Nat → List (Out × Nat)}, 0 < l.ll_tokens.length →
      (∀ i < l.ll_tokens.length, m.go (.fwd i) l = .ok (F i)) → (∀ i < l.ll_tokens.length, m.go (.bwd i) l = .ok (B i)) →
      (Op.findBoth 0 m).exec ⟨0, l⟩ [(wholeLine l 0).range] =
        .ok (((rangeIncl 0 (l.ll_tokens.length - 1)).flatMap (fun i => (F i).map (fun r => ((i, r.2), r.1)) ++
            (B i).map (fun r => ((r.2, i), r.1)))).map (·.1),
          ((rangeIncl 0 (l.ll_tokens.length - 1)).flatMap (fun i => (F i).map (fun r => (((i, r.2) : LRange), r.1)) ++
            (B i).map (fun r => ((r.2, i), r.1)))).map (·.2)) := by
    intro l B pos h g
    show answerPairs ((selAt ⟨0, l⟩ (wholeLine l 0).range).findByForwardsAndBackwards m) = _
    unfold LLSelection.findByForwardsAndBackwards
    rw [flatMapR_ok _ (fun i => (F i).map (fun r => (selAt ⟨0, l⟩ (i, r.2), r.1)) ++ (B i).map (fun r => (selAt ⟨0, l⟩ (r.2, i), r.1)))]
    · simp [answerPairs, List.map_flatMap, Function.comp_def, selAt, LLSelection.range, wholeLine]
    · intro i hi
      have hi := (mem_rangeIncl.1 hi).2
      simp only [selAt, wholeLine, LLSelection.range] at hi ⊢
      rw [h i (by omega)]
      simp only
      rw [g i (by omega)]
  have e := told_answer t (Op.findBoth 0 m) hm (comp pos h g)
  rw [comp (by omega) h' g'] at e
  simp only [Except.ok.injEq, Prod.mk.injEq] at e
  have e1 := pairs_inj e.1 e.2
  rw [← hlen] at e1
  intro i hi
  exact (told_backwards (fun i _ => (hl i).symm) e1 i (mem_rangeIncl.2 ⟨by omega, by omega⟩)).symm

/-- the tag of a token is the first tag attribute of the token -/
theorem first_tag {l : LLLine W} {h : History W} (hr : Reachable l h) {i : Nat} {tok : LLToken} (hi : l.ll_tokens[i]? = some tok)
    {s : Str} {tag : TextTag} (ht : tok.token = .Text s tag) : (valuesOf Ty.textTag (i, i) h).head? = some tag := by
  induction hr with
  | create input size l wf ok =>
    have e := (create_inv wf ok).2.1
    have ht2 : (l.ll_tokens.map (·.token))[i]? = some (.Text s tag) := by simp [hi, ht]
    rw [e, layoutM_tokens] at ht2
    have hz : (LToken.Text s tag, i) ∈ ((input.flatMap (tokensOf W size)).map (·.1)).zipIdx := by
      rw [List.mem_zipIdx_iff_getElem?]; exact ht2
    have := (builtin_blocks (W := W) Ty.textTag ((input.flatMap (tokensOf W size)).map (·.1))).2 _ hz
    unfold creationHistory
    rw [valuesOf_append, this, valuesOf_builtinOf_textTag]
    rfl
  | run l h ptr r asgs leaked l' prev ne go ok ih =>
    rw [run_tokens ok] at hi
    have := ih hi
    rw [valuesOf_append]
    rw [List.head?_append, this]
    rfl
  | runEmpty l h ptr r l' prev empty ok ih =>
    rw [run_tokens ok] at hi
    exact ih hi

theorem told_looks {l l' : LLLine W} {h h' : History W} (hr : Reachable l h) (hr' : Reachable l' h') (ne : l.ll_tokens ≠ [])
    (ne' : l'.ll_tokens ≠ []) (t : NoResolverTells l l') : Looks l l' := by
  have hlen := told_length ne ne' t
  have fw : ∀ (k : Ty W), ∀ i < l.ll_tokens.length, _ := fun k =>
    told_pairs ne ne' t (.attr k trivial) (m := X.attr k) (fun i hi => rep_attr_fwd hr.rep k hi) (fun i hi => rep_attr_fwd hr'.rep k hi)
  have vals : ∀ (k : Ty W) r, valuesOf k r h = valuesOf k r h' := by
    intro k r
    by_cases hi : r.1 < l.ll_tokens.length
    · exact (starts_determined (fw k _ hi)).2 r rfl
    · rw [values_oob hr.rep hi, values_oob hr'.rep (hlen ▸ hi)]
  have perm : ∀ k : Ty W, (rangesOf k h).Perm (rangesOf k h') := by
    intro k
    rw [List.perm_ext_iff_of_nodup (rangesOf_nodup k h) (rangesOf_nodup k h')]
    intro r
    rw [mem_rangesOf_iff_values, mem_rangesOf_iff_values, vals]
  have bw : ∀ (k : Ty W), ∀ i < l.ll_tokens.length, _ := fun k =>
    told_both ne ne' t (.attr k trivial) (m := X.attr k) (fun i hi => rep_attr_fwd hr.rep k hi)
      (fun i hi => by rw [fw k i (hlen ▸ hi)]; exact rep_attr_fwd hr'.rep k hi)
      (fun i hi => rep_attr_bwd hr.rep k hi) (fun i hi => rep_attr_bwd hr'.rep k hi) (fun i => by
        have := (((perm k).filter (fun r => decide (r.2 = i))).flatMap_right (fun r => (valuesOf k r h).map (fun v => (v, r.1)))).length_eq
        simpa only [vals] using this)
  refine ⟨?_, fun k d => ?_⟩
  · have tx := told_pairs ne ne' t (.tokenText) (m := X.tokenText)
      (F := fun i => match l.ll_tokens[i]? with | none => [] | some t => match t.token with | .Text s _ => [(s, i)] | .Value => [])
      (F' := fun i => match l'.ll_tokens[i]? with | none => [] | some t => match t.token with | .Text s _ => [(s, i)] | .Value => [])
      (fun i hi => by
        rw [textToken_fwd, List.getElem?_eq_getElem hi]; simp only; cases l.ll_tokens[i].token <;> rfl)
      (fun i hi => by
        rw [textToken_fwd, List.getElem?_eq_getElem hi]; simp only; cases l'.ll_tokens[i].token <;> rfl)
    apply List.ext_getElem (by simpa using hlen)
    intro i h1 h2
    simp only [List.length_map] at h1 h2
    simp only [List.getElem_map]
    have e := tx i h1
    rw [List.getElem?_eq_getElem h1, List.getElem?_eq_getElem h2] at e
    simp only at e
    cases q1 : l.ll_tokens[i].token with
    | Value =>
      cases q2 : l'.ll_tokens[i].token with
      | Value => rfl
      | Text s' t' => rw [q1, q2] at e; cases e
    | Text s t =>
      cases q2 : l'.ll_tokens[i].token with
      | Value => rw [q1, q2] at e; cases e
      | Text s' t' =>
        rw [q1, q2] at e
        have a1 := first_tag hr (List.getElem?_eq_getElem h1) q1
        have a2 := first_tag hr' (List.getElem?_eq_getElem h2) q2
        rw [vals, a2] at a1
        simp only [List.cons.injEq, Prod.mk.injEq, and_true] at e
        rw [e, Option.some.inj a1]
  · cases d with
    | fwd i =>
      by_cases hi : i < l.ll_tokens.length
      · simp only [X.attr]
        rw [rep_attr_fwd hr.rep k hi, rep_attr_fwd hr'.rep k (hlen ▸ hi), fw k i hi]
      · simp only [X.attr]
        rw [(rep_attr_oob hr.rep k hi).1, (rep_attr_oob hr'.rep k (hlen ▸ hi)).1]
    | bwd i =>
      by_cases hi : i < l.ll_tokens.length
      · simp only [X.attr]
        rw [rep_attr_bwd hr.rep k hi, rep_attr_bwd hr'.rep k (hlen ▸ hi), bw k i hi]
      · simp only [X.attr]
        rw [(rep_attr_oob hr.rep k hi).2, (rep_attr_oob hr'.rep k (hlen ▸ hi)).2]

end LNlp
