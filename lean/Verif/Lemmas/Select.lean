import Verif.Spec.Select
import Verif.Lemmas.Match
import Verif.Lemmas.StoreProps
/- Facts about selections. -/
namespace LNlp
variable {W : World} {Out : Type}

/-- selection of one forward match -/
def fwdSel (s : LLSelection W) (i : Nat) (r : Out × Nat) : LLSelection W × Out :=
  ({ start_idx := i, end_idx := r.2, ll_line := s.ll_line }, r.1)

theorem findBy_ok_iff {s : LLSelection W} {m : XMatch W Out} {out : List (LLSelection W × Out)} :
    s.findBy m = .ok out ↔ (∀ i, s.Has i → ∃ rs, m.go (.fwd i) s.ll_line.val = .ok rs) ∧
      out = (rangeIncl s.start_idx s.end_idx).flatMap
        (fun i => (okD (m.go (.fwd i) s.ll_line.val)).map (fwdSel s i)) := by
  constructor
  · intro h
    obtain ⟨g, hg, rfl⟩ := flatMapR_inv h
    have key : ∀ i ∈ rangeIncl s.start_idx s.end_idx, ∃ rs, m.go (.fwd i) s.ll_line.val = .ok rs ∧
        g i = rs.map (fwdSel s i) := by
      intro i hi
      have := hg i hi
      cases hm : m.go (.fwd i) s.ll_line.val with
      | error e => simp [hm] at this
      | ok rs => simp only [hm, Except.ok.injEq] at this; exact ⟨rs, rfl, this.symm⟩
    refine ⟨fun i hi => ?_, ?_⟩
    · obtain ⟨rs, h, _⟩ := key i (mem_rangeIncl.2 hi); exact ⟨rs, h⟩
    · rw [List.flatMap_def, List.flatMap_def]
      congr 1
      apply List.map_congr_left
      intro i hi
      obtain ⟨rs, h, h2⟩ := key i hi
      rw [h2, okD_of h]
  · rintro ⟨h, rfl⟩
    apply flatMapR_ok
    intro i hi
    obtain ⟨rs, hrs⟩ := h i (mem_rangeIncl.1 hi)
    simp only [hrs, okD_of rfl]
    rfl

theorem findBy_error_iff {s : LLSelection W} {m : XMatch W Out} :
    (∃ e, s.findBy m = .error e) ↔ ∃ i e, s.Has i ∧ m.go (.fwd i) s.ll_line.val = .error e := by
  rw [LLSelection.findBy, flatMapR_error_iff]
  constructor
  · rintro ⟨i, hi, e, he⟩
    refine ⟨i, e, mem_rangeIncl.1 hi, ?_⟩
    cases hm : m.go (.fwd i) s.ll_line.val with
    | error e => simp only [hm] at he; cases he; rfl
    | ok rs => simp [hm] at he
  · rintro ⟨i, e, hi, he⟩
    exact ⟨i, mem_rangeIncl.2 hi, e, by simp [he]⟩

theorem mem_findBy {s : LLSelection W} {m : XMatch W Out} {out : List (LLSelection W × Out)}
    (h : s.findBy m = .ok out) {p : LLSelection W} {x : Out} :
    (p, x) ∈ out ↔ p.ll_line = s.ll_line ∧ s.Has p.start_idx ∧
      ∃ rs, m.go (.fwd p.start_idx) s.ll_line.val = .ok rs ∧ (x, p.end_idx) ∈ rs := by
  obtain ⟨hok, rfl⟩ := findBy_ok_iff.1 h
  simp only [List.mem_flatMap, List.mem_map, mem_rangeIncl]
  constructor
  · rintro ⟨i, hi, ⟨y, j⟩, hr, he⟩
    obtain ⟨rs, hrs⟩ := hok i hi
    rw [okD_of hrs] at hr
    simp only [fwdSel, Prod.mk.injEq] at he
    obtain ⟨rfl, rfl⟩ := he
    exact ⟨rfl, hi, rs, hrs, hr⟩
  · rintro ⟨hl, hi, rs, hrs, hr⟩
    refine ⟨p.start_idx, hi, (x, p.end_idx), by rw [okD_of hrs]; exact hr, ?_⟩
    obtain ⟨ln, a, b⟩ := p
    simp only at hl; subst hl; rfl

/-- filtering a concatenation over strictly increasing keys by its key -/
theorem filter_flatMap_key {β : Type} (f : Nat → List β) (key : β → Nat)
    (hk : ∀ i, ∀ b ∈ f i, key b = i) (j : Nat) : ∀ (l : List Nat), l.Pairwise (· < ·) →
    (l.flatMap f).filter (fun b => decide (key b = j)) = if j ∈ l then f j else [] := by
  intro l
  induction l with
  | nil => simp
  | cons i is ih =>
    intro hp
    rw [List.pairwise_cons] at hp
    rw [List.flatMap_cons, List.filter_append, ih hp.2]
    by_cases e : j = i
    · subst e
      have hn : j ∉ is := fun h => Nat.lt_irrefl _ (hp.1 j h)
      have : (f j).filter (fun b => decide (key b = j)) = f j := by
        rw [List.filter_eq_self]; intro b hb; simp [hk j b hb]
      simp [this, hn]
    · have : (f i).filter (fun b => decide (key b = j)) = [] := by
        rw [List.filter_eq_nil_iff]; intro b hb; simp [hk i b hb]; exact fun h => e h.symm
      simp [this, e]

theorem pairwise_flatMap_key {β : Type} (f : Nat → List β) (key : β → Nat)
    (hk : ∀ i, ∀ b ∈ f i, key b = i) : ∀ (l : List Nat), l.Pairwise (· < ·) →
    (l.flatMap f).Pairwise (fun a b => key a ≤ key b) := by
  intro l
  induction l with
  | nil => simp
  | cons i is ih =>
    intro hp
    rw [List.pairwise_cons] at hp
    rw [List.flatMap_cons, List.pairwise_append]
    refine ⟨?_, ih hp.2, ?_⟩
    · rw [List.pairwise_iff_forall_sublist]
      intro a b hs
      have ha := hs.subset (List.mem_cons_self ..)
      have hb := hs.subset (List.mem_cons_of_mem _ (List.mem_cons_self ..))
      rw [hk i a ha, hk i b hb]; omega
    · intro a ha b hb
      obtain ⟨j, hj, hb⟩ := List.mem_flatMap.1 hb
      rw [hk i a ha, hk j b hb]
      exact Nat.le_of_lt (hp.1 j hj)

theorem findBy_sorted {s : LLSelection W} {m : XMatch W Out} {out : List (LLSelection W × Out)}
    (h : s.findBy m = .ok out) : out.Pairwise (fun p q => p.1.start_idx ≤ q.1.start_idx) := by
  obtain ⟨_, rfl⟩ := findBy_ok_iff.1 h
  refine pairwise_flatMap_key _ (fun p : LLSelection W × Out => p.1.start_idx) ?_ _ (rangeIncl_pairwise _ _)
  intro i b hb
  obtain ⟨r, _, rfl⟩ := List.mem_map.1 hb
  rfl

theorem findBy_filter {s : LLSelection W} {m : XMatch W Out} {out : List (LLSelection W × Out)}
    (h : s.findBy m = .ok out) (i : Nat) {rs : List (Out × Nat)} (hi : s.Has i)
    (hrs : m.go (.fwd i) s.ll_line.val = .ok rs) :
    out.filter (fun p => decide (p.1.start_idx = i)) =
      rs.map (fun r => ({ ll_line := s.ll_line, start_idx := i, end_idx := r.2 }, r.1)) := by
  obtain ⟨_, rfl⟩ := findBy_ok_iff.1 h
  rw [filter_flatMap_key _ (fun p : LLSelection W × Out => p.1.start_idx) ?_ _ _ (rangeIncl_pairwise _ _),
    if_pos (mem_rangeIncl.2 hi), okD_of hrs]
  · rfl
  · intro i b hb
    obtain ⟨r, _, rfl⟩ := List.mem_map.1 hb
    rfl

theorem mem_findBoth {s : LLSelection W} {m : XMatch W Out} {out : List (LLSelection W × Out)}
    (h : s.findByForwardsAndBackwards m = .ok out) :
    ∃ fs bs : Nat → List (Out × Nat),
      (∀ i, s.Has i → m.go (.fwd i) s.ll_line.val = .ok (fs i) ∧ m.go (.bwd i) s.ll_line.val = .ok (bs i)) ∧
      out = (rangeIncl s.start_idx s.end_idx).flatMap (fun i =>
        (fs i).map (fun r => ({ ll_line := s.ll_line, start_idx := i, end_idx := r.2 }, r.1)) ++
        (bs i).map (fun r => ({ ll_line := s.ll_line, start_idx := r.2, end_idx := i }, r.1))) := by
  obtain ⟨g, hg, rfl⟩ := flatMapR_inv h
  have key : ∀ i ∈ rangeIncl s.start_idx s.end_idx, ∃ fs bs, m.go (.fwd i) s.ll_line.val = .ok fs ∧
      m.go (.bwd i) s.ll_line.val = .ok bs ∧
      g i = fs.map (fun r => ({ ll_line := s.ll_line, start_idx := i, end_idx := r.2 }, r.1)) ++
        bs.map (fun r => ({ ll_line := s.ll_line, start_idx := r.2, end_idx := i }, r.1)) := by
    intro i hi
    have := hg i hi
    cases hf : m.go (.fwd i) s.ll_line.val with
    | error e => simp [hf] at this
    | ok fs =>
      cases hb : m.go (.bwd i) s.ll_line.val with
      | error e => simp [hf, hb] at this
      | ok bs => simp only [hf, hb, Except.ok.injEq] at this; exact ⟨fs, bs, rfl, rfl, this.symm⟩
  refine ⟨fun i => okD (m.go (.fwd i) s.ll_line.val), fun i => okD (m.go (.bwd i) s.ll_line.val), ?_, ?_⟩
  · intro i hi
    obtain ⟨fs, bs, h1, h2, _⟩ := key i (mem_rangeIncl.2 hi)
    simp only [h1, h2]; exact ⟨rfl, rfl⟩
  · rw [List.flatMap_def, List.flatMap_def]
    congr 1
    apply List.map_congr_left
    intro i hi
    obtain ⟨fs, bs, h1, h2, h3⟩ := key i hi
    simp only [h3, h1, h2]; rfl

theorem findBoth_error_iff {s : LLSelection W} {m : XMatch W Out} :
    (∃ e, s.findByForwardsAndBackwards m = .error e) ↔
    ∃ i e, s.Has i ∧ (m.go (.fwd i) s.ll_line.val = .error e ∨ m.go (.bwd i) s.ll_line.val = .error e) := by
  rw [LLSelection.findByForwardsAndBackwards, flatMapR_error_iff]
  constructor
  · rintro ⟨i, hi, e, he⟩
    refine ⟨i, e, mem_rangeIncl.1 hi, ?_⟩
    cases hf : m.go (.fwd i) s.ll_line.val with
    | error e => simp only [hf] at he; cases he; exact Or.inl rfl
    | ok fs =>
      cases hb : m.go (.bwd i) s.ll_line.val with
      | error e => simp only [hf, hb] at he; cases he; exact Or.inr rfl
      | ok bs => simp [hf, hb] at he
  · rintro ⟨i, e, hi, he⟩
    refine ⟨i, mem_rangeIncl.2 hi, ?_⟩
    rcases he with he | he
    · exact ⟨e, by simp [he]⟩
    · cases hf : m.go (.fwd i) s.ll_line.val with
      | error e => exact ⟨e, rfl⟩
      | ok fs => exact ⟨e, by simp [he]⟩

theorem matchForwards_ok_iff {s : LLSelection W} {m : XMatch W Out} {out : List (LLSelection W × Out)} :
    s.matchForwards m = .ok out ↔
      (s.end_idx + 1 = s.ll_line.val.ll_tokens.length ∧ out = []) ∨
      (s.end_idx + 1 ≠ s.ll_line.val.ll_tokens.length ∧ ∃ rs,
        m.go (.fwd (s.end_idx + 1)) s.ll_line.val = .ok rs ∧
        out = rs.map (fun r => ({ ll_line := s.ll_line, start_idx := s.start_idx, end_idx := r.2 }, r.1))) := by
  unfold LLSelection.matchForwards
  by_cases h : s.end_idx + 1 = s.ll_line.val.ll_tokens.length
  · simp [h, eq_comm]
  · cases hm : m.go (.fwd (s.end_idx + 1)) s.ll_line.val <;> simp [h, eq_comm]

theorem matchBackwards_ok_iff {s : LLSelection W} {m : XMatch W Out} {out : List (LLSelection W × Out)} :
    s.matchBackwards m = .ok out ↔
      (s.start_idx = 0 ∧ out = []) ∨
      (s.start_idx ≠ 0 ∧ ∃ rs,
        m.go (.bwd (s.start_idx - 1)) s.ll_line.val = .ok rs ∧
        out = rs.map (fun r => ({ ll_line := s.ll_line, start_idx := r.2, end_idx := s.end_idx }, r.1))) := by
  unfold LLSelection.matchBackwards
  by_cases h : s.start_idx = 0
  · simp [h, eq_comm]
  · cases hm : m.go (.bwd (s.start_idx - 1)) s.ll_line.val <;> simp [h, eq_comm]

/-! ### selection_from and split_by -/

theorem selectionFrom_some {s p : LLSelection W} {a b : Nat} :
    s.selectionFrom a b = some p ↔ p.ll_line = s.ll_line ∧ p.start_idx = max a s.start_idx ∧
      p.end_idx = min b s.end_idx ∧ max a s.start_idx ≤ min b s.end_idx := by
  simp only [LLSelection.selectionFrom]
  by_cases h : max a s.start_idx ≤ min b s.end_idx
  · simp only [h, if_true, Option.some.injEq, and_true]
    constructor
    · rintro rfl; exact ⟨rfl, rfl, rfl⟩
    · rintro ⟨h1, h2, h3⟩; obtain ⟨ln, x, y⟩ := p; simp only at h1 h2 h3; subst h1 h2 h3; rfl
  · simp [h]

theorem selectionFrom_none {s : LLSelection W} {a b : Nat} :
    s.selectionFrom a b = none ↔ ¬ max a s.start_idx ≤ min b s.end_idx := by
  simp only [LLSelection.selectionFrom]
  by_cases h : max a s.start_idx ≤ min b s.end_idx <;> simp [h]

theorem hasOpt_selectionFrom {s : LLSelection W} {a b i : Nat} :
    HasOpt (s.selectionFrom a b) i ↔ s.Has i ∧ a ≤ i ∧ i ≤ b := by
  constructor
  · rintro ⟨p, hp, hi⟩
    obtain ⟨_, h1, h2, _⟩ := selectionFrom_some.1 hp
    simp only [LLSelection.Has] at hi ⊢; omega
  · rintro ⟨hs, ha, hb⟩
    simp only [LLSelection.Has] at hs
    refine ⟨⟨s.ll_line, max a s.start_idx, min b s.end_idx⟩, selectionFrom_some.2 ⟨rfl, rfl, rfl, ?_⟩, ?_⟩
    · omega
    · simp only [LLSelection.Has]; omega

theorem selectionFrom_partOf {s p : LLSelection W} {a b : Nat} (h : s.selectionFrom a b = some p) :
    p.PartOf s := by
  obtain ⟨h0, h1, h2, h3⟩ := selectionFrom_some.1 h
  exact ⟨h0, by omega, by omega, by omega⟩

/-- `selection_from(a, m - 1)` with the guard against `m = 0` -/
def gapBefore (s : LLSelection W) (a m : Nat) : Option (LLSelection W) :=
  (checkedSub m 1).bind (fun e => s.selectionFrom a e)

theorem hasOpt_gapBefore {s : LLSelection W} {a m i : Nat} :
    HasOpt (gapBefore s a m) i ↔ s.Has i ∧ a ≤ i ∧ i < m := by
  unfold gapBefore checkedSub
  by_cases h : 1 ≤ m
  · simp only [h, if_true, Option.bind_some, hasOpt_selectionFrom]
    have : ∀ i, i ≤ m - 1 ↔ i < m := by omega
    rw [this]
  · simp only [h, if_false, Option.bind_none]
    constructor
    · rintro ⟨p, hp, _⟩; cases hp
    · rintro ⟨_, _, h⟩; omega

theorem gapBefore_some {s p : LLSelection W} {a m : Nat} (h : gapBefore s a m = some p) :
    p.PartOf s ∧ p.start_idx = max a s.start_idx ∧ p.end_idx + 1 = min m (s.end_idx + 1) := by
  unfold gapBefore checkedSub at h
  by_cases hm : 1 ≤ m
  · simp only [hm, if_true, Option.bind_some] at h
    have := selectionFrom_some.1 h
    exact ⟨selectionFrom_partOf h, this.2.1, by omega⟩
  · simp [hm] at h

/-- the gaps between matches, from token `a` on -/
def gaps (s : LLSelection W) : Nat → List (Nat × Nat) → List (LLSelection W)
  | a, [] => (s.selectionFrom a s.end_idx).toList
  | a, m :: ms => (gapBefore s a m.1).toList ++ gaps s (m.2 + 1) ms

theorem gaps_windows (s : LLSelection W) : ∀ (m0 : LLSelection W × Out) (ms : List (LLSelection W × Out))
    (ne : m0 :: ms ≠ []),
    gaps s (m0.1.end_idx + 1) (ms.map (fun p => (p.1.start_idx, p.1.end_idx))) =
    (windows2 (m0 :: ms)).filterMap (fun m =>
          (checkedSub m.2.1.start_idx 1).bind (fun end_idx =>
            s.selectionFrom (m.1.1.end_idx + 1) end_idx)) ++
      (s.selectionFrom (((m0 :: ms).getLast ne).1.end_idx + 1) s.end_idx).toList := by
  intro m0 ms
  induction ms generalizing m0 with
  | nil => intro ne; simp [gaps, windows2]
  | cons m1 ms ih =>
    intro ne
    simp only [List.map_cons, gaps, windows2, List.filterMap_cons]
    rw [ih m1 (by simp), List.getLast_cons (by simp : m1 :: ms ≠ [])]
    unfold gapBefore
    cases (checkedSub m1.1.start_idx 1).bind (fun e => s.selectionFrom (m0.1.end_idx + 1) e) <;> simp

theorem splitBy_eq {s : LLSelection W} {m : XMatch W Out} {out : List (LLSelection W × Out)}
    (h : s.findBy m = .ok out) (ne : s.start_idx ≤ s.end_idx) :
    s.splitBy m = .ok (gaps s s.start_idx (out.map (fun p => (p.1.start_idx, p.1.end_idx)))) := by
  unfold LLSelection.splitBy
  rw [h]
  cases out with
  | nil =>
    have : s.selectionFrom s.start_idx s.end_idx = some s :=
      selectionFrom_some.2 ⟨rfl, by omega, by omega, by omega⟩
    simp [gaps, this]
  | cons m0 ms =>
    cases ms with
    | nil => rfl
    | cons m1 ms =>
      simp only [List.map_cons, gaps]
      have := gaps_windows s m0 (m1 :: ms) (by simp)
      simp only [List.map_cons, gaps] at this
      rw [List.getLast_cons (by simp : m1 :: ms ≠ [])] at this
      rw [this]
      simp [gapBefore]

theorem gaps_mem {s p : LLSelection W} : ∀ {ms : List (Nat × Nat)} {a : Nat}, p ∈ gaps s a ms →
    p.PartOf s ∧ ∃ pre suf, ms = pre ++ suf ∧
      ((pre = [] ∧ p.start_idx = max a s.start_idx) ∨
        ∃ m, pre.getLast? = some m ∧ p.start_idx = max (m.2 + 1) s.start_idx) ∧
      ((suf = [] ∧ p.end_idx = s.end_idx) ∨
        ∃ m, suf.head? = some m ∧ p.end_idx + 1 = min m.1 (s.end_idx + 1)) := by
  intro ms
  induction ms with
  | nil =>
    intro a hp
    simp only [gaps, Option.mem_toList] at hp
    have := selectionFrom_some.1 hp
    exact ⟨selectionFrom_partOf hp, [], [], rfl, Or.inl ⟨rfl, this.2.1⟩, Or.inl ⟨rfl, by omega⟩⟩
  | cons m ms ih =>
    intro a hp
    simp only [gaps, List.mem_append, Option.mem_toList] at hp
    rcases hp with hp | hp
    · have := gapBefore_some hp
      exact ⟨this.1, [], m :: ms, rfl, Or.inl ⟨rfl, this.2.1⟩, Or.inr ⟨m, rfl, this.2.2⟩⟩
    · obtain ⟨h1, pre, suf, rfl, h2, h3⟩ := ih hp
      refine ⟨h1, m :: pre, suf, rfl, Or.inr ?_, h3⟩
      rcases h2 with ⟨rfl, h2⟩ | ⟨m', hm', h2⟩
      · exact ⟨m, rfl, h2⟩
      · refine ⟨m', ?_, h2⟩
        cases pre with
        | nil => cases hm'
        | cons x xs => rw [List.getLast?_cons_cons]; exact hm'

theorem gaps_lower {s p : LLSelection W} {ms : List (Nat × Nat)} {a b : Nat} (hp : p ∈ gaps s a ms)
    (ha : b ≤ a) (hm : ∀ m ∈ ms, b ≤ m.2 + 1) : b ≤ p.start_idx := by
  obtain ⟨_, pre, suf, rfl, h, _⟩ := gaps_mem hp
  rcases h with ⟨_, h⟩ | ⟨m, hl, h⟩
  · omega
  · have := hm m (List.mem_append_left _ (List.mem_of_getLast? hl)); omega

theorem gaps_disjoint {s : LLSelection W} : ∀ {ms : List (Nat × Nat)} {a : Nat},
    ms.Pairwise (fun m m' => m.1 ≤ m'.1) → (∀ m ∈ ms, m.1 ≤ m.2) →
    (gaps s a ms).Pairwise (fun p q => p.end_idx + 1 < q.start_idx) := by
  intro ms
  induction ms with
  | nil =>
    intro a _ _
    simp only [gaps]
    cases s.selectionFrom a s.end_idx <;> simp
  | cons m ms ih =>
    intro a hs hm
    rw [List.pairwise_cons] at hs
    simp only [gaps]
    rw [List.pairwise_append]
    refine ⟨?_, ih hs.2 (fun m' h => hm m' (by simp [h])), ?_⟩
    · cases gapBefore s a m.1 <;> simp
    · intro p hp q hq
      have h1 := gapBefore_some (Option.mem_toList.1 hp)
      have h2 : m.1 + 1 ≤ q.start_idx := by
        apply gaps_lower hq
        · have := hm m (by simp); omega
        · intro m' h'
          have := hs.1 m' h'; have := hm m' (by simp [h']); omega
      omega

theorem gaps_cover {s : LLSelection W} {t : Nat} (ht : s.Has t) : ∀ {ms : List (Nat × Nat)} {a : Nat},
    a ≤ t → (∀ m ∈ ms, ¬ (m.1 ≤ t ∧ t ≤ m.2)) → ∃ p ∈ gaps s a ms, p.Has t := by
  intro ms
  induction ms with
  | nil =>
    intro a ha _
    obtain ⟨p, hp, h⟩ := hasOpt_selectionFrom.2 ⟨ht, ha, ht.2⟩
    exact ⟨p, by simp [gaps, hp], h⟩
  | cons m ms ih =>
    intro a ha hm
    by_cases h : t < m.1
    · obtain ⟨p, hp, h⟩ := hasOpt_gapBefore.2 ⟨ht, ha, h⟩
      exact ⟨p, by simp [gaps, hp], h⟩
    · have h2 := hm m (by simp)
      obtain ⟨p, hp, h⟩ := ih (a := m.2 + 1) (by omega) (fun m' h' => hm m' (by simp [h']))
      exact ⟨p, by simp [gaps, hp], h⟩

/-- a token is in a gap iff the last match that starts at or before it ends before it -/
theorem gaps_has_iff {s : LLSelection W} {t : Nat} (ht : s.Has t) : ∀ {ms : List (Nat × Nat)} {a : Nat},
    ms.Pairwise (fun m m' => m.1 ≤ m'.1) → (∀ m ∈ ms, m.1 ≤ m.2) →
    ((∃ p ∈ gaps s a ms, p.Has t) ↔
      (((ms.filter (fun m => decide (m.1 ≤ t))).getLast?.map (fun m => m.2 + 1)).getD a) ≤ t) := by
  intro ms
  induction ms with
  | nil =>
    intro a _ _
    simp only [gaps, List.filter_nil, List.getLast?_nil, Option.map_none, Option.getD_none, Option.mem_toList]
    constructor
    · rintro ⟨p, hp, h⟩; exact (hasOpt_selectionFrom.1 ⟨p, hp, h⟩).2.1
    · intro ha; exact hasOpt_selectionFrom.2 ⟨ht, ha, ht.2⟩
  | cons m ms ih =>
    intro a hs hm
    rw [List.pairwise_cons] at hs
    have hm' : ∀ m' ∈ ms, m'.1 ≤ m'.2 := fun m' h => hm m' (by simp [h])
    simp only [gaps, List.mem_append, Option.mem_toList, or_and_right, exists_or]
    have hgap : (∃ p, gapBefore s a m.1 = some p ∧ p.Has t) ↔ a ≤ t ∧ t < m.1 :=
      ⟨fun ⟨p, hp, h⟩ => (hasOpt_gapBefore.1 ⟨p, hp, h⟩).2, fun h => hasOpt_gapBefore.2 ⟨ht, h⟩⟩
    rw [hgap, ih hs.2 hm']
    by_cases h : m.1 ≤ t
    · rw [List.filter_cons_of_pos (by simpa using h), List.getLast?_cons]
      cases hl : (ms.filter (fun m => decide (m.1 ≤ t))).getLast? with
      | none => simp; omega
      | some x => simp; omega
    · have hnil : ms.filter (fun m => decide (m.1 ≤ t)) = [] := by
        rw [List.filter_eq_nil_iff]
        intro m' h'
        have := hs.1 m' h'
        simp only [decide_eq_true_eq]; omega
      rw [List.filter_cons_of_neg (by simpa using h), hnil]
      have := hm m (by simp)
      simp
      omega

/-- elements before the last element of a prefix are related to it -/
theorem pairwise_pre_last {α : Type} {r : α → α → Prop} (refl : ∀ x, r x x) {pre : List α} {x : α}
    (hp : pre.Pairwise r) (hl : pre.getLast? = some x) : ∀ y ∈ pre, r y x := by
  obtain ⟨ys, rfl⟩ := List.getLast?_eq_some_iff.1 hl
  rw [List.pairwise_append] at hp
  intro y hy
  rcases List.mem_append.1 hy with hy | hy
  · exact hp.2.2 y hy x (by simp)
  · rw [List.mem_singleton.1 hy]; exact refl x

theorem pairwise_head_suf {α : Type} {r : α → α → Prop} (refl : ∀ x, r x x) {suf : List α} {x : α}
    (hp : suf.Pairwise r) (hl : suf.head? = some x) : ∀ y ∈ suf, r x y := by
  cases suf with
  | nil => cases hl
  | cons z zs =>
    cases hl
    rw [List.pairwise_cons] at hp
    intro y hy
    rcases List.mem_cons.1 hy with rfl | hy
    · exact refl _
    · exact hp.1 y hy

/-- no gap contains the first token of a match -/
theorem gaps_no_start {s p : LLSelection W} {ms : List (Nat × Nat)} {a : Nat}
    (hs : ms.Pairwise (fun m m' => m.1 ≤ m'.1)) (hm : ∀ m ∈ ms, m.1 ≤ m.2) (hp : p ∈ gaps s a ms) :
    ∀ m ∈ ms, ¬ p.Has m.1 := by
  obtain ⟨hpart, pre, suf, rfl, h1, h2⟩ := gaps_mem hp
  rw [List.pairwise_append] at hs
  intro m hmem hhas
  simp only [LLSelection.Has] at hhas
  rcases List.mem_append.1 hmem with hpre | hsuf
  · rcases h1 with ⟨rfl, _⟩ | ⟨l, hl, h1⟩
    · cases hpre
    · have := pairwise_pre_last (r := fun m m' : Nat × Nat => m.1 ≤ m'.1) (fun _ => Nat.le_refl _) hs.1 hl m hpre
      have := hm l (List.mem_append_left _ (List.mem_of_getLast? hl))
      omega
  · rcases h2 with ⟨rfl, _⟩ | ⟨l, hl, h2⟩
    · cases hsuf
    · have := pairwise_head_suf (r := fun m m' : Nat × Nat => m.1 ≤ m'.1) (fun _ => Nat.le_refl _) hs.2.1 hl m hsuf
      omega

/-- if the matches also end in order, no gap contains a token of a match -/
theorem gaps_clean {s p : LLSelection W} {ms : List (Nat × Nat)} {a : Nat}
    (hs : ms.Pairwise (fun m m' => m.1 ≤ m'.1)) (he : ms.Pairwise (fun m m' => m.2 ≤ m'.2))
    (hp : p ∈ gaps s a ms) : ∀ m ∈ ms, ∀ t, m.1 ≤ t → t ≤ m.2 → ¬ p.Has t := by
  obtain ⟨hpart, pre, suf, rfl, h1, h2⟩ := gaps_mem hp
  rw [List.pairwise_append] at hs he
  intro m hmem t h3 h4 hhas
  simp only [LLSelection.Has] at hhas
  rcases List.mem_append.1 hmem with hpre | hsuf
  · rcases h1 with ⟨rfl, _⟩ | ⟨l, hl, h1⟩
    · cases hpre
    · have := pairwise_pre_last (r := fun m m' : Nat × Nat => m.2 ≤ m'.2) (fun _ => Nat.le_refl _) he.1 hl m hpre
      omega
  · rcases h2 with ⟨rfl, _⟩ | ⟨l, hl, h2⟩
    · cases hsuf
    · have := pairwise_head_suf (r := fun m m' : Nat × Nat => m.1 ≤ m'.1) (fun _ => Nat.le_refl _) hs.2.1 hl m hsuf
      omega

/-- gaps are bounded by the edges of the selection or by matches -/
theorem gaps_maximal {s p : LLSelection W} {ms : List (Nat × Nat)} (hm : ∀ m ∈ ms, m.1 ≤ m.2)
    (hin : ∀ m ∈ ms, s.Has m.1) (hp : p ∈ gaps s s.start_idx ms) :
    (p.start_idx = s.start_idx ∨ ∃ m ∈ ms, m.2 + 1 = p.start_idx) ∧
    (p.end_idx = s.end_idx ∨ ∃ m ∈ ms, p.end_idx + 1 = m.1) := by
  obtain ⟨hpart, pre, suf, rfl, h1, h2⟩ := gaps_mem hp
  constructor
  · rcases h1 with ⟨rfl, h⟩ | ⟨l, hl, h1⟩
    · left; omega
    · right
      have hmem : l ∈ pre ++ suf := List.mem_append_left _ (List.mem_of_getLast? hl)
      refine ⟨l, hmem, ?_⟩
      have := hm l hmem; have := hin l hmem
      simp only [LLSelection.Has] at this; omega
  · rcases h2 with ⟨rfl, h⟩ | ⟨l, hl, h2⟩
    · left; omega
    · right
      have hmem : l ∈ pre ++ suf := List.mem_append_right _ (List.mem_of_head? hl)
      refine ⟨l, hmem, ?_⟩
      have := hin l hmem
      simp only [LLSelection.Has] at this; omega

/-! ### trim -/

/-- the end of the first result, if any -/
def firstEnd (rs : List (Out × Nat)) : Option Nat := rs.head?.map (·.2)

/-- what one side of `trim_selection` finds -/
def trimFind (m : XMatch W Out) (d : Dir) (l : LLLine W) (on : Bool) : R (Option Nat) :=
  if on then
    match m.go d l with
    | .error e => .error e
    | .ok rs => .ok (firstEnd rs)
  else .ok none

theorem trimSelection_eq (s : LLSelection W) (m : XMatch W Out) (fs fe : Bool) :
    s.trimSelection m fs fe = (match trimFind m (.fwd s.start_idx) s.ll_line.val fs with
      | .error e => .error e
      | .ok lo =>
        match trimFind m (.bwd s.end_idx) s.ll_line.val fe with
        | .error e => .error e
        | .ok hi =>
          .ok (if s.start_idx ≤ (hi.map (fun j => j - 1)).getD s.end_idx ∧
              (lo.map (· + 1)).getD s.start_idx ≤ (hi.map (fun j => j - 1)).getD s.end_idx then
            some { ll_line := s.ll_line, start_idx := (lo.map (· + 1)).getD s.start_idx,
                   end_idx := (hi.map (fun j => j - 1)).getD s.end_idx } else none)) := by
  have hc : ∀ j, (checkedSub j 1).getD j = j - 1 := by
    intro j; unfold checkedSub; by_cases h : 1 ≤ j
    · simp [h]
    · simp [h]; omega
  have pull : ∀ (c : Prop) [Decidable c] (a b : Option (LLSelection W)),
      (if c then (.ok a : R (Option (LLSelection W))) else .ok b) = .ok (if c then a else b) := by
    intro c _ a b; split <;> rfl
  unfold LLSelection.trimSelection trimFind
  cases fs <;> cases fe
  · simp only [Bool.false_eq_true, if_false, Option.map_none, Option.getD_none, pull]
  · cases m.go (.bwd s.end_idx) s.ll_line.val with
    | error e => rfl
    | ok rs =>
      cases rs with
      | nil => simp only [Bool.false_eq_true, if_false, if_true, List.head?_nil, firstEnd, Option.map_none, Option.getD_none, pull]
      | cons r rs =>
        simp only [Bool.false_eq_true, if_false, if_true, List.head?_cons, firstEnd, Option.map_some, Option.getD_some,
          Option.map_none, Option.getD_none, pull, hc]
  · cases m.go (.fwd s.start_idx) s.ll_line.val with
    | error e => rfl
    | ok rs =>
      cases rs with
      | nil => simp only [Bool.false_eq_true, if_false, if_true, List.head?_nil, firstEnd, Option.map_none, Option.getD_none, pull]
      | cons r rs =>
        simp only [Bool.false_eq_true, if_false, if_true, List.head?_cons, firstEnd, Option.map_some, Option.getD_some,
          Option.map_none, Option.getD_none, pull]
  · cases m.go (.fwd s.start_idx) s.ll_line.val with
    | error e => rfl
    | ok rs =>
      cases m.go (.bwd s.end_idx) s.ll_line.val with
      | error e => cases rs <;> rfl
      | ok rs' =>
        cases rs <;> cases rs' <;>
        simp only [if_true, List.head?_cons, List.head?_nil, firstEnd, Option.map_some, Option.getD_some,
          Option.map_none, Option.getD_none, pull, hc]

theorem trimFind_ok {m : XMatch W Out} {d : Dir} {l : LLLine W} {on : Bool} {o : Option Nat}
    (h : trimFind m d l on = .ok o) :
    (on = false ∧ o = none) ∨ (on = true ∧ ∃ rs, m.go d l = .ok rs ∧ o = firstEnd rs) := by
  unfold trimFind at h
  cases on with
  | false => left; simp at h; exact ⟨rfl, h.symm⟩
  | true =>
    right
    cases hg : m.go d l with
    | error e => simp [hg] at h
    | ok rs => simp [hg] at h; exact ⟨rfl, rs, rfl, h.symm⟩

theorem trimSelection_ok {s : LLSelection W} {m : XMatch W Out} {fs fe : Bool} {o : Option (LLSelection W)}
    (h : s.trimSelection m fs fe = .ok o) : ∃ lo hi, trimFind m (.fwd s.start_idx) s.ll_line.val fs = .ok lo ∧
      trimFind m (.bwd s.end_idx) s.ll_line.val fe = .ok hi ∧
      o = (if s.start_idx ≤ (hi.map (fun j => j - 1)).getD s.end_idx ∧
              (lo.map (· + 1)).getD s.start_idx ≤ (hi.map (fun j => j - 1)).getD s.end_idx then
            some { ll_line := s.ll_line, start_idx := (lo.map (· + 1)).getD s.start_idx,
                   end_idx := (hi.map (fun j => j - 1)).getD s.end_idx } else none) := by
  rw [trimSelection_eq] at h
  cases h1 : trimFind m (.fwd s.start_idx) s.ll_line.val fs with
  | error e => simp [h1] at h
  | ok lo =>
    cases h2 : trimFind m (.bwd s.end_idx) s.ll_line.val fe with
    | error e => simp [h1, h2] at h
    | ok hi =>
      simp only [h1, h2, Except.ok.injEq] at h
      exact ⟨lo, hi, rfl, rfl, h.symm⟩

/-- the tokens left by `trim_selection` -/
theorem trim_has {s : LLSelection W} {m : XMatch W Out} {fs fe : Bool} {o : Option (LLSelection W)}
    {lo hi : Option Nat} (h : s.trimSelection m fs fe = .ok o)
    (hlo : trimFind m (.fwd s.start_idx) s.ll_line.val fs = .ok lo)
    (hhi : trimFind m (.bwd s.end_idx) s.ll_line.val fe = .ok hi)
    (ne : s.start_idx ≤ s.end_idx)
    (wlo : ∀ j, lo = some j → s.start_idx ≤ j) (whi : ∀ j, hi = some j → j ≤ s.end_idx) :
    (∀ p, o = some p → p.PartOf s) ∧
    (¬ (hi = some 0 ∧ lo = none ∧ s.start_idx = 0) → ∀ i, HasOpt o i ↔
      s.Has i ∧ (∀ j, lo = some j → j < i) ∧ (∀ j, hi = some j → i < j)) := by
  obtain ⟨lo', hi', h1, h2, rfl⟩ := trimSelection_ok h
  rw [hlo] at h1; cases h1
  rw [hhi] at h2; cases h2
  have ha : s.start_idx ≤ (lo.map (· + 1)).getD s.start_idx := by
    cases lo with
    | none => simp
    | some j => have := wlo j rfl; simp; omega
  have hb : (hi.map (fun j => j - 1)).getD s.end_idx ≤ s.end_idx := by
    cases hi with
    | none => simp
    | some j => have := whi j rfl; simp; omega
  constructor
  · intro p hp
    split at hp
    · next hc => cases hp; exact ⟨rfl, ha, hc.2, hb⟩
    · cases hp
  · intro hn i
    have key : HasOpt (if s.start_idx ≤ (hi.map (fun j => j - 1)).getD s.end_idx ∧
              (lo.map (· + 1)).getD s.start_idx ≤ (hi.map (fun j => j - 1)).getD s.end_idx then
            some { ll_line := s.ll_line, start_idx := (lo.map (· + 1)).getD s.start_idx,
                   end_idx := (hi.map (fun j => j - 1)).getD s.end_idx } else none) i ↔
        (lo.map (· + 1)).getD s.start_idx ≤ i ∧ i ≤ (hi.map (fun j => j - 1)).getD s.end_idx := by
      constructor
      · rintro ⟨p, hp, hi'⟩
        split at hp
        · cases hp; exact hi'
        · cases hp
      · rintro ⟨h1, h2⟩
        rw [if_pos ⟨by omega, by omega⟩]
        exact ⟨_, rfl, h1, h2⟩
    rw [key]
    simp only [LLSelection.Has]
    cases lo with
    | none =>
      cases hi with
      | none => simp
      | some j =>
        have := whi j rfl
        simp only [Option.map_none, Option.getD_none, Option.map_some, Option.getD_some, Option.some.injEq,
          forall_eq', reduceCtorEq, false_implies, implies_true, true_and]
        have hj : ¬ (j = 0 ∧ s.start_idx = 0) := fun h => hn ⟨by rw [h.1], rfl, h.2⟩
        omega
    | some k =>
      have := wlo k rfl
      cases hi with
      | none => simp; omega
      | some j =>
        have := whi j rfl
        simp only [Option.map_some, Option.getD_some, Option.some.injEq, forall_eq']
        omega

end LNlp
