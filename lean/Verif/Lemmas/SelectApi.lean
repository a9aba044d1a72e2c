import Verif.Lemmas.Select
/- Selections obtained through the API stay inside the line; lines of honest resolvers. -/
namespace LNlp
variable {W : World} {Out : Type}

theorem inside_of_partOf {p s : LLSelection W} (hp : p.PartOf s) (hs : s.Inside) : p.Inside := by
  obtain ⟨hl, h1, h2, h3⟩ := hp
  refine ⟨h2, ?_⟩
  rw [hl]; have := hs.2; omega

theorem builtin_wellBehaved {m : XMatch W Out} (hm : Builtin m) {l : LLLine W} {h : History W}
    (rep : Rep l h) (ho : Ordered h) : WellBehaved l m := by
  refine ⟨fun i out _ hg r hr => ?_, fun i out _ hg r hr => ?_⟩
  · have := built_results hm rep True (fun _ => ho) (.fwd i) out hg r hr
    exact ⟨this.2 trivial, this.1⟩
  · exact (built_results hm rep True (fun _ => ho) (.bwd i) out hg r hr).2 trivial

theorem mem_of_head {α : Type} {x : α} {l : List α} (h : l.head? = some x) : x ∈ l := List.mem_of_head? h

theorem trim_inside {s s' : LLSelection W} {m : XMatch W Out} {fs fe : Bool}
    (hw : WellBehaved s.ll_line.val m) (hs : s.Inside)
    (h : s.trimSelection m fs fe = .ok (some s')) : s'.PartOf s := by
  obtain ⟨lo, hi, h1, h2, _⟩ := trimSelection_ok h
  refine (trim_has h h1 h2 hs.1 ?_ ?_).1 s' rfl
  · rintro j rfl
    rcases trimFind_ok h1 with ⟨_, h⟩ | ⟨_, rs, hg, h⟩
    · cases h
    · obtain ⟨r, hr, rfl⟩ := Option.map_eq_some_iff.1 h.symm
      exact (hw.1 _ rs (by have := hs.1; have := hs.2; omega) hg r (mem_of_head hr)).1
  · rintro j rfl
    rcases trimFind_ok h2 with ⟨_, h⟩ | ⟨_, rs, hg, h⟩
    · cases h
    · obtain ⟨r, hr, rfl⟩ := Option.map_eq_some_iff.1 h.symm
      exact hw.2 _ rs hs.2 hg r (mem_of_head hr)

theorem findBy_inside {s s' : LLSelection W} {m : XMatch W Out} {x : Out} {out : List (LLSelection W × Out)}
    (hw : WellBehaved s.ll_line.val m) (hs : s.Inside)
    (h : s.findBy m = .ok out) (hx : (s', x) ∈ out) : s'.ll_line = s.ll_line ∧ s'.Inside := by
  obtain ⟨hl, hi, rs, hg, hr⟩ := (mem_findBy h).1 hx
  refine ⟨hl, ?_⟩
  simp only [LLSelection.Has] at hi
  have := hw.1 _ rs (by have := hs.2; omega) hg _ hr
  exact ⟨this.1, by rw [hl]; exact this.2⟩

theorem findBoth_inside {s s' : LLSelection W} {m : XMatch W Out} {x : Out} {out : List (LLSelection W × Out)}
    (hw : WellBehaved s.ll_line.val m) (hs : s.Inside)
    (h : s.findByForwardsAndBackwards m = .ok out) (hx : (s', x) ∈ out) :
    s'.ll_line = s.ll_line ∧ s'.Inside := by
  obtain ⟨fs, bs, hok, rfl⟩ := mem_findBoth h
  simp only [List.mem_flatMap, mem_rangeIncl, List.mem_append, List.mem_map, Prod.mk.injEq] at hx
  obtain ⟨i, hi, ⟨r, hr, rfl, rfl⟩ | ⟨r, hr, rfl, rfl⟩⟩ := hx
  · have := hw.1 i _ (by have := hs.2; omega) (hok i hi).1 r hr
    exact ⟨rfl, this⟩
  · have := hw.2 i _ (by have := hs.2; omega) (hok i hi).2 r hr
    exact ⟨rfl, this, by have := hs.2; show i < _; simp only; omega⟩

theorem matchForwards_inside {s s' : LLSelection W} {m : XMatch W Out} {x : Out}
    {out : List (LLSelection W × Out)} (hw : WellBehaved s.ll_line.val m) (hs : s.Inside)
    (h : s.matchForwards m = .ok out) (hx : (s', x) ∈ out) : s'.ll_line = s.ll_line ∧ s'.Inside := by
  rcases matchForwards_ok_iff.1 h with ⟨_, rfl⟩ | ⟨hne, rs, hg, rfl⟩
  · cases hx
  · simp only [List.mem_map, Prod.mk.injEq] at hx
    obtain ⟨r, hr, rfl, rfl⟩ := hx
    have := hw.1 _ rs (by have := hs.2; omega) hg r hr
    exact ⟨rfl, by have := hs.1; show s.start_idx ≤ r.2; omega, this.2⟩

theorem matchBackwards_inside {s s' : LLSelection W} {m : XMatch W Out} {x : Out}
    {out : List (LLSelection W × Out)} (hw : WellBehaved s.ll_line.val m) (hs : s.Inside)
    (h : s.matchBackwards m = .ok out) (hx : (s', x) ∈ out) : s'.ll_line = s.ll_line ∧ s'.Inside := by
  rcases matchBackwards_ok_iff.1 h with ⟨_, rfl⟩ | ⟨hne, rs, hg, rfl⟩
  · cases hx
  · simp only [List.mem_map, Prod.mk.injEq] at hx
    obtain ⟨r, hr, rfl, rfl⟩ := hx
    have := hw.2 _ rs (by have := hs.1; have := hs.2; omega) hg r hr
    exact ⟨rfl, by have := hs.1; show r.2 ≤ s.end_idx; omega, hs.2⟩

theorem splitBy_partOf {s p : LLSelection W} {m : XMatch W Out} {out : List (LLSelection W)}
    (ne : s.start_idx ≤ s.end_idx) (h : s.splitBy m = .ok out) (hp : p ∈ out) : p.PartOf s := by
  cases hf : s.findBy m with
  | error e => simp [LLSelection.splitBy, hf] at h
  | ok ms =>
    rw [splitBy_eq hf ne] at h
    cases h
    exact (gaps_mem hp).1

theorem apiSel_inside {P : {Out : Type} → XMatch W Out → Prop} {s0 s : LLSelection W}
    (hP : ∀ {Out : Type} (m : XMatch W Out), P m → WellBehaved s0.ll_line.val m)
    (h0 : s0.Inside) (h : ApiSel P s0 s) : s.ll_line = s0.ll_line ∧ s.Inside := by
  have part : ∀ {p s : LLSelection W}, (s.ll_line = s0.ll_line ∧ s.Inside) → p.PartOf s →
      p.ll_line = s0.ll_line ∧ p.Inside :=
    fun hs hp => ⟨hp.1.trans hs.1, inside_of_partOf hp hs.2⟩
  have step : ∀ {p s : LLSelection W}, s.ll_line = s0.ll_line → (p.ll_line = s.ll_line ∧ p.Inside) →
      p.ll_line = s0.ll_line ∧ p.Inside := fun hs hp => ⟨hp.1.trans hs, hp.2⟩
  induction h with
  | self => exact ⟨rfl, h0⟩
  | @fromLine s s' _ hf ih =>
    simp only [LLSelection.fromLine] at hf
    split at hf
    · cases hf
      refine ⟨ih.1, by simp, ?_⟩
      show s.ll_line.val.ll_tokens.length - 1 < s.ll_line.val.ll_tokens.length; omega
    · cases hf
  | @findBy s _ _ m _ _ _ hm hf hx ih => exact step ih.1 (findBy_inside (by rw [ih.1]; exact hP m hm) ih.2 hf hx)
  | @findFirstBy s s' _ m x _ hm hf ih =>
    unfold LLSelection.findFirstBy at hf
    cases hb : s.findBy m with
    | error e => simp [hb] at hf
    | ok out =>
      simp only [hb, Except.ok.injEq] at hf
      exact step ih.1 (findBy_inside (by rw [ih.1]; exact hP m hm) ih.2 hb (mem_of_head hf))
  | @findBoth s _ _ m _ _ _ hm hf hx ih => exact step ih.1 (findBoth_inside (by rw [ih.1]; exact hP m hm) ih.2 hf hx)
  | @matchForwards s _ _ m _ _ _ hm hf hx ih =>
    exact step ih.1 (matchForwards_inside (by rw [ih.1]; exact hP m hm) ih.2 hf hx)
  | @matchFirstForwards s s' _ m x _ hm hf ih =>
    unfold LLSelection.matchFirstForwards at hf
    cases hb : s.matchForwards m with
    | error e => simp [hb] at hf
    | ok out =>
      simp only [hb, Except.ok.injEq] at hf
      exact step ih.1 (matchForwards_inside (by rw [ih.1]; exact hP m hm) ih.2 hb (mem_of_head hf))
  | @matchBackwards s _ _ m _ _ _ hm hf hx ih =>
    exact step ih.1 (matchBackwards_inside (by rw [ih.1]; exact hP m hm) ih.2 hf hx)
  | @matchFirstBackwards s s' _ m x _ hm hf ih =>
    unfold LLSelection.matchFirstBackwards at hf
    cases hb : s.matchBackwards m with
    | error e => simp [hb] at hf
    | ok out =>
      simp only [hb, Except.ok.injEq] at hf
      exact step ih.1 (matchBackwards_inside (by rw [ih.1]; exact hP m hm) ih.2 hb (mem_of_head hf))
  | splitBy _ _ hf hx ih => exact part ih (splitBy_partOf ih.2.1 hf hx)
  | @splitWith s t s' a b _ _ hf hx ih _ =>
    unfold LLSelection.splitWith at hf
    split at hf
    · cases hf
      rcases hx with hx | hx
      · split at hx
        · exact part ih (selectionFrom_partOf hx)
        · cases hx
      · exact part ih (selectionFrom_partOf hx)
    · cases hf
  | @trimStart s s' _ m _ hm hf ih => exact part ih (trim_inside (by rw [ih.1]; exact hP m hm) ih.2 hf)
  | @trimEnd s s' _ m _ hm hf ih => exact part ih (trim_inside (by rw [ih.1]; exact hP m hm) ih.2 hf)
  | @trim s s' _ m _ hm hf ih => exact part ih (trim_inside (by rw [ih.1]; exact hP m hm) ih.2 hf)

theorem wholeLine_inside {l : LLLine W} (ne : l.ll_tokens ≠ []) (ptr : Nat) : (wholeLine l ptr).Inside := by
  have : 0 < l.ll_tokens.length := List.length_pos_iff.2 ne
  exact ⟨Nat.zero_le _, by show l.ll_tokens.length - 1 < l.ll_tokens.length; omega⟩

theorem inputSpans_ordered (size : Str → Nat) : ∀ (input : List (InputToken W)) (i : Nat),
    (∀ t ∈ input, tokensOf W size t ≠ []) → ∀ p ∈ inputSpans W size i input, p.1.1 ≤ p.1.2
  | [], _, _, p, h => by simp [inputSpans] at h
  | t :: ts, i, hne, p, h => by
    simp only [inputSpans, List.mem_cons] at h
    rcases h with rfl | h
    · have : 0 < (tokensOf W size t).length := List.length_pos_iff.2 (hne t (by simp))
      simp only; omega
    · exact inputSpans_ordered size ts _ (fun t h => hne t (by simp [h])) p h

theorem creation_ordered {size : Str → Nat} {input : List (InputToken W)} {l : LLLine W}
    (wf : ∀ t ∈ input, t.WF) (ok : createLineFromInputTokens W input size = .ok l) :
    Ordered (creationHistory W size input) := by
  obtain ⟨hg, _, _⟩ := create_inv wf ok
  intro x hx
  rw [creationHistory, List.mem_append] at hx
  rcases hx with hx | hx
  · rw [builtinHistory, List.mem_flatMap] at hx
    obtain ⟨p, _, hx⟩ := hx
    rw [builtinOf_range _ _ _ hx]; exact Nat.le_refl _
  · rw [inputHistory_eq, List.mem_flatMap] at hx
    obtain ⟨p, hp, hx⟩ := hx
    obtain ⟨a, _, rfl⟩ := List.mem_map.1 hx
    exact inputSpans_ordered size input 0 (fun t ht => (inputTokens_ok size (hg t ht)).2) p hp

/-- assignments made from API selections are in the line and not inverted -/
theorem honestRun_bounds {l : LLLine W} {h : History W} (rep : Rep l h) (ho : Ordered h)
    (ne : l.ll_tokens ≠ []) {ptr : Nat} {r : Resolver W} {asgs : List (LLCursorAssignment (Val r.attr))}
    (hr : HonestRun l ptr r asgs) :
    ∀ a ∈ asgs, a.start_idx ≤ a.end_idx ∧ a.end_idx < l.ll_tokens.length := by
  intro a ha
  obtain ⟨s, v, hs, rfl⟩ := hr.2 a ha
  have := apiSel_inside (fun m hm => builtin_wellBehaved hm rep ho) (wholeLine_inside ne ptr) hs
  exact ⟨this.2.1, by have h2 := this.2.2; rw [this.1] at h2; exact h2⟩

theorem Honest.spec {l : LLLine W} {h : History W} (hh : Honest l h) : Reachable l h ∧ Ordered h := by
  induction hh with
  | create input size l wf ok => exact ⟨.create input size l wf ok, creation_ordered wf ok⟩
  | run l h ptr r asgs l' prev ne honest ok ih =>
    refine ⟨.run l h ptr r asgs false l' ih.1 ne honest.1 ok, ?_⟩
    intro x hx
    rcases List.mem_append.1 hx with hx | hx
    · exact ih.2 x hx
    · obtain ⟨a, ha, rfl⟩ := List.mem_map.1 hx
      exact (honestRun_bounds ih.1.rep ih.2 ne honest a ha).1
  | runEmpty l h ptr r l' prev empty ok ih => exact ⟨.runEmpty l h ptr r l' ih.1 empty ok, ih.2⟩

/-- honest runs succeed -/
theorem honest_run_ok {l : LLLine W} {h : History W} (rep : Rep l h) (ho : Ordered h)
    (ne : l.ll_tokens ≠ []) {ptr : Nat} {r : Resolver W} {asgs : List (LLCursorAssignment (Val r.attr))}
    (hr : HonestRun l ptr r asgs) : ∃ l', l.run ptr r = .ok l' := by
  have hb := honestRun_bounds rep ho ne hr
  obtain ⟨a', ha', _⟩ := assign_fold asgs rep (fun x hx => by have := hb x hx; omega)
  rw [run_of_go ne hr.1]
  exact ⟨{ l with attrs := a' }, by rw [ha']⟩

/-! ### find -/

theorem find_eq {l : LLLine W} {m : XMatch W Out} {ptr : Nat} (ne : l.ll_tokens ≠ [])
    {out : List (LLSelection W × Out)} (h : (wholeLine l ptr).findBy m = .ok out)
    (hin : ∀ p ∈ out, p.1.end_idx < l.ll_tokens.length) :
    l.find m = .ok (out.map (fun p => { start_pos_at := ((l.ll_tokens.map (·.pos_starts_at))[p.1.start_idx]?).getD 0,
                                        end_pos_at := ((l.ll_tokens.map (·.pos_ends_at))[p.1.end_idx]?).getD 0,
                                        found := p.2 })) := by
  obtain ⟨hok, rfl⟩ := findBy_ok_iff.1 h
  have hlen : 0 < l.ll_tokens.length := List.length_pos_iff.2 ne
  have hr : rangeIncl (wholeLine l ptr).start_idx (wholeLine l ptr).end_idx = List.range l.ll_tokens.length := by
    rw [List.range_eq_range']
    show List.range' 0 (l.ll_tokens.length - 1 + 1 - 0) = _
    congr 1; omega
  rw [hr, List.map_flatMap]
  unfold LLLine.find
  apply flatMapR_ok
  intro i hi
  rw [List.mem_range] at hi
  obtain ⟨rs, hrs⟩ := hok i ⟨Nat.zero_le _, by show i ≤ l.ll_tokens.length - 1; omega⟩
  have hrs' : m.go (.fwd i) l = .ok rs := hrs
  simp only [hrs', okD_of hrs, List.map_map]
  apply mapR_ok
  intro r hr'
  have hlt : r.2 < l.ll_tokens.length := by
    have := hin (fwdSel (wholeLine l ptr) i r) (List.mem_flatMap.2 ⟨i, by rw [hr, List.mem_range]; exact hi,
      List.mem_map.2 ⟨r, by rw [okD_of hrs]; exact hr', rfl⟩⟩)
    exact this
  simp [LLLine.posStartAt, LLLine.posEndAt, List.getElem?_eq_getElem hi, List.getElem?_eq_getElem hlt, fwdSel]

end LNlp
