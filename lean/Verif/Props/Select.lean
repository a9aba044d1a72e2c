import Verif.Lemmas.SelectApi
import Verif.Props.Match
/-
C23 and C37–C53: selections.
-/
namespace LNlp
variable {W : World} {Out : Type}

/-- selections of the nine-token demo line (with multi-token attributes) used in the examples -/
def Demo.sel (a b : Nat) : LLSelection Demo.W := { ll_line := ⟨7, Demo.exLine2⟩, start_idx := a, end_idx := b }

/-! ### C37 -/

/-- C37: `from_line` is `None` exactly for a line without tokens; else it covers exactly all of them. -/
theorem C37_from_line (rc : Rc (LLLine W)) :
    (LLSelection.fromLine rc = none ↔ rc.val.ll_tokens = []) ∧
    ∀ s, LLSelection.fromLine rc = some s → s.ll_line = rc ∧ s.Inside ∧
      ∀ i, s.Has i ↔ i < rc.val.ll_tokens.length := by
  simp only [LLSelection.fromLine]
  constructor
  · rw [← List.length_eq_zero_iff]
    by_cases h : rc.val.ll_tokens.length > 0
    · simp only [h, if_true, reduceCtorEq, false_iff]; omega
    · simp only [h, if_false, true_iff]; omega
  · intro s hs
    split at hs
    · cases hs
      refine ⟨rfl, ⟨Nat.zero_le _, ?_⟩, fun i => ?_⟩
      · show rc.val.ll_tokens.length - 1 < rc.val.ll_tokens.length; omega
      · simp only [LLSelection.Has]; omega
    · cases hs

example := (C37_from_line (W := Demo.W) ⟨7, Demo.exLine2⟩).2 (Demo.sel 0 9) rfl

/-! ### C38: find_by -/

/-- C38: `find_by` lists, for every token of the selection in order, exactly the matcher's forward
results at that token in the matcher's order; it panics exactly if the matcher does at one of them. -/
theorem C38_find_by (s : LLSelection W) (m : XMatch W Out) :
    ((∃ e, s.findBy m = .error e) ↔ ∃ i e, s.Has i ∧ m.go (.fwd i) s.ll_line.val = .error e) ∧
    (∀ out, s.findBy m = .ok out →
      out.Pairwise (fun p q => p.1.start_idx ≤ q.1.start_idx) ∧
      (∀ p ∈ out, s.Has p.1.start_idx) ∧
      ∀ i rs, s.Has i → m.go (.fwd i) s.ll_line.val = .ok rs →
        out.filter (fun p => decide (p.1.start_idx = i)) =
          rs.map (fun r => ({ ll_line := s.ll_line, start_idx := i, end_idx := r.2 }, r.1))) :=
  ⟨findBy_error_iff, fun _ h => ⟨findBy_sorted h, fun p hp => ((mem_findBy h).1 (show (p.1, p.2) ∈ _ from hp)).2.1,
    fun i _ hi hrs => findBy_filter h i hi hrs⟩⟩

example := (C38_find_by (Demo.sel 0 5) (X.attr (Ty.user 2))).2 _ rfl

/-- C38: as a set. -/
theorem C38_find_by_mem (s : LLSelection W) (m : XMatch W Out) (out : List (LLSelection W × Out))
    (h : s.findBy m = .ok out) (p : LLSelection W) (x : Out) :
    (p, x) ∈ out ↔ p.ll_line = s.ll_line ∧ s.Has p.start_idx ∧
      ∃ rs, m.go (.fwd p.start_idx) s.ll_line.val = .ok rs ∧ (x, p.end_idx) ∈ rs := mem_findBy h

example := C38_find_by_mem (Demo.sel 0 5) (X.attr (Ty.user 2)) _ rfl

/-! ### C39 -/

/-- C39, full claim -/
def C39_claim : Prop :=
  ∀ (W : World) (l : LLLine W) (h : History W) (ptr : Nat), Reachable l h → Ordered h →
    ∀ (s : LLSelection W), s.ll_line = ⟨ptr, l⟩ → s.Inside →
    ∀ (Out : Type) (m : XMatch W Out), Builtin m → ∀ out, s.findBy m = .ok out →
    ∀ p ∈ out, p.1.PartOf s

/-- C39 is false: in the selection of the first token only, `find_by` finds an attribute on the first
three tokens. -/
theorem C39_inside_selection_false : ¬ C39_claim := by
  intro claim
  have h := claim Demo.W Demo.exLine2 _ 7 Demo.exReach2 Demo.exHist2_ordered (Demo.sel 0 0) rfl
    ⟨by decide, by decide⟩ _ (X.attr (Ty.user 2)) (.attr _ trivial) _ rfl (Demo.sel 0 2, (['x'] : Str))
    (List.mem_cons_self ..)
  exact absurd h.2.2.2 (by decide)

/-- C39, what holds: results start in the selection and lie in the line. -/
theorem C39_partial {l : LLLine W} {h : History W} (hr : Reachable l h) (ho : Ordered h) {ptr : Nat}
    {s : LLSelection W} (hl : s.ll_line = ⟨ptr, l⟩) (hs : s.Inside) {m : XMatch W Out} (hm : Builtin m)
    {out : List (LLSelection W × Out)} (hf : s.findBy m = .ok out) :
    ∀ p ∈ out, p.1.ll_line = s.ll_line ∧ s.Has p.1.start_idx ∧ p.1.Inside := by
  intro p hp
  have hw : WellBehaved s.ll_line.val m := by rw [hl]; exact builtin_wellBehaved hm hr.rep ho
  have := findBy_inside hw hs hf (s' := p.1) (x := p.2) hp
  exact ⟨this.1, ((mem_findBy hf).1 (show (p.1, p.2) ∈ _ from hp)).2.1, this.2⟩

example := C39_partial Demo.exReach2 Demo.exHist2_ordered (s := Demo.sel 0 0) rfl ⟨by decide, by decide⟩
  (m := X.attr (Ty.user 2)) (.attr _ trivial) rfl

/-! ### C40 -/

/-- C40: `find_first_by` is the matcher's first result at the leftmost token of the selection where it
has one. -/
theorem C40_find_first_by (s : LLSelection W) (m : XMatch W Out) :
    (s.findFirstBy m = .ok none ↔ ∀ i, s.Has i → m.go (.fwd i) s.ll_line.val = .ok []) ∧
    (∀ p x, s.findFirstBy m = .ok (some (p, x)) → p.ll_line = s.ll_line ∧ s.Has p.start_idx ∧
      (∃ rs, m.go (.fwd p.start_idx) s.ll_line.val = .ok ((x, p.end_idx) :: rs)) ∧
      ∀ i, s.Has i → i < p.start_idx → m.go (.fwd i) s.ll_line.val = .ok []) ∧
    ((∃ e, s.findFirstBy m = .error e) ↔ ∃ i e, s.Has i ∧ m.go (.fwd i) s.ll_line.val = .error e) := by
  rw [← findBy_error_iff]
  unfold LLSelection.findFirstBy
  cases hf : s.findBy m with
  | error e =>
    obtain ⟨i, e', hi, he'⟩ := findBy_error_iff.1 ⟨e, hf⟩
    refine ⟨⟨fun h => by simp at h, fun h => ?_⟩, fun p x h => by simp at h, by simp⟩
    have := h i hi; rw [he'] at this; cases this
  | ok out =>
    obtain ⟨hok, hout⟩ := findBy_ok_iff.1 hf
    simp only [Except.ok.injEq, reduceCtorEq, exists_false, List.head?_eq_none_iff]
    refine ⟨⟨?_, ?_⟩, ?_, by simp⟩
    · intro he i hi
      obtain ⟨rs, hrs⟩ := hok i hi
      have := findBy_filter hf i hi hrs
      rw [he] at this
      simp at this
      rw [hrs, this]
    · intro h
      rw [hout, List.flatMap_eq_nil_iff]
      intro i hi
      rw [h i (mem_rangeIncl.1 hi)]; rfl
    · intro p x hh
      have hmem := mem_of_head hh
      obtain ⟨hl, hst, rs, hrs, hr⟩ := (mem_findBy hf).1 hmem
      obtain ⟨out', rfl⟩ : ∃ out', out = (p, x) :: out' := by
        cases out with
        | nil => cases hh
        | cons a b => cases hh; exact ⟨b, rfl⟩
      have hsort := findBy_sorted hf
      rw [List.pairwise_cons] at hsort
      refine ⟨hl, hst, ?_, ?_⟩
      · have := findBy_filter hf _ hst hrs
        rw [List.filter_cons_of_pos (by simp)] at this
        cases rs with
        | nil => cases hr
        | cons r rs =>
          simp only [List.map_cons, List.cons.injEq, Prod.mk.injEq] at this
          obtain ⟨⟨h1, h2⟩, _⟩ := this
          refine ⟨rs, ?_⟩
          rw [hrs]
          have h3 := congrArg LLSelection.end_idx h1
          simp only at h3
          rw [h2, h3]
      · intro i hi hlt
        obtain ⟨rs', hrs'⟩ := hok i hi
        rw [hrs']
        congr 1
        apply List.eq_nil_iff_forall_not_mem.2
        rintro ⟨y, j⟩ hy
        have hm2 : (({ ll_line := s.ll_line, start_idx := i, end_idx := j }, y) : LLSelection W × Out) ∈
            (p, x) :: out' := (mem_findBy hf).2 ⟨rfl, hi, rs', hrs', hy⟩
        rcases List.mem_cons.1 hm2 with h | h
        · have := congrArg (fun q => q.1.start_idx) h
          simp only at this; omega
        · have := hsort.1 _ h
          simp only at this; omega

example := (C40_find_first_by (Demo.sel 0 5) (X.attr (Ty.user 2))).2.1 _ _ rfl

/-! ### C41 -/

/-- C41: per token, first the forward matches starting there, then the backward matches ending there. -/
theorem C41_both_directions (s : LLSelection W) (m : XMatch W Out) :
    ((∃ e, s.findByForwardsAndBackwards m = .error e) ↔ ∃ i e, s.Has i ∧
      (m.go (.fwd i) s.ll_line.val = .error e ∨ m.go (.bwd i) s.ll_line.val = .error e)) ∧
    ∀ out, s.findByForwardsAndBackwards m = .ok out → ∃ fs bs : Nat → List (Out × Nat),
      (∀ i, s.Has i → m.go (.fwd i) s.ll_line.val = .ok (fs i) ∧ m.go (.bwd i) s.ll_line.val = .ok (bs i)) ∧
      out = (List.range' s.start_idx (s.end_idx + 1 - s.start_idx)).flatMap (fun i =>
        (fs i).map (fun r => ({ ll_line := s.ll_line, start_idx := i, end_idx := r.2 }, r.1)) ++
        (bs i).map (fun r => ({ ll_line := s.ll_line, start_idx := r.2, end_idx := i }, r.1))) :=
  ⟨findBoth_error_iff, fun _ h => mem_findBoth h⟩

example := (C41_both_directions (Demo.sel 0 5) (X.attr (Ty.user 2))).2 _ rfl

/-- C41: results have start ≤ end and lie in the line. -/
theorem C41_well_formed {l : LLLine W} {h : History W} (hr : Reachable l h) (ho : Ordered h) {ptr : Nat}
    {s : LLSelection W} (hl : s.ll_line = ⟨ptr, l⟩) (hs : s.Inside) {m : XMatch W Out} (hm : Builtin m)
    {out : List (LLSelection W × Out)} (hf : s.findByForwardsAndBackwards m = .ok out) :
    ∀ p ∈ out, p.1.ll_line = s.ll_line ∧ p.1.Inside ∧ (s.Has p.1.start_idx ∨ s.Has p.1.end_idx) := by
  intro p hp
  have hw : WellBehaved s.ll_line.val m := by rw [hl]; exact builtin_wellBehaved hm hr.rep ho
  have := findBoth_inside hw hs hf (s' := p.1) (x := p.2) hp
  refine ⟨this.1, this.2, ?_⟩
  obtain ⟨fs, bs, _, rfl⟩ := mem_findBoth hf
  simp only [List.mem_flatMap, mem_rangeIncl, List.mem_append, List.mem_map] at hp
  obtain ⟨i, hi, ⟨r, _, rfl⟩ | ⟨r, _, rfl⟩⟩ := hp
  · exact Or.inl hi
  · exact Or.inr hi

example := C41_well_formed Demo.exReach2 Demo.exHist2_ordered (s := Demo.sel 1 3) rfl ⟨by decide, by decide⟩
  (m := X.attr (Ty.user 2)) (.attr _ trivial) rfl

/-! ### C42, C43: match_forwards, match_backwards -/

/-- C42: nothing at the end of the line; otherwise the matcher's results right after the selection, in
its order, each as the selection extended to the result's end. `match_first_forwards` is the first one. -/
theorem C42_match_forwards (s : LLSelection W) (m : XMatch W Out) (hs : s.Inside) :
    (s.end_idx + 1 = s.ll_line.val.ll_tokens.length → s.matchForwards m = .ok [] ∧
      s.matchFirstForwards m = .ok none) ∧
    (s.end_idx + 1 < s.ll_line.val.ll_tokens.length →
      (∀ e, m.go (.fwd (s.end_idx + 1)) s.ll_line.val = .error e →
        s.matchForwards m = .error e ∧ s.matchFirstForwards m = .error e) ∧
      (∀ rs, m.go (.fwd (s.end_idx + 1)) s.ll_line.val = .ok rs →
        s.matchForwards m = .ok (rs.map (fun r =>
          ({ ll_line := s.ll_line, start_idx := s.start_idx, end_idx := r.2 }, r.1))) ∧
        s.matchFirstForwards m = .ok (rs.head?.map (fun r =>
          ({ ll_line := s.ll_line, start_idx := s.start_idx, end_idx := r.2 }, r.1))))) := by
  have := hs.2
  refine ⟨fun h => ?_, fun h => ⟨fun e he => ?_, fun rs hrs => ?_⟩⟩
  · simp [LLSelection.matchFirstForwards, LLSelection.matchForwards, h]
  · have hn : s.end_idx + 1 ≠ s.ll_line.val.ll_tokens.length := by omega
    simp [LLSelection.matchFirstForwards, LLSelection.matchForwards, hn, he]
  · have hn : s.end_idx + 1 ≠ s.ll_line.val.ll_tokens.length := by omega
    simp [LLSelection.matchFirstForwards, LLSelection.matchForwards, hn, hrs]

example := (C42_match_forwards (Demo.sel 0 2) (X.attr (Ty.user 2)) ⟨by decide, by decide⟩).2 (by decide)

/-- C42: every result strictly contains the selection. -/
theorem C42_strictly_larger (s : LLSelection W) (m : XMatch W Out) (hs : s.Inside)
    (hw : WellBehaved s.ll_line.val m) (out : List (LLSelection W × Out)) (h : s.matchForwards m = .ok out) :
    ∀ p ∈ out, p.1.Inside ∧ s.PartOf p.1 ∧ s.end_idx < p.1.end_idx := by
  intro p hp
  have hi := matchForwards_inside hw hs h (s' := p.1) (x := p.2) hp
  rcases matchForwards_ok_iff.1 h with ⟨_, rfl⟩ | ⟨hne, rs, hg, rfl⟩
  · cases hp
  · simp only [List.mem_map] at hp
    obtain ⟨r, hr, rfl⟩ := hp
    have := hw.1 _ rs (by have := hs.2; omega) hg r hr
    exact ⟨hi.2, ⟨rfl, Nat.le_refl _, hs.1, by show s.end_idx ≤ r.2; omega⟩, by show s.end_idx < r.2; omega⟩

example := C42_strictly_larger (Demo.sel 0 2) (X.attr (Ty.user 2)) ⟨by decide, by decide⟩
  (builtin_wellBehaved (.attr _ trivial) Demo.exReach2.rep Demo.exHist2_ordered) _ rfl

/-- C43: `match_backwards` searches backwards from the token before the selection and extends the selection to what it finds,
in order; at the start of the line there is nothing to find. -/
theorem C43_match_backwards (s : LLSelection W) (m : XMatch W Out) :
    (s.start_idx = 0 → s.matchBackwards m = .ok [] ∧ s.matchFirstBackwards m = .ok none) ∧
    (∀ i, s.start_idx = i + 1 →
      (∀ e, m.go (.bwd i) s.ll_line.val = .error e →
        s.matchBackwards m = .error e ∧ s.matchFirstBackwards m = .error e) ∧
      (∀ rs, m.go (.bwd i) s.ll_line.val = .ok rs →
        s.matchBackwards m = .ok (rs.map (fun r =>
          ({ ll_line := s.ll_line, start_idx := r.2, end_idx := s.end_idx }, r.1))) ∧
        s.matchFirstBackwards m = .ok (rs.head?.map (fun r =>
          ({ ll_line := s.ll_line, start_idx := r.2, end_idx := s.end_idx }, r.1))))) := by
  refine ⟨fun h => ?_, fun i h => ⟨fun e he => ?_, fun rs hrs => ?_⟩⟩
  · simp [LLSelection.matchFirstBackwards, LLSelection.matchBackwards, h]
  · simp [LLSelection.matchFirstBackwards, LLSelection.matchBackwards, h, he]
  · simp [LLSelection.matchFirstBackwards, LLSelection.matchBackwards, h, hrs]

example := (C43_match_backwards (Demo.sel 3 4) (X.attr (Ty.user 2))).2 2 rfl

/-- C43: every result strictly contains the selection. -/
theorem C43_strictly_larger (s : LLSelection W) (m : XMatch W Out) (hs : s.Inside)
    (hw : WellBehaved s.ll_line.val m) (out : List (LLSelection W × Out)) (h : s.matchBackwards m = .ok out) :
    ∀ p ∈ out, p.1.Inside ∧ s.PartOf p.1 ∧ p.1.start_idx < s.start_idx := by
  intro p hp
  have hi := matchBackwards_inside hw hs h (s' := p.1) (x := p.2) hp
  rcases matchBackwards_ok_iff.1 h with ⟨_, rfl⟩ | ⟨hne, rs, hg, rfl⟩
  · cases hp
  · simp only [List.mem_map] at hp
    obtain ⟨r, hr, rfl⟩ := hp
    have := hw.2 _ rs (by have := hs.1; have := hs.2; omega) hg r hr
    exact ⟨hi.2, ⟨rfl, by show r.2 ≤ s.start_idx; omega, hs.1, Nat.le_refl _⟩, by show r.2 < s.start_idx; omega⟩

example := C43_strictly_larger (Demo.sel 3 4) (X.attr (Ty.user 2)) ⟨by decide, by decide⟩
  (builtin_wellBehaved (.attr _ trivial) Demo.exReach2.rep Demo.exHist2_ordered) _ rfl

/-! ### C44: after -/

/-- what `after` is documented to return: all later tokens of the line -/
def AfterSpec (s : LLSelection W) (o : Option (LLSelection W)) : Prop :=
  (∀ i, HasOpt o i ↔ s.end_idx < i ∧ i < s.ll_line.val.ll_tokens.length) ∧
  ∀ p, o = some p → p.ll_line = s.ll_line ∧ p.Inside

/-- C44, full claim -/
def C44_claim : Prop := ∀ (W : World) (s : LLSelection W), s.Inside → AfterSpec s s.after

/-- C44 is false: on the first token of a two-token line `after` returns `None`, though a token
follows. -/
theorem C44_after_false : ¬ C44_claim := by
  intro claim
  have h := claim Demo.W { ll_line := ⟨0, Demo.getOk Demo.emptyLine (createLineFromString Demo.W ['a', ' '])⟩, start_idx := 0, end_idx := 0 }
    ⟨by decide, by decide⟩
  have h1 := (h.1 1).2 ⟨by decide, by decide⟩
  obtain ⟨s, hs, _⟩ := h1
  have hn : LLSelection.after (W := Demo.W) { ll_line := ⟨0, Demo.getOk Demo.emptyLine (createLineFromString Demo.W ['a', ' '])⟩, start_idx := 0, end_idx := 0 } = none := rfl
  rw [hn] at hs; cases hs

/-- C44, second failure: after the whole line of three or more tokens `after` returns an empty,
out-of-line selection. -/
theorem C44_after_whole_line (s : LLSelection W) (hs : s.Inside)
    (hend : s.end_idx + 1 = s.ll_line.val.ll_tokens.length) (hstart : s.start_idx + 2 ≠ s.ll_line.val.ll_tokens.length) :
    ∃ p, s.after = some p ∧ p.start_idx = s.ll_line.val.ll_tokens.length ∧ p.end_idx < p.start_idx := by
  refine ⟨{ ll_line := s.ll_line, start_idx := s.end_idx + 1, end_idx := s.ll_line.val.ll_tokens.length - 1 }, ?_, hend, ?_⟩
  · simp only [LLSelection.after]
    rw [if_neg (by omega)]
  · show _ - 1 < _ + 1; have := hs.2; omega

example := C44_after_whole_line (Demo.sel 0 9) ⟨by decide, by decide⟩ (by decide) (by decide)

/-- C44, exactly when `after` is right: when some token follows, iff the selection does not start at the
last-but-one token; when none follows, iff it does. -/
theorem C44_partial (s : LLSelection W) (hs : s.Inside) :
    AfterSpec s s.after ↔
      (s.end_idx + 1 < s.ll_line.val.ll_tokens.length ↔ s.start_idx + 2 ≠ s.ll_line.val.ll_tokens.length) := by
  obtain ⟨h1, h2⟩ := hs
  unfold AfterSpec LLSelection.after
  simp only
  by_cases hst : s.start_idx + 1 = s.ll_line.val.ll_tokens.length - 1
  · rw [if_pos hst]
    constructor
    · intro h
      have h3 := h.1 (s.end_idx + 1)
      constructor
      · intro hlt
        obtain ⟨p, hp, _⟩ := h3.2 ⟨by omega, hlt⟩
        cases hp
      · intro hne; omega
    · intro h
      refine ⟨fun i => ⟨?_, ?_⟩, ?_⟩
      · rintro ⟨p, hp, _⟩; cases hp
      · rintro ⟨h4, h5⟩; omega
      · intro p hp; cases hp
  · rw [if_neg hst]
    constructor
    · intro h
      have h3 := h.2 _ rfl
      simp only [LLSelection.Inside] at h3
      omega
    · intro h
      refine ⟨fun i => ⟨?_, ?_⟩, ?_⟩
      · rintro ⟨p, hp, hi⟩
        cases hp
        simp only [LLSelection.Has] at hi; omega
      · rintro ⟨h4, h5⟩
        exact ⟨_, rfl, by show _ + 1 ≤ i; omega, by show i ≤ _ - 1; omega⟩
      · intro p hp
        cases hp
        refine ⟨rfl, ?_, ?_⟩
        · show _ + 1 ≤ _ - 1; omega
        · show s.ll_line.val.ll_tokens.length - 1 < s.ll_line.val.ll_tokens.length; omega

example := C44_partial (Demo.sel 0 2) ⟨by decide, by decide⟩

/-! ### C45, C46: split_with, equality -/

/-- C45: the two parts are exactly the tokens before `other` and after it; each token of `self` is in
exactly one of the three. -/
theorem C45_split_with (s other : LLSelection W) (a b : Option (LLSelection W))
    (h : s.splitWith other = .ok (a, b)) :
    (∀ i, HasOpt a i ↔ s.Has i ∧ i < other.start_idx) ∧
    (∀ i, HasOpt b i ↔ s.Has i ∧ other.end_idx < i) ∧
    (∀ p, a = some p ∨ b = some p → p.PartOf s) ∧
    (other.start_idx ≤ other.end_idx → ∀ i, s.Has i →
      (HasOpt a i ∧ ¬ other.Has i ∧ ¬ HasOpt b i) ∨ (¬ HasOpt a i ∧ other.Has i ∧ ¬ HasOpt b i) ∨
      (¬ HasOpt a i ∧ ¬ other.Has i ∧ HasOpt b i)) := by
  unfold LLSelection.splitWith at h
  split at h
  · cases h
    have ha : ∀ i, HasOpt (if other.start_idx > 0 then s.selectionFrom s.start_idx (other.start_idx - 1) else none) i ↔
        s.Has i ∧ i < other.start_idx := by
      intro i
      by_cases hc : other.start_idx > 0
      · rw [if_pos hc, hasOpt_selectionFrom]
        simp only [LLSelection.Has]; omega
      · rw [if_neg hc]
        constructor
        · rintro ⟨p, hp, _⟩; cases hp
        · rintro ⟨_, h⟩; omega
    have hb : ∀ i, HasOpt (s.selectionFrom (other.end_idx + 1) s.end_idx) i ↔ s.Has i ∧ other.end_idx < i := by
      intro i; rw [hasOpt_selectionFrom]; simp only [LLSelection.Has]; omega
    refine ⟨ha, hb, ?_, ?_⟩
    · rintro p (hp | hp)
      · split at hp
        · exact selectionFrom_partOf hp
        · cases hp
      · exact selectionFrom_partOf hp
    · intro ho i hi
      rw [ha, hb]
      simp only [hi, true_and]
      simp only [LLSelection.Has]; omega
  · cases h

example := C45_split_with (Demo.sel 0 6) (Demo.sel 2 3) _ _ rfl

/-- C46: `split_with` panics exactly for selections of different lines. -/
theorem C46_split_with_panics_iff (s other : LLSelection W) :
    (∃ e, s.splitWith other = .error e) ↔ s.ll_line.ptr ≠ other.ll_line.ptr := by
  unfold LLSelection.splitWith
  by_cases h : s.ll_line.ptr = other.ll_line.ptr <;> simp [h]

example := C46_split_with_panics_iff (Demo.sel 0 6) { Demo.sel 2 3 with ll_line := ⟨8, Demo.exLine2⟩ }

/-- C46: equality is equality of bounds and of lines (by address), an equivalence relation. -/
theorem C46_equality (s t u : LLSelection W) :
    (s.eq t = true ↔ s.start_idx = t.start_idx ∧ s.end_idx = t.end_idx ∧ s.ll_line.ptr = t.ll_line.ptr) ∧
    s.eq s = true ∧ (s.eq t = true → t.eq s = true) ∧ (s.eq t = true → t.eq u = true → s.eq u = true) := by
  simp only [LLSelection.eq, Bool.and_eq_true, decide_eq_true_eq]
  refine ⟨by simp [and_assoc], by simp, ?_, ?_⟩
  · rintro ⟨⟨h1, h2⟩, h3⟩; exact ⟨⟨h1.symm, h2.symm⟩, h3.symm⟩
  · rintro ⟨⟨h1, h2⟩, h3⟩ ⟨⟨h4, h5⟩, h6⟩; exact ⟨⟨h1.trans h4, h2.trans h5⟩, h3.trans h6⟩

/-! ### C47, C48: split_by -/

/-- C47: `split_by` panics exactly if the matcher panics at a token of the selection. -/
theorem C47_panics_iff (s : LLSelection W) (m : XMatch W Out) :
    (∃ e, s.splitBy m = .error e) ↔ ∃ i e, s.Has i ∧ m.go (.fwd i) s.ll_line.val = .error e := by
  rw [← findBy_error_iff]
  unfold LLSelection.splitBy
  cases hf : s.findBy m with
  | error e => simp
  | ok out => cases out with
    | nil => simp
    | cons a b => cases b <;> simp

/-- C47: the pieces are non-empty parts of the selection, in order, separated by at least one token,
and cover every token that belongs to no match; without matches the result is the selection itself. -/
theorem C47_split_by (s : LLSelection W) (m : XMatch W Out) (hs : s.Inside)
    (hw : WellBehaved s.ll_line.val m) (out : List (LLSelection W)) (h : s.splitBy m = .ok out) :
    (∀ p ∈ out, p.PartOf s) ∧
    out.Pairwise (fun p q => p.end_idx + 1 < q.start_idx) ∧
    (∀ i, s.Has i → (∀ a b, FoundIn m s a b → ¬ (a ≤ i ∧ i ≤ b)) → ∃ p ∈ out, p.Has i ∧
      ∀ q ∈ out, q.Has i → q = p) ∧
    ((∀ a b, ¬ FoundIn m s a b) → out = [s]) := by
  cases hf : s.findBy m with
  | error e => simp [LLSelection.splitBy, hf] at h
  | ok ms =>
    have h' := h
    rw [splitBy_eq hf hs.1] at h
    cases h
    have hfound : ∀ a b, (a, b) ∈ ms.map (fun p => (p.1.start_idx, p.1.end_idx)) ↔ FoundIn m s a b := by
      intro a b
      simp only [List.mem_map, FoundIn]
      constructor
      · rintro ⟨⟨p, x⟩, hp, he⟩
        cases he
        obtain ⟨_, h2, rs, h3, h4⟩ := (mem_findBy hf).1 hp
        exact ⟨h2, rs, x, h3, h4⟩
      · rintro ⟨h2, rs, x, h3, h4⟩
        exact ⟨(⟨s.ll_line, a, b⟩, x), (mem_findBy hf).2 ⟨rfl, h2, rs, h3, h4⟩, rfl⟩
    have hasc : ∀ q ∈ ms.map (fun p => (p.1.start_idx, p.1.end_idx)), q.1 ≤ q.2 := by
      rintro ⟨a, b⟩ hq
      obtain ⟨h2, rs, x, h3, h4⟩ := (hfound a b).1 hq
      exact (hw.1 a rs (by have := hs.2; have := h2.2; omega) h3 _ h4).1
    have hsorted : (ms.map (fun p => (p.1.start_idx, p.1.end_idx))).Pairwise (fun q q' => q.1 ≤ q'.1) := by
      rw [List.pairwise_map]; exact findBy_sorted hf
    have hd := gaps_disjoint (s := s) (a := s.start_idx) hsorted hasc
    refine ⟨fun p hp => (gaps_mem hp).1, hd, ?_, ?_⟩
    · intro i hi hno
      obtain ⟨p, hp, hpi⟩ := gaps_cover hi hi.1 (ms := ms.map (fun p => (p.1.start_idx, p.1.end_idx)))
        (fun q hq => hno q.1 q.2 ((hfound _ _).1 hq))
      refine ⟨p, hp, hpi, fun q hq hqi => ?_⟩
      by_cases he : q = p
      · exact he
      · exfalso
        simp only [LLSelection.Has] at hpi hqi
        have : (p.end_idx + 1 < q.start_idx) ∨ (q.end_idx + 1 < p.start_idx) := by
          rcases List.getElem_of_mem hp with ⟨n, hn, rfl⟩
          rcases List.getElem_of_mem hq with ⟨k, hk, rfl⟩
          rcases Nat.lt_trichotomy n k with hlt | heq | hgt
          · exact Or.inl (List.pairwise_iff_getElem.1 hd n k hn hk hlt)
          · subst heq; exact absurd rfl he
          · exact Or.inr (List.pairwise_iff_getElem.1 hd k n hk hn hgt)
        omega
    · intro hno
      have : ms = [] := by
        cases ms with
        | nil => rfl
        | cons p ps => exact absurd ((hfound p.1.start_idx p.1.end_idx).1 (by simp)) (hno _ _)
      subst this
      simp only [LLSelection.splitBy, hf] at h'
      exact (Except.ok.inj h').symm

example := C47_split_by (Demo.sel 0 6) (X.attr (Ty.user 2)) ⟨by decide, by decide⟩
  (builtin_wellBehaved (.attr _ trivial) Demo.exReach2.rep Demo.exHist2_ordered) _ rfl

/-- C48, full claim -/
def C48_claim : Prop :=
  ∀ (W : World) (l : LLLine W) (h : History W) (ptr : Nat), Honest l h →
    ∀ (s : LLSelection W), s.ll_line = ⟨ptr, l⟩ → s.Inside →
    ∀ (Out : Type) (m : XMatch W Out), Builtin m → ∀ out, s.splitBy m = .ok out →
    ∀ p ∈ out, ∀ a b, FoundIn m s a b → ∀ i, a ≤ i → i ≤ b → ¬ p.Has i

/-- a resolver that tags a long range and a shorter range inside it: `1 (…2…)` -/
def Demo.nestRes : Resolver Demo.W where
  attr := Ty.user 2
  go := fun s => .ok ([s.finishWithAttr (['x'] : Str)] ++
    ((s.findBy (X.attrEq (W := Demo.W) .char ' ')).toOption.getD []).map (fun p => p.1.finishWithAttr (['y'] : Str)), false)

def Demo.nestLine0 : LLLine Demo.W :=
  Demo.getOk Demo.emptyLine (createLineFromString Demo.W ['a', ' ', 'b'])
/-- three tokens; attributes on (0,2) and on (1,1) -/
def Demo.nestLine : LLLine Demo.W := Demo.getOk Demo.emptyLine (Demo.nestLine0.run 0 Demo.nestRes)

theorem Demo.nestHonest : ∃ h, Honest Demo.nestLine h := by
  have h0 : Honest Demo.nestLine0 _ := .create [.Text ['a', ' ', 'b'] []] utf8Len _
    (by simp [InputToken.WF, InputToken.attrList]) rfl
  refine ⟨_, .run Demo.nestLine0 _ 0 Demo.nestRes _ Demo.nestLine h0 (by intro h; cases h) ⟨rfl, ?_⟩ rfl⟩
  intro a ha
  rcases List.mem_append.1 ha with ha | ha
  · exact ⟨_, _, .self, List.mem_singleton.1 ha⟩
  · obtain ⟨p, hp, rfl⟩ := List.mem_map.1 ha
    refine ⟨p.1, _, .findBy (m := X.attrEq (W := Demo.W) .char ' ') (x := p.2) .self (.attrEq _ trivial _) rfl hp, rfl⟩

/-- C48 is false: on the three-token line with `x::attr` matches (0,2) and (1,1), splitting the whole
line returns the last token as a piece, although it lies in the first match. -/
theorem C48_pieces_unmatched_false : ¬ C48_claim := by
  intro claim
  obtain ⟨h, hh⟩ := Demo.nestHonest
  have := claim Demo.W Demo.nestLine h 0 hh ⟨⟨0, Demo.nestLine⟩, 0, 2⟩ rfl ⟨by decide, by decide⟩ _
    (X.attr (Ty.user 2)) (.attr _ trivial) _ rfl ⟨⟨0, Demo.nestLine⟩, 2, 2⟩ (List.mem_cons_self ..)
    0 2 ⟨⟨by decide, by decide⟩, _, (['x'] : Str), rfl, List.mem_cons_self ..⟩ 2 (by decide) (by decide)
  exact this ⟨by decide, by decide⟩

/-- C48, what holds always: no piece contains the first token of a match; each piece is bounded by the
edge of the selection or a match on both sides.  And if later matches never end earlier, no piece
contains a token of a match (so the pieces are exactly the maximal unmatched runs). -/
theorem C48_partial (s : LLSelection W) (m : XMatch W Out) (hs : s.Inside)
    (hw : WellBehaved s.ll_line.val m) (out : List (LLSelection W)) (h : s.splitBy m = .ok out) :
    (∀ p ∈ out,
      (∀ a b, FoundIn m s a b → ¬ p.Has a) ∧
      (p.start_idx = s.start_idx ∨ ∃ a b, FoundIn m s a b ∧ b + 1 = p.start_idx) ∧
      (p.end_idx = s.end_idx ∨ ∃ a b, FoundIn m s a b ∧ p.end_idx + 1 = a)) ∧
    ((∀ ms, s.findBy m = .ok ms → ms.Pairwise (fun p q => p.1.end_idx ≤ q.1.end_idx)) →
      ∀ p ∈ out, ∀ a b, FoundIn m s a b → ∀ i, a ≤ i → i ≤ b → ¬ p.Has i) := by
  cases hf : s.findBy m with
  | error e => simp [LLSelection.splitBy, hf] at h
  | ok ms =>
    rw [splitBy_eq hf hs.1] at h
    cases h
    have hfound : ∀ a b, (a, b) ∈ ms.map (fun p => (p.1.start_idx, p.1.end_idx)) ↔ FoundIn m s a b := by
      intro a b
      simp only [List.mem_map, FoundIn]
      constructor
      · rintro ⟨⟨p, x⟩, hp, he⟩
        cases he
        obtain ⟨_, h2, rs, h3, h4⟩ := (mem_findBy hf).1 hp
        exact ⟨h2, rs, x, h3, h4⟩
      · rintro ⟨h2, rs, x, h3, h4⟩
        exact ⟨(⟨s.ll_line, a, b⟩, x), (mem_findBy hf).2 ⟨rfl, h2, rs, h3, h4⟩, rfl⟩
    have hasc : ∀ q ∈ ms.map (fun p => (p.1.start_idx, p.1.end_idx)), q.1 ≤ q.2 := by
      rintro ⟨a, b⟩ hq
      obtain ⟨h2, rs, x, h3, h4⟩ := (hfound a b).1 hq
      exact (hw.1 a rs (by have := hs.2; have := h2.2; omega) h3 _ h4).1
    have hsorted : (ms.map (fun p => (p.1.start_idx, p.1.end_idx))).Pairwise (fun q q' => q.1 ≤ q'.1) := by
      rw [List.pairwise_map]; exact findBy_sorted hf
    refine ⟨fun p hp => ⟨fun a b hab => gaps_no_start hsorted hasc hp (a, b) ((hfound a b).2 hab), ?_⟩, ?_⟩
    · have := gaps_maximal hasc (fun q hq => ((hfound q.1 q.2).1 hq).1) hp
      refine ⟨this.1.imp id ?_, this.2.imp id ?_⟩
      · rintro ⟨q, hq, he⟩; exact ⟨q.1, q.2, (hfound _ _).1 hq, he⟩
      · rintro ⟨q, hq, he⟩; exact ⟨q.1, q.2, (hfound _ _).1 hq, he⟩
    · intro hends p hp a b hab i h1 h2
      have he : (ms.map (fun p => (p.1.start_idx, p.1.end_idx))).Pairwise (fun q q' => q.2 ≤ q'.2) := by
        rw [List.pairwise_map]; exact hends ms rfl
      exact gaps_clean hsorted he hp (a, b) ((hfound a b).2 hab) i h1 h2

example := C48_partial (Demo.sel 0 6) (X.attr (Ty.user 2)) ⟨by decide, by decide⟩
  (builtin_wellBehaved (.attr _ trivial) Demo.exReach2.rep Demo.exHist2_ordered) _ rfl

/-- C48, exactly: a token of the selection lies in a piece iff, among the matches in the order of `find_by`, the
last one that starts at or before it ends before it. (So a token of a match lies in a piece iff a later,
shorter match starts after that match and ends before the token.) -/
theorem C48_exact_partial (s : LLSelection W) (m : XMatch W Out) (hs : s.Inside)
    (hw : WellBehaved s.ll_line.val m) (ms : List (LLSelection W × Out)) (hf : s.findBy m = .ok ms) :
    ∃ out, s.splitBy m = .ok out ∧ ∀ i, s.Has i → ((∃ p ∈ out, p.Has i) ↔
      ∀ q, (ms.filter (fun q => decide (q.1.start_idx ≤ i))).getLast? = some q → q.1.end_idx < i) := by
  refine ⟨_, splitBy_eq hf hs.1, fun i hi => ?_⟩
  have hasc : ∀ q ∈ ms.map (fun p => (p.1.start_idx, p.1.end_idx)), q.1 ≤ q.2 := by
    intro q hq
    obtain ⟨p, hp, rfl⟩ := List.mem_map.1 hq
    exact (findBy_inside hw hs hf (s' := p.1) (x := p.2) hp).2.1
  have hsorted : (ms.map (fun p => (p.1.start_idx, p.1.end_idx))).Pairwise (fun q q' => q.1 ≤ q'.1) := by
    rw [List.pairwise_map]; exact findBy_sorted hf
  rw [gaps_has_iff hi hsorted hasc, List.filter_map, List.getLast?_map]
  have : ((fun m => decide (m.1 ≤ i)) ∘ fun (p : LLSelection W × Out) => (p.1.start_idx, p.1.end_idx)) =
      fun q => decide (q.1.start_idx ≤ i) := rfl
  rw [this]
  cases (ms.filter (fun q => decide (q.1.start_idx ≤ i))).getLast? with
  | none => simpa using hi.1
  | some q => simp; omega

example := C48_exact_partial (⟨⟨0, Demo.nestLine⟩, 0, 2⟩ : LLSelection Demo.W) (X.attr (Ty.user 2)) ⟨by decide, by decide⟩
  (by obtain ⟨h, hh⟩ := Demo.nestHonest; exact builtin_wellBehaved (.attr _ trivial) hh.spec.1.rep hh.spec.2) _ rfl

/-! ### C49, C50: trim -/

/-- C49 trim_start: the tokens left are those of the selection after the end of the first match at its
start (all of them if nothing matches there); `None` exactly if none are left. -/
theorem C49_trim_start (s : LLSelection W) (m : XMatch W Out) (hs : s.Inside)
    (hw : WellBehaved s.ll_line.val m) :
    (∀ e, m.go (.fwd s.start_idx) s.ll_line.val = .error e → s.trimStart m = .error e) ∧
    ∀ rs, m.go (.fwd s.start_idx) s.ll_line.val = .ok rs → ∃ o, s.trimStart m = .ok o ∧
      (∀ p, o = some p → p.PartOf s) ∧
      (rs = [] → o = some s) ∧
      ∀ i, HasOpt o i ↔ s.Has i ∧ ∀ r, rs.head? = some r → r.2 < i := by
  have hlt : s.start_idx < s.ll_line.val.ll_tokens.length := by have := hs.1; have := hs.2; omega
  constructor
  · intro e he
    unfold LLSelection.trimStart
    rw [trimSelection_eq]; simp [trimFind, he]
  · intro rs hrs
    have h1 : trimFind m (.fwd s.start_idx) s.ll_line.val true = .ok (firstEnd rs) := by simp [trimFind, hrs]
    have h2 : trimFind m (.bwd s.end_idx) s.ll_line.val false = .ok none := rfl
    have h3 : ∃ o, s.trimStart m = .ok o := by
      unfold LLSelection.trimStart; rw [trimSelection_eq, h1, h2]; exact ⟨_, rfl⟩
    obtain ⟨o, ho⟩ := h3
    have := trim_has ho h1 h2 hs.1 (by
      intro j hj
      obtain ⟨r, hr, rfl⟩ := Option.map_eq_some_iff.1 hj
      exact (hw.1 _ rs hlt hrs r (mem_of_head hr)).1) (by intro j hj; cases hj)
    refine ⟨o, ho, this.1, ?_, fun i => ?_⟩
    · rintro rfl
      unfold LLSelection.trimStart at ho
      rw [trimSelection_eq, h1, h2] at ho
      simp only [firstEnd, List.head?_nil, Option.map_none, Option.getD_none, hs.1, and_self, if_true] at ho
      exact (Except.ok.inj ho).symm
    · rw [this.2 (by rintro ⟨h, _⟩; cases h)]
      constructor
      · rintro ⟨h1, h2, _⟩; exact ⟨h1, fun r hr => h2 r.2 (by simp [firstEnd, hr])⟩
      · rintro ⟨h1, h2⟩
        refine ⟨h1, fun j hj => ?_, by intro j hj; cases hj⟩
        obtain ⟨r, hr, rfl⟩ := Option.map_eq_some_iff.1 hj
        exact h2 r hr

example := (C49_trim_start (Demo.sel 0 4) (X.attr (Ty.user 2)) ⟨by decide, by decide⟩
  (builtin_wellBehaved (.attr _ trivial) Demo.exReach2.rep Demo.exHist2_ordered)).2 _ rfl

/-- C49 trim_end: the tokens left are those before the start of the first match at the end of the
selection, except when that match starts at token 0 and so does the selection (see C50). -/
theorem C49_trim_end (s : LLSelection W) (m : XMatch W Out) (hs : s.Inside)
    (hw : WellBehaved s.ll_line.val m) :
    (∀ e, m.go (.bwd s.end_idx) s.ll_line.val = .error e → s.trimEnd m = .error e) ∧
    ∀ rs, m.go (.bwd s.end_idx) s.ll_line.val = .ok rs → ∃ o, s.trimEnd m = .ok o ∧
      (∀ p, o = some p → p.PartOf s) ∧
      (rs = [] → o = some s) ∧
      ((∀ r, rs.head? = some r → ¬ (r.2 = 0 ∧ s.start_idx = 0)) →
        ∀ i, HasOpt o i ↔ s.Has i ∧ ∀ r, rs.head? = some r → i < r.2) := by
  constructor
  · intro e he
    unfold LLSelection.trimEnd
    rw [trimSelection_eq]; simp [trimFind, he]
  · intro rs hrs
    have h1 : trimFind m (.fwd s.start_idx) s.ll_line.val false = .ok none := rfl
    have h2 : trimFind m (.bwd s.end_idx) s.ll_line.val true = .ok (firstEnd rs) := by simp [trimFind, hrs]
    have h3 : ∃ o, s.trimEnd m = .ok o := by
      unfold LLSelection.trimEnd; rw [trimSelection_eq, h1, h2]; exact ⟨_, rfl⟩
    obtain ⟨o, ho⟩ := h3
    have := trim_has ho h1 h2 hs.1 (by intro j hj; cases hj) (by
      intro j hj
      obtain ⟨r, hr, rfl⟩ := Option.map_eq_some_iff.1 hj
      exact hw.2 _ rs hs.2 hrs r (mem_of_head hr))
    refine ⟨o, ho, this.1, ?_, fun hne i => ?_⟩
    · rintro rfl
      unfold LLSelection.trimEnd at ho
      rw [trimSelection_eq, h1, h2] at ho
      simp only [firstEnd, List.head?_nil, Option.map_none, Option.getD_none, hs.1, and_self, if_true] at ho
      exact (Except.ok.inj ho).symm
    · rw [this.2 (by
        rintro ⟨h, _, h0⟩
        obtain ⟨r, hr, hr0⟩ := Option.map_eq_some_iff.1 h
        exact hne r hr ⟨hr0, h0⟩)]
      constructor
      · rintro ⟨h1, _, h2⟩; exact ⟨h1, fun r hr => h2 r.2 (by simp [firstEnd, hr])⟩
      · rintro ⟨h1, h2⟩
        refine ⟨h1, ?_, ?_⟩
        · intro j hj; cases hj
        intro j hj
        obtain ⟨r, hr, rfl⟩ := Option.map_eq_some_iff.1 hj
        exact h2 r hr

example := (C49_trim_end (Demo.sel 1 4) (X.attr (Ty.user 2)) ⟨by decide, by decide⟩
  (builtin_wellBehaved (.attr _ trivial) Demo.exReach2.rep Demo.exHist2_ordered)).2 _ rfl

/-- C49 trim: both at once, each match looked up on the original selection. -/
theorem C49_trim (s : LLSelection W) (m : XMatch W Out) (hs : s.Inside)
    (hw : WellBehaved s.ll_line.val m) (rs rs' : List (Out × Nat))
    (hf : m.go (.fwd s.start_idx) s.ll_line.val = .ok rs) (hb : m.go (.bwd s.end_idx) s.ll_line.val = .ok rs') :
    ∃ o, s.trim m = .ok o ∧ (∀ p, o = some p → p.PartOf s) ∧
      (rs = [] → rs' = [] → o = some s) ∧
      ((∀ r, rs'.head? = some r → ¬ (r.2 = 0 ∧ rs = [] ∧ s.start_idx = 0)) →
        ∀ i, HasOpt o i ↔ s.Has i ∧ (∀ r, rs.head? = some r → r.2 < i) ∧ ∀ r, rs'.head? = some r → i < r.2) := by
  have hlt : s.start_idx < s.ll_line.val.ll_tokens.length := by have := hs.1; have := hs.2; omega
  have h1 : trimFind m (.fwd s.start_idx) s.ll_line.val true = .ok (firstEnd rs) := by simp [trimFind, hf]
  have h2 : trimFind m (.bwd s.end_idx) s.ll_line.val true = .ok (firstEnd rs') := by simp [trimFind, hb]
  have h3 : ∃ o, s.trim m = .ok o := by
    unfold LLSelection.trim; rw [trimSelection_eq, h1, h2]; exact ⟨_, rfl⟩
  obtain ⟨o, ho⟩ := h3
  have := trim_has ho h1 h2 hs.1 (by
      intro j hj
      obtain ⟨r, hr, rfl⟩ := Option.map_eq_some_iff.1 hj
      exact (hw.1 _ rs hlt hf r (mem_of_head hr)).1) (by
      intro j hj
      obtain ⟨r, hr, rfl⟩ := Option.map_eq_some_iff.1 hj
      exact hw.2 _ rs' hs.2 hb r (mem_of_head hr))
  refine ⟨o, ho, this.1, ?_, fun hne i => ?_⟩
  · rintro rfl rfl
    unfold LLSelection.trim at ho
    rw [trimSelection_eq, h1, h2] at ho
    simp only [firstEnd, List.head?_nil, Option.map_none, Option.getD_none, hs.1, and_self, if_true] at ho
    exact (Except.ok.inj ho).symm
  · rw [this.2 (by
      rintro ⟨h, hl, h0⟩
      obtain ⟨r, hr, hr0⟩ := Option.map_eq_some_iff.1 h
      refine hne r hr ⟨hr0, ?_, h0⟩
      cases rs with
      | nil => rfl
      | cons a b => cases hl)]
    constructor
    · rintro ⟨h1, h2, h3⟩
      exact ⟨h1, fun r hr => h2 r.2 (by simp [firstEnd, hr]), fun r hr => h3 r.2 (by simp [firstEnd, hr])⟩
    · rintro ⟨h1, h2, h3⟩
      refine ⟨h1, fun j hj => ?_, fun j hj => ?_⟩
      · obtain ⟨r, hr, rfl⟩ := Option.map_eq_some_iff.1 hj
        exact h2 r hr
      · obtain ⟨r, hr, rfl⟩ := Option.map_eq_some_iff.1 hj
        exact h3 r hr

example := C49_trim (Demo.sel 0 4) (X.attr (Ty.user 2)) ⟨by decide, by decide⟩
  (builtin_wellBehaved (.attr _ trivial) Demo.exReach2.rep Demo.exHist2_ordered) _ _ rfl rfl

/-- C50, full claim -/
def C50_claim : Prop :=
  ∀ (W : World) (l : LLLine W) (h : History W) (ptr : Nat), Reachable l h → Ordered h →
    ∀ (s : LLSelection W), s.ll_line = ⟨ptr, l⟩ → s.Inside →
    ∀ (Out : Type) (m : XMatch W Out), Builtin m → ∀ x j rs,
      m.go (.bwd s.end_idx) l = .ok ((x, j) :: rs) → j ≤ s.start_idx → s.trimEnd m = .ok none

/-- C50 is false: trimming the attribute on tokens 0–2 off the end of the selection 0–2 leaves token 0. -/
theorem C50_trim_end_whole_false : ¬ C50_claim := by
  intro claim
  have h := claim Demo.W Demo.exLine2 _ 7 Demo.exReach2 Demo.exHist2_ordered (Demo.sel 0 2) rfl
    ⟨by decide, by decide⟩ _ (X.attr (Ty.user 2)) (.attr _ trivial) _ 0 _ rfl (by decide)
  have h' : (Demo.sel 0 2).trimEnd (X.attr (Ty.user 2)) = .ok (some (Demo.sel 0 0)) := rfl
  rw [h'] at h; cases h

/-- C50, what holds: `None` iff the match reaches the selection's start and the selection does not start
at token 0; in that case exactly token 0 is left. -/
theorem C50_partial (s : LLSelection W) (m : XMatch W Out) (x : Out) (j : Nat)
    (rs : List (Out × Nat)) (hb : m.go (.bwd s.end_idx) s.ll_line.val = .ok ((x, j) :: rs))
    (hj : j ≤ s.start_idx) :
    (0 < s.start_idx → s.trimEnd m = .ok none) ∧
    (s.start_idx = 0 → s.trimEnd m = .ok (some { ll_line := s.ll_line, start_idx := 0, end_idx := 0 })) := by
  have h1 : trimFind m (.fwd s.start_idx) s.ll_line.val false = .ok none := rfl
  have h2 : trimFind m (.bwd s.end_idx) s.ll_line.val true = .ok (some j) := by simp [trimFind, hb, firstEnd]
  unfold LLSelection.trimEnd
  rw [trimSelection_eq, h1, h2]
  simp only [Option.map_none, Option.getD_none, Option.map_some, Option.getD_some]
  constructor
  · intro h0; rw [if_neg (by omega)]
  · intro h0
    rw [if_pos (by omega)]
    have : j - 1 = 0 := by omega
    rw [this, h0]

example := C50_partial (Demo.sel 0 2) (X.attr (Ty.user 2)) _ 0 _ rfl (by decide)

/-! ### C51, C23 -/

/-- C51: every selection obtained through the API (other than by `after`) from the selection given to
a resolver is a non-empty selection inside the same line; the matchers may be any user-written ones that
go the right way and stay in the line. -/
theorem C51_api_selections {P : {Out : Type} → XMatch W Out → Prop} {s0 s : LLSelection W}
    (hP : ∀ {Out : Type} (m : XMatch W Out), P m → WellBehaved s0.ll_line.val m)
    (h0 : s0.Inside) (h : ApiSel P s0 s) : s.ll_line = s0.ll_line ∧ s.Inside := apiSel_inside hP h0 h

/-- C51 for the library's matchers, on lines of honest resolvers. -/
theorem C51_builtin_selections {l : LLLine W} {h : History W} (hh : Honest l h) (ne : l.ll_tokens ≠ [])
    (ptr : Nat) {s : LLSelection W} (hs : ApiSel (fun m => Builtin m) (wholeLine l ptr) s) :
    s.ll_line = ⟨ptr, l⟩ ∧ s.start_idx ≤ s.end_idx ∧ s.end_idx < l.ll_tokens.length := by
  have := apiSel_inside (fun m hm => builtin_wellBehaved hm hh.spec.1.rep hh.spec.2) (wholeLine_inside ne ptr) hs
  have h2 := this.2
  rw [LLSelection.Inside, this.1] at h2
  exact ⟨this.1, h2⟩

example (h : History Demo.W) (hh : Honest Demo.nestLine h) :=
  C51_builtin_selections hh (by intro h; cases h) 0
    (.matchBackwards (.findBy (x := ()) .self (.attrEq .char trivial ' ') rfl (List.mem_cons_self ..))
      .tokenText rfl (List.mem_cons_self ..))

/-- C51: `after` breaks it. -/
theorem C51_after_escapes : ∃ (s p : LLSelection Demo.W), s = wholeLine Demo.exLine2 7 ∧ s.after = some p ∧
    ¬ p.start_idx < Demo.exLine2.ll_tokens.length ∧ p.end_idx < p.start_idx :=
  ⟨_, _, rfl, rfl, by decide, by decide⟩

/-- C23: a resolver all of whose assignments come from API selections never makes `run` panic, and the
new line is again a line of that kind. -/
theorem C23_honest_run_ok {l : LLLine W} {h : History W} (hh : Honest l h) (ne : l.ll_tokens ≠ [])
    (ptr : Nat) (r : Resolver W) (asgs : List (LLCursorAssignment (Val r.attr)))
    (hr : HonestRun l ptr r asgs) :
    ∃ l', l.run ptr r = .ok l' ∧ Honest l' (h ++ asgs.map (recOf r.attr)) := by
  obtain ⟨l', hl'⟩ := honest_run_ok hh.spec.1.rep hh.spec.2 ne hr
  exact ⟨l', hl', .run l h ptr r asgs l' hh ne hr hl'⟩

theorem Demo.nestHonest0 : Honest Demo.nestLine0 (creationHistory Demo.W utf8Len [.Text ['a', ' ', 'b'] []]) :=
  .create [.Text ['a', ' ', 'b'] []] utf8Len _ (by simp [InputToken.WF, InputToken.attrList]) rfl

example := C23_honest_run_ok Demo.nestHonest0 (by intro h; cases h) 0
  ⟨Ty.user 2, fun s => .ok ([s.finishWithAttr (['x'] : Str)], false)⟩ _
  ⟨rfl, fun a ha => ⟨_, _, .self, List.mem_singleton.1 ha⟩⟩

/-- C23: such lines are reachable (so all properties of reachable lines hold for them), all attributes
lie in the line with start ≤ end, and matcher expressions stay in the line and go the right way. -/
theorem C23_honest_line_ok {l : LLLine W} {h : History W} (hh : Honest l h) :
    Reachable l h ∧ (∀ x ∈ h, x.range.1 ≤ x.range.2 ∧ x.range.2 < l.ll_tokens.length) ∧
    ∀ {Out : Type} (m : XMatch W Out), Builtin m → WellBehaved l m := by
  obtain ⟨hr, ho⟩ := hh.spec
  exact ⟨hr, fun x hx => ⟨ho x hx, (hr.rep.bounds x hx).2⟩, fun m hm => builtin_wellBehaved hm hr.rep ho⟩

example := C23_honest_line_ok Demo.nestHonest0

/-! ### C52: LLLine::find -/

/-- C52: `find` gives the results of `find_by` on the whole line, in the same order, with the character
positions of the first token's start and the last token's end. -/
theorem C52_find {l : LLLine W} {h : History W} (hr : Reachable l h) (ne : l.ll_tokens ≠ []) (ptr : Nat)
    {m : XMatch W Out} (hm : Builtin m) (out : List (LLSelection W × Out))
    (hf : (wholeLine l ptr).findBy m = .ok out) :
    ∃ fs, l.find m = .ok fs ∧ fs.length = out.length ∧
      ∀ (n : Nat) (p : LLSelection W × Out) (f : LLLineFind Out), out[n]? = some p → fs[n]? = some f → f.attr = p.2 ∧
        ∃ t u : LLToken, l.ll_tokens[p.1.start_idx]? = some t ∧ l.ll_tokens[p.1.end_idx]? = some u ∧
          f.range = (t.pos_starts_at, u.pos_ends_at) := by
  have hin : ∀ p ∈ out, p.1.end_idx < l.ll_tokens.length := by
    intro p hp
    obtain ⟨_, _, rs, hg, hmem⟩ := (mem_findBy hf).1 (show (p.1, p.2) ∈ out from hp)
    exact (built_results hm hr.rep False (fun h => h.elim) _ rs hg _ hmem).1
  refine ⟨_, find_eq ne hf hin, by simp, ?_⟩
  intro n p f hp hf'
  simp only [List.getElem?_map, hp, Option.map_some, Option.some.injEq] at hf'
  have hp' : p ∈ out := List.mem_of_getElem? hp
  have hst : p.1.start_idx < l.ll_tokens.length := by
    have h1 := ((mem_findBy hf).1 (show (p.1, p.2) ∈ out from hp')).2.1
    have h2 : p.1.start_idx ≤ l.ll_tokens.length - 1 := h1.2
    have : 0 < l.ll_tokens.length := List.length_pos_iff.2 ne
    omega
  have hen := hin p hp'
  subst hf'
  refine ⟨rfl, _, _, List.getElem?_eq_getElem hst, List.getElem?_eq_getElem hen, ?_⟩
  simp [LLLineFind.range, List.getElem?_eq_getElem hst, List.getElem?_eq_getElem hen]

example := C52_find Demo.exReach2 (by intro h; cases h) 7 (m := X.attr (Ty.user 2)) (.attr _ trivial) _ rfl

/-- C52: on an empty line `find` finds nothing, and it panics exactly if `find_by` on the whole line
does. -/
theorem C52_find_panics_iff {l : LLLine W} {h : History W} (hr : Reachable l h)
    {m : XMatch W Out} (hm : Builtin m) :
    (l.ll_tokens = [] → l.find m = .ok []) ∧
    (l.ll_tokens ≠ [] → ∀ ptr, (∃ e, l.find m = .error e) ↔ ∃ e, (wholeLine l ptr).findBy m = .error e) := by
  constructor
  · intro he; simp [LLLine.find, he]
  · intro ne ptr
    constructor
    · rintro ⟨e, he⟩
      cases hf : (wholeLine l ptr).findBy m with
      | error e => exact ⟨e, rfl⟩
      | ok out =>
        obtain ⟨fs, hfs, _⟩ := C52_find hr ne ptr hm out hf
        rw [hfs] at he; cases he
    · intro he
      obtain ⟨i, e, hi, he⟩ := findBy_error_iff.1 he
      rw [LLLine.find, flatMapR_error_iff]
      have h2 : i ≤ l.ll_tokens.length - 1 := hi.2
      have : 0 < l.ll_tokens.length := List.length_pos_iff.2 ne
      have he' : m.go (.fwd i) l = .error e := he
      exact ⟨i, List.mem_range.2 (by omega), e, by simp [he']⟩

example := (C52_find_panics_iff Demo.bareReach (m := X.tokenHasAny .char []) (.tokenHasAny _ trivial rfl _)).2
  (by intro h; cases h) 0

/-! ### C53: finish_with -/

/-- C53: one assignment for each selection, in order, on its range, with the mapped value. -/
theorem C53_finish_with {T α : Type} (items : List (LLSelection W × T)) (f : T → α) :
    (finishWith items f).length = items.length ∧
    (∀ (n : Nat) (p : LLSelection W × T) (a : LLCursorAssignment α), items[n]? = some p → (finishWith items f)[n]? = some a →
      a.start_idx = p.1.start_idx ∧ a.end_idx = p.1.end_idx ∧ a.value = f p.2) ∧
    ∀ (s : LLSelection W) (v : α), s.finishWithAttr v = { start_idx := s.start_idx, end_idx := s.end_idx, value := v } := by
  refine ⟨by simp [finishWith], ?_, fun s v => rfl⟩
  intro n p a hp ha
  simp only [finishWith, List.getElem?_map, hp, Option.map_some, Option.some.injEq] at ha
  subst ha; exact ⟨rfl, rfl, rfl⟩

example := (C53_finish_with [(Demo.sel 0 2, 1), (Demo.sel 3 4, 2)] (fun n => n + 1)).2.1 1 _ _ rfl rfl

example {s} := C51_api_selections (W := Demo.W) (P := fun m => Builtin m) (s0 := wholeLine Demo.exLine2 0) (s := s)
  (fun _ hm => builtin_wellBehaved hm Demo.exReach2.rep Demo.exHist2_ordered) ⟨by decide, by decide⟩

end LNlp
