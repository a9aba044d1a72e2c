import Verif.Spec.Loops
import Verif.Props.Select
/-
C107: loops over selections end — except loops over `after`.
-/
namespace LNlp
variable {W : World}

/-! ### C107 -/

/-- C107: extending a selection ends. Every round makes the selection larger by at least one token, so there
are at most as many rounds as the line has tokens outside the selection, and the selection stays in the line. -/
theorem C107_extending {P : {Out : Type} → XMatch W Out → Prop} {s s' : LLSelection W} {n : Nat}
    (hP : ∀ {Out : Type} (m : XMatch W Out), P m → WellBehaved s.ll_line.val m) (hs : s.Inside)
    (h : Rounds (Extends P) n s s') :
    s.PartOf s' ∧ s'.Inside ∧ s.count + n ≤ s'.count ∧ s'.count ≤ s.ll_line.val.ll_tokens.length := by
  induction h with
  | zero s => exact ⟨⟨rfl, Nat.le_refl _, hs.1, Nat.le_refl _⟩, hs, Nat.le_refl _, by
      have := hs.1; have := hs.2; unfold LLSelection.count; omega⟩
  | @more n s p s'' hst _ ih =>
    have key : p.Inside ∧ s.PartOf p ∧ (s.end_idx < p.end_idx ∨ p.start_idx < s.start_idx) := by
      cases hst with
      | forwards hm ho hx => obtain ⟨h1, h2, h3⟩ := C42_strictly_larger s _ hs (hP _ hm) _ ho _ hx; exact ⟨h1, h2, Or.inl h3⟩
      | backwards hm ho hx => obtain ⟨h1, h2, h3⟩ := C43_strictly_larger s _ hs (hP _ hm) _ ho _ hx; exact ⟨h1, h2, Or.inr h3⟩
    obtain ⟨hp, hpart, hlt⟩ := key
    obtain ⟨h1, h2, h3, h4⟩ := ih (fun m hm => by rw [← hpart.1]; exact hP m hm) hp
    obtain ⟨a1, a2, a3, a4⟩ := hpart
    obtain ⟨b1, b2, b3, b4⟩ := h1
    refine ⟨⟨a1.trans b1, by omega, a3, by omega⟩, h2, ?_, by rw [a1]; exact h4⟩
    unfold LLSelection.count at *
    omega

/-- C107: searching a selection ends: with a matcher that goes in the direction of matching, every round of
"find the first match, extend it, continue with what is left (or right) of it" leaves fewer tokens, however
the match was extended; so there are fewer rounds than tokens. -/
theorem C107_searching {P : {Out : Type} → XMatch W Out → Prop} {s s' : LLSelection W} {n : Nat}
    (hP : ∀ {Out : Type} (m : XMatch W Out), P m → WellBehaved s.ll_line.val m) (hs : s.Inside)
    (h : Rounds (Searches P) n s s') : s'.PartOf s ∧ s'.count + n ≤ s.count := by
  induction h with
  | zero s => exact ⟨⟨rfl, Nat.le_refl _, hs.1, Nat.le_refl _⟩, Nat.le_refl _⟩
  | @more n s p s'' hst _ ih =>
    have key : p.PartOf s ∧ ∃ i, s.Has i ∧ ¬ p.Has i := by
      cases hst with
      | @mk _ m f f' x k a b _ hm hf hr hsp hab =>
        obtain ⟨hl, hi, ⟨rs, hg⟩, _⟩ := (C40_find_first_by s m).2.1 f x hf
        have hfin : f.Inside := by
          have := (hP m hm).1 _ _ (by have := hi.2; have := hs.2; omega) hg _ (List.mem_cons_self ..)
          exact ⟨this.1, by rw [hl]; exact this.2⟩
        obtain ⟨hpart, _⟩ := C107_extending (fun m hm => by rw [hl]; exact hP m hm) hfin hr
        obtain ⟨c1, c2, c3, _⟩ := C45_split_with s f' a b hsp
        refine ⟨c3 p hab, f.start_idx, hi, fun hp => ?_⟩
        obtain ⟨q1, q2, q3, q4⟩ := hpart
        rcases hab with rfl | rfl
        · have := ((c1 _).1 ⟨p, rfl, hp⟩).2; omega
        · have := ((c2 _).1 ⟨p, rfl, hp⟩).2; omega
    obtain ⟨hpart, i, hi, hni⟩ := key
    obtain ⟨h1, h2⟩ := ih (fun m hm => by rw [hpart.1]; exact hP m hm) (inside_of_partOf hpart hs)
    obtain ⟨a1, a2, a3, a4⟩ := hpart
    obtain ⟨b1, b2, b3, b4⟩ := h1
    refine ⟨⟨b1.trans a1, by omega, b3, by omega⟩, ?_⟩
    simp only [LLSelection.Has] at hi hni
    unfold LLSelection.count at *
    omega

/-- C107: trimming as long as something changes ends; there are fewer rounds than tokens. -/
theorem C107_trimming {P : {Out : Type} → XMatch W Out → Prop} {s s' : LLSelection W} {n : Nat}
    (hP : ∀ {Out : Type} (m : XMatch W Out), P m → WellBehaved s.ll_line.val m) (hs : s.Inside)
    (h : Rounds (Trims P) n s s') : s'.PartOf s ∧ s'.count + n ≤ s.count := by
  induction h with
  | zero s => exact ⟨⟨rfl, Nat.le_refl _, hs.1, Nat.le_refl _⟩, Nat.le_refl _⟩
  | @more n s p s'' hst _ ih =>
    have key : p.PartOf s ∧ (p.start_idx, p.end_idx) ≠ (s.start_idx, s.end_idx) := by
      cases hst with
      | mk hm ht hne =>
        refine ⟨?_, hne⟩
        rcases ht with ht | ht | ht <;> exact trim_inside (hP _ hm) hs ht
    obtain ⟨hpart, hne⟩ := key
    obtain ⟨h1, h2⟩ := ih (fun m hm => by rw [hpart.1]; exact hP m hm) (inside_of_partOf hpart hs)
    obtain ⟨a1, a2, a3, a4⟩ := hpart
    obtain ⟨b1, b2, b3, b4⟩ := h1
    refine ⟨⟨b1.trans a1, by omega, b3, by omega⟩, ?_⟩
    have : ¬ (p.start_idx = s.start_idx ∧ p.end_idx = s.end_idx) := fun e => hne (by rw [e.1, e.2])
    unfold LLSelection.count at *
    omega

/-- C107, the property for `after`: going on with what follows the selection ends. -/
def C107_claim : Prop := ∀ (W : World) (s : LLSelection W), s.Inside → Ends Steps s

/-- C107, exactly: `while let Some(next) = s.after()` ends iff the selection starts at the last-but-one token
or exactly two tokens follow it. In all other cases it goes on for ever. -/
theorem C107_after_partial (s : LLSelection W) (hs : s.Inside) :
    (Ends Steps s ↔ s.start_idx + 2 = s.ll_line.val.ll_tokens.length ∨ s.end_idx + 3 = s.ll_line.val.ll_tokens.length) ∧
    (Ends Steps s ∨ ∀ n, ∃ s', Rounds Steps n s s') := by
  obtain ⟨h1, h2⟩ := hs
  -- the selection behind the line follows itself
  have stuck : ∀ (p : LLSelection W), p.start_idx = p.ll_line.val.ll_tokens.length → p.end_idx + 1 = p.ll_line.val.ll_tokens.length →
      ∀ n, Rounds Steps n p p := by
    intro p e1 e2 n
    induction n with
    | zero => exact .zero p
    | succ n ih =>
      refine .more ?_ ih
      obtain ⟨l, a, b⟩ := p
      simp only at e1 e2
      simp only [Steps, LLSelection.after]
      rw [if_neg (by omega), e2]
      congr 2
      · omega
      · omega
  have goes : ¬ (s.start_idx + 2 = s.ll_line.val.ll_tokens.length ∨ s.end_idx + 3 = s.ll_line.val.ll_tokens.length) →
      ∀ n, ∃ s', Rounds Steps n s s' := by
    intro hno n
    have hst : Steps s ⟨s.ll_line, s.end_idx + 1, s.ll_line.val.ll_tokens.length - 1⟩ := by
      simp only [Steps, LLSelection.after]; rw [if_neg (by omega)]
    have hst2 : Steps (⟨s.ll_line, s.end_idx + 1, s.ll_line.val.ll_tokens.length - 1⟩ : LLSelection W)
        ⟨s.ll_line, s.ll_line.val.ll_tokens.length - 1 + 1, s.ll_line.val.ll_tokens.length - 1⟩ := by
      simp only [Steps, LLSelection.after]; rw [if_neg (by omega)]
    match n with
    | 0 => exact ⟨s, .zero s⟩
    | 1 => exact ⟨_, .more hst (.zero _)⟩
    | n + 2 => exact ⟨_, .more hst (.more hst2 (stuck _ (by simp only; omega) (by simp only; omega) n))⟩
  have ends : (s.start_idx + 2 = s.ll_line.val.ll_tokens.length ∨ s.end_idx + 3 = s.ll_line.val.ll_tokens.length) →
      Ends Steps s := by
    intro hyes
    refine ⟨1, fun k s' hk => ?_⟩
    cases hk with
    | zero => omega
    | more a b =>
      simp only [Steps, LLSelection.after] at a
      split at a
      · cases a
      · cases a
        cases b with
        | zero => omega
        | more a b =>
          simp only [Steps, LLSelection.after] at a
          rw [if_pos (by omega)] at a
          cases a
  refine ⟨⟨fun ⟨n, hn⟩ => ?_, ends⟩, ?_⟩
  · apply Classical.byContradiction
    intro hno
    obtain ⟨s', hs'⟩ := goes hno (n + 1)
    have := hn _ _ hs'
    omega
  · by_cases hyes : s.start_idx + 2 = s.ll_line.val.ll_tokens.length ∨ s.end_idx + 3 = s.ll_line.val.ll_tokens.length
    · exact Or.inl (ends hyes)
    · exact Or.inr (goes hyes)

/-- C107 is false for `after`: from the whole line of ten tokens the loop never ends. -/
theorem C107_after_false : ¬ C107_claim := by
  intro claim
  have := ((C107_after_partial (Demo.sel 0 9) ⟨by decide, by decide⟩).1).1 (claim _ (Demo.sel 0 9) ⟨by decide, by decide⟩)
  revert this
  decide
example := (C107_after_partial (Demo.sel 0 0) ⟨by decide, by decide⟩)
example : Ends Steps (Demo.sel 0 7) := ((C107_after_partial (Demo.sel 0 7) ⟨by decide, by decide⟩).1).2 (by decide)

theorem Demo.textWell : WellBehaved Demo.exLine2 (X.tokenText (W := Demo.W)) :=
  builtin_wellBehaved .tokenText Demo.exReach2.rep Demo.exHist2_ordered
example := let h := Demo.textWell
  C107_extending (P := fun {_} m => WellBehaved Demo.exLine2 m) (s := Demo.sel 3 3) (fun _ h => h) ⟨by decide, by decide⟩
    (.more (.forwards h rfl (List.mem_cons_self ..)) (.more (.backwards h rfl (List.mem_cons_self ..)) (.zero _)))
example := let h := Demo.textWell
  C107_searching (P := fun {_} m => WellBehaved Demo.exLine2 m) (s := Demo.sel 0 9) (fun _ h => h) ⟨by decide, by decide⟩
    (.more (.mk h rfl (.more (.forwards h rfl (List.mem_cons_self ..)) (.zero _)) rfl (Or.inr rfl)) (.zero _))
example := let h := Demo.textWell
  C107_trimming (P := fun {_} m => WellBehaved Demo.exLine2 m) (s := Demo.sel 0 9) (fun _ h => h) ⟨by decide, by decide⟩
    (.more (.mk h (Or.inl rfl) (by decide)) (.zero _))
end LNlp
