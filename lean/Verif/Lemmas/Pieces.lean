import Verif.Lemmas.Reach
import Verif.Spec.Laws
/- Facts about the pieces of the tokenization specification. -/
namespace LNlp
variable {W : World}

theorem runsOf_concat (W : World) : ∀ s : Str, ((runsOf W s).map (·.1)).flatten = s
  | [] => rfl
  | c :: cs => by
    have ih := runsOf_concat W cs
    simp only [runsOf]
    split
    · next s t rest heq =>
      rw [heq] at ih
      split
      · simp at ih ⊢; exact ih
      · simp at ih ⊢; exact ih
    · next heq => rw [heq] at ih; simp at ih ⊢; exact ih

/-- every run is non-empty, uniform in its tag, and a PUNC run is one character -/
theorem runsOf_uniform (W : World) : ∀ (s : Str), ∀ p ∈ runsOf W s,
    p.1 ≠ [] ∧ (∀ c ∈ p.1, charTag W c = p.2 ∧ c ∈ s) ∧ (p.2 = .PUNC → ∃ c, p.1 = [c])
  | [], p, hp => by simp [runsOf] at hp
  | c :: cs, p, hp => by
    have ih := runsOf_uniform W cs
    simp only [runsOf] at hp
    split at hp
    · next s t rest heq =>
      rw [heq] at ih
      split at hp
      · next h =>
        rcases List.mem_cons.1 hp with rfl | hp
        · refine ⟨by simp, ?_, fun hh => absurd hh h.2⟩
          intro d hd
          rcases List.mem_cons.1 hd with rfl | hd
          · exact ⟨h.1, by simp⟩
          · have := (ih (s, t) (by simp)).2.1 d hd
            exact ⟨this.1, by simp [this.2]⟩
        · obtain ⟨a, b, c'⟩ := ih p (by simp [hp])
          exact ⟨a, fun d hd => ⟨(b d hd).1, by simp [(b d hd).2]⟩, c'⟩
      · rcases List.mem_cons.1 hp with rfl | hp
        · refine ⟨by simp, ?_, fun _ => ⟨c, rfl⟩⟩
          intro d hd; simp at hd; subst hd; simp
        · obtain ⟨a, b, c'⟩ := ih p (by simpa using hp)
          exact ⟨a, fun d hd => ⟨(b d hd).1, by simp [(b d hd).2]⟩, c'⟩
    · simp at hp; subst hp
      refine ⟨by simp, ?_, fun _ => ⟨c, rfl⟩⟩
      intro d hd; simp at hd; subst hd; simp

theorem charTag_cases (W : World) (c : Char) :
    (charTag W c = .NATN ∧ IsDigit c) ∨ (charTag W c = .WORD ∧ ¬ IsDigit c ∧ W.isAlphabetic c = true) ∨
    (charTag W c = .PUNC ∧ ¬ IsDigit c ∧ ¬ W.isAlphabetic c = true) := by
  unfold charTag
  by_cases h1 : IsDigit c
  · simp [h1]
  · by_cases h2 : W.isAlphabetic c = true <;> simp [h1, h2]

/-- the last run ends with the last character -/
theorem runsOf_last (W : World) (s : Str) (p : Str × TextTag) (h : (runsOf W s).getLast? = some p) :
    s.getLast? = p.1.getLast? := by
  have hc := runsOf_concat W s
  have hp := List.mem_of_getLast? h
  have hne := (runsOf_uniform W s p hp).1
  obtain ⟨ys, hys⟩ := List.getLast?_eq_some_iff.1 h
  rw [hys] at hc
  rw [← hc]
  simp only [List.map_append, List.flatten_append, List.map_cons, List.map_nil, List.flatten_cons,
    List.flatten_nil, List.append_nil]
  rw [List.getLast?_append]
  cases hl : p.1.getLast? with
  | none => simp at hl; exact absurd hl hne
  | some c => rfl

/-- no two neighbouring runs are both digits or both letters -/
theorem runsOf_maximal (W : World) : ∀ (s : Str) (u v : List (Str × TextTag)) (p q : Str × TextTag),
    runsOf W s = u ++ p :: q :: v → ¬ (p.2 = q.2 ∧ p.2 ≠ .PUNC)
  | [], u, v, p, q, h => by simp [runsOf] at h
  | c :: cs, u, v, p, q, h => by
    have ih := runsOf_maximal W cs
    simp only [runsOf] at h
    split at h
    · next s t rest heq =>
      split at h
      · next hc =>
        cases u with
        | nil =>
          simp at h
          obtain ⟨rfl, hr⟩ := h
          have := ih [] v (s, t) q (by rw [heq, hr]; rfl)
          exact this
        | cons x xs =>
          simp at h
          exact ih ((s, t) :: xs) v p q (by rw [heq, h.2]; rfl)
      · next hc =>
        cases u with
        | nil =>
          simp at h
          obtain ⟨rfl, rfl, _⟩ := h
          rintro ⟨h1, h2⟩
          exact hc ⟨h1, fun h => h2 (h1.trans h)⟩
        | cons x xs =>
          simp at h
          exact ih xs v p q (by rw [heq]; exact h.2)
    · have := congrArg List.length h
      simp at this; omega

theorem wordPieces_concat (W : World) (w : Str) : ((wordPieces W w).map (·.1)).flatten = w := by
  unfold wordPieces
  split
  · exact runsOf_concat W w
  · simp

theorem wordPieces_ne (W : World) {w : Str} (h : w ≠ []) : wordPieces W w ≠ [] := by
  intro he
  have := wordPieces_concat W w
  rw [he] at this
  exact h this.symm

theorem textPieces_concat (W : World) (s : Str) :
    ((textPieces W s).map (·.1)).flatten = (W.splitWordBounds s).flatten := by
  unfold textPieces
  generalize W.splitWordBounds s = ws
  induction ws with
  | nil => rfl
  | cons w ws ih =>
    simp only [List.flatMap_cons, List.map_append, List.flatten_append, List.flatten_cons, ih]
    rw [wordPieces_concat]

theorem textPieces_ne_iff (W : World) {s : Str} (h : GoodText W s) :
    textPieces W s ≠ [] ↔ W.splitWordBounds s ≠ [] := by
  unfold textPieces
  rw [ne_eq, List.flatMap_eq_nil_iff]
  constructor
  · intro hn he; apply hn; rw [he]; simp
  · intro hn hall
    cases hs : W.splitWordBounds s with
    | nil => exact hn hs
    | cons w ws =>
      have := hall w (by rw [hs]; simp)
      exact wordPieces_ne W (h w (by rw [hs]; simp)).1 this

theorem split_nil_iff (L : SplitLaws W) (s : Str) : W.splitWordBounds s = [] ↔ s = [] := by
  constructor
  · intro h
    have := L.concat s
    rw [h] at this; exact this.symm
  · intro h
    cases hs : W.splitWordBounds s with
    | nil => rfl
    | cons w ws =>
      have h1 := L.concat s
      have h2 := L.nonempty s w (by rw [hs]; simp)
      rw [hs, h] at h1
      simp at h1
      exact absurd h1.1 h2

/-- where the text tokens of a created line come from -/
theorem create_token_origin {size : Str → Nat} {input : List (InputToken W)} {l : LLLine W}
    (wf : ∀ t ∈ input, t.WF) (h : createLineFromInputTokens W input size = .ok l)
    {t : LLToken} (ht : t ∈ l.ll_tokens) {s : Str} {tag : TextTag} (he : t.token = .Text s tag) :
    ∃ text as w, InputToken.Text text as ∈ input ∧ w ∈ W.splitWordBounds text ∧ GoodWord w ∧
      (s, tag) ∈ wordPieces W w := by
  obtain ⟨hg, htoks, _⟩ := create_inv wf h
  have : t.token ∈ l.ll_tokens.map (·.token) := List.mem_map_of_mem ht
  rw [htoks, layoutM_tokens, he] at this
  simp only [List.mem_map, List.mem_flatMap] at this
  obtain ⟨⟨tok, n⟩, ⟨inp, hinp, hmem⟩, heq⟩ := this
  simp only at heq
  subst heq
  cases inp with
  | Custom m as => simp [tokensOf] at hmem
  | Text text as =>
    simp only [tokensOf, List.mem_map, Prod.mk.injEq, LToken.Text.injEq] at hmem
    obtain ⟨⟨s', t'⟩, hp, ⟨h1, h2⟩, _⟩ := hmem
    simp only at h1 h2
    subst h1; subst h2
    simp only [textPieces, List.mem_flatMap] at hp
    obtain ⟨w, hw, hp⟩ := hp
    exact ⟨text, as, w, hinp, hw, (hg _ hinp).1 w hw, hp⟩

theorem wordTag_ne_natn (W : World) (w : Str) : wordTag W w ≠ .NATN := by
  unfold wordTag; split
  · simp
  · split
    · simp
    · split <;> simp

end LNlp
