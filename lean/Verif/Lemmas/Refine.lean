import Verif.Spec.Refine
import Verif.Lemmas.Sentences
/- Helper lemmas: configurations of the keyword resolver with more keywords. -/
namespace LNlp
variable {W : World}

theorem separates_iff {r : ClauseKeywordResolver} {l : LLLine W} {i : Nat} : Separates r l i ↔
    (∃ t, textAt l i = some t ∧ r.Word (W.toLowercase t)) ∨ tagAt l i = some .PUNC := by
  unfold Separates KeywordAt ClauseKeywordResolver.Word
  refine or_congr ?_ Iff.rfl
  constructor
  · rintro ⟨kw, t, ht, hk⟩
    refine ⟨t, ht, ?_⟩
    cases kw with
    | ConditionStart => exact .inl hk
    | Then => exact .inr (.inr hk.2)
    | And => exact .inr (.inl hk.2.2)
  · rintro ⟨t, ht, hk⟩
    by_cases h1 : W.toLowercase t ∈ r.cond_start
    · exact ⟨.ConditionStart, t, ht, h1⟩
    · by_cases h2 : W.toLowercase t ∈ r.then_
      · exact ⟨.Then, t, ht, h1, h2⟩
      · exact ⟨.And, t, ht, h1, h2, hk.elim (fun h => absurd h h1) (fun h => h.elim id (fun h => absurd h h2))⟩

theorem separates_mono {r r' : ClauseKeywordResolver} (hw : ∀ w, r.Word w → r'.Word w) {l : LLLine W} {i : Nat}
    (h : Separates r l i) : Separates r' l i := by
  rw [separates_iff] at h ⊢
  exact h.imp (fun ⟨t, ht, hk⟩ => ⟨t, ht, hw _ hk⟩) id

/-- the end of the run that goes on at `t` -/
theorem run_right (r : ClauseKeywordResolver) (l : LLLine W) : ∀ n t, l.ll_tokens.length = t + 1 + n → ¬ Separates r l t →
    ∃ b, t ≤ b ∧ b < l.ll_tokens.length ∧ (∀ u, t ≤ u → u ≤ b → ¬ Separates r l u) ∧
      (b + 1 = l.ll_tokens.length ∨ Separates r l (b + 1))
  | 0, t, hl, ht => ⟨t, Nat.le_refl _, by omega, fun u h1 h2 => by rwa [show u = t by omega], .inl (by omega)⟩
  | n + 1, t, hl, ht => by
    by_cases h : Separates r l (t + 1)
    · exact ⟨t, Nat.le_refl _, by omega, fun u h1 h2 => by rwa [show u = t by omega], .inr h⟩
    · obtain ⟨b, h1, h2, h3, h4⟩ := run_right r l n (t + 1) (by omega) h
      refine ⟨b, by omega, h2, fun u hu hu' => ?_, h4⟩
      by_cases e : u = t
      · rwa [e]
      · exact h3 u (by omega) hu'

theorem run_left (r : ClauseKeywordResolver) (l : LLLine W) : ∀ t, ¬ Separates r l t →
    ∃ a, a ≤ t ∧ (∀ u, a ≤ u → u ≤ t → ¬ Separates r l u) ∧ (a = 0 ∨ Separates r l (a - 1))
  | 0, ht => ⟨0, Nat.le_refl _, fun u h1 h2 => by rwa [show u = 0 by omega], .inl rfl⟩
  | t + 1, ht => by
    by_cases h : Separates r l t
    · exact ⟨t + 1, Nat.le_refl _, fun u h1 h2 => by rwa [show u = t + 1 by omega], .inr h⟩
    · obtain ⟨a, h1, h3, h4⟩ := run_left r l t h
      refine ⟨a, by omega, fun u hu hu' => ?_, h4⟩
      by_cases e : u = t + 1
      · rwa [e]
      · exact h3 u hu (by omega)

/-- every token that separates nothing lies in a run -/
theorem run_exists {r : ClauseKeywordResolver} {l : LLLine W} {t : Nat} (hlt : t < l.ll_tokens.length)
    (ht : ¬ Separates r l t) : ∃ a b, IsRun r l a b ∧ a ≤ t ∧ t ≤ b := by
  obtain ⟨b, b1, b2, b3, b4⟩ := run_right r l (l.ll_tokens.length - (t + 1)) t (by omega) ht
  obtain ⟨a, a1, a2, a3⟩ := run_left r l t ht
  refine ⟨a, b, ⟨by omega, b2, fun u h1 h2 => ?_, a3, b4⟩, a1, b1⟩
  rcases Nat.le_total u t with h | h
  · exact a2 u h1 h
  · exact b3 u h h2

/-- a clause of the run `a' ..= b'` inside the run `a ..= b` lies in the clause of that run -/
theorem strip_within {l : LLLine W} {a b a' b' i' j' : Nat} (ha : a ≤ a') (hb : b' ≤ b)
    (h : Strip l a' b' i' j') : ∃ i j, Strip l a b i j ∧ i ≤ i' ∧ j' ≤ j := by
  have h0 := strip_bounds h
  obtain ⟨h1, h2, h3⟩ := h
  have l1 : (if tagAt l a = some .SPACE then a + 1 else a) ≤ i' := by
    by_cases e : a = a'
    · subst e; omega
    · split <;> omega
  have l2 : j' + 1 ≤ (if tagAt l b = some .SPACE then b else b + 1) := by
    by_cases e : b' = b
    · subst e; omega
    · split <;> omega
  refine ⟨_, (if tagAt l b = some .SPACE then b else b + 1) - 1, ⟨rfl, by omega, by omega⟩, l1, by omega⟩

/-- a token that is no space lies in the clause of its run -/
theorem strip_mem {l : LLLine W} {a b t : Nat} (ha : a ≤ t) (hb : t ≤ b) (ht : tagAt l t ≠ some .SPACE) :
    ∃ i j, Strip l a b i j ∧ i ≤ t ∧ t ≤ j := by
  have h : Strip l t t t t := ⟨by rw [if_neg ht], by rw [if_neg ht], Nat.le_refl _⟩
  exact strip_within ha hb h

theorem covered_within (toks : List LLToken) {a b : LRange} (hab : Within a b) (hle : a.1 ≤ a.2) :
    coveredText toks a <:+: coveredText toks b := by
  obtain ⟨i, j⟩ := a
  obtain ⟨i', j'⟩ := b
  obtain ⟨h1, h2⟩ := hab
  simp only at h1 h2 hle
  have cut : ∀ (p q r : Nat) (xs : List LLToken), xs.take (p + q + r) =
      xs.take p ++ ((xs.drop p).take q ++ (xs.drop (p + q)).take r) := by
    intro p q r xs
    rw [Nat.add_assoc, List.take_add, List.take_add, List.drop_drop]
  unfold coveredText
  simp only
  have e : j' + 1 - i' = (i - i') + (j + 1 - i) + (j' - j) := by omega
  rw [e, cut, List.drop_drop, List.map_append, List.map_append, List.flatten_append, List.flatten_append,
    show i' + (i - i') = i by omega, ← List.append_assoc]
  exact ⟨_, _, rfl⟩

/-- two lists ordered by `lt` with the same members are equal -/
theorem sorted_ext {α : Type} {lt : α → α → Prop} (irr : ∀ x, ¬ lt x x) (asym : ∀ x y, lt x y → ¬ lt y x) :
    ∀ {xs ys : List α}, xs.Pairwise lt → ys.Pairwise lt → (∀ x, x ∈ xs ↔ x ∈ ys) → xs = ys
  | [], [], _, _, _ => rfl
  | [], y :: ys, _, _, h => absurd ((h y).2 List.mem_cons_self) (by simp)
  | x :: xs, [], _, _, h => absurd ((h x).1 List.mem_cons_self) (by simp)
  | x :: xs, y :: ys, hx, hy, h => by
    rw [List.pairwise_cons] at hx hy
    have e : x = y := by
      rcases List.mem_cons.1 ((h x).1 List.mem_cons_self) with e | hm
      · exact e
      · rcases List.mem_cons.1 ((h y).2 List.mem_cons_self) with e | hm'
        · exact e.symm
        · exact absurd (hx.1 _ hm') (asym _ _ (hy.1 _ hm))
    subst e
    rw [sorted_ext irr asym hx.2 hy.2 (fun z => ?_)]
    constructor
    · intro hz
      rcases List.mem_cons.1 ((h z).1 (List.mem_cons_of_mem _ hz)) with e | hm
      · subst e; exact absurd (hx.1 _ hz) (irr _)
      · exact hm
    · intro hz
      rcases List.mem_cons.1 ((h z).2 (List.mem_cons_of_mem _ hz)) with e | hm
      · subst e; exact absurd (hy.1 _ hz) (irr _)
      · exact hm

end LNlp
