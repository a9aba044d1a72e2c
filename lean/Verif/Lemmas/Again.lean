import Verif.Lemmas.Pieces
import Verif.Lemmas.Plain
import Verif.Spec.Again
import Verif.Spec.Resolve
/- Tokens are tokenised to themselves. -/
namespace LNlp
variable {W : World}

theorem split_char (L : SplitLaws W) (c : Char) : W.splitWordBounds [c] = [[c]] := by
  have h1 := L.concat [c]
  have h2 := L.nonempty [c]
  cases hs : W.splitWordBounds [c] with
  | nil => rw [hs] at h1; cases h1
  | cons w ws =>
    rw [hs] at h1 h2
    have hw := h2 w (by simp)
    cases w with
    | nil => exact absurd rfl hw
    | cons x xs =>
      simp only [List.flatten_cons, List.cons_append, List.cons.injEq, List.append_eq_nil_iff] at h1
      obtain ⟨rfl, rfl, h3⟩ := h1
      cases ws with
      | nil => rfl
      | cons v vs =>
        simp only [List.flatten_cons, List.append_eq_nil_iff] at h3
        exact absurd h3.1 (h2 v (by simp))

theorem runsOf_digits : ∀ (w : Str), w ≠ [] → (∀ c ∈ w, IsDigit c) → runsOf W w = [(w, .NATN)]
  | [], hne, _ => absurd rfl hne
  | c :: cs, _, h => by
    have hc : charTag W c = .NATN := by simp [charTag, h c (by simp)]
    cases cs with
    | nil => simp [runsOf, hc]
    | cons d ds =>
      rw [runsOf, runsOf_digits (d :: ds) (by simp) (fun x hx => h x (by simp [hx]))]
      simp [hc]

/-- a single word that consists of digits or does not start with one is one piece -/
theorem textPieces_single {w : Str} (hs : W.splitWordBounds w = [w]) (hne : w ≠ [])
    (h : (∀ c ∈ w, IsDigit c) ∨ ∀ c ∈ w.head?, ¬ IsDigit c) :
    textPieces W w = [(w, if ∀ c ∈ w, IsDigit c then .NATN else wordTag W w)] := by
  unfold textPieces
  rw [hs]
  simp only [List.flatMap_cons, List.flatMap_nil, List.append_nil]
  unfold wordPieces
  cases w with
  | nil => exact absurd rfl hne
  | cons c cs =>
    rcases h with h | h
    · rw [if_pos ⟨c, by simp, h c (by simp)⟩, runsOf_digits _ (by simp) h, if_pos h]
    · rw [if_neg (by rintro ⟨d, hd, hd'⟩; exact h d hd hd'), if_neg]
      intro hh
      exact h c (by simp) (hh c (by simp))

/-- pieces of a good word of a text: single words, of digits or not starting with a digit -/
theorem piece_single (L : SplitLaws W) (S : SplitStable W) {text w : Str}
    (hw : w ∈ W.splitWordBounds text) (hg : GoodWord w) {p : Str × TextTag} (hp : p ∈ wordPieces W w) :
    p.1 ≠ [] ∧ W.splitWordBounds p.1 = [p.1] ∧ ((∀ c ∈ p.1, IsDigit c) ∨ ∀ c ∈ p.1.head?, ¬ IsDigit c) := by
  unfold wordPieces at hp
  split at hp
  · next hd =>
    obtain ⟨h1, h2, h3⟩ := runsOf_uniform W w p hp
    refine ⟨h1, ?_⟩
    cases ht : p.2 with
    | NATN =>
      have : ∀ c ∈ p.1, IsDigit c := by
        intro c hc
        have := (h2 c hc).1
        rcases charTag_cases W c with ⟨_, h⟩ | ⟨h, _⟩ | ⟨h, _⟩
        · exact h
        · rw [h, ht] at this; cases this
        · rw [h, ht] at this; cases this
      exact ⟨S.digits _ h1 this, .inl this⟩
    | WORD =>
      have : ∀ c ∈ p.1, ¬ IsDigit c ∧ W.isAlphabetic c = true := by
        intro c hc
        have := (h2 c hc).1
        rcases charTag_cases W c with ⟨h, _⟩ | ⟨_, h⟩ | ⟨h, _⟩
        · rw [h, ht] at this; cases this
        · exact h
        · rw [h, ht] at this; cases this
      exact ⟨S.letters _ h1 (fun c hc => ⟨hg.2 hd c (h2 c hc).2, (this c hc).2⟩),
        .inr (fun c hc => (this c (List.mem_of_mem_head? hc)).1)⟩
    | PUNC =>
      obtain ⟨c, hc⟩ := h3 ht
      rw [hc]
      refine ⟨split_char L c, .inr ?_⟩
      intro d hd'
      simp only [List.head?_cons, Option.mem_def, Option.some.injEq] at hd'
      subst hd'
      have := (h2 c (by rw [hc]; simp)).1
      rcases charTag_cases W c with ⟨h, _⟩ | ⟨h, _⟩ | ⟨_, h, _⟩
      · rw [h, ht] at this; cases this
      · rw [h, ht] at this; cases this
      · exact h
    | SYMB =>
      cases hq : p.1 with
      | nil => exact absurd hq h1
      | cons c cs =>
        have := (h2 c (by rw [hq]; simp)).1
        rcases charTag_cases W c with ⟨h, _⟩ | ⟨h, _⟩ | ⟨h, _⟩ <;> rw [h, ht] at this <;> cases this
    | SPACE =>
      cases hq : p.1 with
      | nil => exact absurd hq h1
      | cons c cs =>
        have := (h2 c (by rw [hq]; simp)).1
        rcases charTag_cases W c with ⟨h, _⟩ | ⟨h, _⟩ | ⟨h, _⟩ <;> rw [h, ht] at this <;> cases this
  · next hd =>
    simp only [List.mem_singleton] at hp
    subst hp
    exact ⟨hg.1, S.again _ _ hw, .inr (fun c hc h => hd ⟨c, hc, h⟩)⟩

theorem token_single (L : SplitLaws W) (S : SplitStable W) {l : LLLine W} {h : History W} (hr : Reachable l h) :
    ∀ tok ∈ l.ll_tokens, ∀ s tag, tok.token = .Text s tag →
      s ≠ [] ∧ W.splitWordBounds s = [s] ∧ ((∀ c ∈ s, IsDigit c) ∨ ∀ c ∈ s.head?, ¬ IsDigit c) := by
  induction hr with
  | create input size l wf ok =>
    intro tok ht s tag he
    obtain ⟨text, as, w, _, hw, hg, hp⟩ := create_token_origin wf ok ht he
    exact piece_single L S hw hg hp
  | run l h ptr r asgs leaked l' prev ne go ok ih => rw [run_tokens ok]; exact ih
  | runEmpty l h ptr r l' prev empty ok ih => rw [run_tokens ok]; exact ih

theorem textAt_single (L : SplitLaws W) (S : SplitStable W) {l : LLLine W} {h : History W} (hr : Reachable l h)
    {i : Nat} {s : Str} (hs : textAt l i = some s) :
      s ≠ [] ∧ W.splitWordBounds s = [s] ∧ ((∀ c ∈ s, IsDigit c) ∨ ∀ c ∈ s.head?, ¬ IsDigit c) := by
  unfold textAt at hs
  cases ht : l.ll_tokens[i]? with
  | none => rw [ht] at hs; cases hs
  | some t =>
    rw [ht] at hs
    simp only [Option.bind_some] at hs
    split at hs
    · next s' tag he =>
      cases hs
      exact token_single L S hr t (List.mem_of_getElem? ht) _ _ he
    · cases hs

/-- the lowercase text of a token is one token, too -/
theorem lower_singleToken (L : SplitLaws W) (M : LowerStable W) {s : Str} (hz : '\u200d' ∉ s)
    (hs : W.splitWordBounds s = [s]) (hd : (∀ c ∈ s, IsDigit c) ∨ ∀ c ∈ s.head?, ¬ IsDigit c) :
    SingleToken W (W.toLowercase s) := by
  have hw := M.word s hz hs
  have hne' : W.toLowercase s ≠ [] := by
    have := L.nonempty (W.toLowercase s) (W.toLowercase s) (by rw [hw]; simp)
    exact this
  refine ⟨_, textPieces_single hw hne' ?_⟩
  rcases hd with hd | hd
  · left; rw [M.digits s hd]; exact hd
  · right; exact M.head s hd

end LNlp
