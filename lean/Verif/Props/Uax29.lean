import Verif.Lemmas.Uax29
import Verif.Demo.Uax29
import Verif.Props.Tokenize
import Verif.Props.Again
import Verif.Props.Case
/- C124: the laws of word splitting that other theorems assume hold of the word boundaries of UAX #29. -/
namespace LNlp
variable {W : World} {cls : Char → WBChar}

/-- C124: the text is split exactly where the rules of the annex see a boundary. -/
theorem C124_boundaries (U : Uax29 W cls) (a b : Str) (ha : a ≠ []) (hb : b ≠ []) :
    (∃ u v, W.splitWordBounds (a ++ b) = u ++ v ∧ u.flatten = a) ↔ joins (a.reverse.map cls) (b.map cls) = false := by
  rw [U.split]
  exact (uaxWords_boundary a b ha hb).symm

example := C124_boundaries Demo.uUax "can't".toList ", she said".toList (by decide) (by decide)

/-- C124: words are not empty and make up the text. -/
theorem C124_split_laws (U : Uax29 W cls) : SplitLaws W where
  concat := fun s => by rw [U.split, uaxWords_flatten]
  nonempty := fun s => by rw [U.split]; exact good_nonempty cls _ [] (uaxWords_good cls s)

example := C124_split_laws Demo.uUax

/-- C124: there is no boundary between ASCII digits. -/
theorem C124_no_digit_break (U : Uax29 W cls) : NoDigitBreak W := by
  rintro s pre post w1 w2 c d h hc hd ⟨dc, dd⟩
  rw [U.split] at h
  have hg := uaxWords_good cls s
  rw [h, show pre ++ w1 :: w2 :: post = (pre ++ [w1]) ++ w2 :: post by simp] at hg
  have hm := (good_mid cls (pre ++ [w1]) [] (w2 :: post) hg).2.2.1
  obtain ⟨w1', rfl⟩ : ∃ w, w1 = w ++ [c] := by
    have hne : w1 ≠ [] := by rintro rfl; simp at hc
    exact ⟨w1.dropLast, by rw [List.getLast?_eq_some_getLast hne, Option.some.injEq] at hc; rw [← hc, List.dropLast_concat_getLast]⟩
  obtain ⟨w2', rfl⟩ : ∃ w, w2 = d :: w := by
    cases w2 with
    | nil => cases hd
    | cons x w => exact ⟨w, by simp at hd; rw [hd]⟩
  have := hm (by simp)
  simp only [List.flatten_append, List.flatten_cons, List.flatten_nil, List.append_nil, List.reverse_append,
    List.reverse_cons, List.reverse_nil, List.nil_append, List.cons_append] at this
  rw [cjoins_digits (U.digit c dc) (U.digit d dd)] at this
  cases this

example := C124_no_digit_break Demo.uUax

/-- C124: there is a boundary before every hyphen and en dash. -/
theorem C124_dash_break (U : Uax29 W cls) : DashBreak W := by
  intro s w hw c hc
  rw [U.split] at hw
  obtain ⟨pre, post, e⟩ := List.append_of_mem hw
  have hg := uaxWords_good cls s
  rw [e] at hg
  have hm := good_mid cls pre [] (w :: post) hg
  have key : ∀ c ∈ w.tail, cls c ≠ ⟨.other, false⟩ := by
    intro c hc hcls
    cases w with
    | nil => cases hc
    | cons x w =>
      obtain ⟨p, q, e2⟩ := List.append_of_mem (show c ∈ w from hc)
      have := hm.2.1 (x :: p) (c :: q) (by rw [e2]; rfl) (by simp) (by simp)
      rw [List.cons_append, cjoins_other hcls] at this
      cases this
  exact ⟨fun h => key c hc (h ▸ U.hyphen), fun h => key c hc (h ▸ U.enDash)⟩

example := C124_dash_break Demo.uUax

/-- C124: cutting a text between two words leaves the words; runs of ASCII letters and of ASCII digits are words. -/
theorem C124_split_stable (U : Uax29 W cls) : SplitStable W where
  cut := fun s a b h => by
    rw [U.split] at h ⊢
    rw [U.split]
    exact uaxWords_cut cls s a b h
  letters := fun w hw h => by
    rw [U.split]
    exact uaxWords_run hw fun c hc d hd b a =>
      cjoins_letters (U.letter c (h c hc).1 (h c hc).2) (U.letter d (h d hd).1 (h d hd).2) b a
  digits := fun w hw h => by
    rw [U.split]
    exact uaxWords_run hw fun c hc d hd b a => cjoins_digits (U.digit c (h c hc)) (U.digit d (h d hd)) b a

example := C124_split_stable Demo.uUax

/-- C124: changing characters to characters of the same class changes no boundary. -/
theorem C124_recase (U : Uax29 W cls) {f : Char → Char} (hf : ∀ c, cls (f c) = cls c)
    (letters : ∀ c, W.isAlphabetic c = true → W.isAlphabetic (f c) = true)
    (others : ∀ c, W.isAlphabetic c = false → f c = c) (bytes : ∀ c, (f c).utf8Size = c.utf8Size)
    (lower : ∀ s, W.toLowercase (s.map f) = W.toLowercase s) : Recase W f where
  split := fun s => by rw [U.split, U.split, uaxWords_map f hf]
  letters := letters
  others := others
  bytes := bytes
  lower := lower

example := C124_recase Demo.demoUax (f := Demo.lowerChar)
  (fun c => by simp only [Demo.demoCls, Demo.wbClass_lower]) Demo.recase.letters Demo.recase.others Demo.recase.bytes
  Demo.recase.lower

/-- C124: lowercasing keeps words without a zero-width joiner one word, keeps digits and makes none. -/
theorem C124_lower (U : Uax29 W cls) (T : LowerTable W cls) : LowerStable W where
  word := fun w hz h => by
    rw [U.split] at h ⊢
    exact (T.lowers w).single (fun c hc e => hz (T.zwj c e ▸ hc)) h
  digits := fun w h => by
    have key : ∀ s t, Lowers cls s t → (∀ c ∈ s, IsDigit c) → t = s := by
      intro s t hl
      induction hl with
      | nil => intro _; rfl
      | cons c d ext _ _ _ digit _ ih =>
        intro h
        obtain ⟨rfl, rfl⟩ := digit (.inl (h c (by simp)))
        rw [ih (fun c hc => h c (by simp [hc]))]
        rfl
    exact key w _ (T.lowers w) h
  head := fun w h c hc hd => by
    have hl := T.lowers w
    revert hc
    generalize W.toLowercase w = t at hl
    intro hc
    cases hl with
    | nil => simp at hc
    | cons x d ext _ _ _ digit _ =>
      simp only [List.head?_cons, Option.mem_some, Option.some.injEq] at hc
      subst hc
      obtain ⟨rfl, _⟩ := digit (.inr hd)
      exact h d (by simp) hd

example := C124_lower Demo.uUax Demo.uLower

/-- the expectation that lowercasing keeps every word one word -/
def C124_lower_claim (W : World) : Prop :=
  ∀ w, W.splitWordBounds w = [w] → W.splitWordBounds (W.toLowercase w) = [W.toLowercase w]

/-- C124: that is false with a zero-width joiner: an emoji, a joiner and the pictograph Ⓜ are one word (rule WB3c), the
lowercase ⓜ is no pictograph and a word of its own. -/
theorem C124_lower_joiner_false : ∃ (W : World) (cls : Char → WBChar), Uax29 W cls ∧ LowerTable W cls ∧ ¬ C124_lower_claim W := by
  refine ⟨Demo.U, Demo.ucls, Demo.uUax, Demo.uLower, fun h => ?_⟩
  have := h ['😀', '\u200d', 'Ⓜ'] (by decide)
  revert this
  decide

/-- the expectation that an entry that is no single token is never found by a case-insensitive table, joiner or not -/
def C124_phrase_claim (W : World) : Prop :=
  ∀ (k : Ty W) (t : Str) (v : Val k) (s : Str) (l : LLLine W), ¬ SingleToken W (W.toLowercase t) →
    createLineFromString W s = .ok l → (TextMatchAssignResolver.newCaseInsensitive k [(t, [v])]).go (wholeLine l 0) = .ok []

/-- C124: so the joiner condition of C112 is needed: this entry is found in its own text. -/
theorem C124_phrase_joiner_false : ∃ (W : World) (cls : Char → WBChar), Uax29 W cls ∧ LowerTable W cls ∧ ¬ C124_phrase_claim W := by
  refine ⟨Demo.U, Demo.ucls, Demo.uUax, Demo.uLower, fun h => ?_⟩
  have ns : ¬ SingleToken Demo.U (Demo.U.toLowercase ['😀', '\u200d', 'Ⓜ']) := by
    rintro ⟨tag, e⟩
    have := congrArg List.length e
    revert this
    exact (show (textPieces Demo.U (Demo.U.toLowercase ['😀', '\u200d', 'Ⓜ'])).length ≠ 1 from by decide)
  obtain ⟨l, hl⟩ : ∃ l, createLineFromString Demo.U ['😀', '\u200d', 'Ⓜ'] = .ok l := ⟨_, rfl⟩
  have h1 := h (Ty.user (5 : Nat)) ['😀', '\u200d', 'Ⓜ'] (['x'] : Str) ['😀', '\u200d', 'Ⓜ'] l ns hl
  have h2 : (createLineFromString Demo.U ['😀', '\u200d', 'Ⓜ']).toOption.map (fun l =>
      ((TextMatchAssignResolver.newCaseInsensitive (W := Demo.U) (Ty.user (5 : Nat)) [(['😀', '\u200d', 'Ⓜ'], [(['x'] : Str)])]).go
        (wholeLine l 0)).toOption.map List.length) = some (some 1) := by rfl
  rw [hl] at h2
  simp only [Except.toOption, Option.map_some] at h2
  rw [h1] at h2
  cases h2

/-- C124: an ASCII digit at the start of the text or behind a space, a newline or a character of class Other, with a
letter, a combining mark or a joiner that is not ASCII directly behind it makes creation panic: "5м", "1" with a keycap. -/
theorem C124_digit_word_panics (U : Uax29 W cls) (hB : 0 < W.usizeBound) (pre : Str) (d x : Char) (post : Str)
    (hpre : ∀ c ∈ pre.getLast?, (cls c).cls = .wSegSpace ∨ (cls c).cls = .other ∨ (cls c).cls.isNewline = true)
    (hd : IsDigit d) (hx : (cls x).cls.wordy = true ∧ (cls x).cls ≠ .katakana ∨ (cls x).cls.ignored = true ∨ (cls x).cls = .extendNumLet)
    (hn : 128 ≤ x.toNat) : ∃ e, createLineFromString W (pre ++ d :: x :: post) = .error e := by
  have hdc := U.digit d hd
  obtain ⟨w, hw, h1, h2⟩ := uaxWords_begins (cls := cls) pre d x post
    (by
      cases hp : pre.reverse with
      | nil => exact .inl (by simpa using hp)
      | cons c p =>
        right
        have hc : pre.getLast? = some c := by rw [List.getLast?_eq_head?_reverse, hp]; rfl
        simp only [cjoins, List.map_cons, joins_eq, rules_eq, bases_cons, hdc]
        rcases hpre c hc with h | h | h
        · simp [wbPre, h, hdc, WB.isNewline, WB.ignored, wbNear, wbTriple, WB.ahLetter, WB.midL, WB.midN, WB.wordy]
        · simp [wbPre, h, hdc, WB.isNewline, WB.ignored, wbNear, wbTriple, WB.ahLetter, WB.midL, WB.midN, WB.wordy]
        · simp [wbPre, h, hdc])
    (by
      simp only [cjoins, List.map_cons, joins_eq, rules_eq, bases_cons, hdc]
      generalize hk : (cls x).cls = k at hx
      rcases hx with ⟨hx, hk'⟩ | hx | hx
      · cases k <;> simp [WB.wordy] at hx hk' <;>
          simp [wbPre, hdc, hk, WB.isNewline, WB.ignored, wbNear, WB.ahLetter]
      · cases k <;> simp [WB.ignored] at hx <;> simp [wbPre, hdc, hk, WB.isNewline, WB.ignored]
      · subst hx
        simp [wbPre, hdc, hk, WB.isNewline, WB.ignored, wbNear, WB.wordy])
  refine (C09_creation_panics_iff (C124_split_laws U) hB utf8Len [.Text (pre ++ d :: x :: post) []] (string_wf _)).2 (.inl ⟨_, List.mem_singleton.2 rfl, ?_⟩)
  exact ⟨_, _, rfl, .inr ⟨w, by rw [U.split]; exact hw, ⟨d, by rw [h1]; rfl, hd⟩, x, h2, hn⟩⟩

example := C124_digit_word_panics Demo.uUax (by decide) "item ".toList '5' 'é' " more".toList
  (by intro c h; obtain rfl : ' ' = c := by simpa using h
      exact .inl rfl) (by decide) (.inl (by decide)) (by decide)
example := C124_digit_word_panics Demo.uUax (by decide) [] '1' '\u0301' [] (by simp) (by decide) (.inr (.inl (by decide)))
  (by decide)

/-- C124: so with UAX #29 word boundaries, tokens are tokenised to themselves. -/
theorem C124_again (U : Uax29 W cls) {l : LLLine W} {h : History W} (hr : Reachable l h) (size : Str → Nat) :
    ∀ tok ∈ l.ll_tokens, ∀ s tag, tok.token = .Text s tag → size s < W.usizeBound →
    ∃ l', createLineFromInputTokens W [.Text s []] size = .ok l' ∧
      l'.ll_tokens = [⟨0, 0, size s, .Text s (tagOfText W s)⟩] :=
  C112_line (C124_split_laws U) (C124_split_stable U) hr size

example := C124_again Demo.demoUax Demo.exReach List.length

end LNlp
