import Verif.Lemmas.Written
import Verif.Spec.WrittenIn
import Verif.Demo.Written
/- Property C127: numbers as people write them are read with their value. -/
namespace LNlp
variable {W : World} {cls : Char → WBChar}

theorem NumTable.sep (T : NumTable W cls) {c : Char} (h : c ∈ [',', '.', '\'', ' ']) : SepOk W cls c := by
  have ha := T.alpha c h
  simp only [List.mem_cons, List.not_mem_nil, or_false] at h
  rcases h with rfl | rfl | rfl | rfl
  · exact ⟨by decide, by decide, ha, .inl (by rw [T.comma]; rfl)⟩
  · exact ⟨by decide, by decide, ha, .inl (by rw [T.point]; rfl)⟩
  · exact ⟨by decide, by decide, ha, .inl (by rw [T.apostrophe]; rfl)⟩
  · exact ⟨by decide, by decide, ha, .inr (.inl T.blank)⟩

/-- C127: digit groups with commas, points, apostrophes or blanks between them are tokenised into the groups and the
signs. -/
theorem C127_tokens (U : Uax29 W cls) (T : NumTable W cls) {g : Str} {rest : List (Char × Str)} (hg : Digits g)
    (hr : ∀ p ∈ rest, p.1 ∈ [',', '.', '\'', ' '] ∧ Digits p.2) (fits : (written g rest).length < W.usizeBound) :
    ∃ l, createLineFromString W (written g rest) = .ok l ∧
      l.ll_tokens.map (·.token.str) = g :: rest.flatMap (fun p => [[p.1], p.2]) := by
  have hr' : ∀ p ∈ rest, SepOk W cls p.1 ∧ Digits p.2 := fun p hp => ⟨T.sep (hr p hp).1, (hr p hp).2⟩
  obtain ⟨l, ok⟩ := written_creates U hg hr' fits
  refine ⟨l, ok, ?_⟩
  obtain ⟨_, htoks, _⟩ := create_inv (string_wf _) ok
  have hm : l.ll_tokens.map (·.token) = (textPieces W (written g rest)).map (fun p => .Text p.1 p.2) := by
    rw [htoks, layoutM_tokens]; simp [tokensOf]
  have : l.ll_tokens.map (·.token.str) = (l.ll_tokens.map (·.token)).map LToken.str := by simp
  rw [this, hm, List.map_map]
  exact written_pieces U hg hr'

example := C127_tokens Demo.nUax Demo.nTable (g := ['1']) (rest := [(',', ['2','3','4']), (' ', ['5']), ('.', ['6','7'])])
  ⟨by decide, by decide⟩ (by simp [Digits]; decide) (by decide)

section
variable (U : Uax29 W cls) (T : NumTable W cls) (hB : 2 ^ 16 ≤ W.usizeBound) {make : Nat → Nat → W.Decimal} (D : DecLaws W make)
  (r : AmountResolver) {g : Str} {rest : List (Char × Str)} (hg : Digits g)
include U T hB D hg

/-- C127: a text of digit groups with delimiters between them is one amount over the whole text, whose value is the
number with all these digits; where the delimiters stand makes no difference. -/
theorem C127_whole (hr : ∀ p ∈ rest, p.1 ∈ [',', '.', '\'', ' '] ∧ p.1 ∈ r.delimiters ∧ Digits p.2)
    (hl : (digitsIn g rest).length ≤ 28) : amountsOf W r (written g rest) =
      .ok [((0, 2 * rest.length), written g rest, [make (digitsVal (digitsIn g rest)) 0])] := by
  have hr' : ∀ p ∈ rest, SepOk W cls p.1 ∧ Digits p.2 := fun p hp => ⟨T.sep (hr p hp).1, (hr p hp).2.2⟩
  have hdig : ∀ p ∈ rest, Digits p.2 := fun p hp => (hr p hp).2.2
  have hlen := written_length hg hdig
  obtain ⟨l, ok⟩ := written_creates U hg hr' (by omega)
  obtain ⟨hrd, hn⟩ := written_reads U hg hr' ok
  have hre : Reachable l _ := .create _ _ _ (string_wf _) ok
  have hpt := creation_plainTags (string_wf _) ok (string_noCustom _ _)
  have hpc := creation_plainChars (string_wf _) ok (string_noCustom _ _)
  have hv := D.whole (digitsIn g rest) (digitsIn_digits hg hdig) hl
  rw [← digitsIn_eq] at hv
  have hgo := C67_grouped (r := r) hre hpt hpc 0 hrd
    (by intro c hc; obtain ⟨p, hp, rfl⟩ := List.mem_map.1 hc; exact (hr p hp).2.1) (by simpa using hn) hv
  have hne : l.ll_tokens ≠ [] := by
    intro e; rw [e] at hn; simp at hn
  obtain ⟨l', hrun, hq, _⟩ := C96_amounts_of_text ok hne r 0 _ ((C67_amounts r (s := wholeLine l 0) hre (wholeLine_inside hne 0) _).1 hgo)
  simp only [amountsOf, ok, hrun, hq, List.map_cons, List.map_nil]
  rw [covered_whole (C124_split_laws U) ok (by simp [hn]), digitsIn_eq, List.length_map]
  rfl

/-- C127: with the decimal sign and more digits at the end the value is the number with that many places. -/
theorem C127_fraction (hr : ∀ p ∈ rest, p.1 ∈ [',', '.', '\'', ' '] ∧ p.1 ∈ r.delimiters ∧ Digits p.2)
    (hdec : r.decimal ∈ [',', '.', '\'', ' ']) (hnd : r.decimal ∉ r.delimiters) {f : Str} (hf : Digits f)
    (hl : (digitsIn g rest ++ f).length ≤ 28) : amountsOf W r (written g rest ++ r.decimal :: f) =
      .ok [((0, 2 * rest.length + 2), written g rest ++ r.decimal :: f,
        [make (digitsVal (digitsIn g rest ++ f)) f.length])] := by
  have hw : written g rest ++ r.decimal :: f = written g (rest ++ [(r.decimal, f)]) := by simp [written]
  have hr' : ∀ p ∈ rest ++ [(r.decimal, f)], SepOk W cls p.1 ∧ Digits p.2 := by
    intro p hp
    rcases List.mem_append.1 hp with hp | hp
    · exact ⟨T.sep (hr p hp).1, (hr p hp).2.2⟩
    · rw [List.mem_singleton.1 hp]; exact ⟨T.sep hdec, hf⟩
  have hdig : ∀ p ∈ rest, Digits p.2 := fun p hp => (hr p hp).2.2
  have hlen := written_length hg (fun p hp => (hr' p hp).2)
  have hd2 : digitsIn g (rest ++ [(r.decimal, f)]) = digitsIn g rest ++ f := by simp [digitsIn]
  rw [hd2] at hlen
  rw [hw]
  obtain ⟨l, ok⟩ := written_creates U hg hr' (by omega)
  obtain ⟨hrd, hn⟩ := written_reads U hg hr' ok
  have hre : Reachable l _ := .create _ _ _ (string_wf _) ok
  have hpt := creation_plainTags (string_wf _) ok (string_noCustom _ _)
  have hpc := creation_plainChars (string_wf _) ok (string_noCustom _ _)
  have hv := D.fraction (digitsIn g rest) f (digitsIn_digits hg hdig) hf hl
  rw [← digitsIn_eq] at hv
  have hrd' : Reads l 0 (g :: rest.map (·.2)) (rest.map (·.1)) := by
    refine ⟨by simp, fun k hk => ?_, fun k hk => ?_⟩
    · have := hrd.2.1 k (by simp at hk ⊢; omega)
      have e : (g :: (rest ++ [(r.decimal, f)]).map (·.2))[k]'(by simp at hk ⊢; omega) = (g :: rest.map (·.2))[k] := by
        simp only [List.map_append, ← List.cons_append]
        rw [List.getElem_append_left hk]
      rw [e] at this
      exact this
    · have := hrd.2.2 k (by simp at hk ⊢; omega)
      have e : ((rest ++ [(r.decimal, f)]).map (·.1))[k]'(by simp at hk ⊢; omega) = (rest.map (·.1))[k] := by
        simp only [List.map_append]
        rw [List.getElem_append_left hk]
      rw [e] at this
      exact this
  have h1 : textAt l (2 * (rest.map (·.1)).length + 1) = some [r.decimal] := by
    have := hrd.2.2 rest.length (by simp)
    simpa using this
  have h2 : textAt l (2 * (rest.map (·.1)).length + 2) = some f := by
    have := (hrd.2.1 (rest.length + 1) (by simp)).1
    have e : 0 + 2 * (rest.length + 1) = 2 * (rest.map (·.1)).length + 2 := by rw [List.length_map]; omega
    rw [e] at this
    simpa using this
  have hgo := C67_fraction (r := r) hre hpt hpc 0 hrd'
    (by intro c hc; obtain ⟨p, hp, rfl⟩ := List.mem_map.1 hc; exact (hr p hp).2.1) hnd h1 h2 hf.1 hf.2
    (by rw [hn]; simp; omega) hv
  have hne : l.ll_tokens ≠ [] := by
    intro e; rw [e] at hn; simp at hn
  obtain ⟨l', hrun, hq, _⟩ := C96_amounts_of_text ok hne r 0 _ ((C67_amounts r (s := wholeLine l 0) hre (wholeLine_inside hne 0) _).1 hgo)
  simp only [amountsOf, ok, hrun, hq, List.map_cons, List.map_nil]
  rw [covered_whole (C124_split_laws U) ok (by rw [hn]; simp; omega), digitsIn_eq, List.length_map]
  rfl

end

example := C127_whole Demo.nUax Demo.nTable (by decide) Demo.nDec .english (g := ['1']) (rest := [(',', ['2','3','4']), ('\'', ['5'])])
  ⟨by decide, by decide⟩ (by simp [Digits]; decide) (by decide)
example := C127_fraction Demo.nUax Demo.nTable (by decide) Demo.nDec .english (g := ['1']) (rest := [(',', ['2','3','4'])]) (f := ['5','0'])
  ⟨by decide, by decide⟩ (by simp [Digits]; decide) (by decide) (by decide) ⟨by decide, by decide⟩ (by decide)

section
variable (U : Uax29 W cls) (T : NumTable W cls) (hB : 2 ^ 16 ≤ W.usizeBound) {make : Nat → Nat → W.Decimal} (D : DecLaws W make)
include U T hB D

/-- C127: every number below 10^28, written with a delimiter before every three digits, is read as that number. -/
theorem C127_thousands (r : AmountResolver) {sep : Char} (hs : sep ∈ [',', '.', '\'', ' ']) (hd : sep ∈ r.delimiters) (n : Nat)
    (hn : n < 10 ^ 28) : ∃ b, amountsOf W r (thousands sep n) = .ok [((0, b), thousands sep n, [make n 0])] := by
  obtain ⟨g, rest, e, hg, hr, hdi, _⟩ := thousands_written sep n
  have hl : (digitsIn g rest).length ≤ 28 := by rw [hdi]; exact numeral_length n 27 hn
  have := C127_whole U T hB D r hg (rest := rest) (fun p hp => by rw [(hr p hp).1]; exact ⟨hs, hd, (hr p hp).2.1⟩) hl
  rw [hdi, numeral_val] at this
  rw [e]
  exact ⟨_, this⟩

/-- C127: … and with the decimal sign and two places it is read as that number of hundredths. -/
theorem C127_cents (r : AmountResolver) {sep : Char} (hs : sep ∈ [',', '.', '\'', ' ']) (hd : sep ∈ r.delimiters)
    (hdec : r.decimal ∈ [',', '.', '\'', ' ']) (hnd : r.decimal ∉ r.delimiters) (n : Nat) (hn : n < 10 ^ 26) {x y : Nat} (hx : x < 10)
    (hy : y < 10) : ∃ b, amountsOf W r (thousands sep n ++ r.decimal :: [digitChar x, digitChar y]) =
      .ok [((0, b), thousands sep n ++ r.decimal :: [digitChar x, digitChar y], [make (100 * n + 10 * x + y) 2])] := by
  obtain ⟨g, rest, e, hg, hr, hdi, _⟩ := thousands_written sep n
  have hl : (digitsIn g rest ++ [digitChar x, digitChar y]).length ≤ 28 := by
    have := numeral_length n 25 hn
    rw [hdi, List.length_append]; simp; omega
  have hf : Digits [digitChar x, digitChar y] := by
    refine ⟨by simp, fun c hc => ?_⟩
    simp only [List.mem_cons, List.not_mem_nil, or_false] at hc
    rcases hc with rfl | rfl
    · exact (digitChar_toNat hx).2
    · exact (digitChar_toNat hy).2
  have := C127_fraction U T hB D r hg (rest := rest) (fun p hp => by rw [(hr p hp).1]; exact ⟨hs, hd, (hr p hp).2.1⟩) hdec hnd hf hl
  have hv : digitsVal (digitsIn g rest ++ [digitChar x, digitChar y]) = 100 * n + 10 * x + y := by
    rw [show digitsIn g rest ++ [digitChar x, digitChar y] = (digitsIn g rest ++ [digitChar x]) ++ [digitChar y] by simp,
      digitsVal_append, digitsVal_append, hdi, numeral_val, (digitChar_toNat hx).1, (digitChar_toNat hy).1]
    omega
  rw [hv] at this
  rw [e]
  exact ⟨_, this⟩

/-- C127: so two numbers are never mixed up, even with different delimiters. -/
theorem C127_different (r : AmountResolver) {sep sep' : Char} (hs : sep ∈ [',', '.', '\'', ' ']) (hd : sep ∈ r.delimiters)
    (hs' : sep' ∈ [',', '.', '\'', ' ']) (hd' : sep' ∈ r.delimiters) {n n' : Nat} (hn : n < 10 ^ 28) (hn' : n' < 10 ^ 28)
    {res res' : List (LRange × Str × List W.Decimal)} (h : amountsOf W r (thousands sep n) = .ok res)
    (h' : amountsOf W r (thousands sep' n') = .ok res') (e : res.map (·.2.2) = res'.map (·.2.2)) : n = n' := by
  obtain ⟨b, hb⟩ := C127_thousands U T hB D r hs hd n hn
  obtain ⟨b', hb'⟩ := C127_thousands U T hB D r hs' hd' n' hn'
  rw [hb] at h
  rw [hb'] at h'
  cases h
  cases h'
  simp only [List.map_cons, List.map_nil, List.cons.injEq, and_true] at e
  exact (D.different _ _ _ _ e).1

/-- C127: the french configuration takes the decimal point for a delimiter, so it reads n.xy as 100 n + xy. -/
theorem C127_french_point (n : Nat) (hn : n < 10 ^ 26) {x y : Nat} (hx : x < 10) (hy : y < 10) :
    ∃ b, amountsOf W .french (thousands ' ' n ++ '.' :: [digitChar x, digitChar y]) =
      .ok [((0, b), thousands ' ' n ++ '.' :: [digitChar x, digitChar y], [make (100 * n + 10 * x + y) 0])] := by
  obtain ⟨g, rest, e, hg, hr, hdi, _⟩ := thousands_written ' ' n
  have hf : Digits [digitChar x, digitChar y] := by
    refine ⟨by simp, fun c hc => ?_⟩
    simp only [List.mem_cons, List.not_mem_nil, or_false] at hc
    rcases hc with rfl | rfl
    · exact (digitChar_toNat hx).2
    · exact (digitChar_toNat hy).2
  have hd2 : digitsIn g (rest ++ [('.', [digitChar x, digitChar y])]) = numeral n ++ [digitChar x, digitChar y] := by
    rw [← hdi]; simp [digitsIn]
  have hl : (digitsIn g (rest ++ [('.', [digitChar x, digitChar y])])).length ≤ 28 := by
    have := numeral_length n 25 hn
    rw [hd2, List.length_append]; simp; omega
  have := C127_whole U T hB D .french hg (rest := rest ++ [('.', [digitChar x, digitChar y])]) (by
    intro p hp
    rcases List.mem_append.1 hp with hp | hp
    · rw [(hr p hp).1]; exact ⟨by simp, by simp [AmountResolver.french], (hr p hp).2.1⟩
    · rw [List.mem_singleton.1 hp]; exact ⟨by simp, by simp [AmountResolver.french], hf⟩) hl
  have hw : written g (rest ++ [('.', [digitChar x, digitChar y])]) = thousands ' ' n ++ '.' :: [digitChar x, digitChar y] := by
    rw [e]; simp [written]
  have hv : digitsVal (numeral n ++ [digitChar x, digitChar y]) = 100 * n + 10 * x + y := by
    rw [show numeral n ++ [digitChar x, digitChar y] = (numeral n ++ [digitChar x]) ++ [digitChar y] by simp,
      digitsVal_append, digitsVal_append, numeral_val, (digitChar_toNat hx).1, (digitChar_toNat hy).1]
    omega
  rw [hd2, hv, hw] at this
  exact ⟨_, this⟩

end

example := C127_thousands Demo.nUax Demo.nTable (by decide) Demo.nDec .english (sep := ',') (by decide) (by decide) 1234567 (by decide)
/-- what that text is -/
example : thousands ',' 1234567 = "1,234,567".toList := by simp [thousands, numeral, digitChar]
example := C127_cents Demo.nUax Demo.nTable (by decide) Demo.nDec .english (sep := ',') (by decide) (by decide) (by decide) (by decide)
  1234567 (by decide) (x := 8) (y := 9) (by decide) (by decide)
example := C127_different Demo.nUax Demo.nTable (by decide) Demo.nDec .english (sep := ',') (sep' := '\'') (by decide) (by decide)
  (by decide) (by decide) (n := 1234567) (n' := 1234567) (by decide) (by decide)
  (C127_thousands Demo.nUax Demo.nTable (by decide) Demo.nDec .english (sep := ',') (by decide) (by decide) 1234567 (by decide)).choose_spec
  (C127_thousands Demo.nUax Demo.nTable (by decide) Demo.nDec .english (sep := '\'') (by decide) (by decide) 1234567 (by decide)).choose_spec rfl
example := C127_french_point Demo.nUax Demo.nTable (by decide) Demo.nDec 12 (by decide) (x := 5) (y := 0) (by decide) (by decide)

end LNlp
