import Verif.Lemmas.WrittenIn
import Verif.Props.Written
/- Property C127, second part: numbers in a text. -/
namespace LNlp
variable {W : World} {cls : Char → WBChar}

/-- C127: if a text is cut between two words, and the character before or behind the cut cannot belong to a number, the
amounts of the text are the amounts of the two parts. -/
theorem C127_side_by_side (L : SplitLaws W) (S : SplitStable W) (r : AmountResolver) {a b : Str}
    (cut : ∃ u v, W.splitWordBounds (a ++ b) = u ++ v ∧ u.flatten = a)
    (sep : (∃ c, a.getLast? = some c ∧ NoNumber r c) ∨ ∃ c, b.head? = some c ∧ NoNumber r c)
    (fits : utf8Len (a ++ b) < W.usizeBound) {na nb : Nat} {A B : List (LRange × Str × List W.Decimal)}
    (hA : AmountsIn W r a na A) (hB : AmountsIn W r b nb B) :
    AmountsIn W r (a ++ b) (na + nb) (A ++ B.map (shiftEntry na)) := by
  rcases hA with ⟨rfl, rfl, rfl⟩ | ⟨la, oka, rfl, hA⟩
  · have : B.map (shiftEntry 0) = B := by
      rw [show (shiftEntry (V := List W.Decimal) 0) = id from rfl, List.map_id]
    simpa [this] using hB
  rcases hB with ⟨rfl, rfl, rfl⟩ | ⟨lb, okb, rfl, hB⟩
  · right
    exact ⟨la, by simpa using oka, rfl, by simpa using hA⟩
  right
  have nea := text_ne oka
  have neb := text_ne okb
  have wf2 : ∀ t ∈ [InputToken.Text (W := W) a []] ++ [.Text b []], t.WF := by
    intro t ht
    rcases List.mem_append.1 ht with h | h
    · exact string_wf a t h
    · exact string_wf b t h
  obtain ⟨l, ok2⟩ := C78_concat_ok utf8Len [.Text a []] [.Text b []] la lb wf2 oka okb (by
    rw [List.flatMap_append, totalSize_append, List.flatMap_singleton, List.flatMap_singleton, totalSize_text L, totalSize_text L]
    have : utf8Len (a ++ b) = utf8Len a + utf8Len b := by simp [utf8Len]
    omega)
  have hane : a ≠ [] := by
    rintro rfl
    exact nea (List.length_eq_zero_iff.1 (by rw [text_length oka, textPieces, (split_nil_iff L []).2 rfl]; rfl))
  have hbne : b ≠ [] := by
    rintro rfl
    exact neb (List.length_eq_zero_iff.1 (by rw [text_length okb, textPieces, (split_nil_iff L []).2 rfl]; rfl))
  obtain ⟨u, v, hs, hu⟩ := cut
  have hv : v.flatten = b := by
    have := L.concat (a ++ b)
    rw [hs, List.flatten_append, hu] at this
    exact List.append_cancel_left this
  have ok : createLineFromString W (a ++ b) = .ok l := by
    have := C113_cut L S utf8Len [] [] (a ++ b) u v hs (by rintro rfl; exact hane hu.symm) (by rintro rfl; exact hbne hv.symm) l
    rw [hu, hv] at this
    exact this.1 ok2
  have ne := text_ne ok
  obtain ⟨as, ga, rfl⟩ := amountsOf_inv oka nea hA
  obtain ⟨bs, gb, rfl⟩ := amountsOf_inv okb neb hB
  have hjoin : r.go (wholeLine l 0) = joinAssigned la.ll_tokens.length (r.go (wholeLine la 0)) (r.go (wholeLine lb 0)) := by
    rcases sep with ⟨c, hc, hn⟩ | ⟨c, hc, hn⟩
    · exact C101_amounts_piecewise wf2 ok2 oka okb (by simp) (by simp) r (last_separator oka L hc hn) 0 0 0
    · refine C101_amounts_before wf2 ok2 oka okb (by simp) (by simp) r (first_separator okb L hc hn) ?_ 0 0 0
      have hr : Reachable lb _ := .create _ _ _ (string_wf b) okb
      rcases string_testable okb (creationHistory W utf8Len [.Text b []]) 0 (List.length_pos_iff.2 neb) with ⟨t, ht⟩ | h
      · exact text_attr hr ht
      · exact h
  rw [ga, gb] at hjoin
  have J := joined_create wf2 ok2 oka okb
  have Ap : Appended l la lb := by
    show _ = _
    obtain ⟨_, ht, _⟩ := create_inv wf2 ok2
    obtain ⟨_, hta, _⟩ := create_inv (string_wf a) oka
    obtain ⟨_, htb, _⟩ := create_inv (string_wf b) okb
    rw [ht, hta, htb, layoutM_tokens, layoutM_tokens, layoutM_tokens, List.flatMap_append, List.map_append]
  refine ⟨l, ok, J.len, ?_⟩
  rw [amountsOf_ok ok ne hjoin, List.map_append, List.map_map, List.map_map]
  have hra : Reachable la _ := .create _ _ _ (string_wf a) oka
  congr 2
  · refine List.map_congr_left fun x hx => ?_
    have := ((C65_disjoint r (s := wholeLine la 0) hra (wholeLine_inside nea 0) as ga).2 x hx).2.2
    rw [Ap.coveredL this]
  · refine List.map_congr_left fun x _ => ?_
    simp only [Function.comp, LLCursorAssignment.shift, shiftEntry]
    rw [Nat.add_comm x.start_idx, Nat.add_comm x.end_idx, Ap.coveredR]

/-- C127: a number in a text, with a blank, bracket, currency sign or other symbol before and behind it (or the end of
the text), is read as it is read alone, and so is what is before and behind it. -/
theorem C127_in_text (U : Uax29 W cls) (r : AmountResolver) {a m b : Str}
    (first : ∃ d, m.head? = some d ∧ IsDigit d) (last : ∃ d, m.getLast? = some d ∧ IsDigit d)
    (before : a ≠ [] → ∃ c, a.getLast? = some c ∧ EndsWords cls c ∧ NoNumber r c)
    (after : b ≠ [] → ∃ c, b.head? = some c ∧ EndsWords cls c ∧ NoNumber r c)
    (fits : utf8Len (a ++ (m ++ b)) < W.usizeBound) {na nm nb : Nat} {A M B : List (LRange × Str × List W.Decimal)}
    (hA : AmountsIn W r a na A) (hM : AmountsIn W r m nm M) (hB : AmountsIn W r b nb B) :
    AmountsIn W r (a ++ (m ++ b)) (na + (nm + nb)) (A ++ (M ++ B.map (shiftEntry nm)).map (shiftEntry na)) := by
  have hu : utf8Len (a ++ (m ++ b)) = utf8Len a + utf8Len (m ++ b) := by simp [utf8Len]
  have L := C124_split_laws U
  have S := C124_split_stable U
  have h1 : AmountsIn W r (m ++ b) (nm + nb) (M ++ B.map (shiftEntry nm)) := by
    by_cases hb : b = []
    · subst hb
      rcases hB with ⟨_, rfl, rfl⟩ | ⟨l, ok, _, _⟩
      · simpa using hM
      · exact absurd (List.length_eq_zero_iff.1 (by rw [text_length ok, textPieces, (split_nil_iff L []).2 rfl]; rfl)) (text_ne ok)
    · obtain ⟨d, hd, hdig⟩ := last
      obtain ⟨c, hc, he, hn⟩ := after hb
      obtain ⟨b', rfl⟩ := List.head?_eq_some_iff.1 hc
      refine C127_side_by_side L S r ((C124_boundaries U m (c :: b') (by rintro rfl; cases hd) hb).2
        (endsWords_after hd he (U.digit d hdig) b')) (.inr ⟨c, rfl, hn⟩) (by omega) hM hB
  by_cases ha : a = []
  · subst ha
    rcases hA with ⟨_, rfl, rfl⟩ | ⟨l, ok, _, _⟩
    · have : ∀ X : List (LRange × Str × List W.Decimal), X.map (shiftEntry 0) = X := fun X => by
        rw [show (shiftEntry (V := List W.Decimal) 0) = id from rfl, List.map_id]
      rw [this]
      simpa using h1
    · exact absurd (List.length_eq_zero_iff.1 (by rw [text_length ok, textPieces, (split_nil_iff L []).2 rfl]; rfl)) (text_ne ok)
  · obtain ⟨d, hd, hdig⟩ := first
    obtain ⟨c, hc, he, hn⟩ := before ha
    obtain ⟨m', rfl⟩ := List.head?_eq_some_iff.1 hd
    exact C127_side_by_side L S r ((C124_boundaries U a (d :: m' ++ b) ha (by simp)).2
      (endsWords_before hc he (U.digit d hdig) (m' ++ b))) (.inl ⟨c, hc, hn⟩) fits hA h1

theorem written_last {g : Str} {rest : List (Char × Str)} (hg : Digits g) (hr : ∀ p ∈ rest, Digits p.2) :
    ∃ d, (written g rest).getLast? = some d ∧ IsDigit d := by
  rcases List.eq_nil_or_concat rest with rfl | ⟨rest, p, rfl⟩
  · refine ⟨g.getLast hg.1, ?_, hg.2 _ (List.getLast_mem _)⟩
    rw [written, List.flatMap_nil, List.append_nil, List.getLast?_eq_some_getLast hg.1]
  · have hp := hr p (by simp)
    refine ⟨p.2.getLast hp.1, ?_, hp.2 _ (List.getLast_mem _)⟩
    have : written g (rest.concat p) = (written g rest ++ [p.1]) ++ p.2 := by simp [written]
    rw [this, List.getLast?_append, List.getLast?_eq_some_getLast hp.1]
    rfl

/-- C127: so a number below 10^28, written with delimiters, is found in every text where such characters are around it:
as one amount, with its text and its value, after the amounts before it and before the amounts behind it. -/
theorem C127_number_in_text (U : Uax29 W cls) (T : NumTable W cls) (hB : 2 ^ 16 ≤ W.usizeBound) {make : Nat → Nat → W.Decimal}
    (D : DecLaws W make) (r : AmountResolver) {sep : Char} (hs : sep ∈ [',', '.', '\'', ' ']) (hd : sep ∈ r.delimiters) (n : Nat)
    (hn : n < 10 ^ 28) {a b : Str}
    (before : a ≠ [] → ∃ c, a.getLast? = some c ∧ EndsWords cls c ∧ NoNumber r c)
    (after : b ≠ [] → ∃ c, b.head? = some c ∧ EndsWords cls c ∧ NoNumber r c)
    (fits : utf8Len (a ++ (thousands sep n ++ b)) < W.usizeBound) {na nb : Nat} {A B : List (LRange × Str × List W.Decimal)}
    (hA : AmountsIn W r a na A) (hBs : AmountsIn W r b nb B) :
    ∃ k, AmountsIn W r (a ++ (thousands sep n ++ b)) (na + (k + 1 + nb))
      (A ++ ((na, na + k), thousands sep n, [make n 0]) :: B.map (shiftEntry (na + (k + 1)))) := by
  obtain ⟨g, rest, e, hg, hr, hdi, _⟩ := thousands_written sep n
  have hdig : ∀ p ∈ rest, Digits p.2 := fun p hp => (hr p hp).2.1
  have hl : (digitsIn g rest).length ≤ 28 := by rw [hdi]; exact numeral_length n 27 hn
  have hw := C127_whole U T hB D r hg (rest := rest) (fun p hp => by rw [(hr p hp).1]; exact ⟨hs, hd, (hr p hp).2.1⟩) hl
  rw [hdi, numeral_val] at hw
  have hr' : ∀ p ∈ rest, SepOk W cls p.1 ∧ Digits p.2 := fun p hp => ⟨T.sep (by rw [(hr p hp).1]; exact hs), (hr p hp).2.1⟩
  have hlen := written_length hg hdig
  obtain ⟨l, ok⟩ := written_creates U hg hr' (by omega)
  have hM : AmountsIn W r (written g rest) (2 * rest.length + 1) _ := .inr ⟨l, ok, (written_reads U hg hr' ok).2, hw⟩
  have first : ∃ d, (written g rest).head? = some d ∧ IsDigit d := by
    obtain ⟨x, g', rfl⟩ := List.exists_cons_of_ne_nil hg.1
    exact ⟨x, rfl, hg.2 x (.head _)⟩
  rw [e] at fits ⊢
  have := C127_in_text U r first (written_last hg hdig) before after fits hA hM hBs
  refine ⟨2 * rest.length, ?_⟩
  have hsh : B.map (shiftEntry (na + (2 * rest.length + 1))) = (B.map (shiftEntry (2 * rest.length + 1))).map (shiftEntry na) := by
    rw [List.map_map]
    refine List.map_congr_left fun x _ => ?_
    simp only [shiftEntry, Function.comp]
    congr 2 <;> omega
  rw [hsh]
  simpa [shiftEntry, Nat.add_comm] using this

/-- `Pay $1,234,567 (net) ` then nothing: the number is found between a currency sign and a blank -/
example := C127_number_in_text Demo.nUax Demo.nTable (by decide) Demo.nDec .english (sep := ',') (by decide) (by decide) 1234567 (by decide)
  (a := ['P', 'a', 'y', ' ', '$']) (b := [' ', '(', 'n', 'e', 't', ')'])
  (fun _ => ⟨'$', rfl, .inr rfl, by simp [NoNumber, AmountResolver.english]; decide⟩)
  (fun _ => ⟨' ', rfl, .inl rfl, by simp [NoNumber, AmountResolver.english]; decide⟩)
  (by simp [thousands, numeral, digitChar]; decide) (.inr ⟨_, rfl, rfl, rfl⟩) (.inr ⟨_, rfl, rfl, rfl⟩)

end LNlp
