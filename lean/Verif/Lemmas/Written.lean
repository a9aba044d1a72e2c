import Verif.Spec.Written
import Verif.Props.Uax29
import Verif.Lemmas.TokenProps
import Verif.Props.Amount
import Verif.Props.EndToEnd
/- Helper lemmas about written numbers. -/
namespace LNlp
variable {W : World} {cls : Char → WBChar}

/-! ### cutting into runs is unique -/

theorem digit_prefix : ∀ {a b a' b' : Str}, a ++ b = a' ++ b' → (∀ c ∈ a, IsDigit c) → (∀ c ∈ a', IsDigit c) →
    (∀ c ∈ b.head?, ¬ IsDigit c) → (∀ c ∈ b'.head?, ¬ IsDigit c) → a = a' ∧ b = b'
  | [], b, [], b', h, _, _, _, _ => ⟨rfl, h⟩
  | [], b, x :: a', b', h, _, h2, h3, _ => by
    simp only [List.nil_append, List.cons_append] at h
    exact absurd (h2 x (.head _)) (h3 x (by rw [h]; rfl))
  | x :: a, b, [], b', h, h1, _, _, h4 => by
    simp only [List.nil_append, List.cons_append] at h
    exact absurd (h1 x (.head _)) (h4 x (by rw [← h]; rfl))
  | x :: a, b, y :: a', b', h, h1, h2, h3, h4 => by
    simp only [List.cons_append, List.cons.injEq] at h
    obtain ⟨rfl, h⟩ := h
    obtain ⟨rfl, rfl⟩ := digit_prefix h (fun c hc => h1 c (.tail _ hc)) (fun c hc => h2 c (.tail _ hc)) h3 h4
    exact ⟨rfl, rfl⟩

/-- the pieces of a written number -/
def pieceTexts (g : Str) (rest : List (Char × Str)) : List Str := g :: rest.flatMap (fun p => [[p.1], p.2])

theorem pieces_unique : ∀ {rest : List (Char × Str)} {g : Str} {T : List Str}, Digits g →
    (∀ p ∈ rest, ¬ IsDigit p.1 ∧ Digits p.2) → T.flatten = written g rest →
    (∀ t ∈ T, Digits t ∨ ∃ c, t = [c] ∧ ¬ IsDigit c) →
    (∀ u v p q, T = u ++ p :: q :: v → ¬ (Digits p ∧ Digits q)) → T = pieceTexts g rest
  | rest, g, [], hg, _, hf, _, _ => by
    simp only [List.flatten_nil, written] at hf
    exact absurd (List.append_eq_nil_iff.1 hf.symm).1 hg.1
  | rest, g, t :: T, hg, hr, hf, ht, ha => by
    have hfr : ∀ c ∈ (rest.flatMap (fun p => p.1 :: p.2)).head?, ¬ IsDigit c := by
      cases rest with
      | nil => simp
      | cons p rest =>
        simp only [List.flatMap_cons, List.cons_append, List.head?_cons, Option.mem_some_iff, forall_eq']
        exact (hr p (.head _)).1
    have htd : Digits t := by
      rcases ht t (.head _) with h | ⟨c, rfl, hc⟩
      · exact h
      · obtain ⟨x, g', rfl⟩ := List.exists_cons_of_ne_nil hg.1
        simp only [written, List.flatten_cons, List.cons_append, List.cons.injEq] at hf
        exact absurd (hf.1 ▸ hg.2 x (.head _)) hc
    have hT : ∀ c ∈ T.flatten.head?, ¬ IsDigit c := by
      cases T with
      | nil => simp
      | cons q T =>
        rcases ht q (.tail _ (.head _)) with h | ⟨c, rfl, hc⟩
        · exact absurd ⟨htd, h⟩ (ha [] T t q rfl)
        · simpa using hc
    rw [List.flatten_cons, written] at hf
    obtain ⟨rfl, hf2⟩ := digit_prefix hf htd.2 hg.2 hT hfr
    clear hf
    cases rest with
    | nil =>
      cases T with
      | nil => rfl
      | cons q T =>
        exfalso
        simp only [List.flatten_cons, List.flatMap_nil] at hf2
        have := (List.append_eq_nil_iff.1 hf2).1
        rcases ht q (.tail _ (.head _)) with h | ⟨c, rfl, hc⟩
        · exact h.1 this
        · cases this
    | cons p rest =>
      cases T with
      | nil => simp at hf2
      | cons q T =>
        rcases ht q (.tail _ (.head _)) with h | ⟨c, rfl, hc⟩
        · exact absurd ⟨htd, h⟩ (ha [] T t q rfl)
        simp only [List.flatten_cons, List.flatMap_cons, List.cons_append, List.nil_append, List.cons.injEq] at hf2
        obtain ⟨rfl, hf3⟩ := hf2
        have ih := pieces_unique (rest := rest) (g := p.2) (T := T) (hr p (.head _)).2 (fun x hx => hr x (.tail _ hx)) hf3
          (fun x hx => ht x (.tail _ (.tail _ hx)))
          (fun u v x y e => ha (t :: [p.1] :: u) v x y (by rw [e]; rfl))
        rw [ih]
        simp [pieceTexts]

/-! ### words -/

/-- a sign that may stand in a number -/
structure SepOk (W : World) (cls : Char → WBChar) (c : Char) : Prop where
  digit : ¬ IsDigit c
  ascii : c.toNat < 128
  alpha : W.isAlphabetic c = false
  cls : (cls c).cls.midN = true ∨ (cls c).cls = .wSegSpace ∨ (cls c).cls = .other

theorem cjoins_sep {c d x : Char} (hc : (cls c).cls.midN = true ∨ (cls c).cls = .wSegSpace ∨ (cls c).cls = .other)
    (hd : (cls d).cls = .numeric) (hx : (cls x).cls = .numeric) {b a : Str}
    (h : cjoins cls (c :: d :: b) (x :: a) = true) : cjoins cls (d :: b) (c :: x :: a) = true := by
  simp only [cjoins, List.map_cons, joins_eq, bases_cons, hd, hx] at h ⊢
  have n1 : wbPre (cls c) (cls x) = none := by
    simp only [wbPre, hx]
    rcases hc with hc | hc | hc
    · cases hcc : (cls c).cls <;> rw [hcc] at hc <;> first | (cases hc; done) | simp [WB.isNewline, WB.ignored]
    · simp [hc, WB.isNewline, WB.ignored]
    · simp [hc, WB.isNewline, WB.ignored]
  have n2 : wbPre (cls d) (cls c) = none := by
    simp only [wbPre, hd]
    rcases hc with hc | hc | hc
    · cases hcc : (cls c).cls <;> rw [hcc] at hc <;> first | (cases hc; done) | simp [WB.isNewline, WB.ignored]
    · simp [hc, WB.isNewline, WB.ignored]
    · simp [hc, WB.isNewline, WB.ignored]
  rw [n1] at h
  rw [n2]
  rcases hc with hc | hc | hc
  · cases hcc : (cls c).cls <;> rw [hcc] at hc <;> first | (cases hc; done) | simp [WB.ignored, wbRules, WB.midN]
  · simp [hc, WB.ignored, wbRules, WB.ahLetter, WB.midN, WB.midL, WB.wordy] at h
  · simp [hc, WB.ignored, wbRules, WB.ahLetter, WB.midN, WB.midL, WB.wordy] at h

/-- in a written number every sign has a digit before and behind it -/
theorem written_around {Sep : Char → Prop} : ∀ {rest : List (Char × Str)} {g : Str}, Digits g →
    (∀ p ∈ rest, ¬ IsDigit p.1 ∧ Sep p.1 ∧ Digits p.2) → ∀ {a b : Str} {c : Char}, written g rest = a ++ c :: b → ¬ IsDigit c →
    Sep c ∧ (∃ d a', a = a' ++ [d] ∧ IsDigit d) ∧ ∃ x b', b = x :: b' ∧ IsDigit x := by
  intro rest
  induction rest with
  | nil =>
    intro g hg _ a b c e hc
    simp only [written, List.flatMap_nil, List.append_nil] at e
    exact absurd (hg.2 c (by rw [e]; simp)) hc
  | cons p rest ih =>
    intro g hg hr a b c e hc
    obtain ⟨p1, p2, p3⟩ := hr p (.head _)
    have e' : g ++ p.1 :: written p.2 rest = a ++ c :: b := by simpa [written] using e
    rcases List.append_eq_append_iff.1 e' with ⟨u, h1, h2⟩ | ⟨u, h1, h2⟩
    · cases u with
      | nil =>
        simp only [List.nil_append, List.cons.injEq] at h2
        obtain ⟨rfl, h2⟩ := h2
        refine ⟨p2, ⟨g.getLast hg.1, g.dropLast, ?_, hg.2 _ (List.getLast_mem _)⟩, ?_⟩
        · rw [List.dropLast_concat_getLast]; simpa using h1
        · obtain ⟨x, g2, hg2⟩ := List.exists_cons_of_ne_nil p3.1
          refine ⟨x, g2 ++ rest.flatMap (fun p => p.1 :: p.2), ?_, p3.2 x (by rw [hg2]; exact .head _)⟩
          rw [← h2, written, hg2]; rfl
      | cons y u =>
        simp only [List.cons_append, List.cons.injEq] at h2
        obtain ⟨rfl, h2⟩ := h2
        obtain ⟨s1, ⟨d, a', ha, hd⟩, s3⟩ := ih p3 (fun x hx => hr x (.tail _ hx)) h2 hc
        refine ⟨s1, ⟨d, g ++ p.1 :: a', ?_, hd⟩, s3⟩
        rw [h1, ha]; simp
    · cases u with
      | nil =>
        simp only [List.nil_append, List.append_nil, List.cons.injEq] at h1 h2
        obtain ⟨rfl, h2⟩ := h2
        refine ⟨p2, ⟨g.getLast hg.1, g.dropLast, ?_, hg.2 _ (List.getLast_mem _)⟩, ?_⟩
        · rw [List.dropLast_concat_getLast]; exact h1.symm
        · obtain ⟨x, g2, hg2⟩ := List.exists_cons_of_ne_nil p3.1
          refine ⟨x, g2 ++ rest.flatMap (fun p => p.1 :: p.2), ?_, p3.2 x (by rw [hg2]; exact .head _)⟩
          rw [h2, written, hg2]; rfl
      | cons y u =>
        simp only [List.cons_append, List.cons.injEq] at h2
        exact absurd (hg.2 c (by rw [h1, h2.1]; simp)) hc

section
variable (U : Uax29 W cls) {g : Str} {rest : List (Char × Str)} (hg : Digits g)
  (hr : ∀ p ∈ rest, SepOk W cls p.1 ∧ Digits p.2)
include U hg hr

theorem written_word : ∀ w ∈ W.splitWordBounds (written g rest),
    (∃ c ∈ w.head?, IsDigit c) ∨ ∃ c, w = [c] ∧ ¬ IsDigit c := by
  intro w hw
  rw [U.split] at hw
  obtain ⟨pre, post, e⟩ := List.append_of_mem hw
  have hgood := uaxWords_good cls (written g rest)
  rw [e] at hgood
  have hm := good_mid cls pre [] (w :: post) hgood
  have hs : written g rest = pre.flatten ++ (w ++ post.flatten) := by
    rw [← uaxWords_flatten cls (written g rest), e]; simp
  cases w with
  | nil => exact absurd rfl hm.1
  | cons c w =>
    by_cases hc : IsDigit c
    · exact .inl ⟨c, rfl, hc⟩
    · right
      cases w with
      | nil => exact ⟨c, rfl, hc⟩
      | cons x w =>
        exfalso
        obtain ⟨sc, ⟨d, a', ha, hd⟩, ⟨x', b', hb, hx⟩⟩ := written_around (Sep := SepOk W cls) hg
          (fun p hp => ⟨(hr p hp).1.digit, (hr p hp).1, (hr p hp).2⟩) (a := pre.flatten) (b := x :: (w ++ post.flatten)) (c := c)
          (by rw [hs]; simp) hc
        obtain ⟨rfl, _⟩ := List.cons.inj hb
        have h1 := hm.2.1 [c] (x :: w) rfl (by simp) (by simp)
        have h2 := hm.2.2.1 (by rw [ha]; simp)
        rw [ha] at h1 h2
        simp only [List.reverse_append, List.reverse_cons, List.reverse_nil, List.nil_append, List.append_nil, List.cons_append] at h1 h2
        have := cjoins_sep sc.cls (U.digit d hd) (U.digit x hx) h1
        rw [h2] at this
        cases this

omit U in
theorem written_char {c : Char} (hc : c ∈ written g rest) : c.toNat < 128 ∧ (IsDigit c ∨ W.isAlphabetic c = false) := by
  have digit : ∀ {c : Char}, IsDigit c → c.toNat < 128 := by
    intro c h
    have h2 : c.toNat ≤ 57 := h.2
    omega
  rcases List.mem_append.1 hc with h | h
  · exact ⟨digit (hg.2 c h), .inl (hg.2 c h)⟩
  · obtain ⟨p, hp, h⟩ := List.mem_flatMap.1 h
    rcases List.mem_cons.1 h with rfl | h
    · exact ⟨(hr p hp).1.ascii, .inr (hr p hp).1.alpha⟩
    · exact ⟨digit ((hr p hp).2.2 c h), .inl ((hr p hp).2.2 c h)⟩

theorem written_good : GoodText W (written g rest) := by
  intro w hw
  have hne := (C124_split_laws U).nonempty _ w hw
  refine ⟨hne, fun _ c hc => ?_⟩
  have : c ∈ written g rest := by
    rw [← (C124_split_laws U).concat (written g rest)]
    exact List.mem_flatten.2 ⟨w, hw, hc⟩
  exact (written_char hg hr this).1

theorem written_pieces : (textPieces W (written g rest)).map (·.1) = pieceTexts g rest := by
  have hgt := written_good U hg hr
  have hword := written_word U hg hr
  have hmem : ∀ p ∈ textPieces W (written g rest), (Digits p.1 ∧ p.2 = .NATN) ∨ ∃ c, p.1 = [c] ∧ ¬ IsDigit c := by
    intro p hp
    obtain ⟨w, hw, hp⟩ := List.mem_flatMap.1 hp
    have hsub : ∀ c ∈ w, c ∈ written g rest := fun c hc => by
      rw [← (C124_split_laws U).concat (written g rest)]
      exact List.mem_flatten.2 ⟨w, hw, hc⟩
    unfold wordPieces at hp
    split at hp
    · obtain ⟨h1, h2, h3⟩ := runsOf_uniform W w p hp
      obtain ⟨x, s, hx⟩ := List.exists_cons_of_ne_nil h1
      have hx2 := h2 x (by rw [hx]; exact .head _)
      rcases (written_char hg hr (hsub x hx2.2)).2 with hd | ha
      · left
        have ht : p.2 = .NATN := by rw [← hx2.1]; simp [charTag, hd]
        refine ⟨⟨h1, fun c hc => ?_⟩, ht⟩
        have := (h2 c hc).1
        rw [ht] at this
        unfold charTag at this
        split at this
        · assumption
        · split at this <;> cases this
      · by_cases hd : IsDigit x
        · left
          have ht : p.2 = .NATN := by rw [← hx2.1]; simp [charTag, hd]
          refine ⟨⟨h1, fun c hc => ?_⟩, ht⟩
          have := (h2 c hc).1
          rw [ht] at this
          unfold charTag at this
          split at this
          · assumption
          · split at this <;> cases this
        · right
          have ht : p.2 = .PUNC := by rw [← hx2.1]; simp [charTag, hd, ha]
          obtain ⟨c, hc⟩ := h3 ht
          refine ⟨c, hc, ?_⟩
          rw [hx] at hc
          cases hc
          exact hd
    · next hnd =>
      right
      simp only [List.mem_singleton] at hp
      subst hp
      rcases hword w hw with h | h
      · exact absurd h hnd
      · exact h
  apply pieces_unique hg (fun p hp => ⟨(hr p hp).1.digit, (hr p hp).2⟩)
  · have : ∀ ws : List Str, ((ws.flatMap (wordPieces W)).map (·.1)).flatten = ws.flatten := by
      intro ws
      induction ws with
      | nil => rfl
      | cons w ws ih =>
        rw [List.flatMap_cons, List.map_append, List.flatten_append, ih, List.flatten_cons]
        congr 1
        unfold wordPieces
        split
        · exact runsOf_concat W w
        · simp
    rw [textPieces, this, (C124_split_laws U).concat]
  · intro t ht
    obtain ⟨p, hp, rfl⟩ := List.mem_map.1 ht
    rcases hmem p hp with h | h
    · exact .inl h.1
    · exact .inr h
  · rintro u v p q e ⟨hp, hq⟩
    obtain ⟨u', r', e1, e2, e3⟩ := List.map_eq_append_iff.1 e
    obtain ⟨p', r2, e4, e5, e6⟩ := List.map_eq_cons_iff.1 e3
    obtain ⟨q', r3, e7, e8, e9⟩ := List.map_eq_cons_iff.1 e6
    subst e4 e7
    have hps : p' ∈ textPieces W (written g rest) := by rw [e1]; simp
    have hqs : q' ∈ textPieces W (written g rest) := by rw [e1]; simp
    have nat : ∀ {x : Str × TextTag}, x ∈ textPieces W (written g rest) → Digits x.1 → x.2 = .NATN := by
      intro x hx hd
      rcases hmem x hx with h | ⟨c, hc, hn⟩
      · exact h.2
      · rw [hc] at hd
        exact absurd (hd.2 c (.head _)) hn
    exact pieces_no_digit_twins (W := W) _ hgt (fun pre post w1 w2 c d he => C124_no_digit_break U _ pre post w1 w2 c d he)
      u' r3 p' q' e1 ⟨nat hps (e5 ▸ hp), nat hqs (e8 ▸ hq)⟩

end

/-! ### the line -/

theorem pieceTexts_even : ∀ (rest : List (Char × Str)) (g : Str) (k : Nat),
    (pieceTexts g rest)[2 * k]? = (g :: rest.map (·.2))[k]?
  | rest, g, 0 => rfl
  | [], g, k + 1 => by
    have : 2 * (k + 1) = 2 * k + 1 + 1 := by omega
    simp [pieceTexts, this]
  | p :: rest, g, k + 1 => by
    have : 2 * (k + 1) = 2 * k + 1 + 1 := by omega
    have ih := pieceTexts_even rest p.2 k
    simp only [pieceTexts, List.flatMap_cons, this, List.getElem?_cons_succ, List.cons_append, List.nil_append, List.map_cons] at ih ⊢
    exact ih

theorem pieceTexts_odd : ∀ (rest : List (Char × Str)) (g : Str) (k : Nat),
    (pieceTexts g rest)[2 * k + 1]? = (rest.map (·.1))[k]?.map (fun c => [c])
  | [], g, k => by simp [pieceTexts]
  | p :: rest, g, 0 => rfl
  | p :: rest, g, k + 1 => by
    have : 2 * (k + 1) + 1 = (2 * k + 1) + 1 + 1 := by omega
    have ih := pieceTexts_odd rest p.2 k
    simp only [pieceTexts, List.flatMap_cons, this, List.getElem?_cons_succ, List.cons_append, List.nil_append, List.map_cons] at ih ⊢
    exact ih

theorem pieceTexts_length : ∀ (rest : List (Char × Str)) (g : Str), (pieceTexts g rest).length = 2 * rest.length + 1
  | [], g => rfl
  | p :: rest, g => by
    have ih := pieceTexts_length rest p.2
    simp only [pieceTexts, List.flatMap_cons, List.length_cons, List.cons_append, List.nil_append] at ih ⊢
    omega

theorem utf8Len_ascii : ∀ (s : Str), (∀ c ∈ s, c.toNat < 128) → utf8Len s = s.length
  | [], _ => rfl
  | c :: s, h => by
    have ih := utf8Len_ascii s (fun x hx => h x (.tail _ hx))
    have hc : c.utf8Size = 1 := by
      have h1 : c.toNat < 128 := h c (.head _)
      have h2 : c.val ≤ 0x7F := by
        show c.val.toNat ≤ 0x7F
        have : c.val.toNat < 128 := h1
        omega
      simp [Char.utf8Size, h2]
    simp only [utf8Len, List.map_cons, List.sum_cons, List.length_cons, hc] at ih ⊢
    omega

theorem written_length : ∀ {rest : List (Char × Str)} {g : Str}, Digits g → (∀ p ∈ rest, Digits p.2) →
    (written g rest).length < 2 * (digitsIn g rest).length
  | [], g, hg, _ => by
    have := List.length_pos_iff.2 hg.1
    simp [written, digitsIn]; omega
  | p :: rest, g, hg, hr => by
    have ih := written_length (hr p (.head _)) (fun x hx => hr x (.tail _ hx))
    have := List.length_pos_iff.2 hg.1
    simp only [written, digitsIn, List.flatMap_cons, List.length_append, List.length_cons] at ih ⊢
    omega

theorem text_at {s : Str} {l : LLLine W} (ok : createLineFromString W s = .ok l) (i : Nat) :
    textAt l i = ((textPieces W s).map (·.1))[i]? := by
  obtain ⟨_, htoks, _⟩ := create_inv (string_wf s) ok
  have hm : l.ll_tokens.map (·.token) = (textPieces W s).map (fun p => .Text p.1 p.2) := by
    rw [htoks, layoutM_tokens]; simp [tokensOf]
  have hi : (l.ll_tokens[i]?).map (·.token) = ((textPieces W s)[i]?).map (fun p => .Text p.1 p.2) := by
    rw [← List.getElem?_map, hm, List.getElem?_map]
  unfold textAt
  rw [List.getElem?_map]
  cases h1 : l.ll_tokens[i]? with
  | none =>
    rw [h1] at hi
    cases h2 : (textPieces W s)[i]? with
    | none => rfl
    | some p => rw [h2] at hi; cases hi
  | some t =>
    rw [h1] at hi
    cases h2 : (textPieces W s)[i]? with
    | none => rw [h2] at hi; cases hi
    | some p =>
      rw [h2] at hi
      simp only [Option.map_some, Option.some.injEq] at hi
      simp [hi]

theorem covered_whole {s : Str} {l : LLLine W} (L : SplitLaws W) (ok : createLineFromString W s = .ok l) {n : Nat}
    (hn : l.ll_tokens.length ≤ n + 1) : coveredText l.ll_tokens (0, n) = s := by
  obtain ⟨_, htoks, _⟩ := create_inv (string_wf s) ok
  have hm : l.ll_tokens.map (·.token) = (textPieces W s).map (fun p => .Text p.1 p.2) := by
    rw [htoks, layoutM_tokens]; simp [tokensOf]
  rw [coveredText_tokens, List.drop_zero, List.take_of_length_le (by simpa using hn), hm, List.map_map]
  have : (LToken.str ∘ fun p : Str × TextTag => LToken.Text p.1 p.2) = (·.1) := rfl
  rw [this]
  have : ∀ ws : List Str, ((ws.flatMap (wordPieces W)).map (·.1)).flatten = ws.flatten := by
    intro ws
    induction ws with
    | nil => rfl
    | cons w ws ih =>
      rw [List.flatMap_cons, List.map_append, List.flatten_append, ih, List.flatten_cons]
      congr 1
      unfold wordPieces
      split
      · exact runsOf_concat W w
      · simp
  rw [textPieces, this, L.concat]

section
variable (U : Uax29 W cls) {g : Str} {rest : List (Char × Str)} (hg : Digits g)
  (hr : ∀ p ∈ rest, SepOk W cls p.1 ∧ Digits p.2)
include U hg hr

theorem written_creates (fits : (written g rest).length < W.usizeBound) :
    ∃ l, createLineFromString W (written g rest) = .ok l := by
  have hp := written_pieces U hg hr
  refine create_ok (string_wf _) ?_ (.inr ?_)
  · intro t ht
    rw [List.mem_singleton.1 ht]
    refine ⟨written_good U hg hr, fun h => ?_⟩
    rw [h] at hp
    cases hp
  · have hsum : ∀ (ps : List (Str × TextTag)),
        totalSize (ps.map (fun p => (LToken.Text p.1 p.2, utf8Len p.1))) = utf8Len ((ps.map (·.1)).flatten) := by
      intro ps
      rw [utf8Len_flatten]
      simp [totalSize, Function.comp_def]
    have hfl : ∀ {rest : List (Char × Str)} {g : Str}, (pieceTexts g rest).flatten = written g rest := by
      intro rest
      induction rest with
      | nil => intro g; simp [pieceTexts, written]
      | cons p rest ih =>
        intro g
        have := ih (g := p.2)
        simp only [pieceTexts, written, List.flatMap_cons, List.flatten_cons, List.cons_append, List.nil_append] at this ⊢
        rw [this]
    simp only [List.flatMap_cons, List.flatMap_nil, List.append_nil, tokensOf]
    rw [hsum, hp, hfl, utf8Len_ascii _ (fun c hc => (written_char hg hr hc).1)]
    exact fits

theorem written_reads {l : LLLine W} (ok : createLineFromString W (written g rest) = .ok l) :
    Reads l 0 (g :: rest.map (·.2)) (rest.map (·.1)) ∧ l.ll_tokens.length = 2 * rest.length + 1 := by
  have ht : ∀ i, textAt l i = (pieceTexts g rest)[i]? := fun i => by rw [text_at ok, written_pieces U hg hr]
  have hgs : ∀ x ∈ g :: rest.map (·.2), Digits x := by
    intro x hx
    rcases List.mem_cons.1 hx with rfl | hx
    · exact hg
    · obtain ⟨p, hp, rfl⟩ := List.mem_map.1 hx
      exact (hr p hp).2
  refine ⟨⟨by simp, fun k hk => ?_, fun k hk => ?_⟩, ?_⟩
  · rw [Nat.zero_add, ht, pieceTexts_even, List.getElem?_eq_getElem hk]
    exact ⟨rfl, hgs _ (List.getElem_mem hk)⟩
  · rw [Nat.zero_add, ht, pieceTexts_odd, List.getElem?_eq_getElem hk]
    rfl
  · obtain ⟨_, htoks, _⟩ := create_inv (string_wf _) ok
    have : l.ll_tokens.length = (textPieces W (written g rest)).length := by
      rw [htoks]; simp [tokensOf]
    rw [this, ← pieceTexts_length rest g, ← written_pieces U hg hr, List.length_map]

end

/-! ### values -/

theorem digitsIn_eq (g : Str) (rest : List (Char × Str)) : (g :: rest.map (·.2)).flatten = digitsIn g rest := by
  simp [digitsIn, List.flatMap_def]

theorem digitsIn_digits {g : Str} {rest : List (Char × Str)} (hg : Digits g) (hr : ∀ p ∈ rest, Digits p.2) : Digits (digitsIn g rest) := by
  refine ⟨fun h => hg.1 (List.append_eq_nil_iff.1 h).1, fun c hc => ?_⟩
  rcases List.mem_append.1 hc with h | h
  · exact hg.2 c h
  · obtain ⟨p, hp, h⟩ := List.mem_flatMap.1 h
    exact (hr p hp).2 c h

theorem digitsVal_append (a : Str) (c : Char) : digitsVal (a ++ [c]) = 10 * digitsVal a + (c.toNat - 48) := by
  simp [digitsVal]

theorem digitChar_toNat : ∀ {d : Nat}, d < 10 → (digitChar d).toNat = 48 + d ∧ IsDigit (digitChar d) := by decide

theorem numeral_digits (n : Nat) : Digits (numeral n) := by
  rw [numeral]
  split
  · next h => exact ⟨by simp, by simpa using (digitChar_toNat h).2⟩
  · next h =>
    have ih := numeral_digits (n / 10)
    refine ⟨by simp, fun c hc => ?_⟩
    rcases List.mem_append.1 hc with hc | hc
    · exact ih.2 c hc
    · rw [List.mem_singleton.1 hc]
      exact (digitChar_toNat (by omega)).2
termination_by n

theorem numeral_val (n : Nat) : digitsVal (numeral n) = n := by
  rw [numeral]
  split
  · next h =>
    have := (digitChar_toNat h).1
    simp [digitsVal, this]
  · next h =>
    rw [digitsVal_append, numeral_val (n / 10), (digitChar_toNat (show n % 10 < 10 by omega)).1]
    omega
termination_by n

theorem numeral_length (n k : Nat) (h : n < 10 ^ (k + 1)) : (numeral n).length ≤ k + 1 := by
  induction k generalizing n with
  | zero =>
    rw [numeral, if_pos (by simpa using h)]
    simp
  | succ k ih =>
    rw [numeral]
    split
    · simp
    · have := ih (n / 10) (by rw [Nat.pow_succ] at h; omega)
      simp only [List.length_append, List.length_singleton]
      omega

theorem numeral_thousand {n : Nat} (h : 1000 ≤ n) :
    numeral n = numeral (n / 1000) ++ [digitChar (n / 100 % 10), digitChar (n / 10 % 10), digitChar (n % 10)] := by
  rw [numeral, if_neg (by omega), numeral, if_neg (by omega), numeral, if_neg (by omega)]
  simp [Nat.div_div_eq_div_mul]

/-- a number with thousands signs is a written number with the digits of the numeral -/
theorem thousands_written (sep : Char) (n : Nat) : ∃ g rest, thousands sep n = written g rest ∧ Digits g ∧
    (∀ p ∈ rest, p.1 = sep ∧ Digits p.2 ∧ p.2.length = 3) ∧ digitsIn g rest = numeral n ∧ g.length ≤ 3 := by
  rw [thousands]
  split
  · next h =>
    refine ⟨numeral n, [], by simp [written], numeral_digits n, by simp, by simp [digitsIn], ?_⟩
    exact numeral_length n 2 (by omega)
  · next h =>
    obtain ⟨g, rest, e, hg, hr, hd, hl⟩ := thousands_written sep (n / 1000)
    refine ⟨g, rest ++ [(sep, [digitChar (n / 100 % 10), digitChar (n / 10 % 10), digitChar (n % 10)])], ?_, hg, ?_, ?_, hl⟩
    · rw [e]; simp [written]
    · intro p hp
      rcases List.mem_append.1 hp with hp | hp
      · exact hr p hp
      · rw [List.mem_singleton.1 hp]
        refine ⟨rfl, ⟨by simp, ?_⟩, rfl⟩
        intro c hc
        simp only [List.mem_cons, List.not_mem_nil, or_false] at hc
        rcases hc with rfl | rfl | rfl <;> exact (digitChar_toNat (by omega)).2
    · rw [numeral_thousand (by omega), ← hd]
      simp [digitsIn]
termination_by n

end LNlp
