import Verif.Spec.Edit
import Verif.Props.WrittenIn
/- The tokens of a text and of its parts. -/
namespace LNlp
variable {W : World}

theorem pieces_nil_iff (L : SplitLaws W) (s : Str) : textPieces W s = [] ↔ s = [] := by
  constructor
  · intro h
    have := textPieces_flatten L s
    rw [h] at this
    exact this.symm
  · rintro rfl
    rw [textPieces, (split_nil_iff L []).2 rfl]; rfl

/-- the tokens of a text as one list -/
theorem tokensIn_iff (L : SplitLaws W) {s : Str} (fits : utf8Len s < W.usizeBound) (T : List LLToken) :
    TokensIn W s T ↔ GoodText W s ∧ T = layoutM W.usizeBound 0 0 (tokensOf W utf8Len (.Text s [])) := by
  have hc : ∀ l, createLineFromString W s = .ok l →
      GoodText W s ∧ l.ll_tokens = layoutM W.usizeBound 0 0 (tokensOf W utf8Len (.Text s [])) := by
    intro l ok
    obtain ⟨hg, ht, _⟩ := create_inv (string_wf s) ok
    refine ⟨(hg _ (List.mem_singleton.2 rfl)).1, ?_⟩
    rw [ht, List.flatMap_singleton]
  constructor
  · rintro (⟨rfl, rfl⟩ | ⟨l, ok, rfl⟩)
    · refine ⟨?_, ?_⟩
      · intro w hw
        rw [(split_nil_iff L []).2 rfl] at hw
        cases hw
      · rw [tokensOf, (pieces_nil_iff L []).2 rfl]; rfl
    · exact hc l ok
  · rintro ⟨hg, rfl⟩
    by_cases hs : s = []
    · left
      refine ⟨hs, ?_⟩
      rw [tokensOf, (pieces_nil_iff L s).2 hs]; rfl
    · right
      obtain ⟨l, ok⟩ := create_ok (W := W) (size := utf8Len) (string_wf s)
        (by
          intro t ht
          rw [List.mem_singleton.1 ht]
          exact ⟨hg, fun h => hs ((pieces_nil_iff L s).1 h)⟩)
        (.inr (by rw [List.flatMap_singleton, totalSize_text L]; exact fits))
      exact ⟨l, ok, (hc l ok).2⟩

/-- word boundaries, said with the words of the parts -/
theorem wordBreak_iff (L : SplitLaws W) (S : SplitStable W) (a b : Str) :
    WordBreak W a b ↔ W.splitWordBounds (a ++ b) = W.splitWordBounds a ++ W.splitWordBounds b := by
  constructor
  · rintro (rfl | rfl | ⟨u, v, hs, hu⟩)
    · rw [(split_nil_iff L []).2 rfl]; rfl
    · rw [(split_nil_iff L []).2 rfl]; simp
    · have hv : v.flatten = b := by
        have := L.concat (a ++ b)
        rw [hs, List.flatten_append, hu] at this
        exact List.append_cancel_left this
      obtain ⟨h1, h2⟩ := S.cut _ _ _ hs
      rw [hu] at h1
      rw [hv] at h2
      rw [hs, h1, h2]
  · intro h
    exact .inr (.inr ⟨_, _, h, L.concat a⟩)

theorem textPieces_break (L : SplitLaws W) (S : SplitStable W) {a b : Str} (cut : WordBreak W a b) :
    textPieces W (a ++ b) = textPieces W a ++ textPieces W b := by
  rw [textPieces, (wordBreak_iff L S a b).1 cut, List.flatMap_append]; rfl

theorem goodText_break (L : SplitLaws W) (S : SplitStable W) {a b : Str} (cut : WordBreak W a b) :
    GoodText W (a ++ b) ↔ GoodText W a ∧ GoodText W b := by
  unfold GoodText
  rw [(wordBreak_iff L S a b).1 cut]
  simp only [List.mem_append, or_imp, forall_and]

/-- the tokens of a text with a word boundary are those of the parts -/
theorem tokens_break (L : SplitLaws W) (S : SplitStable W) {a b : Str} (cut : WordBreak W a b)
    (fits : utf8Len (a ++ b) < W.usizeBound) (T : List LLToken) :
    TokensIn W (a ++ b) T ↔
      ∃ A B, TokensIn W a A ∧ TokensIn W b B ∧ T = A ++ B.map (LLToken.shift A.length (utf8Len a)) := by
  have hu := utf8Len_append a b
  have hlay : layoutM W.usizeBound 0 0 (tokensOf W utf8Len (.Text (a ++ b) [])) =
      layoutM W.usizeBound 0 0 (tokensOf W utf8Len (.Text a [])) ++
        (layoutM W.usizeBound 0 0 (tokensOf W utf8Len (.Text b []))).map
          (LLToken.shift (layoutM W.usizeBound 0 0 (tokensOf W utf8Len (.Text a []))).length (utf8Len a)) := by
    have ha := totalSize_text L a
    have hb := totalSize_text L b
    have e : tokensOf W utf8Len (.Text (a ++ b) []) = tokensOf W utf8Len (.Text a []) ++ tokensOf W utf8Len (.Text b []) := by
      simp only [tokensOf, textPieces_break L S cut, List.map_append]
    rw [e, layoutM_append, layoutM_length, endPosM_eq _ _ (by omega), ha,
      ← layoutM_shift _ _ _ _ _ (by omega)]
  rw [tokensIn_iff L fits, goodText_break L S cut, hlay]
  constructor
  · rintro ⟨⟨ga, gb⟩, rfl⟩
    exact ⟨_, _, (tokensIn_iff L (by omega) _).2 ⟨ga, rfl⟩, (tokensIn_iff L (by omega) _).2 ⟨gb, rfl⟩, rfl⟩
  · rintro ⟨A, B, hA, hB, rfl⟩
    obtain ⟨ga, rfl⟩ := (tokensIn_iff L (by omega) _).1 hA
    obtain ⟨gb, rfl⟩ := (tokensIn_iff L (by omega) _).1 hB
    exact ⟨⟨ga, gb⟩, rfl⟩

theorem tokensIn_unique (L : SplitLaws W) {s : Str} (fits : utf8Len s < W.usizeBound) {T T' : List LLToken}
    (h : TokensIn W s T) (h' : TokensIn W s T') : T = T' := by
  rw [((tokensIn_iff L fits T).1 h).2, ((tokensIn_iff L fits T').1 h').2]

/-- the tokens of three parts -/
theorem tokens_break3 (L : SplitLaws W) (S : SplitStable W) {a m b : Str} (h1 : WordBreak W a (m ++ b)) (h2 : WordBreak W m b)
    (fits : utf8Len (a ++ m ++ b) < W.usizeBound) (T : List LLToken) :
    TokensIn W (a ++ m ++ b) T ↔ ∃ A M B, TokensIn W a A ∧ TokensIn W m M ∧ TokensIn W b B ∧
      T = A ++ M.map (LLToken.shift A.length (utf8Len a)) ++
        B.map (LLToken.shift (A.length + M.length) (utf8Len a + utf8Len m)) := by
  rw [List.append_assoc] at fits ⊢
  have hu := utf8Len_append a (m ++ b)
  rw [tokens_break L S h1 fits]
  have e : ∀ A M B : List LLToken, A ++ M.map (LLToken.shift A.length (utf8Len a)) ++
        B.map (LLToken.shift (A.length + M.length) (utf8Len a + utf8Len m)) =
      A ++ (M ++ B.map (LLToken.shift M.length (utf8Len m))).map (LLToken.shift A.length (utf8Len a)) := by
    intro A M B
    rw [List.map_append, List.map_map, List.append_assoc]
    congr 2
    refine List.map_congr_left fun t _ => ?_
    simp only [Function.comp, LLToken.shift, LLToken.mk.injEq, and_true]
    omega
  constructor
  · rintro ⟨A, X, hA, hX, rfl⟩
    obtain ⟨M, B, hM, hB, rfl⟩ := (tokens_break L S h2 (by omega) X).1 hX
    exact ⟨A, M, B, hA, hM, hB, (e A M B).symm⟩
  · rintro ⟨A, M, B, hA, hM, hB, rfl⟩
    exact ⟨A, _, hA, (tokens_break L S h2 (by omega) _).2 ⟨M, B, hM, hB, rfl⟩, e A M B⟩

/-- two word boundaries are boundaries of the part between them -/
theorem break_middle (L : SplitLaws W) (S : SplitStable W) {a m b : Str} (h1 : WordBreak W a (m ++ b))
    (h2 : WordBreak W (a ++ m) b) : WordBreak W m b ∧ WordBreak W a m := by
  rw [wordBreak_iff L S] at h1 h2 ⊢
  rw [wordBreak_iff L S]
  rw [List.append_assoc, h1] at h2
  have flat0 : ∀ (x : Str) (w : List Str), W.splitWordBounds x = w → w.flatten = x := by
    rintro x w rfl; exact L.concat x
  rcases List.append_eq_append_iff.1 h2 with ⟨w, h3, h4⟩ | ⟨w, h3, h4⟩
  · -- `split (a ++ m) = split a ++ w`
    have hw : w.flatten = m := by
      have := flat0 _ _ h3
      rw [List.flatten_append, L.concat] at this
      exact List.append_cancel_left this
    have hwm : W.splitWordBounds m = w := by
      have := (S.cut _ _ _ h3).2
      rwa [hw] at this
    exact ⟨by rw [h4, hwm], by rw [h3, hwm]⟩
  · -- `split a = split (a ++ m) ++ w`
    have hf := flat0 _ _ h3
    rw [List.flatten_append, L.concat, List.append_assoc] at hf
    have hm : m = [] := by
      have := congrArg List.length hf
      simp only [List.length_append] at this
      exact List.length_eq_zero_iff.1 (by omega)
    subst hm
    constructor
    · rw [(split_nil_iff L []).2 rfl]; rfl
    · rw [(split_nil_iff L []).2 rfl]; simp

/-! ### resolvers that look at one token at a time -/

/-- the value of every token of a text under `g` -/
def valuesBy {α : Type} (g : Str → TextTag → List α) (l : LLLine W) (i : Nat) : List α :=
  match l.ll_tokens[i]? with
  | some t => match t.token with
    | .Text s tag => g s tag
    | .Value => []
  | none => []

theorem valuesBy_eq {α : Type} (g : Str → TextTag → List α) {s : Str} {l : LLLine W} (ok : createLineFromString W s = .ok l)
    (i : Nat) : valuesBy g l i = (((textPieces W s)[i]?).map (fun p => g p.1 p.2)).getD [] := by
  have h : (l.ll_tokens.map (·.token))[i]? = ((textPieces W s).map (fun p => LToken.Text p.1 p.2))[i]? := by
    rw [text_tokens ok]
  rw [List.getElem?_map, List.getElem?_map] at h
  unfold valuesBy
  cases h1 : l.ll_tokens[i]? with
  | none =>
    rw [h1] at h
    cases h2 : (textPieces W s)[i]? with
    | none => rfl
    | some p => rw [h2] at h; cases h
  | some t =>
    rw [h1] at h
    cases h2 : (textPieces W s)[i]? with
    | none => rw [h2] at h; cases h
    | some p =>
      rw [h2] at h
      simp only [Option.map_some, Option.some.injEq] at h
      simp only [h, Option.map_some, Option.getD_some]

theorem tokenEntries_pieces {α : Type} (g : Str → TextTag → List α) {s : Str} {l : LLLine W} (ok : createLineFromString W s = .ok l) :
    tokenEntries l (valuesBy g l) = (List.range (textPieces W s).length).filterMap (fun i =>
      ((textPieces W s)[i]?).bind (fun p => if (g p.1 p.2).isEmpty then none else some ((i, i), p.1, g p.1 p.2))) := by
  unfold tokenEntries
  rw [text_length ok]
  refine filterMap_congr' fun i hi => ?_
  have hi := List.mem_range.1 hi
  rw [valuesBy_eq g ok, text_at ok, List.getElem?_map, List.getElem?_eq_getElem hi]
  rfl

theorem tokenEntries_append {α : Type} (g : Str → TextTag → List α) (P Q : List (Str × TextTag)) :
    (List.range (P ++ Q).length).filterMap (fun i => ((P ++ Q)[i]?).bind (fun p =>
        if (g p.1 p.2).isEmpty then none else some (((i, i) : LRange), p.1, g p.1 p.2))) =
      (List.range P.length).filterMap (fun i => (P[i]?).bind (fun p =>
        if (g p.1 p.2).isEmpty then none else some (((i, i) : LRange), p.1, g p.1 p.2))) ++
      ((List.range Q.length).filterMap (fun i => (Q[i]?).bind (fun p =>
        if (g p.1 p.2).isEmpty then none else some (((i, i) : LRange), p.1, g p.1 p.2)))).map (shiftEntry P.length) := by
  rw [List.length_append, List.range_add, List.filterMap_append, List.filterMap_map, List.map_filterMap]
  congr 1
  · refine filterMap_congr' fun i hi => ?_
    rw [List.getElem?_append_left (List.mem_range.1 hi)]
  · refine filterMap_congr' fun i _ => ?_
    simp only [Function.comp]
    rw [List.getElem?_append_right (Nat.le_add_right ..), Nat.add_sub_cancel_left]
    cases Q[i]? with
    | none => rfl
    | some p =>
      simp only [Option.bind_some]
      split
      · rfl
      · simp only [Option.map_some, shiftEntry, Nat.add_comm]

/-- what a resolver that looks at one token at a time finds in a text with a word boundary -/
theorem resolved_break (L : SplitLaws W) (S : SplitStable W) {r : Resolver W} (g : Str → TextTag → List (Val r.attr))
    (hr : ∀ s l, createLineFromString W s = .ok l →
      ∃ l', l.run 0 r = .ok l' ∧ l'.query r.attr = .ok (tokenEntries l (valuesBy g l)))
    {a b : Str} (cut : WordBreak W a b) (fits : utf8Len (a ++ b) < W.usizeBound) {na nb : Nat}
    {A B : List (LRange × Str × List (Val r.attr))} (hA : ResolvedIn W r a na A) (hB : ResolvedIn W r b nb B) :
    ResolvedIn W r (a ++ b) (na + nb) (A ++ B.map (shiftEntry na)) := by
  rcases hA with ⟨rfl, rfl, rfl⟩ | ⟨la, la', oka, rfl, runa, hA⟩
  · have : B.map (shiftEntry 0) = B := by
      rw [show (shiftEntry (V := List (Val r.attr)) 0) = id from rfl, List.map_id]
    simpa [this] using hB
  rcases hB with ⟨rfl, rfl, rfl⟩ | ⟨lb, lb', okb, rfl, runb, hB⟩
  · right
    exact ⟨la, la', by simpa using oka, rfl, runa, by simpa using hA⟩
  right
  have hne : a ++ b ≠ [] := by
    intro h
    have := (List.append_eq_nil_iff.1 h).1
    subst this
    exact text_ne oka (List.length_eq_zero_iff.1 (by rw [text_length oka, (pieces_nil_iff L []).2 rfl]; rfl))
  obtain ⟨l, ok, _⟩ : ∃ l, createLineFromString W (a ++ b) = .ok l ∧ True := by
    have := (tokens_break L S cut fits _).2 ⟨_, _, .inr ⟨la, oka, rfl⟩, .inr ⟨lb, okb, rfl⟩, rfl⟩
    rcases this with ⟨h, _⟩ | ⟨l, ok, _⟩
    · exact absurd h hne
    · exact ⟨l, ok, trivial⟩
  obtain ⟨l', run, q⟩ := hr _ _ ok
  obtain ⟨x, runa', qa⟩ := hr _ _ oka
  obtain ⟨y, runb', qb⟩ := hr _ _ okb
  rw [runa] at runa'; cases runa'
  rw [runb] at runb'; cases runb'
  rw [qa] at hA; cases hA
  rw [qb] at hB; cases hB
  refine ⟨l, l', ok, ?_, run, ?_⟩
  · rw [text_length ok, text_length oka, text_length okb, textPieces_break L S cut, List.length_append]
  · rw [q, tokenEntries_pieces g ok, tokenEntries_pieces g oka, tokenEntries_pieces g okb, textPieces_break L S cut,
      tokenEntries_append, text_length oka]

/-! ### boundaries of UAX #29 -/

variable {cls : Char → WBChar}

theorem break_uax (U : Uax29 W cls) {a b : Str} (h : a ≠ [] → b ≠ [] → joins (a.reverse.map cls) (b.map cls) = false) :
    WordBreak W a b := by
  by_cases ha : a = []
  · exact .inl ha
  by_cases hb : b = []
  · exact .inr (.inl hb)
  exact .inr (.inr ((C124_boundaries U a b ha hb).2 (h ha hb)))

theorem break_before_newline (U : Uax29 W cls) {a : Str} {c : Char} (hc : (cls c).cls.isNewline = true)
    (hcr : (cls c).cls = .lf → ∀ d, a.getLast? = some d → (cls d).cls ≠ .cr) (b : Str) : WordBreak W a (c :: b) := by
  refine break_uax U fun ha _ => ?_
  obtain ⟨a', d, rfl⟩ : ∃ a' d, a = a' ++ [d] := ⟨_, _, (List.dropLast_concat_getLast ha).symm⟩
  have h1 : ¬ ((cls d).cls = .cr ∧ (cls c).cls = .lf) := fun h => hcr h.2 d (by simp) h.1
  simp only [List.reverse_append, List.reverse_singleton, List.singleton_append, List.map_cons, joins, if_neg h1, hc, if_true]
  split <;> rfl

theorem break_after_newline (U : Uax29 W cls) {a : Str} {c : Char} (hc : (cls c).cls.isNewline = true)
    {b : Str} (hcr : (cls c).cls = .cr → ∀ d, b.head? = some d → (cls d).cls ≠ .lf) : WordBreak W (a ++ [c]) b := by
  refine break_uax U fun _ hb => ?_
  obtain ⟨d, b', rfl⟩ : ∃ d b', b = d :: b' := List.exists_cons_of_ne_nil hb
  have h1 : ¬ ((cls c).cls = .cr ∧ (cls d).cls = .lf) := fun h => hcr h.1 d (by simp) h.2
  simp only [List.reverse_append, List.reverse_singleton, List.singleton_append, List.map_cons, joins, if_neg h1, hc, if_true]

theorem break_after_blank (U : Uax29 W cls) {a : Str} {c d : Char} (hc : (cls c).cls = .wSegSpace)
    (hd : (cls d).cls ≠ .wSegSpace) (hd' : (cls d).cls.ignored = false) (b : Str) : WordBreak W (a ++ [c]) (d :: b) := by
  refine break_uax U fun _ _ => ?_
  simp only [List.reverse_append, List.reverse_singleton, List.singleton_append, List.map_cons, joins_eq, bases_cons, hc]
  have : WB.ignored .wSegSpace = false := rfl
  simp only [this, Bool.false_eq_true, if_false, List.getElem?_cons_zero, wbPre, hc, hd']
  generalize (cls d).cls = x at *
  cases x <;> simp_all [WB.isNewline, wbRules, WB.ahLetter, WB.midN, WB.midL, WB.wordy, countRI]

theorem break_before_blank (U : Uax29 W cls) {a : Str} {c d : Char} (hc : (cls c).cls = .wSegSpace) (hp : (cls c).pict = false)
    (hd : (cls d).cls ≠ .wSegSpace) (b : Str) : WordBreak W (a ++ [d]) (c :: b) := by
  refine break_uax U fun _ _ => ?_
  simp only [List.reverse_append, List.reverse_singleton, List.singleton_append, List.map_cons, joins_eq, wbPre, hc, hp]
  generalize bases _ = X
  generalize bases _ = Y
  generalize (cls d).cls = x at *
  have rules : ∀ l1 l2 r2 o, wbRules l1 l2 (some .wSegSpace) r2 o = false := by
    intro l1 l2 r2 o
    simp [wbRules, WB.ahLetter, WB.midN, WB.midL, WB.wordy]
  cases x <;> first | exact absurd rfl hd | (simp only [rules]; simp [WB.isNewline, WB.ignored])

/-! ### lines -/

theorem newline_pieces (U : Uax29 W cls) (ws : W.isWhitespace '\n' = true) :
    textPieces W ['\n'] = [(['\n'], .SPACE)] := by
  have h : W.splitWordBounds ['\n'] = [['\n']] := by rw [U.split]; rfl
  have hd : ¬ ∃ c ∈ (['\n'] : Str).head?, IsDigit c := by
    simp only [List.head?_cons, Option.mem_def, Option.some.injEq, exists_eq_left']
    decide
  rw [textPieces, h, List.flatMap_singleton, wordPieces, if_neg hd, wordTag, if_pos]
  intro c hc
  rw [List.mem_singleton.1 hc]; exact ws

theorem joinLines_break (U : Uax29 W cls) (nl : (cls '\n').cls = .lf) {s : Str} (rest : Str)
    (hcr : ∀ d, s.getLast? = some d → (cls d).cls ≠ .cr) : WordBreak W s ('\n' :: rest) ∧ WordBreak W ['\n'] rest := by
  have h : (cls '\n').cls.isNewline = true := by rw [nl]; rfl
  exact ⟨break_before_newline U h (fun _ => hcr) rest,
    break_after_newline (a := []) U h (fun h' => by rw [nl] at h'; cases h')⟩

theorem newline_good (U : Uax29 W cls) : GoodText W ['\n'] := by
  intro w hw
  have h : W.splitWordBounds ['\n'] = [['\n']] := by rw [U.split]; rfl
  rw [h] at hw
  rw [List.mem_singleton.1 hw]
  refine ⟨by simp, fun _ c hc => ?_⟩
  rw [List.mem_singleton.1 hc]; decide

theorem joinLines_pieces (U : Uax29 W cls) (nl : (cls '\n').cls = .lf) (ws : W.isWhitespace '\n' = true) : ∀ (ls : List Str),
    (∀ s ∈ ls, ∀ d, s.getLast? = some d → (cls d).cls ≠ .cr) →
    textPieces W (joinLines ls) = between1 (['\n'], .SPACE) (ls.map (textPieces W))
  | [], _ => by rw [joinLines, (pieces_nil_iff (C124_split_laws U) []).2 rfl]; rfl
  | [s], _ => rfl
  | s :: t :: rest, h => by
    obtain ⟨h1, h2⟩ := joinLines_break U nl (joinLines (t :: rest)) (h s (by simp))
    rw [joinLines, textPieces_break (C124_split_laws U) (C124_split_stable U) h1,
      show '\n' :: joinLines (t :: rest) = ['\n'] ++ joinLines (t :: rest) from rfl,
      textPieces_break (C124_split_laws U) (C124_split_stable U) h2, newline_pieces U ws,
      joinLines_pieces U nl ws (t :: rest) (fun x hx => h x (by simp [hx]))]
    rfl

theorem joinLines_good (U : Uax29 W cls) (nl : (cls '\n').cls = .lf) : ∀ (ls : List Str),
    (∀ s ∈ ls, ∀ d, s.getLast? = some d → (cls d).cls ≠ .cr) →
    (GoodText W (joinLines ls) ↔ ∀ s ∈ ls, GoodText W s)
  | [], _ => by
    simp only [joinLines, GoodText, (split_nil_iff (C124_split_laws U) []).2 rfl]
    simp
  | [s], _ => by simp [joinLines]
  | s :: t :: rest, h => by
    obtain ⟨h1, h2⟩ := joinLines_break U nl (joinLines (t :: rest)) (h s (by simp))
    rw [joinLines, goodText_break (C124_split_laws U) (C124_split_stable U) h1,
      show '\n' :: joinLines (t :: rest) = ['\n'] ++ joinLines (t :: rest) from rfl,
      goodText_break (C124_split_laws U) (C124_split_stable U) h2,
      joinLines_good U nl (t :: rest) (fun x hx => h x (by simp [hx])), List.forall_mem_cons (a := s)]
    exact ⟨fun ⟨a, _, b⟩ => ⟨a, b⟩, fun ⟨a, b⟩ => ⟨a, newline_good U, b⟩⟩

theorem between1_map {α β : Type} (f : α → β) (x : α) : ∀ ls : List (List α),
    (between1 x ls).map f = between1 (f x) (ls.map (·.map f))
  | [] => rfl
  | [_] => rfl
  | s :: t :: rest => by
    rw [between1, List.map_append, List.map_cons, between1_map f x (t :: rest)]
    rfl

/-- there are no amounts in a newline -/
theorem newline_amounts (U : Uax29 W cls) (ws : W.isWhitespace '\n' = true) (fits : 1 < W.usizeBound) (r : AmountResolver) :
    AmountsIn W r ['\n'] 1 [] := by
  have L := C124_split_laws U
  have ht : TokensIn W ['\n'] _ := (tokensIn_iff (s := ['\n']) L fits _).2 ⟨newline_good U, rfl⟩
  rcases ht with ⟨h, _⟩ | ⟨l, ok, _⟩
  · cases h
  right
  have ne := text_ne ok
  have hlen : l.ll_tokens.length = 1 := by rw [text_length ok, newline_pieces U ws]; rfl
  refine ⟨l, ok, hlen, ?_⟩
  have hr : Reachable l _ := .create _ _ _ (string_wf _) ok
  have hplain := creation_plainTags (string_wf _) ok (string_noCustom _ _)
  have hgo : r.go (wholeLine l 0) = .ok [] := by
    refine (C67_amounts r (s := wholeLine l 0) hr (wholeLine_inside ne 0) []).2 (.done ?_)
    intro j _ _ t hn
    have h2 := plain_tag_mem hplain |>.1 hn.2
    have h3 := text_tokens ok
    rw [newline_pieces U ws] at h3
    obtain ⟨tok, h4⟩ : ∃ tok, l.ll_tokens = [tok] := List.length_eq_one_iff.1 hlen
    rw [h4] at h3
    simp only [List.map_cons, List.map_nil, List.cons.injEq, and_true] at h3
    cases j with
    | zero => simp [tagAt, h4, h3] at h2
    | succ j => simp [tagAt, h4] at h2
  rw [amountsOf_ok ok ne hgo]
  rfl

end LNlp
