import Verif.Lemmas.Edit
import Verif.Demo.Uax29
/- C153: edits are local, and the lines of a text are read on their own. -/
namespace LNlp
variable {W : World} {cls : Char → WBChar}

/-- C153: a text can be tokenized iff the two parts at a word boundary can; its tokens are those of the first part,
followed by those of the second with their indexes and positions moved behind the first. -/
theorem C153_parts (L : SplitLaws W) (S : SplitStable W) {a b : Str} (cut : WordBreak W a b)
    (fits : utf8Len (a ++ b) < W.usizeBound) (T : List LLToken) :
    TokensIn W (a ++ b) T ↔
      ∃ A B, TokensIn W a A ∧ TokensIn W b B ∧ T = A ++ B.map (LLToken.shift A.length (utf8Len a)) :=
  tokens_break L S cut fits T

theorem Demo.editBreak : WordBreak Demo.W "I pay".toList " 5 now".toList :=
  .inr (.inr ⟨["I".toList, " ".toList, "pay".toList], [" ".toList, "5".toList, " ".toList, "now".toList], by decide, by decide⟩)

example := (C153_parts Demo.splitLaws Demo.splitStable Demo.editBreak (by decide) _).1 (.inr ⟨_, rfl, rfl⟩)

/-- C153: replacing a part of a text between two word boundaries (before and after the replacement) leaves the tokens
before it as they are, and those behind it up to the amount by which indexes and positions are moved. -/
theorem C153_edit (L : SplitLaws W) (S : SplitStable W) {a m m' b : Str}
    (h1 : WordBreak W a (m ++ b)) (h2 : WordBreak W (a ++ m) b) (h1' : WordBreak W a (m' ++ b)) (h2' : WordBreak W (a ++ m') b)
    (fits : utf8Len (a ++ m ++ b) < W.usizeBound) (fits' : utf8Len (a ++ m' ++ b) < W.usizeBound) {T T' : List LLToken}
    (hT : TokensIn W (a ++ m ++ b) T) (hT' : TokensIn W (a ++ m' ++ b) T') :
    ∃ A M M' B, TokensIn W a A ∧ TokensIn W m M ∧ TokensIn W m' M' ∧ TokensIn W b B ∧
      T = A ++ M.map (LLToken.shift A.length (utf8Len a)) ++
        B.map (LLToken.shift (A.length + M.length) (utf8Len a + utf8Len m)) ∧
      T' = A ++ M'.map (LLToken.shift A.length (utf8Len a)) ++
        B.map (LLToken.shift (A.length + M'.length) (utf8Len a + utf8Len m')) := by
  obtain ⟨A, M, B, hA, hM, hB, e⟩ := (tokens_break3 L S h1 (break_middle L S h1 h2).1 fits T).1 hT
  obtain ⟨A', M', B', hA', hM', hB', e'⟩ := (tokens_break3 L S h1' (break_middle L S h1' h2').1 fits' T').1 hT'
  have hu := utf8Len_append (a ++ m) b
  have hu' := utf8Len_append a m
  rw [tokensIn_unique L (by omega) hA' hA, tokensIn_unique L (by omega) hB' hB] at e'
  exact ⟨A, M, M', B, hA, hM, hM', hB, e, e'⟩

/-- C153: with the boundaries of UAX #29, that is so if there are blanks (or ends of the text) around what is replaced,
and what is replaced and what replaces it have no blanks at their ends. -/
theorem C153_replace (U : Uax29 W cls) {a m m' b : Str} (before : a ≠ [] → ∃ c, a.getLast? = some c ∧ (cls c).cls = .wSegSpace)
    (after : b ≠ [] → ∃ c, b.head? = some c ∧ (cls c).cls = .wSegSpace ∧ (cls c).pict = false)
    (hm : Solid cls m) (hm' : Solid cls m')
    (fits : utf8Len (a ++ m ++ b) < W.usizeBound) (fits' : utf8Len (a ++ m' ++ b) < W.usizeBound) {T T' : List LLToken}
    (hT : TokensIn W (a ++ m ++ b) T) (hT' : TokensIn W (a ++ m' ++ b) T') :
    ∃ A M M' B, TokensIn W a A ∧ TokensIn W m M ∧ TokensIn W m' M' ∧ TokensIn W b B ∧
      T = A ++ M.map (LLToken.shift A.length (utf8Len a)) ++
        B.map (LLToken.shift (A.length + M.length) (utf8Len a + utf8Len m)) ∧
      T' = A ++ M'.map (LLToken.shift A.length (utf8Len a)) ++
        B.map (LLToken.shift (A.length + M'.length) (utf8Len a + utf8Len m')) := by
  have key : ∀ x, Solid cls x → WordBreak W a (x ++ b) ∧ WordBreak W (a ++ x) b := by
    rintro x ⟨⟨d, hd, hd1, hd2⟩, ⟨e, he, he1⟩⟩
    constructor
    · by_cases ha : a = []
      · exact .inl ha
      obtain ⟨c, hc, hc1⟩ := before ha
      obtain ⟨a', rfl⟩ := List.getLast?_eq_some_iff.1 hc
      obtain ⟨x', rfl⟩ := List.head?_eq_some_iff.1 hd
      exact break_after_blank U hc1 hd1 hd2 _
    · by_cases hb : b = []
      · exact .inr (.inl hb)
      obtain ⟨c, hc, hc1, hc2⟩ := after hb
      obtain ⟨b', rfl⟩ := List.head?_eq_some_iff.1 hc
      obtain ⟨x', rfl⟩ := List.getLast?_eq_some_iff.1 he
      rw [← List.append_assoc]
      exact break_before_blank U hc1 hc2 he1 _
  exact C153_edit (C124_split_laws U) (C124_split_stable U) (key m hm).1 (key m hm).2 (key m' hm').1 (key m' hm').2 fits fits' hT hT'

example := C153_replace Demo.demoUax (a := "I pay ".toList) (m := "5".toList) (m' := "can't, not".toList) (b := " now".toList)
  (fun _ => ⟨' ', by decide, by decide⟩) (fun _ => ⟨' ', by decide, by decide, by decide⟩)
  ⟨⟨'5', by decide, by decide, by decide⟩, ⟨'5', by decide, by decide⟩⟩
  ⟨⟨'c', by decide, by decide, by decide⟩, ⟨'t', by decide, by decide⟩⟩ (by decide) (by decide)
  (.inr ⟨_, rfl, rfl⟩) (.inr ⟨_, rfl, rfl⟩)

/-- the claim that the tokens before an edit stay as they are wherever it is made -/
def C153_anywhere_claim : Prop :=
  ∀ (W : World), SplitLaws W → SplitStable W → ∀ (a b b' : Str) (A T T' : List LLToken), TokensIn W a A →
    TokensIn W (a ++ b) T → TokensIn W (a ++ b') T' → ∀ x ∈ A, x ∈ T → x ∈ T'

/-- C153: in the middle of a word that is not so: `can` is a token of `can, not` but not of `can't, not`. -/
theorem C153_anywhere_false : ¬ C153_anywhere_claim := by
  intro claim
  have := claim Demo.W Demo.splitLaws Demo.splitStable "can".toList ", not".toList "'t, not".toList _ _ _
    (.inr ⟨_, rfl, rfl⟩) (.inr ⟨_, rfl, rfl⟩) (.inr ⟨_, rfl, rfl⟩) ⟨0, 0, 3, .Text "can".toList .WORD⟩
  exact absurd (this (by decide) (by decide)) (by decide)

/-- C153: what a table resolver finds in a text is what it finds in the two parts at a word boundary. -/
theorem C153_table (L : SplitLaws W) (S : SplitStable W) {k : Ty W} (r : TextMatchAssignResolver W k) (hc : k ≠ .char)
    (ht : k ≠ .textTag) {a b : Str} (cut : WordBreak W a b) (fits : utf8Len (a ++ b) < W.usizeBound) {na nb : Nat}
    {A B : List (LRange × Str × List (Val k))} (hA : ResolvedIn W r.resolver a na A) (hB : ResolvedIn W r.resolver b nb B) :
    ResolvedIn W r.resolver (a ++ b) (na + nb) (A ++ B.map (shiftEntry na)) := by
  refine resolved_break L S (r := r.resolver)
    (fun t _ => (r.lookup (if r.case_sensitive then t else W.toLowercase t)).getD []) ?_ cut fits hA hB
  intro s l ok
  obtain ⟨l', h1, h2⟩ := C95_table r (.create _ _ _ (string_wf s) ok) (text_ne ok) (by
    intro x hx e
    rcases string_types s x hx with h | h <;> rw [h] at e
    · exact hc e.symm
    · exact ht e.symm) 0
  refine ⟨l', h1, ?_⟩
  refine h2.trans ?_
  congr 2
  funext i
  unfold tableValues valuesBy textAt
  cases l.ll_tokens[i]? with
  | none => rfl
  | some t => cases h : t.token <;> simp [h] <;> rfl

theorem Demo.tableIn {s : Str} {l : LLLine Demo.W} (ok : createLineFromString Demo.W s = .ok l) :
    ResolvedIn Demo.W Demo.table.resolver s l.ll_tokens.length (tokenEntries l (tableValues Demo.table l)) := by
  obtain ⟨l', h1, h2⟩ := C95_table Demo.table (.create _ _ _ (string_wf s) ok) (text_ne ok) (by
    intro x hx e
    rcases string_types s x hx with h | h <;> rw [h] at e <;> cases e) 0
  exact .inr ⟨l, l', ok, rfl, h1, h2⟩

example := C153_table Demo.splitLaws Demo.splitStable Demo.table (nofun) (nofun) Demo.editBreak (by decide)
  (Demo.tableIn rfl) (Demo.tableIn rfl)

/-- C153: the same for parts of speech. -/
theorem C153_parts_of_speech (L : SplitLaws W) (S : SplitStable W) {a b : Str} (cut : WordBreak W a b)
    (fits : utf8Len (a ++ b) < W.usizeBound) {na nb : Nat} {A B : List (LRange × Str × List W.Tag)}
    (hA : ResolvedIn W (posTagResolver W) a na A) (hB : ResolvedIn W (posTagResolver W) b nb B) :
    ResolvedIn W (posTagResolver W) (a ++ b) (na + nb) (A ++ B.map (shiftEntry na)) := by
  refine resolved_break L S (r := posTagResolver W)
    (fun t tag => if tag = .WORD then (W.tagLookup (W.toLowercase t)).getD [W.nounTag] else ([] : List W.Tag)) ?_ cut fits hA hB
  intro s l ok
  obtain ⟨l', h1, h2⟩ := C95_parts_of_speech ok (text_ne ok) 0
  refine ⟨l', h1, ?_⟩
  refine h2.trans ?_
  congr 2
  funext i
  unfold wordTags valuesBy textAt tagAt
  cases l.ll_tokens[i]? with
  | none => rfl
  | some t => cases h : t.token <;> simp [h] <;> rfl

theorem Demo.tagsIn {s : Str} {l : LLLine Demo.W} (ok : createLineFromString Demo.W s = .ok l) :
    ResolvedIn Demo.W (posTagResolver Demo.W) s l.ll_tokens.length (tokenEntries l (wordTags l)) := by
  obtain ⟨l', h1, h2⟩ := C95_parts_of_speech ok (text_ne ok) 0
  exact .inr ⟨l, l', ok, rfl, h1, h2⟩

example := C153_parts_of_speech Demo.splitLaws Demo.splitStable Demo.editBreak (by decide) (Demo.tagsIn rfl) (Demo.tagsIn rfl)

/-- C153: the same for the keywords of clauses. -/
theorem C153_keywords (L : SplitLaws W) (S : SplitStable W) (r : ClauseKeywordResolver) {a b : Str} (cut : WordBreak W a b)
    (fits : utf8Len (a ++ b) < W.usizeBound) {na nb : Nat} {A B : List (LRange × Str × List ClauseKeyword)}
    (hA : ResolvedIn W (r.resolver W) a na A) (hB : ResolvedIn W (r.resolver W) b nb B) :
    ResolvedIn W (r.resolver W) (a ++ b) (na + nb) (A ++ B.map (shiftEntry na)) := by
  refine resolved_break L S (r := r.resolver W) (fun t _ => (r.classify (W.toLowercase t)).toList) ?_ cut fits hA hB
  intro s l ok
  obtain ⟨l', f, h1, h2, h3, h4⟩ := C95_keywords ok (text_ne ok) r 0
  refine ⟨l', h1, ?_⟩
  refine h2.trans ?_
  congr 2
  funext i
  have e : valuesBy (fun t (_ : TextTag) => (r.classify (W.toLowercase t)).toList) l i =
      ((textAt l i).bind (fun t => r.classify (W.toLowercase t))).toList := by
    unfold valuesBy textAt
    cases l.ll_tokens[i]? with
    | none => rfl
    | some t => cases h : t.token <;> simp [h]
  refine Eq.trans ?_ e.symm
  rcases h4 i with h | ⟨kw, h⟩
  · rw [h]
    cases hv : (textAt l i).bind (fun t => r.classify (W.toLowercase t)) with
    | none => rfl
    | some kw =>
      obtain ⟨t, ht, hk⟩ := Option.bind_eq_some_iff.1 hv
      have := (h3 i kw).2 ⟨t, ht, (classify_iff r _ kw).1 hk⟩
      rw [h] at this; cases this
  · obtain ⟨t, ht, hk⟩ := (h3 i kw).1 h
    rw [h, ht, Option.bind_some, (classify_iff r _ kw).2 hk]
    rfl

theorem Demo.keywordsIn {s : Str} {l : LLLine Demo.W} (ok : createLineFromString Demo.W s = .ok l) :
    ∃ out, ResolvedIn Demo.W (Demo.kws.resolver Demo.W) s l.ll_tokens.length out := by
  obtain ⟨l', f, h1, h2, _⟩ := C95_keywords ok (text_ne ok) Demo.kws 0
  exact ⟨_, .inr ⟨l, l', ok, rfl, h1, h2⟩⟩

example : ∃ n out, ResolvedIn Demo.W (Demo.kws.resolver Demo.W) ("I pay".toList ++ " 5 now".toList) n out := by
  obtain ⟨A, hA⟩ := Demo.keywordsIn (s := "I pay".toList) rfl
  obtain ⟨B, hB⟩ := Demo.keywordsIn (s := " 5 now".toList) rfl
  exact ⟨_, _, C153_keywords Demo.splitLaws Demo.splitStable Demo.kws Demo.editBreak (by decide) hA hB⟩

/-- C153: a text of several lines can be tokenized iff every line can that is not empty. -/
theorem C153_lines_ok (U : Uax29 W cls) (nl : (cls '\n').cls = .lf) (ls : List Str)
    (cr : ∀ s ∈ ls, ∀ c, s.getLast? = some c → (cls c).cls ≠ .cr) (fits : utf8Len (joinLines ls) < W.usizeBound) :
    (∃ T, TokensIn W (joinLines ls) T) ↔ ∀ s ∈ ls, ∃ T, TokensIn W s T := by
  have L := C124_split_laws U
  have hfit : ∀ (ls : List Str), ∀ s ∈ ls, utf8Len s ≤ utf8Len (joinLines ls) := by
    intro ls
    induction ls with
    | nil => simp
    | cons s rest ih =>
      intro t ht
      cases rest with
      | nil => rw [List.mem_singleton.1 ht]; exact Nat.le_refl _
      | cons u rest =>
        rw [joinLines, utf8Len_append, show '\n' :: joinLines (u :: rest) = ['\n'] ++ joinLines (u :: rest) from rfl, utf8Len_append]
        rcases List.mem_cons.1 ht with rfl | ht
        · omega
        · have := ih t ht
          omega
  have h1 : ∀ s, utf8Len s < W.usizeBound → ((∃ T, TokensIn W s T) ↔ GoodText W s) := fun s hs =>
    ⟨fun ⟨T, h⟩ => ((tokensIn_iff L hs T).1 h).1, fun h => ⟨_, (tokensIn_iff L hs _).2 ⟨h, rfl⟩⟩⟩
  rw [h1 _ fits, joinLines_good U nl ls cr]
  constructor
  · intro h s hs
    exact (h1 s (Nat.lt_of_le_of_lt (hfit ls s hs) fits)).2 (h s hs)
  · intro h s hs
    exact (h1 s (Nat.lt_of_le_of_lt (hfit ls s hs) fits)).1 (h s hs)

example := C153_lines_ok Demo.demoUax rfl ["I pay 5".toList, [], "now, 1a".toList] (by decide) (by decide)

/-- C153: its tokens are those of the lines, with one space token for every newline between them. -/
theorem C153_lines (U : Uax29 W cls) (nl : (cls '\n').cls = .lf) (ws : W.isWhitespace '\n' = true) (ls : List Str)
    (cr : ∀ s ∈ ls, ∀ c, s.getLast? = some c → (cls c).cls ≠ .cr) {T : List LLToken} (hT : TokensIn W (joinLines ls) T)
    {toks : Str → List LLToken} (htoks : ∀ s ∈ ls, TokensIn W s (toks s)) :
    T.map (·.token) = between1 (.Text ['\n'] .SPACE) (ls.map (fun s => (toks s).map (·.token))) := by
  have L := C124_split_laws U
  have h1 : ∀ s T, TokensIn W s T → T.map (·.token) = (textPieces W s).map (fun p => .Text p.1 p.2) := by
    rintro s T (⟨rfl, rfl⟩ | ⟨l, ok, rfl⟩)
    · rw [(pieces_nil_iff L []).2 rfl]; rfl
    · exact text_tokens ok
  rw [h1 _ _ hT, joinLines_pieces U nl ws ls cr, between1_map, List.map_map]
  congr 1
  refine List.map_congr_left fun s hs => ?_
  rw [h1 _ _ (htoks s hs)]
  rfl

example := C153_lines Demo.demoUax rfl rfl ["I pay 5".toList, [], "now, 1a".toList] (by decide) (.inr ⟨_, rfl, rfl⟩)
  (toks := fun s => match createLineFromString Demo.W s with | .ok l => l.ll_tokens | .error _ => []) (by
    intro s hs
    simp only [List.mem_cons, List.not_mem_nil, or_false] at hs
    rcases hs with rfl | rfl | rfl
    · exact .inr ⟨_, rfl, rfl⟩
    · exact .inl ⟨rfl, rfl⟩
    · exact .inr ⟨_, rfl, rfl⟩)

/-- C153: the amounts of a text are those of its first line and those of the rest, if a newline is neither delimiter
nor decimal point. -/
theorem C153_lines_amounts (U : Uax29 W cls) (nl : (cls '\n').cls = .lf) (ws : W.isWhitespace '\n' = true) (r : AmountResolver)
    (hn : NoNumber r '\n') {s rest : Str} (cr : ∀ c, s.getLast? = some c → (cls c).cls ≠ .cr)
    (fits : utf8Len (s ++ '\n' :: rest) < W.usizeBound) {n m : Nat} {A B : List (LRange × Str × List W.Decimal)}
    (hA : AmountsIn W r s n A) (hB : AmountsIn W r rest m B) :
    AmountsIn W r (s ++ '\n' :: rest) (n + (1 + m)) (A ++ B.map (shiftEntry (n + 1))) := by
  have L := C124_split_laws U
  have S := C124_split_stable U
  have hu := utf8Len_append s ('\n' :: rest)
  have hu' := utf8Len_append ['\n'] rest
  have h1 : utf8Len ['\n'] = 1 := rfl
  obtain ⟨b1, b2⟩ := joinLines_break U nl rest cr
  have step : ∀ {a b : Str} {na nb : Nat} {A B : List (LRange × Str × List W.Decimal)}, WordBreak W a b →
      ((∃ c, a.getLast? = some c ∧ NoNumber r c) ∨ ∃ c, b.head? = some c ∧ NoNumber r c) →
      utf8Len (a ++ b) < W.usizeBound → AmountsIn W r a na A → AmountsIn W r b nb B →
      AmountsIn W r (a ++ b) (na + nb) (A ++ B.map (shiftEntry na)) := by
    intro a b na nb A B cut sep fits hA hB
    exact C127_side_by_side L S r ⟨_, _, (wordBreak_iff L S a b).1 cut, L.concat a⟩ sep fits hA hB
  have hB' := step b2 (.inl ⟨'\n', rfl, hn⟩) (by simp only [List.singleton_append] at hu' ⊢; omega)
    (newline_amounts U ws (by simp only [List.singleton_append] at hu'; omega) r) hB
  have := step b1 (.inr ⟨'\n', rfl, hn⟩) fits hA hB'
  rw [List.nil_append, List.map_map] at this
  have e : (shiftEntry (V := List W.Decimal) n) ∘ shiftEntry 1 = shiftEntry (n + 1) := by
    funext x
    simp only [Function.comp, shiftEntry, Prod.mk.injEq, and_true]
    omega
  rwa [e] at this

example := C153_lines_amounts Demo.demoUax rfl rfl .english ⟨by decide, by decide, by decide⟩ (s := "I pay 1".toList) (rest := "234 now".toList) (by decide)
  (by decide) (.inr ⟨_, rfl, rfl, rfl⟩) (.inr ⟨_, rfl, rfl, rfl⟩)

/-- the claim that no clause goes over the end of a line -/
def C153_clauses_in_lines_claim : Prop :=
  ∀ (W : World) (cls : Char → WBChar), Uax29 W cls → ∀ (kr : ClauseKeywordResolver) (s : Str) (l l1 l2 : LLLine W)
    (out : List (LRange × Str × List Clause)), createLineFromString W s = .ok l → l.run 0 (kr.resolver W) = .ok l1 →
    l1.run 1 (clauseResolver W) = .ok l2 → l2.query .clause = .ok out → ∀ x ∈ out, '\n' ∉ x.2.1

def Demo.twoLines0 : LLLine Demo.W := Demo.getOk Demo.emptyLine (createLineFromString Demo.W "if a\nb".toList)
def Demo.twoLines1 : LLLine Demo.W := Demo.getOk Demo.emptyLine (Demo.twoLines0.run 0 (Demo.kws.resolver Demo.W))
def Demo.twoLines2 : LLLine Demo.W := Demo.getOk Demo.emptyLine (Demo.twoLines1.run 1 (clauseResolver Demo.W))

/-- C153: clauses are not read line by line: in `"if a\nb"` the condition is `"a\nb"`. -/
theorem C153_clauses_in_lines_false : ¬ C153_clauses_in_lines_claim := by
  intro claim
  have := claim Demo.W _ Demo.demoUax Demo.kws "if a\nb".toList Demo.twoLines0 Demo.twoLines1 Demo.twoLines2
    [((2, 4), ['a', '\n', 'b'], [.Condition])] rfl rfl rfl rfl _ (List.mem_singleton.2 rfl)
  exact this (by decide)

end LNlp
