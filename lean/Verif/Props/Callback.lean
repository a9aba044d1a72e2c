import Verif.Lemmas.Callback
import Verif.Lemmas.ProgramLines
import Verif.Props.Program
/- Property C126: how creating a line uses the size callback, which may count, remember or panic. -/
namespace LNlp
variable {W : World}

/-! ### example callbacks -/

/-- answers 1, 2, 3, …, whatever the text -/
def Demo.counting : Callback := fun calls _ => some (calls.length + 1)
/-- panics when it sees a text again -/
def Demo.noRepeat : Callback := fun calls s => if s ∈ calls then none else some s.length
def Demo.askInput : List (InputToken Demo.W) := [.Text ['d',' ','$','1'] [], .Custom 3 [], .Text ['5',' ','x'] []]
theorem Demo.askInput_wf : ∀ t ∈ Demo.askInput, t.WF := by
  simp [Demo.askInput, InputToken.WF, InputToken.attrList]
def Demo.askLine : LLLine Demo.W := match (createLineFromInputTokensE Demo.W Demo.askInput Demo.counting).2 with
  | .ok l => l
  | .error _ => Demo.emptyLine
theorem Demo.askLine_ok : createLineFromInputTokensE Demo.W Demo.askInput Demo.counting =
    ([['d'], [' '], ['$'], ['1'], ['5'], [' '], ['x']], .ok Demo.askLine) := rfl

/-! ### the calls -/

/-- C126: whatever the callback does and however the creation ends, the callback is called with the texts that the
inputs are cut into, in order; the calls stop early only when there is no line. -/
theorem C126_calls (cb : Callback) (input : List (InputToken W)) :
    (createLineFromInputTokensE W input cb).1 <+: input.flatMap (inputTexts W) ∧
    ∀ l, (createLineFromInputTokensE W input cb).2 = .ok l →
      (createLineFromInputTokensE W input cb).1 = input.flatMap (inputTexts W) := by
  obtain ⟨asked, r, he, hp, hok, _, _⟩ := asks_create cb input []
  have he' : createLineFromInputTokensE W input cb = ([] ++ asked, r) := he
  rw [he']
  exact ⟨hp, fun l h => hok l h⟩

example := C126_calls Demo.noRepeat Demo.askInput
/-- the second blank makes this callback panic, so 'x' is not asked for -/
example : (createLineFromInputTokensE Demo.W Demo.askInput Demo.noRepeat).1 = [['d'], [' '], ['$'], ['1'], ['5'], [' ']] := rfl

/-- C126: when there is a line, the calls were one for each of its text tokens, with that token's text, in order;
none for custom tokens. -/
theorem C126_tokens {cb : Callback} {input : List (InputToken W)} {calls : List Str} {l : LLLine W} (wf : ∀ t ∈ input, t.WF)
    (h : createLineFromInputTokensE W input cb = (calls, .ok l)) : calls = textsOf l.ll_tokens := by
  obtain ⟨_, hc, ht, _⟩ := createE_ok wf h
  rw [hc, ht, textsOf_layout, texts_inputs]

example := C126_tokens Demo.askInput_wf Demo.askLine_ok

/-- C126: the size of a text token is what the callback answered for it, having been called with the texts of the
tokens before it; the token's end is its start plus that answer. -/
theorem C126_sizes {cb : Callback} {input : List (InputToken W)} {calls : List Str} {l : LLLine W} (wf : ∀ t ∈ input, t.WF)
    (h : createLineFromInputTokensE W input cb = (calls, .ok l)) {i : Nat} {t : LLToken} (hi : l.ll_tokens[i]? = some t)
    {s : Str} {tag : TextTag} (ht : t.token = .Text s tag) :
    ∃ n, cb (textsOf (l.ll_tokens.take i)) s = some n ∧ t.pos_ends_at = (t.pos_starts_at + n) % W.usizeBound := by
  obtain ⟨_, hc, htk, _⟩ := createE_ok wf h
  have ha : Answers cb [] (input.flatMap (inputTexts W)) := by
    obtain ⟨asked, r, he, _, hok, _, hna⟩ := asks_create cb input []
    have he' : createLineFromInputTokensE W input cb = ([] ++ asked, r) := he
    rw [h] at he'
    cases he'
    have := hok l rfl
    subst this
    exact hna (by simp)
  have := sizedBy_layout (B := W.usizeBound) (k := 0) (p := 0) (sizedBy_inputs ha) (htk ▸ hi) ht
  rw [htk]
  exact this

example := C126_sizes Demo.askInput_wf Demo.askLine_ok (i := 5) rfl rfl
/-- the two blanks of the example line have different sizes -/
example : (Demo.askLine.ll_tokens.map fun t => t.pos_ends_at - t.pos_starts_at) = [1, 2, 3, 4, 3, 5, 6, 7] := rfl

/-! ### panics -/

/-- C126: the creation ends with the callback's panic exactly if the callback did not answer the last call; it
answered all calls before, and nothing else is called. -/
theorem C126_panic (cb : Callback) (input : List (InputToken W)) :
    (createLineFromInputTokensE W input cb).2 = .error .callback ↔
      ∃ pre s, (createLineFromInputTokensE W input cb).1 = pre ++ [s] ∧ Answers cb [] pre ∧ cb pre s = none := by
  obtain ⟨asked, r, he, _, _, hcb, hna⟩ := asks_create cb input []
  have he' : createLineFromInputTokensE W input cb = (asked, r) := he
  rw [he']
  simp only [List.nil_append] at hcb
  refine ⟨hcb, ?_⟩
  rintro ⟨pre, s, e, _, hn⟩
  apply Classical.byContradiction
  intro hr
  have := hna hr
  simp only at e
  rw [e] at this
  obtain ⟨n, hs⟩ := (answers_append.1 this).2.1
  rw [List.nil_append, hn] at hs
  cases hs

example : (createLineFromInputTokensE Demo.W Demo.askInput Demo.noRepeat).2 = .error .callback :=
  (C126_panic Demo.noRepeat Demo.askInput).2 ⟨[['d'], [' '], ['$'], ['1'], ['5']], [' '], rfl, by
    refine ⟨⟨_, rfl⟩, ⟨_, rfl⟩, ⟨_, rfl⟩, ⟨_, rfl⟩, ⟨_, rfl⟩, trivial⟩, rfl⟩

/-- C126: there is a line exactly if no input is one the tokenizer cannot take (as for C09), the callback answers
the texts in order, and the sizes do not overflow where overflows are checked. -/
theorem C126_ok (L : SplitLaws W) (hB : 0 < W.usizeBound) (cb : Callback) (input : List (InputToken W)) (wf : ∀ t ∈ input, t.WF) :
    (∃ l, (createLineFromInputTokensE W input cb).2 = .ok l) ↔
      (¬ ∃ t ∈ input, BadInput W t) ∧ Answers cb [] (input.flatMap (inputTexts W)) ∧
      (W.overflowChecks = false ∨
        (answered cb [] (input.flatMap (inputTexts W))).sum + (input.map ownSize).sum < W.usizeBound) := by
  rw [← sizedInputs_total]
  constructor
  · rintro ⟨l, hl⟩
    have h : createLineFromInputTokensE W input cb = ((createLineFromInputTokensE W input cb).1, .ok l) := Prod.ext rfl hl
    obtain ⟨hg, hc, _, st, hst, _⟩ := createE_ok wf h
    refine ⟨?_, ?_, ?_⟩
    · rintro ⟨t, ht, hb⟩
      exact (goodInput_iff L t).1 (hg t ht) hb
    · obtain ⟨asked, r, he, _, hok, _, hna⟩ := asks_create cb input []
      have he' : createLineFromInputTokensE W input cb = ([] ++ asked, r) := he
      rw [he'] at hl
      have hl' : r = .ok l := hl
      rw [hok l hl'] at hna
      exact hna (by rw [hl']; simp)
    · cases hoc : W.overflowChecks with
      | false => exact .inl rfl
      | true =>
        right
        cases input with
        | nil => exact hB
        | cons t ts => simpa using loop_overflow hoc (by simp) hst
  · rintro ⟨hb, ha, ho⟩
    have hg : ∀ t ∈ input, GoodInput W t := fun t ht => (goodInput_iff L t).2 fun h => hb ⟨t, ht, h⟩
    obtain ⟨c, l, h⟩ := createE_run wf hg ha ho
    exact ⟨l, by rw [h]⟩

example := (C126_ok Demo.splitLaws (by decide) Demo.counting Demo.askInput Demo.askInput_wf).1 ⟨_, rfl⟩
example := (C126_ok Demo.splitLaws (by decide) Demo.noRepeat Demo.askInput Demo.askInput_wf)

/-! ### the line -/

/-- C126: with a callback that is a function of the text, the creation is the one of the other theorems, panics
included. -/
theorem C126_pure (size : Str → Nat) (input : List (InputToken W)) :
    (createLineFromInputTokensE W input (Callback.of size)).2 = (createLineFromInputTokens W input size).mapError Stop.code :=
  ends_create size input []

example : (createLineFromInputTokensE Demo.W [.Text ['1','é'] []] (Callback.of utf8Len)).2 = .error (.code .nonAsciiDigitWord) :=
  C126_pure utf8Len [.Text ['1','é'] []]

/-- C126: however the callback answers, the line differs in positions only from the one of a size function; so by
C119 no resolver and no observer of attributes can tell them apart. -/
theorem C126_line {cb : Callback} {input : List (InputToken W)} {calls : List Str} {l : LLLine W} (wf : ∀ t ∈ input, t.WF)
    (h : createLineFromInputTokensE W input cb = (calls, .ok l)) :
    ∃ l', createLineFromInputTokens W input (fun _ => 0) = .ok l' ∧ SameButPositions l l' := by
  obtain ⟨hg, hc, ht, st, hst, hf⟩ := createE_ok wf h
  have est := (loop_ok (size := fun _ => 0) hst).2.2
  simp only [List.length_nil, List.nil_append] at est
  have hle : ∀ (ts : List (InputToken W)) (calls : List Str),
      totalSize (ts.flatMap (tokensOf W (fun _ => 0))) ≤ totalSize (sizedInputs W cb calls ts) := by
    intro ts
    induction ts with
    | nil => intro _; exact Nat.le_refl _
    | cons t ts ih =>
      intro calls
      have h1 := ih (calls ++ inputTexts W t)
      have h2 : totalSize (tokensOf W (fun _ => 0) t) ≤ totalSize (sizedInput W cb calls t) := by
        cases t with
        | Custom n as => exact Nat.le_refl _
        | Text s as =>
          have : totalSize (tokensOf W (fun _ => 0) (.Text s as)) = 0 := by
            simp only [totalSize, tokensOf, List.map_map]
            induction textPieces W s with
            | nil => rfl
            | cons p ps ih => simpa using ih
          rw [this]; exact Nat.zero_le _
      simp only [List.flatMap_cons, sizedInputs, totalSize, List.map_append, List.sum_append] at h1 h2 ⊢
      omega
  have ho : W.overflowChecks = false ∨ totalSize (input.flatMap (tokensOf W (fun _ => 0))) < W.usizeBound ∨ input = [] := by
    cases hoc : W.overflowChecks with
    | false => exact .inl rfl
    | true =>
      right
      cases input with
      | nil => exact .inr rfl
      | cons t ts =>
        left
        have := loop_overflow hoc (by simp) hst
        simp only [Nat.zero_add] at this
        exact Nat.lt_of_le_of_lt (hle _ _) this
  have hcr : ∃ l', createLineFromInputTokens W input (fun _ => 0) = .ok l' := by
    rcases ho with ho | ho | rfl
    · exact create_ok wf hg (.inl ho)
    · exact create_ok wf hg (.inr ho)
    · exact ⟨_, rfl⟩
  obtain ⟨l', hl'⟩ := hcr
  refine ⟨l', hl', ?_⟩
  simp only [createLineFromInputTokens] at hl'
  split at hl'
  · cases hl'
  rename_i st' hst'
  have est' := (createLoop_inv input hst').2
  simp only [List.length_nil, List.nil_append] at est'
  have htok : st.lltokens.map (·.token) = st'.lltokens.map (·.token) := by
    rw [est, est', layoutM_tokens, layoutM_tokens, sizedInputs_tokens cb (fun _ => 0)]
  unfold createFinish at hf
  split at hf
  · cases hf
  rename_i m hm
  split at hl'
  · cases hl'
  rename_i m' hm'
  have hsp : st.spans = st'.spans := by rw [est, est']
  rw [hsp] at hf
  exact addAny_same (new_sameTokens htok hm hm') hf hl'

example := C126_line Demo.askInput_wf Demo.askLine_ok

end LNlp
