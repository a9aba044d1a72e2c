import Verif.Lemmas.TokenProps
import Verif.Demo.Examples
/-
C01–C10: creating a line.  Theorems named `Cxx_…`; after each, a concrete case in the demo world
meeting the hypotheses.
-/
namespace LNlp
variable {W : World}

/-- C01: the tokens are, input token by input token, its pieces: no character of a text is lost, added or moved, and a
custom token is one token. -/
theorem C01_lossless (L : SplitLaws W) (size : Str → Nat) (input : List (InputToken W)) (l : LLLine W)
    (wf : ∀ t ∈ input, t.WF) (h : createLineFromInputTokens W input size = .ok l) :
    ∃ groups : List (List LToken), groups.length = input.length ∧
      l.ll_tokens.map (·.token) = groups.flatten ∧
      ∀ p ∈ input.zip groups, p.2 ≠ [] ∧ GroupOf p.1 p.2 := by
  obtain ⟨hg, htoks, _⟩ := create_inv wf h
  refine ⟨input.map (fun t => (tokensOf W size t).map (·.1)), by simp, ?_, ?_⟩
  · rw [htoks, layoutM_tokens]
    simp [List.flatMap_def, List.map_flatten, Function.comp_def]
  · intro p hp
    have : p.1 ∈ input ∧ p.2 = (tokensOf W size p.1).map (·.1) := by
      obtain ⟨a, b⟩ := p
      rw [List.zip_map_right] at hp
      simp only [List.mem_map] at hp
      obtain ⟨⟨x, y⟩, hxy, he⟩ := hp
      simp only [Prod.map_apply, id_eq, Prod.mk.injEq] at he
      obtain ⟨rfl, rfl⟩ := he
      have := List.of_mem_zip hxy
      have hxy' : x = y := by
        rw [List.zip_eq_zipWith] at hxy
        have : ∀ (l : List (InputToken W)) (x y), (x, y) ∈ List.zipWith Prod.mk l l → x = y := by
          intro l; induction l with
          | nil => intro x y h; simp at h
          | cons a as ih =>
            intro x y h; simp at h
            rcases h with ⟨rfl, rfl⟩ | h
            · rfl
            · exact ih x y (by simpa using h)
        exact this _ _ _ hxy
      subst hxy'
      exact ⟨this.1, rfl⟩
    obtain ⟨hin, he⟩ := this
    rw [he]
    refine ⟨by simpa using (inputTokens_ok size (hg _ hin)).2, ?_⟩
    cases hp1 : p.1 with
    | Custom n as => simp [GroupOf, tokensOf]
    | Text s as =>
      refine ⟨?_, ?_⟩
      · intro x hx
        simp [tokensOf] at hx
        obtain ⟨a, b, _, rfl⟩ := hx
        exact ⟨_, _, rfl⟩
      · have := textPieces_concat W s
        rw [L.concat] at this
        simpa [tokensOf, Function.comp_def, LToken.str] using this

example := C01_lossless Demo.splitLaws List.length Demo.exInput _ Demo.exInput_wf
  Demo.exInput_ok.choose_spec

/-- C01, sharper: the exact tokens, by the run specification of `Spec/History.lean`. -/
theorem C01_exact_tokens (size : Str → Nat) (input : List (InputToken W)) (l : LLLine W)
    (wf : ∀ t ∈ input, t.WF) (h : createLineFromInputTokens W input size = .ok l) :
    l.ll_tokens.map (·.token) = (input.flatMap (tokensOf W size)).map (·.1) := by
  obtain ⟨_, htoks, _⟩ := create_inv wf h
  rw [htoks, layoutM_tokens]

example := C01_exact_tokens List.length Demo.exInput _ Demo.exInput_wf Demo.exInput_ok.choose_spec

/-- C02: token `i` has index `i`, starts at the total size of the tokens before it, and is as long as
its size (`size text` for a text token, the given size for a custom one: that is `tokensOf`). -/
theorem C02_positions_tile (size : Str → Nat) (input : List (InputToken W)) (l : LLLine W)
    (wf : ∀ t ∈ input, t.WF) (h : createLineFromInputTokens W input size = .ok l)
    (fits : totalSize (input.flatMap (tokensOf W size)) < W.usizeBound) :
    l.ll_tokens.length = (input.flatMap (tokensOf W size)).length ∧
    ∀ (i : Nat) (tok : LLToken), l.ll_tokens[i]? = some tok →
      ∃ n, (input.flatMap (tokensOf W size))[i]? = some (tok.token, n) ∧ tok.token_idx = i ∧
        tok.pos_starts_at = totalSize ((input.flatMap (tokensOf W size)).take i) ∧
        tok.pos_ends_at = tok.pos_starts_at + n := by
  obtain ⟨_, htoks, _⟩ := create_inv wf h
  refine ⟨by rw [htoks]; simp, ?_⟩
  intro i tok hi
  rw [htoks] at hi
  obtain ⟨n, h1, h2, h3, h4⟩ := layoutM_get _ 0 0 i tok (by simpa using fits) hi
  exact ⟨n, h1, by omega, by omega, h4⟩

example := C02_positions_tile List.length Demo.exInput _ Demo.exInput_wf Demo.exInput_ok.choose_spec
  (by decide)

/-- C02: a text token is as long as the caller's function says of its text, and a custom one as long as some custom input. -/
theorem C02_own_size (size : Str → Nat) (input : List (InputToken W)) (l : LLLine W)
    (wf : ∀ t ∈ input, t.WF) (h : createLineFromInputTokens W input size = .ok l)
    (fits : totalSize (input.flatMap (tokensOf W size)) < W.usizeBound) :
    ∀ tok ∈ l.ll_tokens, (∀ s tag, tok.token = .Text s tag → tok.pos_ends_at = tok.pos_starts_at + size s) ∧
      (tok.token = .Value → ∃ n as, .Custom n as ∈ input ∧ tok.pos_ends_at = tok.pos_starts_at + n) := by
  intro tok ht
  obtain ⟨i, hi, rfl⟩ := List.getElem_of_mem ht
  obtain ⟨n, h1, _, _, h4⟩ := (C02_positions_tile size input l wf h fits).2 i _ (List.getElem?_eq_getElem hi)
  obtain ⟨t, hin, hm⟩ := List.mem_flatMap.1 (List.mem_of_getElem? h1)
  cases t with
  | Text s as =>
    obtain ⟨p, _, e⟩ := List.mem_map.1 hm
    obtain ⟨e1, e2⟩ := Prod.mk.inj e
    rw [← e1]
    refine ⟨fun s' tag he => ?_, fun he => by cases he⟩
    cases he
    rw [h4, ← e2]
  | Custom m as =>
    obtain ⟨e1, e2⟩ := Prod.mk.inj (List.mem_singleton.1 hm)
    rw [e1]
    exact ⟨fun _ _ he => (by cases he), fun _ => ⟨m, as, hin, by rw [h4, e2]⟩⟩

example := C02_own_size List.length Demo.exInput _ Demo.exInput_wf Demo.exInput_ok.choose_spec (by decide)

/-- C02, as users see it: the first token starts at 0, and every token starts where the previous one
ends. -/
theorem C02_no_gaps (size : Str → Nat) (input : List (InputToken W)) (l : LLLine W)
    (wf : ∀ t ∈ input, t.WF) (h : createLineFromInputTokens W input size = .ok l) :
    (∀ tok, l.ll_tokens[0]? = some tok → tok.pos_starts_at = 0) ∧
    ∀ i a b, l.ll_tokens[i]? = some a → l.ll_tokens[i + 1]? = some b →
      b.pos_starts_at = a.pos_ends_at ∧ b.token_idx = a.token_idx + 1 := by
  obtain ⟨_, htoks, _⟩ := create_inv wf h
  rw [htoks]
  generalize input.flatMap (tokensOf W size) = toks
  have key : ∀ (toks : List (LToken × Nat)) (i p : Nat),
      (∀ tok, (layoutM W.usizeBound i p toks)[0]? = some tok → tok.pos_starts_at = p ∧ tok.token_idx = i) ∧
      ∀ j a b, (layoutM W.usizeBound i p toks)[j]? = some a →
        (layoutM W.usizeBound i p toks)[j + 1]? = some b →
        b.pos_starts_at = a.pos_ends_at ∧ b.token_idx = a.token_idx + 1 := by
    intro toks
    induction toks with
    | nil => intro i p; simp [layoutM]
    | cons x rest ih =>
      intro i p
      obtain ⟨t, n⟩ := x
      refine ⟨by simp [layoutM], ?_⟩
      intro j a b ha hb
      obtain ⟨ih0, ih1⟩ := ih (i + 1) ((p + n) % W.usizeBound)
      cases j with
      | zero =>
        simp [layoutM] at ha hb
        obtain ⟨e1, e2⟩ := ih0 b (by simpa using hb)
        rw [e1, e2, ← ha]; exact ⟨rfl, rfl⟩
      | succ j =>
        simp [layoutM] at ha hb
        exact ih1 j a b ha hb
  exact ⟨fun tok ht => ((key toks 0 0).1 tok ht).1, (key toks 0 0).2⟩

example := C02_no_gaps List.length Demo.exInput _ Demo.exInput_wf Demo.exInput_ok.choose_spec

/-- C03: the positions of a line made from a string are the byte offsets of the token's text in the string. -/
theorem C03_byte_offsets (L : SplitLaws W) (s : Str) (l : LLLine W)
    (h : createLineFromString W s = .ok l) (fits : utf8Len s < W.usizeBound) :
    ∀ tok ∈ l.ll_tokens, ∃ text tag pre post, tok.token = .Text text tag ∧ s = pre ++ text ++ post ∧
      tok.pos_starts_at = utf8Len pre ∧ tok.pos_ends_at = utf8Len (pre ++ text) := by
  have wf : ∀ t ∈ [InputToken.Text (W := W) s []], t.WF := by
    intro t ht a ha; simp at ht; subst ht; simp [InputToken.attrList] at ha
  have hsum : ∀ (ps : List (Str × TextTag)),
      totalSize (ps.map (fun p => (LToken.Text p.1 p.2, utf8Len p.1))) = utf8Len ((ps.map (·.1)).flatten) := by
    intro ps
    rw [utf8Len_flatten]
    simp [totalSize, Function.comp_def]
  have hs : ((textPieces W s).map (·.1)).flatten = s := by rw [textPieces_concat, L.concat]
  have htoks : ([InputToken.Text (W := W) s []].flatMap (tokensOf W utf8Len)) =
      (textPieces W s).map (fun p => (LToken.Text p.1 p.2, utf8Len p.1)) := by simp [tokensOf]
  obtain ⟨_, key⟩ := C02_positions_tile utf8Len _ l wf h (by rw [htoks, hsum, hs]; exact fits)
  intro tok ht
  obtain ⟨i, hi, he⟩ := List.mem_iff_getElem.1 ht
  obtain ⟨n, h1, _, h3, h4⟩ := key i tok (by rw [← he]; exact List.getElem?_eq_getElem hi)
  rw [htoks] at h1 h3
  rw [List.getElem?_map] at h1
  cases hp : (textPieces W s)[i]? with
  | none => simp [hp] at h1
  | some p =>
    simp only [hp, Option.map_some, Option.some.injEq, Prod.mk.injEq] at h1
    have hsplit := pieces_split _ i p hp
    rw [hs] at hsplit
    rw [← List.map_take, hsum] at h3
    refine ⟨p.1, p.2, _, _, h1.1.symm, hsplit, h3, ?_⟩
    rw [h4, h3, utf8Len_append, h1.2]

example : ∃ l, createLineFromString Demo.W ['d','é','1','2'] = .ok l ∧
    utf8Len ['d','é','1','2'] < Demo.W.usizeBound := ⟨_, rfl, by decide⟩

/-- C04: no text token is empty. -/
theorem C04_no_empty_tokens (size : Str → Nat) (input : List (InputToken W)) (l : LLLine W)
    (wf : ∀ t ∈ input, t.WF) (h : createLineFromInputTokens W input size = .ok l) :
    ∀ tok ∈ l.ll_tokens, ∀ tag, tok.token ≠ .Text [] tag := by
  intro tok ht tag he
  obtain ⟨_, _, w, _, _, hw, hp⟩ := create_token_origin wf h ht he
  unfold wordPieces at hp
  split at hp
  · exact (runsOf_uniform W w _ hp).1 rfl
  · simp at hp; exact hw.1 hp.1

example := C04_no_empty_tokens List.length Demo.exInput _ Demo.exInput_wf Demo.exInput_ok.choose_spec

/-- C05: a text token is tagged `NATN` exactly if its text is a non-empty string of ASCII digits. -/
theorem C05_natn_iff_digits (size : Str → Nat) (input : List (InputToken W)) (l : LLLine W)
    (wf : ∀ t ∈ input, t.WF) (h : createLineFromInputTokens W input size = .ok l) :
    ∀ tok ∈ l.ll_tokens, ∀ s tag, tok.token = .Text s tag →
      (tag = .NATN ↔ s ≠ [] ∧ ∀ c ∈ s, IsDigit c) := by
  intro tok ht s tag he
  obtain ⟨_, _, w, _, _, hw, hp⟩ := create_token_origin wf h ht he
  unfold wordPieces at hp
  split at hp
  · obtain ⟨h1, h2, h3⟩ := runsOf_uniform W w _ hp
    simp only at h1 h2 h3
    constructor
    · rintro rfl
      exact ⟨h1, fun c hc => charTag_digit.1 (h2 c hc).1⟩
    · rintro ⟨_, hd⟩
      cases s with
      | nil => exact absurd rfl h1
      | cons c cs =>
        rw [← (h2 c (by simp)).1]; exact charTag_digit.2 (hd c (by simp))
  · next hn =>
    simp at hp
    obtain ⟨rfl, rfl⟩ := hp
    constructor
    · intro hh; exact absurd hh (wordTag_ne_natn W s)
    · rintro ⟨h1, hd⟩
      cases s with
      | nil => exact absurd rfl h1
      | cons c cs => exact absurd ⟨c, by simp, hd c (by simp)⟩ hn

example := C05_natn_iff_digits List.length Demo.exInput _ Demo.exInput_wf Demo.exInput_ok.choose_spec

/-- C06: what the texts with each of the tags `SPACE`, `WORD` and `SYMB` look like; for `WORD` exactly. -/
theorem C06_tags_determined (A : AsciiLaws W) (size : Str → Nat) (input : List (InputToken W))
    (l : LLLine W) (wf : ∀ t ∈ input, t.WF)
    (h : createLineFromInputTokens W input size = .ok l) :
    ∀ tok ∈ l.ll_tokens, ∀ s tag, tok.token = .Text s tag →
      (tag = .SPACE → ∀ c ∈ s, W.isWhitespace c = true) ∧
      (tag = .WORD ↔ WordText W s) ∧
      (tag = .SYMB → (∃ c ∈ s, ¬ W.isWhitespace c = true) ∧ (∀ c, s = [c] → ¬ DocPunct c) ∧
        ¬ WordText W s ∧ ∃ c ∈ s, ¬ IsDigit c) := by
  intro tok ht s tag he
  obtain ⟨_, _, w, _, _, hw, hp⟩ := create_token_origin wf h ht he
  unfold wordPieces at hp
  split at hp
  · obtain ⟨h1, h2, h3⟩ := runsOf_uniform W w _ hp
    simp only at h1 h2 h3
    have htag : tag = .NATN ∨ tag = .WORD ∨ tag = .PUNC := by
      cases s with
      | nil => exact absurd rfl h1
      | cons c cs =>
        rw [← (h2 c (by simp)).1]
        rcases charTag_cases W c with ⟨e, _⟩ | ⟨e, _⟩ | ⟨e, _⟩ <;> simp [e]
    refine ⟨?_, wordText_run A hp, ?_⟩ <;> intro e <;> subst e <;> simp at htag
  · next hn =>
    simp at hp
    obtain ⟨rfl, rfl⟩ := hp
    have hs : ¬ s = [] := hw.1
    have nd : ∃ c ∈ s, ¬ IsDigit c := by
      cases s with
      | nil => exact absurd rfl hs
      | cons c cs => exact ⟨c, by simp, fun hd => hn ⟨c, by simp, hd⟩⟩
    unfold wordTag
    by_cases a : ∀ c ∈ s, W.isWhitespace c = true
    · rw [if_pos a]
      refine ⟨fun _ => a, ⟨by simp, ?_⟩, by simp⟩
      rintro ⟨c, cs, rfl, hc, _⟩
      have := A.alpha_not_space c hc
      rw [a c (by simp)] at this; cases this
    · rw [if_neg a]
      by_cases b : ∃ c ∈ s, s = [c] ∧ DocPunct c
      · rw [if_pos b]
        refine ⟨by simp, ⟨by simp, ?_⟩, by simp⟩
        rintro ⟨c, cs, rfl, hc, _⟩
        obtain ⟨d, _, hd, hp⟩ := b
        simp at hd
        rw [hd.1, A.punct_not_alpha d hp] at hc; cases hc
      · rw [if_neg b]
        by_cases c : WordText W s
        · rw [if_pos c]; exact ⟨by simp, by simp [c], by simp⟩
        · rw [if_neg c]
          refine ⟨by simp, by simp [c], fun _ => ⟨?_, ?_, c, nd⟩⟩
          · exact Classical.byContradiction fun hh => a fun d hd =>
              Classical.byContradiction fun hc => hh ⟨d, hd, hc⟩
          · rintro d rfl hd; exact b ⟨d, by simp, rfl, hd⟩

example := C06_tags_determined Demo.asciiLaws List.length Demo.exInput _ Demo.exInput_wf
  Demo.exInput_ok.choose_spec

/-- C07 as documented: a PUNC token is one of the eight documented characters. -/
def C07_claim (W : World) : Prop :=
  ∀ (size : Str → Nat) (input : List (InputToken W)) (l : LLLine W), (∀ t ∈ input, t.WF) →
    createLineFromInputTokens W input size = .ok l →
    ∀ tok ∈ l.ll_tokens, ∀ s, tok.token = .Text s .PUNC → ∃ c, s = [c] ∧ DocPunct c

/-- C07 is false of the code: in "1_0" the underscore is tagged PUNC. -/
theorem C07_punc_documented_false : ¬ C07_claim Demo.W := by
  intro h
  have := h List.length [.Text ['1','_','0'] []] _
    (by intro t ht a ha; simp at ht; subst ht; simp [InputToken.attrList] at ha) rfl
    ⟨1, 1, 2, .Text ['_'] .PUNC⟩ (List.mem_cons_of_mem _ (List.mem_cons_self ..)) ['_'] rfl
  obtain ⟨c, hc, hp⟩ := this
  simp at hc; subst hc
  revert hp; decide

/-- C07, what holds: a PUNC token is a single character, either documented punctuation or an ASCII
character of a digit word that is neither digit nor letter; and every token that is one documented
punctuation character is PUNC. Missing from the full claim: the first disjunct alone. -/
theorem C07_punc_partial (A : AsciiLaws W) (size : Str → Nat) (input : List (InputToken W))
    (l : LLLine W) (wf : ∀ t ∈ input, t.WF)
    (h : createLineFromInputTokens W input size = .ok l) :
    ∀ tok ∈ l.ll_tokens, ∀ s tag, tok.token = .Text s tag →
      (tag = .PUNC → ∃ c, s = [c] ∧
        (DocPunct c ∨ (c.toNat < 128 ∧ ¬ IsDigit c ∧ W.isAlphabetic c = false))) ∧
      (∀ c, s = [c] → DocPunct c → tag = .PUNC) := by
  intro tok ht s tag he
  obtain ⟨_, _, w, _, _, hw, hp⟩ := create_token_origin wf h ht he
  have notdigit : ∀ c, DocPunct c → ¬ IsDigit c := by
    intro c hc
    rcases hc with h | h | h | h | h | h | h | h <;> subst h <;> decide
  unfold wordPieces at hp
  split at hp
  · next hd =>
    obtain ⟨h1, h2, h3⟩ := runsOf_uniform W w _ hp
    simp only at h1 h2 h3
    constructor
    · intro htag
      obtain ⟨c, rfl⟩ := h3 htag
      refine ⟨c, rfl, Or.inr ⟨hw.2 hd c (h2 c (by simp)).2, ?_⟩⟩
      have := (h2 c (by simp)).1
      rw [htag] at this
      rcases charTag_cases W c with ⟨e, _⟩ | ⟨e, _⟩ | ⟨_, e1, e2⟩
      · rw [e] at this; cases this
      · rw [e] at this; cases this
      · exact ⟨e1, by simpa using e2⟩
    · rintro c rfl hc
      rw [← (h2 c (by simp)).1]
      rcases charTag_cases W c with ⟨_, e⟩ | ⟨_, _, e⟩ | ⟨e, _⟩
      · exact absurd e (notdigit c hc)
      · rw [A.punct_not_alpha c hc] at e; cases e
      · exact e
  · simp at hp
    obtain ⟨rfl, rfl⟩ := hp
    constructor
    · intro htag
      unfold wordTag at htag
      split at htag
      · cases htag
      · split at htag
        · next hb => obtain ⟨c, _, hs, hc⟩ := hb; exact ⟨c, hs, Or.inl hc⟩
        · split at htag <;> cases htag
    · rintro c rfl hc
      unfold wordTag
      rw [if_neg (by simp [A.punct_not_space c hc]), if_pos ⟨c, by simp, rfl, hc⟩]

example := C07_punc_partial Demo.asciiLaws List.length Demo.exInput _ Demo.exInput_wf
  Demo.exInput_ok.choose_spec

/-- C08, first half: inside a word that starts with a digit, digit runs and letter runs are maximal. -/
theorem C08_runs_maximal_in_word (size : Str → Nat) (input : List (InputToken W))
    (l : LLLine W) (wf : ∀ t ∈ input, t.WF) (h : createLineFromInputTokens W input size = .ok l)
    (pre post : List (InputToken W)) (s : Str) (as : List (AnyAttribute W))
    (hin : input = pre ++ .Text s as :: post) (ws1 ws2 : List Str) (w : Str)
    (hw : W.splitWordBounds s = ws1 ++ w :: ws2) (hd : ∃ c ∈ w.head?, IsDigit c) :
    ∃ before block after, l.ll_tokens.map (·.token) = before ++ block ++ after ∧
      (block.map LToken.str).flatten = w ∧
      (∃ pretoks, before = pretoks ++ (ws1.flatMap (wordPieces W)).map (fun p => .Text p.1 p.2) ∧
        pretoks.length = (pre.flatMap (tokensOf W size)).length) ∧
      NoTwins [.NATN, .WORD] block := by
  refine ⟨_, _, _, word_block size input l wf h hin hw, ?_, ⟨_, rfl, by simp⟩, ?_⟩
  · have := wordPieces_concat W w
    simpa [Function.comp_def, LToken.str] using this
  · have hwp : wordPieces W w = runsOf W w := by simp only [wordPieces, if_pos hd]
    rw [hwp]
    intro u v s1 s2 t1 t2 he
    rw [List.map_eq_append_iff] at he
    obtain ⟨u', r, hr, hu, he⟩ := he
    rw [List.map_eq_cons_iff] at he
    obtain ⟨p, r2, hr2, hp, he⟩ := he
    rw [List.map_eq_cons_iff] at he
    obtain ⟨q, r3, hr3, hq, he⟩ := he
    simp at hp hq
    have := runsOf_maximal W w u' r3 p q (by rw [hr, hr2, hr3])
    rintro ⟨h1, h2⟩
    apply this
    rw [hp.2, hq.2]
    refine ⟨h1, ?_⟩
    rintro rfl; simp at h2

example : ∃ l, createLineFromInputTokens Demo.W [.Text ['x',' ','1','2','a','b'] []] List.length = .ok l ∧
    Demo.W.splitWordBounds ['x',' ','1','2','a','b'] = [['x'],[' ']] ++ ['1','2','a','b'] :: [] :=
  ⟨_, rfl, rfl⟩

/-- C08, second half: inside one Text input no two neighbouring tokens are both NATN. -/
theorem C08_no_adjacent_numbers (NB : NoDigitBreak W) (size : Str → Nat)
    (input : List (InputToken W)) (l : LLLine W) (wf : ∀ t ∈ input, t.WF)
    (h : createLineFromInputTokens W input size = .ok l)
    (pre post : List (InputToken W)) (s : Str) (as : List (AnyAttribute W))
    (hin : input = pre ++ .Text s as :: post) :
    ∃ before block after, l.ll_tokens.map (·.token) = before ++ block ++ after ∧
      before.length = (pre.flatMap (tokensOf W size)).length ∧
      block.length = (tokensOf W size (.Text s as)).length ∧ NoTwins [.NATN] block := by
  obtain ⟨hg, htoks, _⟩ := create_inv wf h
  refine ⟨(pre.flatMap (tokensOf W size)).map (·.1), (textPieces W s).map (fun p => .Text p.1 p.2),
    (post.flatMap (tokensOf W size)).map (·.1), ?_, by simp, by simp [tokensOf], ?_⟩
  · rw [htoks, layoutM_tokens, hin]
    simp [tokensOf, Function.comp_def]
  · intro u v s1 s2 t1 t2 he
    rw [List.map_eq_append_iff] at he
    obtain ⟨u', r, hr, hu, he⟩ := he
    rw [List.map_eq_cons_iff] at he
    obtain ⟨p, r2, hr2, hp, he⟩ := he
    rw [List.map_eq_cons_iff] at he
    obtain ⟨q, r3, hr3, hq, he⟩ := he
    simp at hp hq
    have hgt : GoodText W s := (hg (.Text s as) (by rw [hin]; simp)).1
    have := pieces_no_digit_twins (W := W) (W.splitWordBounds s) hgt
      (fun pre post w1 w2 c d he => NB s pre post w1 w2 c d he) u' r3 p q
      (by rw [← hr3, ← hr2, ← hr]; rfl)
    rintro ⟨h1, h2⟩
    simp at h2
    apply this
    rw [hp.2, hq.2, ← h1, h2]; exact ⟨rfl, rfl⟩

example := C08_no_adjacent_numbers Demo.noDigitBreak List.length Demo.exInput _ Demo.exInput_wf
  Demo.exInput_ok.choose_spec (Demo.exInput.take 2) [] ['1','_','0'] [] rfl

/-- C09: exactly when creation panics -/
theorem C09_creation_panics_iff (L : SplitLaws W) (hB : 0 < W.usizeBound) (size : Str → Nat)
    (input : List (InputToken W)) (wf : ∀ t ∈ input, t.WF) :
    (∃ e, createLineFromInputTokens W input size = .error e) ↔
      (∃ t ∈ input, BadInput W t) ∨
      (W.overflowChecks = true ∧ W.usizeBound ≤ totalSize (input.flatMap (tokensOf W size))) := by
  constructor
  · rintro ⟨e, he⟩
    apply Classical.byContradiction
    intro hn
    have h1 : ∀ t ∈ input, GoodInput W t := fun t ht =>
      (goodInput_iff L t).2 fun hb => hn (Or.inl ⟨t, ht, hb⟩)
    have h2 : W.overflowChecks = false ∨ totalSize (input.flatMap (tokensOf W size)) < W.usizeBound := by
      cases ho : W.overflowChecks with
      | false => exact Or.inl rfl
      | true => right; exact Nat.lt_of_not_le fun hc => hn (Or.inr ⟨ho, hc⟩)
    obtain ⟨l, hl⟩ := create_ok (size := size) wf h1 h2
    rw [hl] at he; cases he
  · intro hc
    cases hl : createLineFromInputTokens W input size with
    | error e => exact ⟨e, rfl⟩
    | ok l =>
      exfalso
      rcases hc with ⟨t, ht, hb⟩ | ⟨ho, hc⟩
      · exact (goodInput_iff L t).1 ((create_inv wf hl).1 t ht) hb
      · have hne : input ≠ [] := by
          rintro rfl; simp [totalSize] at hc; omega
        obtain ⟨e, he⟩ := createLoop_overflow ho (size := size) input
          { spans := [], lltokens := [], current_size := 0 } hne (by simpa using hc)
        simp only [createLineFromInputTokens, he] at hl
        cases hl

example := (C09_creation_panics_iff Demo.splitLaws (by decide) List.length Demo.exInput Demo.exInput_wf)

/-- the expectation "creating a line from non-empty text never panics" -/
def C09_nonempty_claim (W : World) : Prop := ∀ s : Str, s ≠ [] → ∃ l, createLineFromString W s = .ok l

/-- C09: that expectation is false: "1é" panics. -/
theorem C09_nonempty_never_panics_false : ¬ C09_nonempty_claim Demo.W := by
  intro h
  obtain ⟨l, hl⟩ := h ['1', 'é'] (by simp)
  have : createLineFromString Demo.W ['1', 'é'] = .error .nonAsciiDigitWord := rfl
  rw [this] at hl; cases hl

/-- C10, with overflow checks: if creation returns at all, the total fits and positions are exact. -/
theorem C10_checked_positions_exact (hc : W.overflowChecks = true) (hB : 0 < W.usizeBound)
    (size : Str → Nat) (input : List (InputToken W)) (l : LLLine W) (wf : ∀ t ∈ input, t.WF)
    (h : createLineFromInputTokens W input size = .ok l) :
    totalSize (input.flatMap (tokensOf W size)) < W.usizeBound ∧
    ∀ tok ∈ l.ll_tokens, tok.pos_starts_at ≤ tok.pos_ends_at ∧ tok.pos_ends_at < W.usizeBound := by
  have fits : totalSize (input.flatMap (tokensOf W size)) < W.usizeBound := by
    apply Nat.lt_of_not_le
    intro hn
    have hne : input ≠ [] := by
      rintro rfl; simp [totalSize] at hn; omega
    obtain ⟨e, he⟩ := createLoop_overflow hc (size := size) input
      { spans := [], lltokens := [], current_size := 0 } hne (by simpa using hn)
    simp only [createLineFromInputTokens, he] at h
    cases h
  refine ⟨fits, ?_⟩
  intro tok ht
  obtain ⟨i, hi, he⟩ := List.mem_iff_getElem.1 ht
  obtain ⟨n, h1, _, h3, h4⟩ := (C02_positions_tile size input l wf h fits).2 i tok
    (by rw [← he]; exact List.getElem?_eq_getElem hi)
  refine ⟨by omega, ?_⟩
  have hlen : i < (input.flatMap (tokensOf W size)).length := by
    rcases Nat.lt_or_ge i (input.flatMap (tokensOf W size)).length with hh | hh
    · exact hh
    · rw [List.getElem?_eq_none hh] at h1; cases h1
  have hsum : totalSize ((input.flatMap (tokensOf W size)).take i) + n ≤
      totalSize (input.flatMap (tokensOf W size)) := by
    have key : ∀ (toks : List (LToken × Nat)) (i : Nat) (t : LToken) (n : Nat),
        toks[i]? = some (t, n) → totalSize (toks.take i) + n ≤ totalSize toks := by
      intro toks
      induction toks with
      | nil => intro i t n h1; simp at h1
      | cons x xs ih =>
        intro i t n h1
        cases i with
        | zero => simp at h1; subst h1; simp [totalSize]
        | succ i =>
          have := ih i t n (by simpa using h1)
          simp [totalSize] at this ⊢; omega
    exact key _ i _ n h1
  omega

example := C10_checked_positions_exact (W := Demo.W) rfl (by decide) List.length Demo.exInput _
  Demo.exInput_wf Demo.exInput_ok.choose_spec

/-- the demo world compiled without overflow checks -/
def Demo.Wrelease : World := { Demo.W with overflowChecks := false }

/-- "token positions are monotone" -/
def C10_monotone_claim (W : World) : Prop :=
  ∀ (size : Str → Nat) (input : List (InputToken W)) (l : LLLine W), (∀ t ∈ input, t.WF) →
    createLineFromInputTokens W input size = .ok l →
    ∀ tok ∈ l.ll_tokens, tok.pos_starts_at ≤ tok.pos_ends_at

/-- C10, without overflow checks: positions wrap around and are no longer monotone. -/
theorem C10_release_wraps : ¬ C10_monotone_claim Demo.Wrelease := by
  intro h
  have := h List.length [.Custom (2 ^ 64 - 1) [], .Custom 2 []] _
    (by intro t ht a ha; simp at ht; rcases ht with rfl | rfl <;> simp [InputToken.attrList] at ha) rfl
    ⟨1, 2 ^ 64 - 1, 1, .Value⟩ (List.mem_cons_of_mem _ (List.mem_cons_self ..))
  simp at this

/-- C10, in general: without overflow checks positions are exact modulo the `usize` range. -/
theorem C10_positions_mod (size : Str → Nat) (input : List (InputToken W)) (l : LLLine W)
    (wf : ∀ t ∈ input, t.WF) (h : createLineFromInputTokens W input size = .ok l) :
    ∀ (i : Nat) (tok : LLToken), l.ll_tokens[i]? = some tok →
      tok.pos_starts_at = totalSize ((input.flatMap (tokensOf W size)).take i) % W.usizeBound ∧
      tok.pos_ends_at = totalSize ((input.flatMap (tokensOf W size)).take (i + 1)) % W.usizeBound := by
  obtain ⟨_, htoks, _⟩ := create_inv wf h
  rw [htoks]
  generalize input.flatMap (tokensOf W size) = toks
  have key : ∀ (toks : List (LToken × Nat)) (j p q i : Nat) (tok : LLToken), p = q % W.usizeBound →
      (layoutM W.usizeBound j p toks)[i]? = some tok →
      tok.pos_starts_at = (q + totalSize (toks.take i)) % W.usizeBound ∧
      tok.pos_ends_at = (q + totalSize (toks.take (i + 1))) % W.usizeBound := by
    intro toks
    induction toks with
    | nil => intro j p q i tok _ hh; simp [layoutM] at hh
    | cons x rest ih =>
      intro j p q i tok hp hh
      obtain ⟨t, n⟩ := x
      cases i with
      | zero =>
        simp [layoutM] at hh; subst hh
        simp [totalSize, hp]
      | succ i =>
        simp [layoutM] at hh
        have := ih (j + 1) ((p + n) % W.usizeBound) (q + n) i tok (by rw [hp]; simp) hh
        simp [totalSize, Nat.add_assoc] at this ⊢; exact this
  intro i tok hi
  have := key toks 0 0 0 i tok (by simp) hi
  simpa using this

example := C10_positions_mod (W := Demo.W) List.length Demo.exInput _
  Demo.exInput_wf Demo.exInput_ok.choose_spec

end LNlp
