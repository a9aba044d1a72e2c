import Verif.Lemmas.Pieces
/- Helper lemmas for Props/Tokenize.lean. -/
namespace LNlp
variable {W : World}

theorem layoutM_get {B : Nat} : ∀ (toks : List (LToken × Nat)) (i p j : Nat) (tok : LLToken),
    p + totalSize toks < B → (layoutM B i p toks)[j]? = some tok →
    ∃ n, toks[j]? = some (tok.token, n) ∧ tok.token_idx = i + j ∧
      tok.pos_starts_at = p + totalSize (toks.take j) ∧ tok.pos_ends_at = tok.pos_starts_at + n
  | [], i, p, j, tok, _, h => by simp [layoutM] at h
  | (t, n) :: rest, i, p, j, tok, hb, h => by
    have hlt : p + n < B := by simp [totalSize] at hb; omega
    simp only [layoutM, Nat.mod_eq_of_lt hlt] at h
    cases j with
    | zero =>
      simp at h; subst h
      exact ⟨n, by simp [totalSize]⟩
    | succ j =>
      simp only [List.getElem?_cons_succ] at h
      obtain ⟨m, h1, h2, h3, h4⟩ := layoutM_get rest (i + 1) (p + n) j tok
        (by simp [totalSize] at hb ⊢; omega) h
      exact ⟨m, by simpa using h1, by omega, by simp [totalSize] at h3 ⊢; omega, h4⟩

theorem utf8Len_append (a b : Str) : utf8Len (a ++ b) = utf8Len a + utf8Len b := by
  simp [utf8Len]

theorem utf8Len_flatten (l : List Str) : utf8Len l.flatten = (l.map utf8Len).sum := by
  induction l with
  | nil => rfl
  | cons a as ih => simp [utf8Len_append, ih]

theorem pieces_split : ∀ (pieces : List (Str × TextTag)) (i : Nat) (p : Str × TextTag),
    pieces[i]? = some p →
    (pieces.map (·.1)).flatten = ((pieces.take i).map (·.1)).flatten ++ p.1 ++
      ((pieces.drop (i + 1)).map (·.1)).flatten
  | [], i, p, h => by simp at h
  | x :: xs, 0, p, h => by simp at h; subst h; simp
  | x :: xs, i + 1, p, h => by
    have := pieces_split xs i p (by simpa using h)
    simp only [List.map_cons, List.flatten_cons, this, List.take_succ_cons, List.drop_succ_cons]
    simp

theorem wordText_run (A : AsciiLaws W) {w : Str} {s : Str} {tag : TextTag} (h : (s, tag) ∈ runsOf W w) :
    (tag = .WORD ↔ WordText W s) := by
  obtain ⟨h1, h2, h3⟩ := runsOf_uniform W w _ h
  simp only at h1 h2 h3
  constructor
  · rintro rfl
    cases s with
    | nil => exact absurd rfl h1
    | cons c cs =>
      have alpha : ∀ d ∈ c :: cs, W.isAlphabetic d = true := by
        intro d hd
        rcases charTag_cases W d with ⟨e, _⟩ | ⟨_, _, e⟩ | ⟨e, _⟩
        · rw [(h2 d hd).1] at e; cases e
        · exact e
        · rw [(h2 d hd).1] at e; cases e
      exact ⟨c, cs, rfl, alpha c (by simp), fun d hd => Or.inl (alpha d (by simp [hd]))⟩
  · rintro ⟨c, cs, rfl, ha, _⟩
    rw [← (h2 c (by simp)).1]
    rcases charTag_cases W c with ⟨_, e⟩ | ⟨e, _⟩ | ⟨_, _, e⟩
    · rw [A.digit_not_alpha c e] at ha; cases ha
    · exact e
    · exact absurd ha e

/-- the tokens of a word, as a block of the line's tokens -/
theorem word_block (size : Str → Nat) (input : List (InputToken W)) (l : LLLine W)
    (wf : ∀ t ∈ input, t.WF) (h : createLineFromInputTokens W input size = .ok l)
    {pre post : List (InputToken W)} {s : Str} {as : List (AnyAttribute W)}
    (hin : input = pre ++ .Text s as :: post) {ws1 ws2 : List Str} {w : Str}
    (hw : W.splitWordBounds s = ws1 ++ w :: ws2) :
    l.ll_tokens.map (·.token) =
      ((pre.flatMap (tokensOf W size)).map (·.1) ++ (ws1.flatMap (wordPieces W)).map (fun p => .Text p.1 p.2))
      ++ (wordPieces W w).map (fun p => .Text p.1 p.2)
      ++ ((ws2.flatMap (wordPieces W)).map (fun p => .Text p.1 p.2) ++ (post.flatMap (tokensOf W size)).map (·.1)) := by
  obtain ⟨_, htoks, _⟩ := create_inv wf h
  rw [htoks, layoutM_tokens, hin]
  simp [tokensOf, textPieces, hw, Function.comp_def]

theorem wordPieces_head {w : Str} {p : Str × TextTag} {rest : List (Str × TextTag)}
    (hg : GoodWord w) (h : wordPieces W w = p :: rest) (hn : p.2 = .NATN) :
    ∃ d, w.head? = some d ∧ IsDigit d := by
  unfold wordPieces at h
  split at h
  · next hd => obtain ⟨c, hc, hd⟩ := hd; exact ⟨c, hc, hd⟩
  · simp at h; rw [← h.1] at hn; exact absurd hn (wordTag_ne_natn W w)

theorem wordPieces_last {w : Str} {p : Str × TextTag} {front : List (Str × TextTag)}
    (h : wordPieces W w = front ++ [p]) (hn : p.2 = .NATN) :
    ∃ d, w.getLast? = some d ∧ IsDigit d := by
  unfold wordPieces at h
  split at h
  · have hl : (runsOf W w).getLast? = some p := by rw [h]; simp
    have := runsOf_last W w p hl
    obtain ⟨h1, h2, _⟩ := runsOf_uniform W w p (List.mem_of_getLast? hl)
    cases hc : p.1.getLast? with
    | none => simp at hc; exact absurd hc h1
    | some c =>
      refine ⟨c, by rw [this, hc], ?_⟩
      have := (h2 c (List.mem_of_getLast? hc)).1
      rw [hn] at this; exact charTag_digit.1 this
  · have : [(w, wordTag W w)] = front ++ [p] := h
    have hp : p = (w, wordTag W w) := by
      have := congrArg List.getLast? this
      simp at this; exact this.symm
    rw [hp] at hn; exact absurd hn (wordTag_ne_natn W w)

theorem pieces_no_digit_twins : ∀ (ws : List Str), (∀ w ∈ ws, GoodWord w) →
    (∀ pre post (w1 w2 : Str) (c d : Char), ws = pre ++ w1 :: w2 :: post →
      w1.getLast? = some c → w2.head? = some d → ¬ (IsDigit c ∧ IsDigit d)) →
    ∀ u v p q, ws.flatMap (wordPieces W) = u ++ p :: q :: v → ¬ (p.2 = .NATN ∧ q.2 = .NATN)
  | [], _, _, u, v, p, q, h => by simp at h
  | w :: ws, hg, hb, u, v, p, q, h => by
    have ih := pieces_no_digit_twins ws (fun x hx => hg x (by simp [hx]))
      (fun pre post w1 w2 c d he => hb (w :: pre) post w1 w2 c d (by rw [he]; rfl))
    simp only [List.flatMap_cons] at h
    rw [List.append_eq_append_iff] at h
    rcases h with ⟨a, hu, ha⟩ | ⟨a, hw, ha⟩
    · exact ih a v p q ha
    · -- the block of `w` is `u ++ a`, and `a ++ rest = p :: q :: v`
      cases a with
      | nil =>
        simp at ha
        exact ih [] v p q (by simpa using ha.symm)
      | cons x xs =>
        simp at ha
        obtain ⟨rfl, ha⟩ := ha
        cases xs with
        | cons y ys =>
          simp at ha
          obtain ⟨rfl, _⟩ := ha
          rintro ⟨h1, h2⟩
          have hw' : wordPieces W w = u ++ p :: q :: ys := by simpa using hw
          unfold wordPieces at hw'
          split at hw'
          · exact runsOf_maximal W w u ys p q hw' ⟨by rw [h1, h2], by rw [h1]; simp⟩
          · have := congrArg List.length hw'
            simp at this; omega
        | nil =>
          simp at ha
          rintro ⟨h1, h2⟩
          obtain ⟨c, hc, hcd⟩ := wordPieces_last (W := W) (w := w) (by simpa using hw) h1
          -- the next piece is the first of the next word
          cases ws with
          | nil => simp at ha
          | cons w2 ws2 =>
            have hne := wordPieces_ne W (hg w2 (by simp)).1
            cases hw2 : wordPieces W w2 with
            | nil => exact hne hw2
            | cons y ys =>
              simp only [List.flatMap_cons, hw2, List.cons_append, List.cons.injEq] at ha
              obtain ⟨rfl, _⟩ := ha
              obtain ⟨d, hd, hdd⟩ := wordPieces_head (hg w2 (by simp)) hw2 h2
              exact hb [] ws2 w w2 c d rfl hc hd ⟨hcd, hdd⟩

theorem goodInput_iff (L : SplitLaws W) (t : InputToken W) : GoodInput W t ↔ ¬ BadInput W t := by
  cases t with
  | Custom n as => simp [GoodInput, BadInput]
  | Text s as =>
    constructor
    · rintro ⟨hg, hne⟩ ⟨s', as', he, hb⟩
      simp at he; obtain ⟨rfl, rfl⟩ := he
      rcases hb with rfl | ⟨w, hw, hd, c, hc, hcc⟩
      · rw [textPieces_ne_iff W hg] at hne
        exact hne ((split_nil_iff L _).2 rfl)
      · have := (hg w hw).2 hd c hc; omega
    · intro hb
      have hg : GoodText W s := by
        intro w hw
        refine ⟨L.nonempty s w hw, fun hd c hc => ?_⟩
        apply Classical.byContradiction
        intro hn
        exact hb ⟨s, as, rfl, Or.inr ⟨w, hw, hd, c, hc, by omega⟩⟩
      refine ⟨hg, ?_⟩
      rw [textPieces_ne_iff W hg, ne_eq, split_nil_iff L]
      rintro rfl
      exact hb ⟨[], as, rfl, Or.inl rfl⟩

end LNlp
