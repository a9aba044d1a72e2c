import Verif.Lemmas.Store
import Verif.Spec.Tokenize
/- Tokenization equals the run specification; line creation represents the creation history. -/
namespace LNlp
variable {W : World}

theorem isAsciiDigit_iff (c : Char) : isAsciiDigit c = true ↔ IsDigit c := by
  simp only [isAsciiDigit, IsDigit, Bool.and_eq_true, decide_eq_true_eq, Char.le_def]
  exact Iff.rfl

/-! ### runsOf -/

theorem runsOf_cons_ne (W : World) (c : Char) (cs : Str) :
    ∃ s rest, runsOf W (c :: cs) = (s, charTag W c) :: rest := by
  simp only [runsOf]
  split
  · next s t rest heq =>
    split
    · next h => exact ⟨c :: s, rest, by rw [h.1]⟩
    · exact ⟨_, _, rfl⟩
  · exact ⟨_, _, rfl⟩

theorem runsOf_cons_of_ne (W : World) (c : Char) (cs : Str)
    (h : charTag W c = .PUNC ∨ ∀ d ∈ cs.head?, charTag W d ≠ charTag W c) :
    runsOf W (c :: cs) = ([c], charTag W c) :: runsOf W cs := by
  cases cs with
  | nil => rfl
  | cons d ds =>
    obtain ⟨s, rest, e⟩ := runsOf_cons_ne W d ds
    rw [runsOf, e]
    simp only
    rw [if_neg]
    rintro ⟨h1, h2⟩
    rcases h with h | h
    · exact h2 (h1 ▸ h)
    · exact h d (by simp) h1.symm

theorem runsOf_run (W : World) (t : TextTag) (ht : t ≠ .PUNC) : ∀ (d : Str), d ≠ [] →
    (∀ x ∈ d, charTag W x = t) → ∀ cs : Str, (∀ x ∈ cs.head?, charTag W x ≠ t) →
    runsOf W (d ++ cs) = (d, t) :: runsOf W cs
  | [], h, _, _, _ => absurd rfl h
  | [x], _, hx, cs, hc => by
    have e := hx x (by simp)
    rw [List.singleton_append, runsOf_cons_of_ne W x cs (Or.inr (by rw [e]; exact hc)), e]
  | x :: y :: ys, _, hx, cs, hc => by
    have ih := runsOf_run W t ht (y :: ys) (by simp) (fun z hz => hx z (by simp [hz])) cs hc
    rw [List.cons_append, runsOf, ih]
    simp only
    rw [if_pos ⟨hx x (by simp), ht⟩]

/-! ### the digit branch -/

/-- a piece as the implementation stores it -/
def pieceTok (size : Str → Nat) (p : Str × TextTag) : LToken × Nat := (LToken.Text p.1 p.2, size p.1)

/-- the flush at the end of the digit branch -/
def DigitSt.flush (size : Str → Nat) (st : DigitSt) : List (LToken × Nat) :=
  ((st.insertLetters size).insertDigits size).ltokens

theorem charTag_digit {W : World} {c : Char} : charTag W c = .NATN ↔ IsDigit c := by
  unfold charTag; split
  · simp [*]
  · split <;> simp [*]

theorem digit_loop (W : World) (size : Str → Nat) : ∀ (cs : Str) (acc : List (LToken × Nat)),
    (∀ d : Str, (∀ x ∈ d, charTag W x = .NATN) →
      (cs.foldl (DigitSt.step W size) ⟨acc, d, []⟩).flush size =
        acc ++ (runsOf W (d ++ cs)).map (pieceTok size)) ∧
    (∀ s : Str, (∀ x ∈ s, charTag W x = .WORD) →
      (cs.foldl (DigitSt.step W size) ⟨acc, [], s⟩).flush size =
        acc ++ (runsOf W (s ++ cs)).map (pieceTok size))
  | [], acc => by
    constructor
    · intro d hd
      cases d with
      | nil => simp [DigitSt.flush, DigitSt.insertLetters, DigitSt.insertDigits, runsOf]
      | cons x xs =>
        rw [runsOf_run W .NATN (by simp) (x :: xs) (by simp) hd [] (by simp)]
        simp [DigitSt.flush, DigitSt.insertLetters, DigitSt.insertDigits, runsOf, pieceTok]
    · intro s hs
      cases s with
      | nil => simp [DigitSt.flush, DigitSt.insertLetters, DigitSt.insertDigits, runsOf]
      | cons x xs =>
        rw [runsOf_run W .WORD (by simp) (x :: xs) (by simp) hs [] (by simp)]
        simp [DigitSt.flush, DigitSt.insertLetters, DigitSt.insertDigits, runsOf, pieceTok]
  | c :: cs, acc => by
    have ih := digit_loop W size cs
    simp only [List.foldl_cons]
    by_cases hc : IsDigit c
    · have hc' : isAsciiDigit c = true := (isAsciiDigit_iff c).2 hc
      have ht : charTag W c = .NATN := charTag_digit.2 hc
      constructor
      · intro d hd
        have e : DigitSt.step W size ⟨acc, d, []⟩ c = ⟨acc, d ++ [c], []⟩ := by
          simp [DigitSt.step, hc', DigitSt.insertLetters]
        rw [e, (ih acc).1 (d ++ [c]) (by
          intro x hx; rcases List.mem_append.1 hx with hx | hx
          · exact hd x hx
          · simp at hx; rw [hx]; exact ht)]
        simp
      · intro s hs
        cases s with
        | nil =>
          have e : DigitSt.step W size ⟨acc, [], []⟩ c = ⟨acc, [c], []⟩ := by
            simp [DigitSt.step, hc', DigitSt.insertLetters]
          rw [e, (ih acc).1 [c] (by simpa using ht)]
          simp
        | cons x xs =>
          have e : DigitSt.step W size ⟨acc, [], x :: xs⟩ c =
              ⟨acc ++ [pieceTok size (x :: xs, .WORD)], [c], []⟩ := by
            simp [DigitSt.step, hc', DigitSt.insertLetters, pieceTok]
          rw [e, (ih _).1 [c] (by simpa using ht),
            runsOf_run W .WORD (by simp) (x :: xs) (by simp) hs (c :: cs) (by simp [ht])]
          simp
    · have hc' : isAsciiDigit c = false := by
        cases h : isAsciiDigit c
        · rfl
        · exact absurd ((isAsciiDigit_iff c).1 h) hc
      by_cases ha : W.isAlphabetic c = true
      · have ht : charTag W c = .WORD := by simp [charTag, hc, ha]
        constructor
        · intro d hd
          cases d with
          | nil =>
            have e : DigitSt.step W size ⟨acc, [], []⟩ c = ⟨acc, [], [c]⟩ := by
              simp [DigitSt.step, hc', ha, DigitSt.insertDigits]
            rw [e, (ih acc).2 [c] (by simpa using ht)]
            simp
          | cons x xs =>
            have e : DigitSt.step W size ⟨acc, x :: xs, []⟩ c =
                ⟨acc ++ [pieceTok size (x :: xs, .NATN)], [], [c]⟩ := by
              simp [DigitSt.step, hc', ha, DigitSt.insertDigits, pieceTok]
            rw [e, (ih _).2 [c] (by simpa using ht),
              runsOf_run W .NATN (by simp) (x :: xs) (by simp) hd (c :: cs) (by simp [ht])]
            simp
        · intro s hs
          have e : DigitSt.step W size ⟨acc, [], s⟩ c = ⟨acc, [], s ++ [c]⟩ := by
            simp [DigitSt.step, hc', ha, DigitSt.insertDigits]
          rw [e, (ih acc).2 (s ++ [c]) (by
            intro x hx; rcases List.mem_append.1 hx with hx | hx
            · exact hs x hx
            · simp at hx; rw [hx]; exact ht)]
          simp
      · have ht : charTag W c = .PUNC := by simp [charTag, hc, ha]
        have hrc := runsOf_cons_of_ne W c cs (Or.inl ht)
        constructor
        · intro d hd
          cases d with
          | nil =>
            have e : DigitSt.step W size ⟨acc, [], []⟩ c = ⟨acc ++ [pieceTok size ([c], .PUNC)], [], []⟩ := by
              simp [DigitSt.step, hc', ha, DigitSt.insertDigits, DigitSt.insertLetters, pieceTok]
            rw [e, (ih _).1 [] (by simp), List.nil_append, List.nil_append, hrc, ht]
            simp
          | cons x xs =>
            have e : DigitSt.step W size ⟨acc, x :: xs, []⟩ c =
                ⟨acc ++ [pieceTok size (x :: xs, .NATN), pieceTok size ([c], .PUNC)], [], []⟩ := by
              simp [DigitSt.step, hc', ha, DigitSt.insertDigits, DigitSt.insertLetters, pieceTok]
            rw [e, (ih _).1 [] (by simp), List.nil_append,
              runsOf_run W .NATN (by simp) (x :: xs) (by simp) hd (c :: cs) (by simp [ht]), hrc, ht]
            simp
        · intro s hs
          cases s with
          | nil =>
            have e : DigitSt.step W size ⟨acc, [], []⟩ c = ⟨acc ++ [pieceTok size ([c], .PUNC)], [], []⟩ := by
              simp [DigitSt.step, hc', ha, DigitSt.insertDigits, DigitSt.insertLetters, pieceTok]
            rw [e, (ih _).1 [] (by simp), List.nil_append, List.nil_append, hrc, ht]
            simp
          | cons x xs =>
            have e : DigitSt.step W size ⟨acc, [], x :: xs⟩ c =
                ⟨acc ++ [pieceTok size (x :: xs, .WORD), pieceTok size ([c], .PUNC)], [], []⟩ := by
              simp [DigitSt.step, hc', ha, DigitSt.insertDigits, DigitSt.insertLetters, pieceTok]
            rw [e, (ih _).1 [] (by simp), List.nil_append,
              runsOf_run W .WORD (by simp) (x :: xs) (by simp) hs (c :: cs) (by simp [ht]), hrc, ht]
            simp

/-! ### word tags -/

theorem isSpaces_iff (W : World) : ∀ s : Str, isSpaces W s = true ↔ ∀ c ∈ s, W.isWhitespace c = true
  | [] => by simp [isSpaces]
  | c :: cs => by
    simp only [isSpaces, List.mem_cons, forall_eq_or_imp]
    cases h : W.isWhitespace c <;> simp [isSpaces_iff W cs]

theorem isWordRest_iff (W : World) : ∀ s : Str, isWordRest W s = true ↔
    ∀ d ∈ s, W.isAlphabetic d = true ∨ d = '\'' ∨ d = '-' ∨ d = '–'
  | [] => by simp [isWordRest]
  | c :: cs => by
    simp only [isWordRest, List.mem_cons, forall_eq_or_imp]
    by_cases h : W.isAlphabetic c = true
    · simp [h, isWordRest_iff W cs]
    · by_cases h' : c = '\'' ∨ c = '-' ∨ c = '–'
      · simp [h, h', isWordRest_iff W cs]
      · simp [h, h']

theorem isWord_iff (W : World) (s : Str) : isWord W s = true ↔ WordText W s := by
  cases s with
  | nil => simp [isWord, WordText]
  | cons c cs =>
    simp only [isWord, WordText, List.cons.injEq]
    by_cases h : W.isAlphabetic c = true
    · rw [if_pos h, isWordRest_iff]
      constructor
      · intro h'; exact ⟨c, cs, ⟨rfl, rfl⟩, h, h'⟩
      · rintro ⟨_, _, ⟨rfl, rfl⟩, _, h'⟩; exact h'
    · rw [if_neg h]
      constructor
      · intro h'; cases h'
      · rintro ⟨_, _, ⟨rfl, rfl⟩, h', _⟩; exact absurd h' h

theorem utf8Size_pos (c : Char) : 1 ≤ c.utf8Size := Char.utf8Size_pos c

theorem docPunct_size {c : Char} (h : DocPunct c) : c.utf8Size = 1 := by
  rcases h with h | h | h | h | h | h | h | h <;> subst h <;> rfl

theorem contains_punct (c : Char) : PUNCTUATION.contains c = true ↔ DocPunct c := by
  simp [PUNCTUATION, DocPunct]

theorem punct_test (c : Char) (cs : Str) :
    (decide (utf8Len (c :: cs) = 1) && PUNCTUATION.contains c) = true ↔
    ∃ d ∈ c :: cs, c :: cs = [d] ∧ DocPunct d := by
  simp only [Bool.and_eq_true, decide_eq_true_eq, contains_punct]
  constructor
  · rintro ⟨h1, h2⟩
    have : cs = [] := by
      cases cs with
      | nil => rfl
      | cons d ds =>
        have a := utf8Size_pos c
        have b := utf8Size_pos d
        simp [utf8Len] at h1; omega
    subst this
    exact ⟨c, by simp, rfl, h2⟩
  · rintro ⟨d, _, h, hd⟩
    simp at h
    obtain ⟨rfl, rfl⟩ := h
    exact ⟨by simp [utf8Len, docPunct_size hd], hd⟩

theorem getUnicodeWordTag_eq (W : World) (w : Str) : getUnicodeWordTag W w = wordTag W w := by
  cases w with
  | nil => simp [getUnicodeWordTag, wordTag, isSpaces]
  | cons x xs =>
    simp only [getUnicodeWordTag, wordTag]
    have h1 := isSpaces_iff W (x :: xs)
    have h2 := punct_test x xs
    have h3 := isWord_iff W (x :: xs)
    by_cases a : ∀ c ∈ x :: xs, W.isWhitespace c = true
    · rw [if_pos (h1.2 a), if_pos a]
    · rw [if_neg (fun h => a (h1.1 h)), if_neg a]
      by_cases b : ∃ c ∈ x :: xs, x :: xs = [c] ∧ DocPunct c
      · rw [if_pos (h2.2 b), if_pos b]
      · rw [if_neg (fun h => b (h2.1 h)), if_neg b]
        by_cases c : WordText W (x :: xs)
        · rw [if_pos (h3.2 c), if_pos c]
        · rw [if_neg (fun h => c (h3.1 h)), if_neg c]

/-! ### words and texts -/

/-- a word the tokenizer accepts -/
def GoodWord (w : Str) : Prop :=
  w ≠ [] ∧ ((∃ c ∈ w.head?, IsDigit c) → ∀ c ∈ w, c.toNat < 128)

theorem all_isAscii (w : Str) : w.all isAscii = true ↔ ∀ c ∈ w, c.toNat < 128 := by
  simp [isAscii]

theorem foldWord_ok {W : World} (size : Str → Nat) (acc : List (LToken × Nat)) {w : Str}
    (h : GoodWord w) :
    foldWord W size acc w = .ok (acc ++ (wordPieces W w).map (pieceTok size)) := by
  cases w with
  | nil => exact absurd rfl h.1
  | cons c cs =>
    simp only [foldWord, wordPieces, List.head?_cons, Option.mem_def, Option.some.injEq,
      exists_eq_left']
    by_cases hd : IsDigit c
    · have ha := (all_isAscii (c :: cs)).2 (h.2 ⟨c, by simp, hd⟩)
      rw [if_pos ((isAsciiDigit_iff c).2 hd), if_pos ha, if_pos hd]
      have := (digit_loop W size (c :: cs) acc).1 [] (by simp)
      rw [List.nil_append] at this
      rw [← this]; rfl
    · rw [if_neg (fun h => hd ((isAsciiDigit_iff c).1 h)), if_neg hd, getUnicodeWordTag_eq]
      simp [pieceTok]

theorem foldWord_err {W : World} (size : Str → Nat) (acc : List (LToken × Nat)) {w : Str}
    (h : ¬ GoodWord w) : foldWord W size acc w = .error (if w = [] then .emptyWord else .nonAsciiDigitWord) := by
  cases w with
  | nil => rfl
  | cons c cs =>
    have : ∃ hd : IsDigit c, ¬ ∀ x ∈ c :: cs, x.toNat < 128 := by
      apply Classical.byContradiction
      intro hn
      exact h ⟨by simp, fun hd => Classical.byContradiction fun hc => hn ⟨by simpa using hd, hc⟩⟩
    obtain ⟨hd, ha⟩ := this
    simp only [foldWord]
    rw [if_pos ((isAsciiDigit_iff c).2 hd), if_neg (fun h => ha ((all_isAscii _).1 h))]
    rfl

/-- a text all of whose words the tokenizer accepts -/
def GoodText (W : World) (s : Str) : Prop := ∀ w ∈ W.splitWordBounds s, GoodWord w

theorem foldWords_ok {W : World} (size : Str → Nat) : ∀ (ws : List Str) (acc : List (LToken × Nat)),
    (∀ w ∈ ws, GoodWord w) →
    foldR (foldWord W size) acc ws = .ok (acc ++ (ws.flatMap (wordPieces W)).map (pieceTok size))
  | [], acc, _ => by simp [foldR]
  | w :: ws, acc, h => by
    simp only [foldR, foldWord_ok size acc (h w (by simp))]
    rw [foldWords_ok size ws _ (fun x hx => h x (by simp [hx]))]
    simp

theorem foldWords_err {W : World} (size : Str → Nat) : ∀ (ws : List Str) (acc : List (LToken × Nat)),
    (∃ w ∈ ws, ¬ GoodWord w) →
    foldR (foldWord W size) acc ws = .error .emptyWord ∨
    foldR (foldWord W size) acc ws = .error .nonAsciiDigitWord
  | [], acc, h => by simp at h
  | w :: ws, acc, h => by
    by_cases hw : GoodWord w
    · simp only [foldR, foldWord_ok size acc hw]
      apply foldWords_err size ws
      obtain ⟨x, hx, hn⟩ := h
      rcases List.mem_cons.1 hx with rfl | hx
      · exact absurd hw hn
      · exact ⟨x, hx, hn⟩
    · simp only [foldR, foldWord_err size acc hw]
      by_cases e : w = []
      · left; simp [e]
      · right; simp [e]

theorem createTokensForString_ok {W : World} (size : Str → Nat) {s : Str} (h : GoodText W s) :
    createTokensForString W s size = .ok ((textPieces W s).map (pieceTok size)) := by
  simp only [createTokensForString, textPieces]
  rw [foldWords_ok size _ _ h]; rfl

theorem createTokensForString_err {W : World} (size : Str → Nat) {s : Str} (h : ¬ GoodText W s) :
    createTokensForString W s size = .error .emptyWord ∨
    createTokensForString W s size = .error .nonAsciiDigitWord := by
  apply foldWords_err
  apply Classical.byContradiction
  intro hn
  exact h fun w hw => Classical.byContradiction fun hc => hn ⟨w, hw, hc⟩

/-- an input the tokenizer accepts (positions aside) -/
def GoodInput (W : World) (t : InputToken W) : Prop :=
  match t with
  | .Text s _ => GoodText W s ∧ textPieces W s ≠ []
  | .Custom _ _ => True

theorem inputTokens_ok {W : World} (size : Str → Nat) {t : InputToken W} (h : GoodInput W t) :
    inputTokens W size t = .ok (tokensOf W size t, t.attrList) ∧ tokensOf W size t ≠ [] := by
  cases t with
  | Text s as =>
    simp only [inputTokens, createTokensForString_ok size h.1]
    refine ⟨rfl, ?_⟩
    simp only [tokensOf, ne_eq, List.map_eq_nil_iff]; exact h.2
  | Custom n as => exact ⟨rfl, by simp [tokensOf]⟩

/-! ### positions -/

/-- tokens laid out from index `i` and position `p`, positions modulo `B` -/
def layoutM (B : Nat) : Nat → Nat → List (LToken × Nat) → List LLToken
  | _, _, [] => []
  | i, p, (t, n) :: rest => ⟨i, p, (p + n) % B, t⟩ :: layoutM B (i + 1) ((p + n) % B) rest

def endPosM (B : Nat) : Nat → List (LToken × Nat) → Nat
  | p, [] => p
  | p, (_, n) :: rest => endPosM B ((p + n) % B) rest

theorem addUsize_ok {W : World} {a b c : Nat} (h : W.addUsize a b = .ok c) :
    c = (a + b) % W.usizeBound := by
  unfold World.addUsize at h
  split at h
  · next hlt => rw [Nat.mod_eq_of_lt hlt]; exact (Except.ok.inj h).symm
  · split at h
    · cases h
    · exact (Except.ok.inj h).symm

theorem pushTokens_inv {W : World} : ∀ (toks : List (LToken × Nat)) (lts : List LLToken) (p : Nat)
    (out : List LLToken × Nat), foldR (pushTokens W) (lts, p) toks = .ok out →
    out = (lts ++ layoutM W.usizeBound lts.length p toks, endPosM W.usizeBound p toks)
  | [], lts, p, out, h => by simp [foldR] at h; simp [← h, layoutM, endPosM]
  | (t, n) :: rest, lts, p, out, h => by
    simp only [foldR, pushTokens] at h
    cases hs : W.addUsize p n with
    | error e => simp [hs] at h
    | ok q =>
      simp only [hs] at h
      have hq := addUsize_ok hs
      have := pushTokens_inv rest _ _ _ h
      rw [this, hq]
      simp [layoutM, endPosM]

theorem pushTokens_ok {W : World} : ∀ (toks : List (LToken × Nat)) (lts : List LLToken) (p : Nat),
    (W.overflowChecks = false ∨ p + totalSize toks < W.usizeBound) →
    ∃ out, foldR (pushTokens W) (lts, p) toks = .ok out
  | [], lts, p, _ => ⟨_, rfl⟩
  | (t, n) :: rest, lts, p, h => by
    simp only [foldR, pushTokens]
    rcases h with h | h
    · have : ∃ q, W.addUsize p n = .ok q := by
        unfold World.addUsize; split
        · exact ⟨_, rfl⟩
        · simp [h]
      obtain ⟨q, hq⟩ := this
      simp only [hq]
      exact pushTokens_ok rest _ _ (Or.inl h)
    · have hlt : p + n < W.usizeBound := by simp [totalSize] at h; omega
      have hq : W.addUsize p n = .ok (p + n) := by simp [World.addUsize, hlt]
      simp only [hq]
      exact pushTokens_ok rest _ _ (Or.inr (by simp [totalSize] at h ⊢; omega))

theorem pushTokens_overflow {W : World} (hc : W.overflowChecks = true) :
    ∀ (toks : List (LToken × Nat)) (lts : List LLToken) (p : Nat),
    toks ≠ [] → ¬ p + totalSize toks < W.usizeBound →
    foldR (pushTokens W) (lts, p) toks = .error .overflow
  | [], lts, p, h, _ => absurd rfl h
  | (t, n) :: rest, lts, p, _, h => by
    simp only [foldR, pushTokens]
    by_cases hlt : p + n < W.usizeBound
    · have hq : W.addUsize p n = .ok (p + n) := by simp [World.addUsize, hlt]
      simp only [hq]
      apply pushTokens_overflow hc rest
      · rintro rfl; simp [totalSize] at h; omega
      · simp [totalSize] at h ⊢; omega
    · have hq : W.addUsize p n = .error .overflow := by simp [World.addUsize, hlt, hc]
      simp only [hq]

theorem endPosM_eq {B : Nat} : ∀ (toks : List (LToken × Nat)) (p : Nat), p + totalSize toks < B →
    endPosM B p toks = p + totalSize toks
  | [], p, _ => by simp [endPosM, totalSize]
  | (t, n) :: rest, p, h => by
    have hlt : p + n < B := by simp [totalSize] at h; omega
    rw [endPosM, Nat.mod_eq_of_lt hlt, endPosM_eq rest (p + n) (by simp [totalSize] at h ⊢; omega)]
    simp [totalSize]; omega

theorem endPosM_append (B : Nat) : ∀ (a b : List (LToken × Nat)) (p : Nat),
    endPosM B p (a ++ b) = endPosM B (endPosM B p a) b
  | [], b, p => rfl
  | (t, n) :: a, b, p => by simp only [List.cons_append, endPosM]; exact endPosM_append B a b _

theorem layoutM_append (B : Nat) : ∀ (a b : List (LToken × Nat)) (i p : Nat),
    layoutM B i p (a ++ b) = layoutM B i p a ++ layoutM B (i + a.length) (endPosM B p a) b
  | [], b, i, p => by simp [layoutM, endPosM]
  | (t, n) :: a, b, i, p => by
    simp only [List.cons_append, layoutM, endPosM, layoutM_append B a b, List.length_cons]
    have : i + 1 + a.length = i + (a.length + 1) := by omega
    rw [this]

@[simp] theorem layoutM_length (B : Nat) : ∀ (a : List (LToken × Nat)) (i p : Nat),
    (layoutM B i p a).length = a.length
  | [], _, _ => rfl
  | (_, _) :: a, i, p => by simp [layoutM, layoutM_length B a]

theorem layoutM_tokens (B : Nat) : ∀ (a : List (LToken × Nat)) (i p : Nat),
    (layoutM B i p a).map (·.token) = a.map (·.1)
  | [], _, _ => rfl
  | (_, _) :: a, i, p => by simp [layoutM, layoutM_tokens B a]

/-! ### the loop over the inputs -/

/-- the spans recorded for the inputs -/
def spansFrom (W : World) (size : Str → Nat) : Nat → List (InputToken W) →
    List (Nat × Nat × List (AnyAttribute W))
  | _, [] => []
  | i, t :: ts =>
    (i, i + (tokensOf W size t).length - 1, t.attrList)
      :: spansFrom W size (i + (tokensOf W size t).length) ts

theorem createStep_inv {W : World} {size : Str → Nat} {t : InputToken W} {st st' : CreateSt W}
    (h : createStep W size st t = .ok st') : GoodInput W t ∧
    st' = { spans := st.spans ++ [(st.lltokens.length,
              st.lltokens.length + (tokensOf W size t).length - 1, t.attrList)]
            lltokens := st.lltokens ++
              layoutM W.usizeBound st.lltokens.length st.current_size (tokensOf W size t)
            current_size := endPosM W.usizeBound st.current_size (tokensOf W size t) } := by
  have hg : GoodInput W t := by
    cases t with
    | Custom n as => trivial
    | Text s as =>
      by_cases hgt : GoodText W s
      · refine ⟨hgt, ?_⟩
        intro he
        simp [createStep, inputTokens, createTokensForString_ok size hgt, he] at h
      · rcases createTokensForString_err size hgt with e | e <;>
          simp [createStep, inputTokens, e] at h
  refine ⟨hg, ?_⟩
  obtain ⟨h1, h2⟩ := inputTokens_ok size hg
  have hne : (tokensOf W size t).isEmpty = false := by
    cases hh : tokensOf W size t with
    | nil => exact absurd hh h2
    | cons _ _ => rfl
  simp only [createStep, h1, hne] at h
  cases hp : foldR (pushTokens W) (st.lltokens, st.current_size) (tokensOf W size t) with
  | error e => simp [hp] at h
  | ok out =>
    simp only [hp] at h
    have := pushTokens_inv _ _ _ _ hp
    subst this
    simp only [Bool.false_eq_true, if_false, Except.ok.injEq] at h
    rw [← h]
    simp

theorem createLoop_inv {W : World} {size : Str → Nat} : ∀ (input : List (InputToken W))
    {st st' : CreateSt W}, foldR (createStep W size) st input = .ok st' →
    (∀ t ∈ input, GoodInput W t) ∧
    st' = { spans := st.spans ++ spansFrom W size st.lltokens.length input
            lltokens := st.lltokens ++ layoutM W.usizeBound st.lltokens.length st.current_size
              (input.flatMap (tokensOf W size))
            current_size := endPosM W.usizeBound st.current_size (input.flatMap (tokensOf W size)) }
  | [], st, st', h => by
    simp [foldR] at h; subst h
    refine ⟨by simp, ?_⟩
    simp [spansFrom, layoutM, endPosM]
  | t :: ts, st, st', h => by
    simp only [foldR] at h
    cases hs : createStep W size st t with
    | error e => simp [hs] at h
    | ok st1 =>
      simp only [hs] at h
      obtain ⟨hg, e1⟩ := createStep_inv hs
      obtain ⟨hg2, e2⟩ := createLoop_inv ts h
      refine ⟨by intro x hx; rcases List.mem_cons.1 hx with rfl | hx; exact hg; exact hg2 x hx, ?_⟩
      rw [e2, e1]
      simp [spansFrom, List.flatMap_cons, layoutM_append, endPosM_append]

theorem createLoop_ok {W : World} {size : Str → Nat} : ∀ (input : List (InputToken W))
    (st : CreateSt W), (∀ t ∈ input, GoodInput W t) →
    (W.overflowChecks = false ∨
      st.current_size + totalSize (input.flatMap (tokensOf W size)) < W.usizeBound) →
    ∃ st', foldR (createStep W size) st input = .ok st'
  | [], st, _, _ => ⟨st, rfl⟩
  | t :: ts, st, hg, ho => by
    obtain ⟨h1, h2⟩ := inputTokens_ok size (hg t (by simp))
    have hne : (tokensOf W size t).isEmpty = false := by
      cases hh : tokensOf W size t with
      | nil => exact absurd hh h2
      | cons _ _ => rfl
    have ho1 : W.overflowChecks = false ∨
        st.current_size + totalSize (tokensOf W size t) < W.usizeBound := by
      rcases ho with ho | ho
      · exact Or.inl ho
      · right; simp [totalSize, List.flatMap_cons] at ho ⊢; omega
    obtain ⟨out, hout⟩ := pushTokens_ok (tokensOf W size t) st.lltokens st.current_size ho1
    have hinv := pushTokens_inv _ _ _ _ hout
    obtain ⟨st1, hst1⟩ : ∃ st1, createStep W size st t = .ok st1 := by
      simp [createStep, h1, hne, hout]
    obtain ⟨_, e1⟩ := createStep_inv hst1
    have ho2 : W.overflowChecks = false ∨
        st1.current_size + totalSize (ts.flatMap (tokensOf W size)) < W.usizeBound := by
      rcases ho with ho | ho
      · exact Or.inl ho
      · right
        have hs : st.current_size + totalSize (tokensOf W size t) +
            totalSize (ts.flatMap (tokensOf W size)) < W.usizeBound := by
          simp [totalSize, List.flatMap_cons] at ho ⊢; omega
        rw [e1]
        simp only
        rw [endPosM_eq _ _ (by omega)]
        exact hs
    obtain ⟨st2, h⟩ := createLoop_ok ts st1 (fun x hx => hg x (by simp [hx])) ho2
    exact ⟨st2, by simp only [foldR, hst1]; exact h⟩

theorem createLoop_overflow {W : World} (hc : W.overflowChecks = true) {size : Str → Nat} :
    ∀ (input : List (InputToken W)) (st : CreateSt W), input ≠ [] →
    ¬ st.current_size + totalSize (input.flatMap (tokensOf W size)) < W.usizeBound →
    ∃ e, foldR (createStep W size) st input = .error e
  | [], st, h, _ => absurd rfl h
  | t :: ts, st, _, ho => by
    cases hs : createStep W size st t with
    | error e => exact ⟨e, by simp [foldR, hs]⟩
    | ok st1 =>
      obtain ⟨hg, e1⟩ := createStep_inv hs
      obtain ⟨h1, h2⟩ := inputTokens_ok size hg
      have hlt : st.current_size + totalSize (tokensOf W size t) < W.usizeBound := by
        apply Classical.byContradiction
        intro hn
        have hne : (tokensOf W size t).isEmpty = false := by
          cases hh : tokensOf W size t with
          | nil => exact absurd hh h2
          | cons _ _ => rfl
        have := pushTokens_overflow hc (tokensOf W size t) st.lltokens st.current_size h2 hn
        simp [createStep, h1, hne, this] at hs
      simp only [foldR, hs]
      apply createLoop_overflow hc ts
      · rintro rfl
        simp [List.flatMap_cons] at ho; omega
      · rw [e1]; simp only
        rw [endPosM_eq _ _ hlt]
        simp [totalSize, List.flatMap_cons] at ho ⊢; omega

/-! ### attributes of a fresh line -/

theorem insertBuiltin_rep {n : Nat} {a : LLLineAttrs W} {h : History W} (rep : RepA n a h)
    (t : LLToken) (i : Nat) (hi : i < n) :
    ∃ a', a.insertBuiltin (t, i) = .ok a' ∧ RepA n a' (h ++ builtinOf W t.token i) := by
  cases ht : t.token with
  | Value => exact ⟨a, by simp [LLLineAttrs.insertBuiltin, ht], by simpa [builtinOf] using rep⟩
  | Text s tag =>
    have other : (∀ c, s ≠ [c]) → ∃ a', a.insertBuiltin (t, i) = .ok a' ∧
        RepA n a' (h ++ builtinOf W (.Text s tag) i) := by
      intro hs
      obtain ⟨a1, e1, r1⟩ := insert_rep rep (i, i) Ty.textTag tag hi hi
      refine ⟨a1, ?_, ?_⟩
      · simp only [LLLineAttrs.insertBuiltin, ht]
        exact e1
      · have : builtinOf W (.Text s tag) i = [⟨.textTag, (i, i), tag⟩] := by
          unfold builtinOf
          split
          · next c tg heq => simp at heq; exact absurd heq.1 (hs c)
          · next tg _ heq => simp at heq; obtain ⟨_, rfl⟩ := heq; rfl
          · next heq => cases heq
        rw [this]; exact r1
    match s, other with
    | [], other => exact other (by simp)
    | [c], _ =>
      obtain ⟨a1, e1, r1⟩ := insert_rep rep (i, i) Ty.char c hi hi
      obtain ⟨a2, e2, r2⟩ := insert_rep r1 (i, i) Ty.textTag tag hi hi
      refine ⟨a2, ?_, ?_⟩
      · simp only [LLLineAttrs.insertBuiltin, ht, e1]; exact e2
      · simpa [builtinOf, List.append_assoc] using r2
    | _ :: _ :: _, other => exact other (by simp)

theorem builtin_fold {n : Nat} : ∀ (toks : List LLToken) (i : Nat) {a : LLLineAttrs W}
    {h : History W}, RepA n a h → i + toks.length ≤ n →
    ∃ a', foldR LLLineAttrs.insertBuiltin a (toks.zipIdx i) = .ok a' ∧
      RepA n a' (h ++ ((toks.map (·.token)).zipIdx i).flatMap (fun p => builtinOf W p.1 p.2))
  | [], i, a, h, rep, _ => ⟨a, rfl, by simpa using rep⟩
  | t :: ts, i, a, h, rep, hn => by
    obtain ⟨a1, e1, r1⟩ := insertBuiltin_rep rep t i (by simp at hn; omega)
    obtain ⟨a2, e2, r2⟩ := builtin_fold ts (i + 1) r1 (by simp at hn; omega)
    refine ⟨a2, ?_, ?_⟩
    · simp only [List.zipIdx_cons, foldR, e1]; exact e2
    · simpa [List.append_assoc] using r2

theorem new_rep (toks : List LLToken) : ∃ l : LLLine W, LLLine.new toks = .ok l ∧
    l.ll_tokens = toks ∧ Rep l (builtinHistory W (toks.map (·.token))) := by
  obtain ⟨a, e, r⟩ := builtin_fold (W := W) toks 0 (empty_rep toks.length) (by simp)
  refine ⟨⟨toks, a⟩, ?_, rfl, by simpa [Rep, builtinHistory] using r⟩
  simp [LLLine.new, e]

theorem addAny_fold {n : Nat} (range : LRange) (h1 : range.1 < n) (h2 : range.2 < n) :
    ∀ (attrs : List (AnyAttribute W)) {a : LLLineAttrs W} {h : History W}, RepA n a h →
    (∀ x ∈ attrs, x.WF) →
    ∃ a', foldR (LLLineAttrs.addAny range) a attrs = .ok a' ∧
      RepA n a' (h ++ attrs.map (fun x => ⟨x.value.ty, range, x.value.val⟩))
  | [], a, h, rep, _ => ⟨a, rfl, by simpa using rep⟩
  | x :: xs, a, h, rep, wf => by
    obtain ⟨k, v, rfl⟩ := wf x (by simp)
    obtain ⟨a1, e1, r1⟩ := insert_rep rep range k v h1 h2
    obtain ⟨a2, e2, r2⟩ := addAny_fold range h1 h2 xs r1 (fun y hy => wf y (by simp [hy]))
    refine ⟨a2, ?_, ?_⟩
    · simp only [foldR, addAny_eq_insert rep, e1]; exact e2
    · simpa [AnyAttribute.new, List.append_assoc] using r2

theorem spans_fold {size : Str → Nat} : ∀ (input : List (InputToken W)) (i : Nat) {l : LLLine W}
    {h : History W}, Rep l h → (∀ t ∈ input, t.WF) → (∀ t ∈ input, tokensOf W size t ≠ []) →
    i + (input.flatMap (tokensOf W size)).length ≤ l.ll_tokens.length →
    ∃ l', foldR (fun (l : LLLine W) (s : Nat × Nat × List (AnyAttribute W)) =>
        l.addAnyAttrs s.1 s.2.1 s.2.2) l (spansFrom W size i input) = .ok l' ∧
      l'.ll_tokens = l.ll_tokens ∧ Rep l' (h ++ inputHistory W size i input)
  | [], i, l, h, rep, _, _, _ => ⟨l, rfl, rfl, by simpa [inputHistory] using rep⟩
  | t :: ts, i, l, h, rep, wf, hne, hn => by
    have ht := hne t (by simp)
    have hpos : 0 < (tokensOf W size t).length := List.length_pos_iff.2 ht
    simp only [List.flatMap_cons, List.length_append] at hn
    obtain ⟨a1, e1, r1⟩ := addAny_fold (n := l.ll_tokens.length)
      (i, i + (tokensOf W size t).length - 1) (by simp; omega) (by simp; omega) t.attrList rep
      (wf t (by simp))
    obtain ⟨l2, e2, t2, r2⟩ := spans_fold (size := size) ts (i + (tokensOf W size t).length)
      (l := { l with attrs := a1 }) r1 (fun x hx => wf x (by simp [hx]))
      (fun x hx => hne x (by simp [hx])) (by simp only; omega)
    refine ⟨l2, ?_, t2, ?_⟩
    · simp only [spansFrom, foldR, LLLine.addAnyAttrs, e1]; exact e2
    · simpa [inputHistory, List.append_assoc] using r2

/-- What a successful creation yields. -/
theorem create_inv {size : Str → Nat} {input : List (InputToken W)} {l : LLLine W}
    (wf : ∀ t ∈ input, t.WF) (h : createLineFromInputTokens W input size = .ok l) :
    (∀ t ∈ input, GoodInput W t) ∧
    l.ll_tokens = layoutM W.usizeBound 0 0 (input.flatMap (tokensOf W size)) ∧
    Rep l (creationHistory W size input) := by
  simp only [createLineFromInputTokens] at h
  cases hf : foldR (createStep W size) { spans := [], lltokens := [], current_size := 0 } input with
  | error e => simp [hf] at h
  | ok st =>
    obtain ⟨hg, est⟩ := createLoop_inv input hf
    obtain ⟨l1, e1, t1, r1⟩ := new_rep (W := W) st.lltokens
    simp only [hf, e1] at h
    simp only [List.length_nil, List.nil_append] at est
    have htl : st.lltokens = layoutM W.usizeBound 0 0 (input.flatMap (tokensOf W size)) := by
      rw [est]
    have hsp : st.spans = spansFrom W size 0 input := by rw [est]
    obtain ⟨l2, e2, t2, r2⟩ := spans_fold (size := size) input 0 r1 wf
      (fun t ht => (inputTokens_ok size (hg t ht)).2) (by rw [t1, htl]; simp)
    rw [hsp, e2] at h
    obtain rfl := Except.ok.inj h
    refine ⟨hg, by rw [t2, t1, htl], ?_⟩
    rw [htl, layoutM_tokens] at r2
    exact r2

/-- When creation succeeds. -/
theorem create_ok {size : Str → Nat} {input : List (InputToken W)} (wf : ∀ t ∈ input, t.WF)
    (hg : ∀ t ∈ input, GoodInput W t)
    (ho : W.overflowChecks = false ∨
      totalSize (input.flatMap (tokensOf W size)) < W.usizeBound) :
    ∃ l, createLineFromInputTokens W input size = .ok l := by
  obtain ⟨st, hf⟩ := createLoop_ok (size := size) input
    { spans := [], lltokens := [], current_size := 0 } hg (by simpa using ho)
  obtain ⟨hg, est⟩ := createLoop_inv input hf
  obtain ⟨l1, e1, t1, r1⟩ := new_rep (W := W) st.lltokens
  simp only [List.length_nil, List.nil_append] at est
  have htl : st.lltokens = layoutM W.usizeBound 0 0 (input.flatMap (tokensOf W size)) := by
    rw [est]
  have hsp : st.spans = spansFrom W size 0 input := by rw [est]
  obtain ⟨l2, e2, t2, r2⟩ := spans_fold (size := size) input 0 r1 wf
    (fun t ht => (inputTokens_ok size (hg t ht)).2) (by rw [t1, htl]; simp)
  exact ⟨l2, by simp only [createLineFromInputTokens, hf, e1, hsp]; exact e2⟩

end LNlp
