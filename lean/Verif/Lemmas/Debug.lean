import Verif.Model.Debug
/- Reading back what `Debug` writes: numbers, string literals, names, indented lines (for C116 and C132). -/
namespace LNlp
variable {W : World}

theorem natDbg_inj {a b : Nat} (h : natDbg a = natDbg b) : a = b := by
  have h1 := Nat.ofDigitChars_toDigits (b := 10) (n := a) (by omega) (by omega)
  have h2 := Nat.ofDigitChars_toDigits (b := 10) (n := b) (by omega) (by omega)
  unfold natDbg at h
  rw [h, h2] at h1
  exact h1.symm

theorem natDbg_digits (n : Nat) : ∀ c ∈ natDbg n, c.isDigit = true :=
  fun _ hc => Nat.isDigit_of_mem_toDigits (by omega) (by omega) hc

/-- two numbers printed before the same non-digit -/
theorem digits_prefix : ∀ (a b x y : Str) (c : Char), (∀ d ∈ a, d.isDigit = true) → (∀ d ∈ b, d.isDigit = true) →
    c.isDigit = false → a ++ c :: x = b ++ c :: y → a = b ∧ x = y
  | [], [], _, _, _, _, _, _, h => by simpa using h
  | [], d :: b, _, _, c, _, hb, hc, h => by
    simp only [List.nil_append, List.cons_append, List.cons.injEq] at h
    have := hb d (by simp)
    rw [← h.1, hc] at this; cases this
  | d :: a, [], _, _, c, ha, _, hc, h => by
    simp only [List.nil_append, List.cons_append, List.cons.injEq] at h
    have := ha d (by simp)
    rw [h.1, hc] at this; cases this
  | d :: a, e :: b, x, y, c, ha, hb, hc, h => by
    simp only [List.cons_append, List.cons.injEq] at h
    obtain ⟨rfl, h⟩ := h
    obtain ⟨h1, h2⟩ := digits_prefix a b x y c (fun d hd => ha d (by simp [hd])) (fun d hd => hb d (by simp [hd])) hc h
    exact ⟨by rw [h1], h2⟩

theorem nat_prefix {m n : Nat} {x y : Str} {c : Char} (hc : c.isDigit = false)
    (h : natDbg m ++ c :: x = natDbg n ++ c :: y) : m = n ∧ x = y := by
  obtain ⟨h1, h2⟩ := digits_prefix _ _ _ _ c (natDbg_digits m) (natDbg_digits n) hc h
  exact ⟨natDbg_inj h1, h2⟩

/-! ### Hexadecimal numbers -/

theorem digitChar_inj : ∀ {a b : Nat}, a < 16 → b < 16 → a.digitChar = b.digitChar → a = b := by
  have : ∀ a, a < 16 → ∀ b, b < 16 → a.digitChar = b.digitChar → a = b := by decide
  exact fun {a b} ha hb h => this a ha b hb h

theorem hex_cases (n : Nat) : (n < 16 ∧ Nat.toDigits 16 n = [n.digitChar]) ∨
    (16 ≤ n ∧ Nat.toDigits 16 n = Nat.toDigits 16 (n / 16) ++ [(n % 16).digitChar]) := by
  by_cases h : n < 16
  · exact .inl ⟨h, Nat.toDigits_of_lt_base h⟩
  · exact .inr ⟨by omega, Nat.toDigits_of_base_le (by omega) (by omega)⟩

theorem hex_ne (n : Nat) : ∀ c ∈ Nat.toDigits 16 n, c ≠ '}' ∧ c ≠ '\n' := by
  induction n using Nat.strongRecOn with
  | ind n ih =>
    have dg : ∀ k, k < 16 → k.digitChar ≠ '}' ∧ k.digitChar ≠ '\n' := by decide
    rcases hex_cases n with ⟨h, e⟩ | ⟨h, e⟩
    · intro c hc
      rw [e, List.mem_singleton] at hc
      exact hc ▸ dg n h
    · intro c hc
      rw [e, List.mem_append, List.mem_singleton] at hc
      rcases hc with hc | hc
      · exact ih (n / 16) (by omega) c hc
      · exact hc ▸ dg _ (by omega)

theorem hex_inj (m : Nat) : ∀ n, Nat.toDigits 16 m = Nat.toDigits 16 n → m = n := by
  induction m using Nat.strongRecOn with
  | ind m ih =>
    intro n h
    have ne : ∀ k, (Nat.toDigits 16 k).length ≠ 0 := fun k hk => Nat.toDigits_ne_nil (List.eq_nil_of_length_eq_zero hk)
    rcases hex_cases m with ⟨h1, e1⟩ | ⟨h1, e1⟩ <;> rcases hex_cases n with ⟨h2, e2⟩ | ⟨h2, e2⟩ <;> rw [e1, e2] at h
    · exact digitChar_inj h1 h2 (by simpa using h)
    · have := congrArg List.length h; simp at this
    · have := congrArg List.length h; simp at this
    · obtain ⟨h3, h4⟩ := List.append_inj' h rfl
      have := ih (m / 16) (by omega) _ h3
      have := digitChar_inj (a := m % 16) (b := n % 16) (by omega) (by omega) (by simpa using h4)
      omega

/-- texts without `c`, each followed by `c` -/
theorem until_prefix (c : Char) : ∀ (a b x y : Str), c ∉ a → c ∉ b → a ++ c :: x = b ++ c :: y → a = b ∧ x = y
  | [], [], _, _, _, _, h => by simpa using h
  | [], d :: b, _, _, _, hb, h => by simp at h; simp [h.1] at hb
  | d :: a, [], _, _, ha, _, h => by simp at h; simp [h.1] at ha
  | d :: a, e :: b, x, y, ha, hb, h => by
    simp only [List.cons_append, List.cons.injEq] at h
    obtain ⟨h1, h2⟩ := until_prefix c a b x y (fun k => ha (by simp [k])) (fun k => hb (by simp [k])) h.2
    exact ⟨by rw [h1, h.1], h2⟩

/-! ### String literals -/

/-- the forms a character takes in a literal -/
theorem escapeChar_cases (esc : Char → Bool) (c : Char) :
    (∃ d, escapeChar esc c = ['\\', d] ∧
      (c, d) ∈ [('\x00', '0'), ('\t', 't'), ('\r', 'r'), ('\n', 'n'), ('"', '"'), ('\\', '\\')]) ∨
    escapeChar esc c = ['\\', 'u', '{'] ++ Nat.toDigits 16 c.toNat ++ ['}'] ∨
    (escapeChar esc c = [c] ∧ c ≠ '"' ∧ c ≠ '\\' ∧ c ≠ '\n') := by
  unfold escapeChar
  split
  · next h => exact .inl ⟨_, rfl, by simp [h]⟩
  split
  · next h => exact .inl ⟨_, rfl, by simp [h]⟩
  split
  · next h => exact .inl ⟨_, rfl, by simp [h]⟩
  split
  · next h => exact .inl ⟨_, rfl, by simp [h]⟩
  split
  · next h => exact .inl ⟨_, rfl, by simp [h]⟩
  split
  · next h => exact .inl ⟨_, rfl, by simp [h]⟩
  split
  · exact .inr (.inl rfl)
  · next h1 h2 h3 _ => exact .inr (.inr ⟨rfl, h2, h3, h1⟩)

theorem escape_prefix {esc : Char → Bool} {c d : Char} {x y : Str}
    (h : escapeChar esc c ++ x = escapeChar esc d ++ y) : c = d ∧ x = y := by
  rcases escapeChar_cases esc c with ⟨c', e, hc⟩ | e | ⟨e, _, hc, _⟩ <;>
    rcases escapeChar_cases esc d with ⟨d', e', hd⟩ | e' | ⟨e', _, hd, _⟩ <;> rw [e, e'] at h <;>
    simp only [List.cons_append, List.nil_append, List.append_assoc, List.cons.injEq, true_and] at h
  · refine ⟨?_, h.2⟩
    obtain ⟨rfl, _⟩ := h
    simp only [List.mem_cons, Prod.mk.injEq, List.not_mem_nil, or_false] at hc hd
    rcases hc with ⟨h1, h2⟩ | ⟨h1, h2⟩ | ⟨h1, h2⟩ | ⟨h1, h2⟩ | ⟨h1, h2⟩ | ⟨h1, h2⟩ <;> subst h2 <;> simp at hd <;> rw [h1, hd]
  · obtain ⟨rfl, _⟩ := h; simp at hc
  · exact absurd h.1.symm hd
  · obtain ⟨rfl, _⟩ := h; simp at hd
  · obtain ⟨h1, h2⟩ := until_prefix '}' _ _ _ _ (fun k => (hex_ne _ _ k).1 rfl) (fun k => (hex_ne _ _ k).1 rfl) h
    have := hex_inj _ _ h1
    exact ⟨Char.toNat_inj.1 this, h2⟩
  · exact absurd h.1.symm hd
  · exact absurd h.1 hc
  · exact absurd h.1 hc
  · exact h

theorem escape_first (esc : Char → Bool) (c : Char) (x : Str) : ∃ d r, escapeChar esc c ++ x = d :: r ∧ d ≠ '"' := by
  rcases escapeChar_cases esc c with ⟨c', e, _⟩ | e | ⟨e, hc, _⟩ <;> rw [e]
  · exact ⟨'\\', _, rfl, by decide⟩
  · exact ⟨'\\', _, rfl, by decide⟩
  · exact ⟨c, _, rfl, hc⟩

theorem escapes_prefix {esc : Char → Bool} {x y : Str} : ∀ {s t : Str},
    s.flatMap (escapeChar esc) ++ '"' :: x = t.flatMap (escapeChar esc) ++ '"' :: y → s = t ∧ x = y
  | [], [], h => by simpa using h
  | [], d :: t, h => by
    obtain ⟨e, r, h1, h2⟩ := escape_first esc d (t.flatMap (escapeChar esc) ++ '"' :: y)
    rw [List.flatMap_cons, List.append_assoc, h1] at h
    simp only [List.flatMap_nil, List.nil_append, List.cons.injEq] at h
    exact absurd h.1.symm h2
  | c :: s, [], h => by
    obtain ⟨e, r, h1, h2⟩ := escape_first esc c (s.flatMap (escapeChar esc) ++ '"' :: x)
    rw [List.flatMap_cons, List.append_assoc, h1] at h
    simp only [List.flatMap_nil, List.nil_append, List.cons.injEq] at h
    exact absurd h.1 h2
  | c :: s, d :: t, h => by
    simp only [List.flatMap_cons, List.append_assoc] at h
    obtain ⟨rfl, h'⟩ := escape_prefix h
    obtain ⟨h1, h2⟩ := escapes_prefix h'
    exact ⟨by rw [h1], h2⟩

theorem str_prefix {esc : Char → Bool} {s t x y : Str} (h : strDbg esc s ++ x = strDbg esc t ++ y) : s = t ∧ x = y := by
  simp only [strDbg, List.cons_append, List.nil_append, List.append_assoc, List.cons.injEq, true_and] at h
  exact escapes_prefix h

theorem strDbg_line (esc : Char → Bool) (s : Str) : '\n' ∉ strDbg esc s := by
  intro h
  simp only [strDbg, List.cons_append, List.nil_append, List.mem_cons, List.mem_append, List.mem_flatMap] at h
  rcases h with h | ⟨c, _, h⟩ | h | h
  · exact absurd h (by decide)
  · rcases escapeChar_cases esc c with ⟨c', e, hc⟩ | e | ⟨e, _, _, hc⟩ <;> rw [e] at h
    · simp only [List.mem_cons, Prod.mk.injEq, List.not_mem_nil, or_false] at h hc
      rcases h with h | h
      · exact absurd h (by decide)
      · subst h; simp at hc
    · simp only [List.cons_append, List.nil_append, List.mem_cons, List.mem_append, List.not_mem_nil, or_false] at h
      rcases h with h | h | h | h | h
      · exact absurd h (by decide)
      · exact absurd h (by decide)
      · exact absurd h (by decide)
      · exact (hex_ne _ _ h).2 rfl
      · exact absurd h (by decide)
    · simp only [List.mem_cons, List.not_mem_nil, or_false] at h
      exact hc h.symm
  · exact absurd h (by decide)
  · cases h

theorem tag_prefix {a b : TextTag} {c : Char} {x y : Str} (hc : c ∉ "NATPUCSYMBEWORD".toList)
    (h : a.dbg ++ c :: x = b.dbg ++ c :: y) : a = b ∧ x = y := by
  obtain ⟨h1, h2⟩ := until_prefix c _ _ _ _ (by rintro k; apply hc; revert k; cases a <;> simp [TextTag.dbg] <;> grind)
    (by rintro k; apply hc; revert k; cases b <;> simp [TextTag.dbg] <;> grind) h
  refine ⟨?_, h2⟩
  revert h1
  cases a <;> cases b <;> simp [TextTag.dbg]

/-! ### Indented lines -/

/-- a text made of whole lines; `start` says that a line begins here -/
def WholeLines : Bool → Str → Prop
  | start, [] => start = true
  | _, c :: cs => WholeLines (c == '\n') cs

theorem wholeLines_append : ∀ {a b : Str} {s : Bool}, WholeLines s a → WholeLines true b → WholeLines s (a ++ b)
  | [], _, _, h1, h2 => by simp only [WholeLines] at h1; subst h1; exact h2
  | _ :: a, _, _, h1, h2 => wholeLines_append (a := a) h1 h2

theorem wholeLines_end : ∀ (a : Str) {s : Bool}, WholeLines s (a ++ ['\n'])
  | [], _ => rfl
  | _ :: a, _ => wholeLines_end a

theorem indent_append : ∀ {a b : Str} {s : Bool}, WholeLines s a → indent s (a ++ b) = indent s a ++ indent true b
  | [], _, _, h => by simp only [WholeLines] at h; subst h; rfl
  | c :: a, b, s, h => by
    have := indent_append (a := a) (b := b) (s := c == '\n') h
    simp only [List.cons_append, indent, this, List.append_assoc]

/-- what is indented can be told from what follows -/
theorem indent_prefix {c : Char} (hc : c ≠ ' ') : ∀ {a b x y : Str} {s : Bool}, WholeLines s a → WholeLines s b →
    indent s a ++ c :: x = indent s b ++ c :: y → a = b ∧ x = y
  | [], [], _, _, _, _, _, h => by simpa [indent] using h
  | [], d :: b, _, _, s, h1, _, h => by
    simp only [WholeLines] at h1; subst h1
    simp [indent, hc] at h
  | d :: a, [], _, _, s, _, h1, h => by
    simp only [WholeLines] at h1; subst h1
    simp only [indent, if_true, List.cons_append, List.nil_append, List.cons.injEq] at h
    exact absurd h.1.symm hc
  | d :: a, e :: b, x, y, s, h1, h2, h => by
    have h' : d :: (indent (d == '\n') a ++ c :: x) = e :: (indent (e == '\n') b ++ c :: y) := by
      cases s <;> simpa [indent] using h
    simp only [List.cons.injEq] at h'
    obtain ⟨rfl, h'⟩ := h'
    obtain ⟨h3, h4⟩ := indent_prefix hc (a := a) (b := b) h1 h2 h'
    exact ⟨by rw [h3], h4⟩

/-- the entries before indentation -/
def entryText (es : List Str) : Str := es.flatMap (fun e => e ++ [',', '\n'])

theorem entryText_whole : ∀ es : List Str, WholeLines true (entryText es)
  | [] => rfl
  | e :: es => by
    have := wholeLines_append (wholeLines_end (e ++ [',']) (s := true)) (entryText_whole es)
    simpa [entryText] using this

theorem prettyEntries_eq : ∀ es : List Str, prettyEntries es = indent true (entryText es)
  | [] => rfl
  | e :: es => by
    have h1 := prettyEntries_eq es
    have h2 := indent_append (b := entryText es) (wholeLines_end (e ++ [',']) (s := true))
    have h3 : entryText (e :: es) = e ++ [','] ++ ['\n'] ++ entryText es := by simp [entryText]
    have h4 : prettyEntries (e :: es) = indent true (e ++ [','] ++ ['\n']) ++ prettyEntries es := by
      simp [prettyEntries]
    rw [h3, h2, ← h1, h4]

theorem entries_prefix {c : Char} (hc : c ≠ ' ') {es fs : List Str} {x y : Str}
    (h : prettyEntries es ++ c :: x = prettyEntries fs ++ c :: y) : entryText es = entryText fs ∧ x = y := by
  rw [prettyEntries_eq, prettyEntries_eq] at h
  exact indent_prefix hc (entryText_whole _) (entryText_whole _) h

end LNlp
