import Verif.Lemmas.Amount
/- The grammar of amounts is deterministic, so the resolver computes exactly it. -/
namespace LNlp
variable {W : World} {r : AmountResolver} {l : LLLine W} {h : History W}

theorem groups_inv {a e : Nat} {s : Str} (hg : Groups r l h a e s) : (e = a ∧ NumAt l h a s) ∨
    ∃ e0 s0 t, e = e0 + 2 ∧ s = s0 ++ t ∧ Groups r l h a e0 s0 ∧ DelimAt r h (e0 + 1) ∧ NumAt l h (e0 + 2) t := by
  cases hg with
  | one hn => exact .inl ⟨rfl, hn⟩
  | more hg hd hn => exact .inr ⟨_, _, _, rfl, rfl, hg, hd, hn⟩

theorem groups_parity {a e : Nat} {s : Str} (hg : Groups r l h a e s) : ∃ n, e = a + 2 * n := by
  induction hg with
  | one _ => exact ⟨0, rfl⟩
  | more _ _ _ ih => obtain ⟨n, rfl⟩ := ih; exact ⟨n + 1, by omega⟩

theorem groups_fun {a e : Nat} {s : Str} (hg : Groups r l h a e s) : ∀ {s' : Str}, Groups r l h a e s' → s = s' := by
  induction hg with
  | one hn =>
    intro s' hg'
    rcases groups_inv hg' with ⟨_, hn'⟩ | ⟨e0, _, _, he, _, hg0, _⟩
    · exact numAt_unique hn hn'
    · have := groups_le hg0; omega
  | @more e s t hg hd hn ih =>
    intro s' hg'
    rcases groups_inv hg' with ⟨he, _⟩ | ⟨e0, s0, t0, he, rfl, hg0, _, hn0⟩
    · have := groups_le hg; omega
    · have : e0 = e := by omega
      subst this
      rw [ih hg0, numAt_unique hn hn0]

/-- the groups go on after token `e` -/
def GoesOn (r : AmountResolver) (l : LLLine W) (h : History W) (e : Nat) : Prop :=
  DelimAt r h (e + 1) ∧ ∃ t, NumAt l h (e + 2) t

theorem groups_goesOn {a e : Nat} {s : Str} (hg : Groups r l h a e s) :
    ∀ {e' : Nat} {s' : Str}, Groups r l h a e' s' → e' < e → GoesOn r l h e' := by
  induction hg with
  | one _ => intro e' s' hg' hlt; have := groups_le hg'; omega
  | @more e s t hg hd hn ih =>
    intro e' s' hg' hlt
    by_cases hc : e' < e
    · exact ih hg' hc
    · have : e' = e := by
        obtain ⟨n, hn⟩ := groups_parity hg
        obtain ⟨m, hm⟩ := groups_parity hg'
        omega
      subst this
      exact ⟨hd, t, hn⟩

theorem groups_unique {a e e' : Nat} {s s' : Str} (hg : Groups r l h a e s) (hg' : Groups r l h a e' s')
    (hm : ¬ GoesOn r l h e) (hm' : ¬ GoesOn r l h e') : e = e' ∧ s = s' := by
  rcases Nat.lt_trichotomy e e' with hlt | rfl | hlt
  · exact absurd (groups_goesOn hg' hg hlt) hm
  · exact ⟨rfl, groups_fun hg hg'⟩
  · exact absurd (groups_goesOn hg hg' hlt) hm'

theorem amountEnd_max {e b next : Nat} {s str : Str} (ha : AmountEnd r l h e s b str next) : ¬ GoesOn r l h e := by
  rintro ⟨hd, t, hn⟩
  cases ha with
  | trailing _ h' => exact h' t hn
  | fraction h' _ _ => exact h' hd
  | point h' _ _ => exact h' hd
  | adjacent h' _ _ => exact h' hd
  | plain h' _ _ => exact h' hd

theorem untestable_max {e : Nat} (ht : ¬ Testable l h (e + 1)) : ¬ GoesOn r l h e := by
  rintro ⟨⟨c, hc, _⟩, _⟩
  exact ht (fun _ => ⟨_, (mem_valuesOf (W := W) (k := .char) (v := c)).1 hc, rfl⟩)

theorem amountEnd_unique {e b next b' next' : Nat} {s str str' : Str} (ha : AmountEnd r l h e s b str next)
    (ha' : AmountEnd r l h e s b' str' next') : b = b' ∧ str = str' ∧ next = next' := by
  cases ha with
  | trailing h1 h2 =>
    cases ha' with
    | trailing => exact ⟨rfl, rfl, rfl⟩
    | fraction h' => exact absurd h1 h'
    | point h' => exact absurd h1 h'
    | adjacent h' => exact absurd h1 h'
    | plain h' => exact absurd h1 h'
  | fraction h1 h2 h3 =>
    cases ha' with
    | trailing h' => exact absurd h' h1
    | fraction _ _ h' => rw [numAt_unique h3 h']; exact ⟨rfl, rfl, rfl⟩
    | point _ _ h' => exact absurd h3 (h' _)
    | adjacent _ h' => exact absurd h2 h'
    | plain _ h' => exact absurd h2 h'
  | point h1 h2 h3 =>
    cases ha' with
    | trailing h' => exact absurd h' h1
    | fraction _ _ h' => exact absurd h' (h3 _)
    | point => exact ⟨rfl, rfl, rfl⟩
    | adjacent _ h' => exact absurd h2 h'
    | plain _ h' => exact absurd h2 h'
  | adjacent h1 h2 h3 =>
    cases ha' with
    | trailing h' => exact absurd h' h1
    | fraction _ h' => exact absurd h' h2
    | point _ h' => exact absurd h' h2
    | adjacent _ _ h' => rw [numAt_unique h3 h']; exact ⟨rfl, rfl, rfl⟩
    | plain _ _ h' => exact absurd h3 (h' _)
  | plain h1 h2 h3 =>
    cases ha' with
    | trailing h' => exact absurd h' h1
    | fraction _ h' => exact absurd h' h2
    | point _ h' => exact absurd h' h2
    | adjacent _ _ h' => exact absurd h' (h3 _)
    | plain => exact ⟨rfl, rfl, rfl⟩

theorem isAmount_unique {a b next b' next' : Nat} {str str' : Str} (ha : IsAmount r l h a b str next)
    (ha' : IsAmount r l h a b' str' next') : b = b' ∧ str = str' ∧ next = next' := by
  obtain ⟨e, s, hg, _, he⟩ := ha
  obtain ⟨e', s', hg', _, he'⟩ := ha'
  obtain ⟨rfl, rfl⟩ := groups_unique hg hg' (amountEnd_max he) (amountEnd_max he')
  exact amountEnd_unique he he'

theorem isAmount_testable {a b next e : Nat} {str s : Str} (ha : IsAmount r l h a b str next)
    (hg : Groups r l h a e s) (ht : ¬ Testable l h (e + 1)) : False := by
  obtain ⟨e', s', hg', ht', he'⟩ := ha
  obtain ⟨rfl, rfl⟩ := groups_unique hg hg' (untestable_max ht) (amountEnd_max he')
  exact ht ht'

theorem firstNum_unique {start stop i j : Nat} (hi : FirstNum l h start stop i) (hj : FirstNum l h start stop j) : i = j := by
  obtain ⟨i1, _, ⟨t, it⟩, i4⟩ := hi
  obtain ⟨j1, _, ⟨u, ju⟩, j4⟩ := hj
  rcases Nat.lt_trichotomy i j with hlt | rfl | hlt
  · exact absurd it (j4 i i1 hlt t)
  · rfl
  · exact absurd ju (i4 j j1 hlt u)

theorem firstNum_some {start stop i : Nat} (hi : FirstNum l h start stop i)
    (hn : ∀ j, start ≤ j → j ≤ stop → ∀ t, ¬ NumAt l h j t) : False := by
  obtain ⟨i1, i2, ⟨t, it⟩, _⟩ := hi
  exact hn i i1 i2 t it

theorem amounts_unique {stop start : Nat} {out out' : List (LLCursorAssignment W.Decimal)}
    (ha : Amounts r l h stop start out) (ha' : Amounts r l h stop start out') : out = out' := by
  induction ha generalizing out' with
  | done hn =>
    cases ha' with
    | done => rfl
    | next hf => exact (firstNum_some hf hn).elim
  | next hf hi hp _ ih =>
    cases ha' with
    | done hn => exact (firstNum_some hf hn).elim
    | next hf' hi' hp' ho' =>
      obtain rfl := firstNum_unique hf hf'
      obtain ⟨rfl, rfl, rfl⟩ := isAmount_unique hi hi'
      rw [hp] at hp'; cases hp'
      rw [ih ho']

theorem amounts_fail {stop start : Nat} {out : List (LLCursorAssignment W.Decimal)} {p : Panic}
    (ha : Amounts r l h stop start out) (hf : AmountsFail r l h stop p start) : False := by
  induction ha with
  | done hn =>
    cases hf with
    | noAttrs hf => exact firstNum_some hf hn
    | number hf => exact firstNum_some hf hn
    | later hf => exact firstNum_some hf hn
  | next hf1 hi hp _ ih =>
    cases hf with
    | noAttrs hf' hg ht =>
      obtain rfl := firstNum_unique hf1 hf'
      exact isAmount_testable hi hg ht
    | number hf' hi' hp' =>
      obtain rfl := firstNum_unique hf1 hf'
      obtain ⟨rfl, rfl, rfl⟩ := isAmount_unique hi hi'
      rw [hp] at hp'; cases hp'
    | later hf' hi' hp' hl =>
      obtain rfl := firstNum_unique hf1 hf'
      obtain ⟨rfl, rfl, rfl⟩ := isAmount_unique hi hi'
      exact ih hl

theorem fail_unique {stop start : Nat} {p p' : Panic}
    (hf : AmountsFail r l h stop p start) (hf' : AmountsFail r l h stop p' start) : p = p' := by
  induction hf generalizing p' with
  | noAttrs h1 hg ht =>
    cases hf' with
    | noAttrs => rfl
    | number h2 hi =>
      obtain rfl := firstNum_unique h1 h2
      exact (isAmount_testable hi hg ht).elim
    | later h2 hi =>
      obtain rfl := firstNum_unique h1 h2
      exact (isAmount_testable hi hg ht).elim
  | number h1 hi hp =>
    cases hf' with
    | noAttrs h2 hg ht =>
      obtain rfl := firstNum_unique h1 h2
      exact (isAmount_testable hi hg ht).elim
    | number => rfl
    | later h2 hi' hp' =>
      obtain rfl := firstNum_unique h1 h2
      obtain ⟨rfl, rfl, rfl⟩ := isAmount_unique hi hi'
      rw [hp] at hp'; cases hp'
  | later h1 hi hp _ ih =>
    cases hf' with
    | noAttrs h2 hg ht =>
      obtain rfl := firstNum_unique h1 h2
      exact (isAmount_testable hi hg ht).elim
    | number h2 hi' hp' =>
      obtain rfl := firstNum_unique h1 h2
      obtain ⟨rfl, rfl, rfl⟩ := isAmount_unique hi hi'
      rw [hp] at hp'; cases hp'
    | later h2 hi' hp' hl =>
      obtain rfl := firstNum_unique h1 h2
      obtain ⟨rfl, rfl, rfl⟩ := isAmount_unique hi hi'
      exact ih hl

/-! ### the resolver -/

theorem outerLoop_fuel (r : AmountResolver) {s : LLSelection W} (rep : Rep s.ll_line.val h) (hs : s.Inside)
    {inner fuel : Nat} (hi : s.ll_line.val.ll_tokens.length < inner) (hf : s.ll_line.val.ll_tokens.length < fuel) :
    OuterDone r s.ll_line.val h s.end_idx s.start_idx [] (r.outerLoop inner fuel s []) := by
  have := hs.2
  exact outerLoop_done r (rc := s.ll_line) rep hi hs.2 fuel s.start_idx [] (by omega)

theorem go_done (r : AmountResolver) {s : LLSelection W} (rep : Rep s.ll_line.val h) (hs : s.Inside) :
    OuterDone r s.ll_line.val h s.end_idx s.start_idx [] (r.go s) :=
  outerLoop_fuel r rep hs (Nat.lt_succ_self _) (Nat.lt_succ_self _)

theorem outerDone_ok {stop start : Nat} {x : R (List (LLCursorAssignment W.Decimal))} {out : List (LLCursorAssignment W.Decimal)}
    (hd : OuterDone r l h stop start [] x) : x = .ok out ↔ Amounts r l h stop start out := by
  cases hd with
  | ok ha =>
    constructor
    · intro he; cases he; exact ha
    · intro ha'; rw [amounts_unique ha ha', List.nil_append]
  | error hf =>
    constructor
    · intro he; cases he
    · intro ha; exact (amounts_fail ha hf).elim

theorem outerDone_error {stop start : Nat} {x : R (List (LLCursorAssignment W.Decimal))} {p : Panic}
    (hd : OuterDone r l h stop start [] x) : x = .error p ↔ AmountsFail r l h stop p start := by
  cases hd with
  | ok ha =>
    constructor
    · intro he; cases he
    · intro hf; exact (amounts_fail ha hf).elim
  | error hf =>
    constructor
    · intro he; cases he; exact hf
    · intro hf'; rw [fail_unique hf hf']

theorem outerDone_unique {stop start : Nat} {x y : R (List (LLCursorAssignment W.Decimal))}
    (hx : OuterDone r l h stop start [] x) (hy : OuterDone r l h stop start [] y) : x = y := by
  cases hy with
  | ok ha => exact (outerDone_ok hx).2 ha
  | error hf => exact (outerDone_error hx).2 hf

/-! ### consequences of the grammar -/

theorem isAmount_le {a b next : Nat} {str : Str} (ha : IsAmount r l h a b str next) :
    a ≤ b ∧ b < next ∧ b < l.ll_tokens.length := by
  obtain ⟨e, s, hg, _, he⟩ := ha
  have := groups_le hg
  cases he with
  | trailing => omega
  | fraction _ _ hn => have := numAt_lt hn; omega
  | point => omega
  | adjacent _ _ hn => have := numAt_lt hn; omega
  | plain => omega

theorem amounts_from {stop start : Nat} {out : List (LLCursorAssignment W.Decimal)} (ha : Amounts r l h stop start out) :
    ∀ x ∈ out, start ≤ x.start_idx ∧ x.start_idx ≤ stop := by
  induction ha with
  | done => intro x hx; cases hx
  | next hf hi hp _ ih =>
    intro x hx
    have := hf.1
    have := hf.2.1
    have := isAmount_le hi
    rcases List.mem_cons.1 hx with rfl | hx
    · exact ⟨hf.1, hf.2.1⟩
    · have := ih x hx; omega

theorem amounts_pairwise {stop start : Nat} {out : List (LLCursorAssignment W.Decimal)} (ha : Amounts r l h stop start out) :
    out.Pairwise (fun x y => x.end_idx < y.start_idx) := by
  induction ha with
  | done => exact .nil
  | next hf hi hp ho ih =>
    refine List.pairwise_cons.2 ⟨fun y hy => ?_, ih⟩
    have := isAmount_le hi
    have := amounts_from ho y hy
    simp only; omega

theorem amounts_mem {stop start : Nat} {out : List (LLCursorAssignment W.Decimal)} (ha : Amounts r l h stop start out) :
    ∀ x ∈ out, ∃ str next, IsAmount r l h x.start_idx x.end_idx str next ∧ W.parseDecimal str = some x.value := by
  induction ha with
  | done => intro x hx; cases hx
  | next hf hi hp ho ih =>
    intro x hx
    rcases List.mem_cons.1 hx with rfl | hx
    · exact ⟨_, _, hi, hp⟩
    · exact ih x hx

theorem groups_num {a e : Nat} {s : Str} (hg : Groups r l h a e s) : (∃ t, NumAt l h a t) ∧ ∃ t, NumAt l h e t := by
  induction hg with
  | one hn => exact ⟨⟨_, hn⟩, ⟨_, hn⟩⟩
  | more _ _ hn ih => exact ⟨ih.1, ⟨_, hn⟩⟩

theorem isAmount_num {a b next : Nat} {str : Str} (ha : IsAmount r l h a b str next) :
    (∃ t, NumAt l h a t) ∧ ∃ t, NumAt l h b t := by
  obtain ⟨e, s, hg, _, he⟩ := ha
  obtain ⟨h1, h2⟩ := groups_num hg
  cases he with
  | trailing => exact ⟨h1, h2⟩
  | fraction _ _ hn => exact ⟨h1, _, hn⟩
  | point => exact ⟨h1, h2⟩
  | adjacent _ _ hn => exact ⟨h1, _, hn⟩
  | plain => exact ⟨h1, h2⟩

theorem amounts_cover {stop start : Nat} {out : List (LLCursorAssignment W.Decimal)} (ha : Amounts r l h stop start out)
    (hc : ∀ i t, NumAt l h i t → ¬ DelimAt r h i ∧ ¬ DecAt r h i) :
    ∀ i t, start ≤ i → i ≤ stop → NumAt l h i t → ∃ x ∈ out, x.start_idx ≤ i ∧ i ≤ x.end_idx := by
  induction ha with
  | done hn => intro i t h1 h2 h3; exact absurd h3 (hn i h1 h2 t)
  | @next start a b next str d rest hf hi hp ho ih =>
    intro i t h1 h2 h3
    by_cases hlt : i < a
    · exact absurd h3 (hf.2.2.2 i h1 hlt t)
    · by_cases hb : i ≤ b
      · exact ⟨_, List.mem_cons_self .., by simp only; omega, hb⟩
      · by_cases hnx : next ≤ i
        · obtain ⟨x, hx, hx'⟩ := ih i t hnx h2 h3
          exact ⟨x, List.mem_cons_of_mem _ hx, hx'⟩
        · exfalso
          obtain ⟨e, s, hg, _, he⟩ := hi
          cases he with
          | trailing hd => have : i = b + 1 := by omega
                           subst this; exact (hc _ _ h3).1 hd
          | fraction => omega
          | point _ hd => have : i = b + 1 := by omega
                          subst this; exact (hc _ _ h3).2 hd
          | adjacent => omega
          | plain => omega

/-- the numbers that lie in no amount are those the search skipped behind an amount -/
theorem amounts_skipped {stop start : Nat} {out : List (LLCursorAssignment W.Decimal)} (ha : Amounts r l h stop start out) :
    ∀ i t, start ≤ i → i ≤ stop → NumAt l h i t → ((¬ ∃ x ∈ out, x.start_idx ≤ i ∧ i ≤ x.end_idx) ↔
      ∃ x ∈ out, x.end_idx + 1 = i ∧ ∃ str, IsAmount r l h x.start_idx x.end_idx str (i + 1)) := by
  induction ha with
  | done hn => intro i t h1 h2 h3; exact absurd h3 (hn i h1 h2 t)
  | @next start a b next str d rest hf hi hp ho ih =>
    intro i t h1 h2 h3
    have hle := isAmount_le hi
    have hfr := amounts_from ho
    have hlt : ¬ i < a := fun hlt => hf.2.2.2 i h1 hlt t h3
    constructor
    · intro hno
      have hb : ¬ i ≤ b := fun hb => hno ⟨_, List.mem_cons_self .., by simp only; omega, hb⟩
      by_cases hnx : next ≤ i
      · obtain ⟨x, hx, hx'⟩ := (ih i t hnx h2 h3).1 (fun ⟨x, hx, hx'⟩ => hno ⟨x, List.mem_cons_of_mem _ hx, hx'⟩)
        exact ⟨x, List.mem_cons_of_mem _ hx, hx'⟩
      · have hnext : next = b + 1 ∨ next = b + 2 := by
          obtain ⟨e, s, _, _, he⟩ := hi
          cases he <;> omega
        have e1 : b + 1 = i := by omega
        have e2 : next = i + 1 := by omega
        exact ⟨_, List.mem_cons_self .., e1, str, e2 ▸ hi⟩
    · rintro ⟨x, hx, e, str', hx'⟩ ⟨y, hy, hy'⟩
      rcases List.mem_cons.1 hx with rfl | hx
      · obtain ⟨_, _, e2⟩ := isAmount_unique hi hx'
        simp only at e
        rcases List.mem_cons.1 hy with rfl | hy
        · simp only at hy'; omega
        · have := hfr y hy; omega
      · have := hfr x hx
        have := (isAmount_le hx').1
        have hnx : next ≤ i := by omega
        refine (ih i t hnx h2 h3).2 ⟨x, hx, e, str', hx'⟩ ?_
        rcases List.mem_cons.1 hy with rfl | hy
        · simp only at hy'; omega
        · exact ⟨y, hy, hy'⟩

/-- what is skipped is a delimiter or a decimal point -/
theorem isAmount_skips {a b : Nat} {str : Str} (ha : IsAmount r l h a b str (b + 2)) :
    (DelimAt r h (b + 1) ∨ DecAt r h (b + 1)) ∧ ∀ t, ¬ NumAt l h (b + 2) t := by
  obtain ⟨e, s, _, _, he⟩ := ha
  generalize hn : b + 2 = n at he
  cases he with
  | trailing h1 h2 => exact ⟨.inl h1, h2⟩
  | fraction => omega
  | point _ h1 h2 => exact ⟨.inr h1, h2⟩
  | adjacent => omega
  | plain => omega

theorem fail_kinds {stop start : Nat} {p : Panic} (hf : AmountsFail r l h stop p start) : p = .noTokenAttrs ∨ p = .decimal := by
  induction hf with
  | noAttrs => exact .inl rfl
  | number => exact .inr rfl
  | later _ _ _ _ ih => exact ih

theorem fail_decimal {stop start : Nat} {p : Panic} (hf : AmountsFail r l h stop p start)
    (ht : ∀ i, i < l.ll_tokens.length → HasAttr h i) : p = .decimal := by
  induction hf with
  | noAttrs _ _ hn => exact absurd (fun hi => ht _ hi) hn
  | number => rfl
  | later _ _ _ _ ih => exact ih

/-- the groups one by one -/
theorem groups_list {a e : Nat} {s : Str} (hg : Groups r l h a e s) : ∃ gs : List Str, gs ≠ [] ∧ s = gs.flatten ∧
    e + 2 = a + 2 * gs.length ∧ (∀ k (hk : k < gs.length), NumAt l h (a + 2 * k) gs[k]) ∧
    ∀ k, k + 1 < gs.length → DelimAt r h (a + 2 * k + 1) := by
  induction hg with
  | @one t hn =>
    refine ⟨[t], by simp, by simp, by simp, ?_, ?_⟩
    · intro k hk
      have : k = 0 := by simpa using hk
      subst this; exact hn
    · intro k hk; simp at hk
  | @more e s t hg hd hn ih =>
    obtain ⟨gs, hne, rfl, he, h1, h2⟩ := ih
    refine ⟨gs ++ [t], by simp, by simp, by simp; omega, ?_, ?_⟩
    · intro k hk
      by_cases hlt : k < gs.length
      · rw [List.getElem_append_left hlt]; exact h1 k hlt
      · have : k = gs.length := by simp at hk; omega
        subst this
        rw [List.getElem_append_right (Nat.le_refl _)]
        simp only [Nat.sub_self, List.getElem_cons_zero]
        rw [← he]; exact hn
    · intro k hk
      by_cases hlt : k + 1 < gs.length
      · exact h2 k hlt
      · have : e = a + 2 * k := by simp at hk; omega
        rw [← this]; exact hd

/-- and back -/
theorem groups_of_list {a : Nat} : ∀ (n : Nat) (gs : List Str), gs.length = n + 1 →
    (∀ k (hk : k < gs.length), NumAt l h (a + 2 * k) gs[k]) → (∀ k, k + 1 < gs.length → DelimAt r h (a + 2 * k + 1)) →
    Groups r l h a (a + 2 * n) gs.flatten := by
  intro n
  induction n with
  | zero =>
    intro gs hl h1 _
    match gs, hl with
    | [t], _ => simpa using Groups.one (r := r) (h1 0 (by simp))
  | succ n ih =>
    intro gs hl h1 h2
    have hne : gs ≠ [] := by intro h; rw [h] at hl; simp at hl
    have hd : gs = gs.dropLast ++ [gs.getLast hne] := (List.dropLast_concat_getLast hne).symm
    have hl' : gs.dropLast.length = n + 1 := by simp [hl]
    have := ih gs.dropLast hl' (fun k hk => by
        have hk' : k < gs.length := by simp at hk; omega
        have := h1 k hk'
        rwa [List.getElem_dropLast]) (fun k hk => h2 k (by omega))
    rw [hd, List.flatten_append]
    simp only [List.flatten_cons, List.flatten_nil, List.append_nil]
    refine .more this (h2 n (by omega)) ?_
    have := h1 (n + 1) (by omega)
    rw [List.getLast_eq_getElem]
    simp only [hl, Nat.add_sub_cancel]
    exact this

end LNlp
