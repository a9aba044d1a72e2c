import Verif.Lemmas.AmountLine
import Verif.Props.Resolve
/- C64–C70: the amount resolver; C71 for it. -/
namespace LNlp
variable {W : World}

/-- "12'345.6, 7" and more, as a line -/
def Demo.amountLine : LLLine Demo.W :=
  Demo.getOk Demo.emptyLine (createLineFromString Demo.W "x 1'234.50, 7. y 8,".toList)
def Demo.amountHist : History Demo.W := creationHistory Demo.W utf8Len [.Text "x 1'234.50, 7. y 8,".toList []]
theorem Demo.amountHonest : Honest Demo.amountLine Demo.amountHist :=
  .create [.Text "x 1'234.50, 7. y 8,".toList []] utf8Len _ (by simp [InputToken.WF, InputToken.attrList]) rfl
theorem Demo.amountReach : Reachable Demo.amountLine Demo.amountHist := Demo.amountHonest.spec.1
theorem Demo.amountLine_ne : Demo.amountLine.ll_tokens ≠ [] := by intro h; cases h
theorem Demo.amountInside : (wholeLine Demo.amountLine 0).Inside := wholeLine_inside Demo.amountLine_ne 0
def Demo.amountOut : List (LLCursorAssignment Demo.W.Decimal) :=
  [⟨2, 6, ("1234.50".toList : Str)⟩, ⟨9, 9, ("7".toList : Str)⟩, ⟨14, 14, ("8".toList : Str)⟩]
theorem Demo.amountGo : AmountResolver.english.go (wholeLine Demo.amountLine 0) = .ok Demo.amountOut := rfl

/-! ### C64: termination -/

/-- C64: on every selection of a reachable line both loops end; the result does not depend on the fuel. -/
theorem C64_terminates (r : AmountResolver) {s : LLSelection W} {h : History W} (hr : Reachable s.ll_line.val h)
    (hs : s.Inside) : r.go s ≠ .error .stillRunning ∧
    ∀ inner fuel, s.ll_line.val.ll_tokens.length < inner → s.ll_line.val.ll_tokens.length < fuel →
      r.outerLoop inner fuel s [] = r.go s := by
  have hd := go_done r hr.rep hs
  refine ⟨fun he => ?_, fun inner fuel hi hf => outerDone_unique (outerLoop_fuel r hr.rep hs hi hf) hd⟩
  rcases fail_kinds ((outerDone_error hd).1 he) with h | h <;> cases h

example := C64_terminates .english (s := wholeLine Demo.amountLine 0) Demo.amountReach Demo.amountInside

/-! ### C65: disjoint and in order -/

/-- C65: amounts are pairwise disjoint, from left to right; each starts in the selection and lies in the line. -/
theorem C65_disjoint (r : AmountResolver) {s : LLSelection W} {h : History W} (hr : Reachable s.ll_line.val h)
    (hs : s.Inside) (out : List (LLCursorAssignment W.Decimal)) (ho : r.go s = .ok out) :
    out.Pairwise (fun x y => x.end_idx < y.start_idx) ∧
    ∀ x ∈ out, s.Has x.start_idx ∧ x.start_idx ≤ x.end_idx ∧ x.end_idx < s.ll_line.val.ll_tokens.length := by
  have ha := (outerDone_ok (go_done r hr.rep hs)).1 ho
  refine ⟨amounts_pairwise ha, fun x hx => ?_⟩
  obtain ⟨str, next, hi, _⟩ := amounts_mem ha x hx
  have := isAmount_le hi
  exact ⟨amounts_from ha x hx, this.1, this.2.2⟩

example := C65_disjoint .english (s := wholeLine Demo.amountLine 0) Demo.amountReach Demo.amountInside _ Demo.amountGo

/-- C65: on the whole line, every amount lies in the selection. -/
theorem C65_whole_line (r : AmountResolver) {l : LLLine W} {h : History W} (hr : Reachable l h) (ne : l.ll_tokens ≠ [])
    (ptr : Nat) (out : List (LLCursorAssignment W.Decimal)) (ho : r.go (wholeLine l ptr) = .ok out) :
    ∀ x ∈ out, (wholeLine l ptr).Has x.end_idx := by
  intro x hx
  have := (C65_disjoint r (s := wholeLine l ptr) hr (wholeLine_inside ne ptr) out ho).2 x hx
  obtain ⟨⟨h1, _⟩, h2, h3⟩ := this
  exact ⟨Nat.le_trans h1 h2, Nat.le_sub_one_of_lt h3⟩

example := C65_whole_line .english Demo.amountReach Demo.amountLine_ne 0 _ Demo.amountGo

/-- C65 needs the whole line: an amount can reach behind the end of a smaller selection. -/
def C65_inside_claim : Prop :=
  ∀ (W : World) (r : AmountResolver) (s : LLSelection W) (h : History W), Reachable s.ll_line.val h → s.Inside →
    ∀ out, r.go s = .ok out → ∀ x ∈ out, s.Has x.end_idx

theorem C65_inside_selection_false : ¬ C65_inside_claim := by
  intro claim
  have := claim Demo.W .english { wholeLine Demo.amountLine 0 with end_idx := 2 } _ Demo.amountReach
    ⟨by decide, by decide⟩ [⟨2, 6, ("1234.50".toList : Str)⟩] rfl _ (List.mem_cons_self ..)
  exact absurd this.2 (by decide)

/-! ### C66: every number belongs to one amount -/

/-- C66, full claim -/
def C66_claim : Prop :=
  ∀ (W : World) (r : AmountResolver) (s : LLSelection W) (h : History W), Reachable s.ll_line.val h → s.Inside →
    ∀ out, r.go s = .ok out →
      (∀ i t, s.Has i → NumAt s.ll_line.val h i t → ∃ x ∈ out, (x.start_idx ≤ i ∧ i ≤ x.end_idx) ∧
        ∀ y ∈ out, y.start_idx ≤ i → i ≤ y.end_idx → y = x) ∧
      ∀ x ∈ out, (∃ t, NumAt s.ll_line.val h x.start_idx t) ∧ ∃ t, NumAt s.ll_line.val h x.end_idx t

/-- the texts "1" and "5" side by side -/
def Demo.skipLine : LLLine Demo.W :=
  Demo.getOk Demo.emptyLine (createLineFromInputTokens Demo.W [.Text ['1'] [], .Text ['5'] []] utf8Len)

/-- C66 is false if a digit is configured as a delimiter: it is taken for a trailing delimiter and skipped. -/
theorem C66_every_number_false : ¬ C66_claim := by
  intro claim
  have := (claim Demo.W ⟨['5'], '.'⟩ (wholeLine Demo.skipLine 0)
    (creationHistory Demo.W utf8Len [.Text ['1'] [], .Text ['5'] []])
    (.create [.Text ['1'] [], .Text ['5'] []] utf8Len _ (by simp [InputToken.WF, InputToken.attrList]) rfl)
    ⟨by decide, by decide⟩ [⟨0, 0, (['1'] : Str)⟩] rfl).1 1 ['5'] ⟨by decide, by decide⟩ ⟨rfl, by decide⟩
  obtain ⟨x, hx, ⟨_, hle⟩, _⟩ := this
  rw [List.mem_singleton] at hx
  subst hx
  exact absurd hle (by decide)

/-- C66, what holds on every line: amounts start and end with a number, no number lies in two amounts, and
every number lies in one if no number token is also a delimiter or decimal token. -/
theorem C66_partial (r : AmountResolver) {s : LLSelection W} {h : History W} (hr : Reachable s.ll_line.val h)
    (hs : s.Inside) (out : List (LLCursorAssignment W.Decimal)) (ho : r.go s = .ok out) :
    ((∀ i t, NumAt s.ll_line.val h i t → ¬ DelimAt r h i ∧ ¬ DecAt r h i) →
      ∀ i t, s.Has i → NumAt s.ll_line.val h i t → ∃ x ∈ out, x.start_idx ≤ i ∧ i ≤ x.end_idx) ∧
    (∀ i, ∀ x ∈ out, ∀ y ∈ out, x.start_idx ≤ i → i ≤ x.end_idx → y.start_idx ≤ i → i ≤ y.end_idx → y = x) ∧
    ∀ x ∈ out, (∃ t, NumAt s.ll_line.val h x.start_idx t) ∧ ∃ t, NumAt s.ll_line.val h x.end_idx t := by
  have ha := (outerDone_ok (go_done r hr.rep hs)).1 ho
  refine ⟨fun hc i t hi hn => amounts_cover ha hc i t hi.1 hi.2 hn, ?_, fun x hx => ?_⟩
  · intro i x hx y hy h1 h2 h3 h4
    have hp := amounts_pairwise ha
    apply Classical.byContradiction
    intro hne
    have : ∀ {out : List (LLCursorAssignment W.Decimal)}, out.Pairwise (fun x y => x.end_idx < y.start_idx) →
        x ∈ out → y ∈ out → x.end_idx < y.start_idx ∨ y.end_idx < x.start_idx := by
      intro out hp
      induction hp with
      | nil => intro hx; cases hx
      | cons hz _ ih =>
        intro hx hy
        rcases List.mem_cons.1 hx with e1 | hx <;> rcases List.mem_cons.1 hy with e2 | hy
        · exact absurd (e2.trans e1.symm) hne
        · exact .inl (e1 ▸ hz _ hy)
        · exact .inr (e2 ▸ hz _ hx)
        · exact ih hx hy
    rcases this hp hx hy with h | h <;> omega
  · obtain ⟨str, next, hi, _⟩ := amounts_mem ha x hx
    exact isAmount_num hi

/-- C66, exactly: a number of the searched range lies in no amount iff it stands right behind an amount and the
search skipped it as a delimiter or decimal point that no digits follow. -/
theorem C66_exact_partial (r : AmountResolver) {s : LLSelection W} {h : History W} (hr : Reachable s.ll_line.val h)
    (hs : s.Inside) (out : List (LLCursorAssignment W.Decimal)) (ho : r.go s = .ok out) :
    ∀ i t, s.Has i → NumAt s.ll_line.val h i t → ((¬ ∃ x ∈ out, x.start_idx ≤ i ∧ i ≤ x.end_idx) ↔
      ∃ x ∈ out, x.end_idx + 1 = i ∧ (∃ str, IsAmount r s.ll_line.val h x.start_idx x.end_idx str (i + 1)) ∧
        (DelimAt r h i ∨ DecAt r h i) ∧ ∀ u, ¬ NumAt s.ll_line.val h (i + 1) u) := by
  intro i t hi hn
  have ha := (outerDone_ok (go_done r hr.rep hs)).1 ho
  rw [amounts_skipped ha i t hi.1 hi.2 hn]
  constructor
  · rintro ⟨x, hx, rfl, str, hx'⟩
    exact ⟨x, hx, rfl, ⟨str, hx'⟩, isAmount_skips hx'⟩
  · rintro ⟨x, hx, e, hx', _⟩
    exact ⟨x, hx, e, hx'⟩

/-- C66 in full on lines without custom tags and characters, if no configured character is a digit. -/
theorem C66_plain (r : AmountResolver) (nd : NoDigits r) {s : LLSelection W} {h : History W}
    (hr : Reachable s.ll_line.val h) (hp : PlainTags s.ll_line.val h) (hc : PlainChars s.ll_line.val h)
    (hs : s.Inside) (out : List (LLCursorAssignment W.Decimal)) (ho : r.go s = .ok out) :
    ∀ i t, s.Has i → textAt s.ll_line.val i = some t → t ≠ [] → (∀ c ∈ t, IsDigit c) →
      ∃ x ∈ out, (x.start_idx ≤ i ∧ i ≤ x.end_idx) ∧ ∀ y ∈ out, y.start_idx ≤ i → i ≤ y.end_idx → y = x := by
  intro i t hi ht hne hd
  obtain ⟨h1, h2, _⟩ := C66_partial r hr hs out ho
  obtain ⟨x, hx, hxi⟩ := h1 (plain_noconflict hr hp hc nd) i t hi ((plain_num hr hp).2 ⟨ht, hne, hd⟩)
  exact ⟨x, hx, hxi, fun y hy h3 h4 => h2 i x hx y hy hxi.1 hxi.2 h3 h4⟩

theorem english_noDigits : NoDigits .english := ⟨by decide, by decide⟩
theorem french_noDigits : NoDigits .french := ⟨by decide, by decide⟩
theorem Demo.amountTags : PlainTags Demo.amountLine Demo.amountHist :=
  creation_plainTags (by simp [InputToken.WF, InputToken.attrList]) rfl (by simp [NoCustom, InputToken.attrList])
theorem Demo.amountChars : PlainChars Demo.amountLine Demo.amountHist :=
  creation_plainChars (by simp [InputToken.WF, InputToken.attrList]) rfl (by simp [NoCustom, InputToken.attrList])

example := C66_partial .english (s := wholeLine Demo.amountLine 0) Demo.amountReach Demo.amountInside _ Demo.amountGo
example := (C66_exact_partial ⟨['5'], '.'⟩ (s := wholeLine Demo.skipLine 0)
  (.create [.Text ['1'] [], .Text ['5'] []] utf8Len _ (by simp [InputToken.WF, InputToken.attrList]) rfl)
  ⟨by decide, by decide⟩ [⟨0, 0, (['1'] : Str)⟩] rfl 1 ['5'] ⟨by decide, by decide⟩ ⟨rfl, by decide⟩).1
example := C66_plain .english english_noDigits (s := wholeLine Demo.amountLine 0) Demo.amountReach Demo.amountTags
  Demo.amountChars Demo.amountInside _ Demo.amountGo 4 "234".toList ⟨by decide, by decide⟩ rfl (by decide) (by decide)

/-! ### C67: the value of an amount -/

/-- C67: the resolver returns `out` iff `out` lists the amounts of the grammar. -/
theorem C67_amounts (r : AmountResolver) {s : LLSelection W} {h : History W} (hr : Reachable s.ll_line.val h)
    (hs : s.Inside) (out : List (LLCursorAssignment W.Decimal)) :
    r.go s = .ok out ↔ Amounts r s.ll_line.val h s.end_idx s.start_idx out :=
  outerDone_ok (go_done r hr.rep hs)

example := (C67_amounts .english (s := wholeLine Demo.amountLine 0) Demo.amountReach Demo.amountInside _).1 Demo.amountGo

/-- C67: an amount consists of digit groups with one delimiter token between any two, and at its end
possibly a decimal token with one group after it, or one more group without a delimiter.  Its value is
the number of the groups without delimiters, with a `.` for the decimal token. -/
theorem C67_value (r : AmountResolver) {s : LLSelection W} {h : History W} (hr : Reachable s.ll_line.val h)
    (hs : s.Inside) (out : List (LLCursorAssignment W.Decimal)) (ho : r.go s = .ok out) :
    ∀ x ∈ out, ∃ (gs : List Str) (last : Nat) (tail : Str), gs ≠ [] ∧ last + 2 = x.start_idx + 2 * gs.length ∧
      (∀ k (hk : k < gs.length), NumAt s.ll_line.val h (x.start_idx + 2 * k) gs[k]) ∧
      (∀ k, k + 1 < gs.length → DelimAt r h (x.start_idx + 2 * k + 1)) ∧
      ¬ (DelimAt r h (last + 1) ∧ ∃ t, NumAt s.ll_line.val h (last + 2) t) ∧
      W.parseDecimal (gs.flatten ++ tail) = some x.value ∧
      ((x.end_idx = last ∧ tail = [] ∧
          (DelimAt r h (last + 1) ∨ (¬ DecAt r h (last + 1) ∧ ∀ t, ¬ NumAt s.ll_line.val h (last + 1) t))) ∨
        (x.end_idx = last ∧ tail = ['.'] ∧ ¬ DelimAt r h (last + 1) ∧ DecAt r h (last + 1) ∧
          ∀ t, ¬ NumAt s.ll_line.val h (last + 2) t) ∨
        (∃ t, x.end_idx = last + 2 ∧ tail = '.' :: t ∧ ¬ DelimAt r h (last + 1) ∧ DecAt r h (last + 1) ∧
          NumAt s.ll_line.val h (last + 2) t) ∨
        (x.end_idx = last + 1 ∧ ¬ DelimAt r h (last + 1) ∧ ¬ DecAt r h (last + 1) ∧
          NumAt s.ll_line.val h (last + 1) tail)) := by
  intro x hx
  obtain ⟨str, next, ⟨e, p, hg, _, he⟩, hv⟩ := amounts_mem ((outerDone_ok (go_done r hr.rep hs)).1 ho) x hx
  obtain ⟨gs, hne, rfl, hl, h1, h2⟩ := groups_list hg
  have hmax := amountEnd_max he
  obtain ⟨a, b, d⟩ := x
  simp only at hl h1 h2 hv he hg ⊢
  cases he with
  | trailing hd hn => exact ⟨gs, _, [], hne, hl, h1, h2, hmax, by rwa [List.append_nil], .inl ⟨rfl, rfl, .inl hd⟩⟩
  | @fraction t hd hc hn =>
    exact ⟨gs, e, '.' :: t, hne, hl, h1, h2, hmax, by simpa using hv, .inr (.inr (.inl ⟨t, rfl, rfl, hd, hc, hn⟩))⟩
  | point hd hc hn => exact ⟨gs, _, ['.'], hne, hl, h1, h2, hmax, hv, .inr (.inl ⟨rfl, rfl, hd, hc, hn⟩)⟩
  | @adjacent t hd hc hn => exact ⟨gs, e, t, hne, hl, h1, h2, hmax, hv, .inr (.inr (.inr ⟨rfl, hd, hc, hn⟩))⟩
  | plain hd hc hn =>
    exact ⟨gs, _, [], hne, hl, h1, h2, hmax, by rwa [List.append_nil], .inl ⟨rfl, rfl, .inr ⟨hc, hn⟩⟩⟩

example := C67_value .english (s := wholeLine Demo.amountLine 0) Demo.amountReach Demo.amountInside _ Demo.amountGo
  _ (List.mem_cons_self ..)

section Whole
variable {l : LLLine W} {h : History W} {r : AmountResolver} (hr : Reachable l h) (hp : PlainTags l h) (hc : PlainChars l h)
include hr hp hc

/-- C67: a line of digit groups separated by single delimiters is one amount, whatever their number. -/
theorem C67_grouped (ptr : Nat) {gs : List Str} {seps : List Char} (hrd : Reads l 0 gs seps)
    (hd : ∀ c ∈ seps, c ∈ r.delimiters) (hlen : l.ll_tokens.length = 2 * seps.length + 1) {d : W.Decimal}
    (hv : W.parseDecimal gs.flatten = some d) :
    r.go (wholeLine l ptr) = .ok [⟨0, 2 * seps.length, d⟩] := by
  have hs : (wholeLine l ptr).Inside := ⟨Nat.zero_le _, show l.ll_tokens.length - 1 < _ by simp only [wholeLine]; omega⟩
  have hg := reads_groups (r := r) hr hp hc hrd hd
  have hstop : (wholeLine l ptr).end_idx = 2 * seps.length := by simp only [wholeLine]; omega
  rw [C67_amounts r (s := wholeLine l ptr) hr hs, hstop]
  have hend : ∀ j, 2 * seps.length < j → ¬ j < l.ll_tokens.length := fun j hj => by omega
  have hnd : ¬ DelimAt r h (2 * seps.length + 1) := fun hx => hend _ (Nat.lt_succ_self _) (char_lt hr.rep hx)
  have hnc : ¬ DecAt r h (2 * seps.length + 1) := fun hx => hend _ (Nat.lt_succ_self _) (char_lt hr.rep (decAt_single.2 hx))
  have hnn : ∀ t, ¬ NumAt l h (2 * seps.length + 1) t := fun t hx => hend _ (Nat.lt_succ_self _) (numAt_lt hx)
  exact .next ⟨Nat.le_refl _, Nat.zero_le _, (groups_num hg).1, fun j h1 h2 => absurd h2 (Nat.not_lt_zero _)⟩
    ⟨_, _, hg, fun hx => absurd hx (hend _ (Nat.lt_succ_self _)), .plain hnd hnc hnn⟩ hv
    (.done fun j h1 h2 => by omega)

/-- C67: with a decimal token and one more group, the last group is the fraction. -/
theorem C67_fraction (ptr : Nat) {gs : List Str} {seps : List Char} (hrd : Reads l 0 gs seps)
    (hd : ∀ c ∈ seps, c ∈ r.delimiters) (hdec : r.decimal ∉ r.delimiters)
    {f : Str} (h1 : textAt l (2 * seps.length + 1) = some [r.decimal])
    (h2 : textAt l (2 * seps.length + 2) = some f) (hf : f ≠ []) (hf' : ∀ c ∈ f, IsDigit c)
    (hlen : l.ll_tokens.length = 2 * seps.length + 3) {d : W.Decimal}
    (hv : W.parseDecimal (gs.flatten ++ '.' :: f) = some d) :
    r.go (wholeLine l ptr) = .ok [⟨0, 2 * seps.length + 2, d⟩] := by
  have hs : (wholeLine l ptr).Inside := ⟨Nat.zero_le _, show l.ll_tokens.length - 1 < _ by simp only [wholeLine]; omega⟩
  have hg := reads_groups (r := r) hr hp hc hrd hd
  have hstop : (wholeLine l ptr).end_idx = 2 * seps.length + 2 := by simp only [wholeLine]; omega
  rw [C67_amounts r (s := wholeLine l ptr) hr hs, hstop]
  have hnd : ¬ DelimAt r h (2 * seps.length + 1) := by
    rintro ⟨c, hx, hx'⟩
    rw [plain_char hc, h1] at hx
    obtain rfl : r.decimal = c := by simpa using hx
    exact hdec hx'
  have hnc : DecAt r h (2 * seps.length + 1) := (plain_char hc).2 h1
  have hnn : NumAt l h (2 * seps.length + 2) f := (plain_num hr hp).2 ⟨h2, hf, hf'⟩
  exact .next ⟨Nat.le_refl _, Nat.zero_le _, (groups_num hg).1, fun j h1 h2 => absurd h2 (Nat.not_lt_zero _)⟩
    ⟨_, _, hg, fun _ => text_attr hr h1, .fraction hnd hnc hnn⟩ (by simpa using hv)
    (.done fun j h1 h2 => by omega)

/-- C67: the fraction ends an amount: digits after another separator are an amount of their own. -/
theorem C67_after_fraction (ptr : Nat) {gs : List Str} {seps : List Char} (hrd : Reads l 0 gs seps)
    (hd : ∀ c ∈ seps, c ∈ r.delimiters) (hdec : r.decimal ∉ r.delimiters)
    {f g : Str} {c : Char} (h1 : textAt l (2 * seps.length + 1) = some [r.decimal])
    (h2 : textAt l (2 * seps.length + 2) = some f) (hf : f ≠ []) (hf' : ∀ c ∈ f, IsDigit c)
    (h3 : textAt l (2 * seps.length + 3) = some [c]) (hc3 : ¬ IsDigit c)
    (h4 : textAt l (2 * seps.length + 4) = some g) (hg4 : g ≠ []) (hg' : ∀ c ∈ g, IsDigit c)
    (hlen : l.ll_tokens.length = 2 * seps.length + 5) {d d' : W.Decimal}
    (hv : W.parseDecimal (gs.flatten ++ '.' :: f) = some d) (hv' : W.parseDecimal g = some d') :
    r.go (wholeLine l ptr) = .ok [⟨0, 2 * seps.length + 2, d⟩, ⟨2 * seps.length + 4, 2 * seps.length + 4, d'⟩] := by
  have hs : (wholeLine l ptr).Inside := ⟨Nat.zero_le _, show l.ll_tokens.length - 1 < _ by simp only [wholeLine]; omega⟩
  have hg := reads_groups (r := r) hr hp hc hrd hd
  have hstop : (wholeLine l ptr).end_idx = 2 * seps.length + 4 := by simp only [wholeLine]; omega
  rw [C67_amounts r (s := wholeLine l ptr) hr hs, hstop]
  have hnd : ¬ DelimAt r h (2 * seps.length + 1) := by
    rintro ⟨c, hx, hx'⟩
    rw [plain_char hc, h1] at hx
    obtain rfl : r.decimal = c := by simpa using hx
    exact hdec hx'
  have hnc : DecAt r h (2 * seps.length + 1) := (plain_char hc).2 h1
  have hnn : NumAt l h (2 * seps.length + 2) f := (plain_num hr hp).2 ⟨h2, hf, hf'⟩
  have hn4 : NumAt l h (2 * seps.length + 4) g := (plain_num hr hp).2 ⟨h4, hg4, hg'⟩
  have hend : ∀ j, 2 * seps.length + 4 < j → ¬ j < l.ll_tokens.length := fun j hj => by omega
  have hnd5 : ¬ DelimAt r h (2 * seps.length + 4 + 1) := fun hx => hend _ (Nat.lt_succ_self _) (char_lt hr.rep hx)
  have hnc5 : ¬ DecAt r h (2 * seps.length + 4 + 1) := fun hx => hend _ (Nat.lt_succ_self _) (char_lt hr.rep (decAt_single.2 hx))
  have hnn5 : ∀ t, ¬ NumAt l h (2 * seps.length + 4 + 1) t := fun t hx => hend _ (Nat.lt_succ_self _) (numAt_lt hx)
  refine .next ⟨Nat.le_refl _, Nat.zero_le _, (groups_num hg).1, fun j h1 h2 => absurd h2 (Nat.not_lt_zero _)⟩
    ⟨_, _, hg, fun _ => text_attr hr h1, .fraction hnd hnc hnn⟩ (by simpa using hv) ?_
  refine .next (i := 2 * seps.length + 4) ⟨by omega, Nat.le_refl _, ⟨g, hn4⟩, ?_⟩
    ⟨_, _, .one hn4, fun hx => absurd hx (hend _ (Nat.lt_succ_self _)), .plain hnd5 hnc5 hnn5⟩ hv'
    (.done fun j h1 h2 => by omega)
  intro j hj1 hj2 t hn
  obtain rfl : j = 2 * seps.length + 3 := by omega
  obtain ⟨ht, _, hdig⟩ := (plain_num hr hp).1 hn
  rw [h3] at ht
  obtain rfl := Option.some.inj ht
  exact hc3 (hdig c (by simp))

end Whole

/-- a line of one text -/
def Demo.lineOf (s : Str) : LLLine Demo.W := Demo.getOk Demo.emptyLine (createLineFromString Demo.W s)
def Demo.histOf (s : Str) : History Demo.W := creationHistory Demo.W utf8Len [.Text s []]
theorem Demo.textWF (s : Str) : ∀ t ∈ [InputToken.Text (W := Demo.W) s []], t.WF := by
  simp [InputToken.WF, InputToken.attrList]
theorem Demo.textNoCustom (s : Str) (k : Ty Demo.W) : NoCustom k [InputToken.Text (W := Demo.W) s []] := by
  simp [NoCustom, InputToken.attrList]

section
open Demo
example : AmountResolver.english.go (wholeLine (lineOf "1,00,00".toList) 3) = .ok [⟨0, 4, (['1', '0', '0', '0', '0'] : Str)⟩] :=
  C67_grouped (gs := [['1'], ['0', '0'], ['0', '0']]) (seps := [',', ','])
    (.create [.Text "1,00,00".toList []] utf8Len _ (textWF _) rfl)
    (creation_plainTags (textWF _) rfl (textNoCustom _ _)) (creation_plainChars (textWF _) rfl (textNoCustom _ _))
    3 ⟨rfl, by decide, by decide⟩ (by decide) rfl rfl
example : AmountResolver.english.go (wholeLine (lineOf "1'240.00".toList) 3) =
    .ok [⟨0, 4, ("1240.00".toList : Str)⟩] :=
  C67_fraction (gs := [['1'], ['2', '4', '0']]) (seps := ['\'']) (f := ['0', '0'])
    (.create [.Text "1'240.00".toList []] utf8Len _ (textWF _) rfl)
    (creation_plainTags (textWF _) rfl (textNoCustom _ _)) (creation_plainChars (textWF _) rfl (textNoCustom _ _))
    3 ⟨rfl, by decide, by decide⟩ (by decide) (by decide) rfl rfl (by decide) (by decide) rfl rfl
example : AmountResolver.english.go (wholeLine (lineOf "1.00,00".toList) 3) =
    .ok [⟨0, 2, ("1.00".toList : Str)⟩, ⟨4, 4, ("00".toList : Str)⟩] :=
  C67_after_fraction (gs := [['1']]) (seps := []) (f := ['0', '0']) (g := ['0', '0']) (c := ',')
    (.create [.Text "1.00,00".toList []] utf8Len _ (textWF _) rfl)
    (creation_plainTags (textWF _) rfl (textNoCustom _ _)) (creation_plainChars (textWF _) rfl (textNoCustom _ _))
    3 ⟨rfl, by decide, by decide⟩ (by decide) (by decide) rfl rfl (by decide) (by decide) rfl (by decide) rfl (by decide)
    (by decide) rfl rfl rfl
end

/-! ### C68: panics -/

/-- C68: the exact panic condition on every line. -/
theorem C68_panics_iff (r : AmountResolver) {s : LLSelection W} {h : History W} (hr : Reachable s.ll_line.val h)
    (hs : s.Inside) (p : Panic) :
    (r.go s = .error p ↔ AmountsFail r s.ll_line.val h s.end_idx p s.start_idx) ∧
    (r.go s = .error p → p = .noTokenAttrs ∨ p = .decimal) :=
  ⟨outerDone_error (go_done r hr.rep hs), fun he => fail_kinds ((outerDone_error (go_done r hr.rep hs)).1 he)⟩

/-- C68: if every token of the line carries an attribute (in particular if every token is a text), the only
panic is a number that the decimal parser rejects, found where the grammar says. -/
theorem C68_only_unparseable (r : AmountResolver) {s : LLSelection W} {h : History W} (hr : Reachable s.ll_line.val h)
    (hs : s.Inside) (ht : ∀ i, i < s.ll_line.val.ll_tokens.length →
      (∃ t, textAt s.ll_line.val i = some t) ∨ ∃ x ∈ h, x.range = (i, i)) (p : Panic) (he : r.go s = .error p) :
    p = .decimal ∧ ∃ a b str next, s.Has a ∧ IsAmount r s.ll_line.val h a b str next ∧ W.parseDecimal str = none := by
  have hf := (outerDone_error (go_done r hr.rep hs)).1 he
  have hall : ∀ i, i < s.ll_line.val.ll_tokens.length → HasAttr h i := by
    intro i hi
    rcases ht i hi with ⟨t, ht⟩ | hx
    · exact text_attr hr ht
    · exact hx
  refine ⟨fail_decimal hf hall, ?_⟩
  have : ∀ {p start}, AmountsFail r s.ll_line.val h s.end_idx p start → s.start_idx ≤ start →
      ∃ a b str next, s.Has a ∧ IsAmount r s.ll_line.val h a b str next ∧ W.parseDecimal str = none := by
    intro p start hf
    induction hf with
    | noAttrs _ _ hn => exact absurd (fun hi => hall _ hi) hn
    | number hf hi hp => intro hle; exact ⟨_, _, _, _, ⟨Nat.le_trans hle hf.1, hf.2.1⟩, hi, hp⟩
    | later hf hi _ _ ih =>
      intro hle
      have := isAmount_le hi
      have := hf.1
      exact ih (by omega)
  exact this hf (Nat.le_refl _)

/-- C68: the first amount of a selection crashes the resolver if its number does not parse. -/
theorem C68_unparseable_crashes (r : AmountResolver) {s : LLSelection W} {h : History W} (hr : Reachable s.ll_line.val h)
    (hs : s.Inside) {a b next : Nat} {str : Str} (hf : FirstNum s.ll_line.val h s.start_idx s.end_idx a)
    (hi : IsAmount r s.ll_line.val h a b str next) (hv : W.parseDecimal str = none) : r.go s = .error .decimal :=
  (C68_panics_iff r hr hs _).1.2 (.number hf hi hv)

/-- C68: a token without attributes right after a digit group crashes the resolver. -/
theorem C68_bare_token_crashes (r : AmountResolver) {s : LLSelection W} {h : History W} (hr : Reachable s.ll_line.val h)
    (hs : s.Inside) {a : Nat} {t : Str} (hf : FirstNum s.ll_line.val h s.start_idx s.end_idx a)
    (hn : NumAt s.ll_line.val h a t) (hlt : a + 1 < s.ll_line.val.ll_tokens.length)
    (hb : ∀ x ∈ h, x.range ≠ (a + 1, a + 1)) : r.go s = .error .noTokenAttrs :=
  (C68_panics_iff r hr hs _).1.2 (.noAttrs hf (.one hn) (fun ht => by
    obtain ⟨x, hx, he⟩ := ht hlt
    exact hb x hx he))

/-- C68: a panic of the resolver is a panic of the whole run. -/
theorem C68_run_panics (r : AmountResolver) {l : LLLine W} (ne : l.ll_tokens ≠ []) (ptr : Nat) (p : Panic)
    (he : r.go (wholeLine l ptr) = .error p) : l.run ptr (r.resolver W) = .error p := by
  have hg := amount_resolver_error r he
  have hem : l.ll_tokens.isEmpty = false := by
    cases hl : l.ll_tokens with
    | nil => exact absurd hl ne
    | cons _ _ => rfl
  unfold wholeLine at hg
  simp only [LLLine.run, hem, hg]
  rfl

/-- thirty digits -/
def Demo.longLine : LLLine Demo.W := Demo.lineOf (List.replicate 30 '1')
set_option maxRecDepth 10000 in
theorem Demo.longReach : Reachable Demo.longLine (Demo.histOf (List.replicate 30 '1')) :=
  .create [.Text (List.replicate 30 '1') []] utf8Len _ (Demo.textWF _) rfl
/-- a number and a custom token without attributes -/
def Demo.barredLine : LLLine Demo.W :=
  Demo.getOk Demo.emptyLine (createLineFromInputTokens Demo.W [.Text ['1'] [], .Custom 1 []] utf8Len)
theorem Demo.barredReach : Reachable Demo.barredLine (creationHistory Demo.W utf8Len [.Text ['1'] [], .Custom 1 []]) :=
  .create [.Text ['1'] [], .Custom 1 []] utf8Len _ (by simp [InputToken.WF, InputToken.attrList]) rfl

set_option maxRecDepth 10000 in
example := (C68_panics_iff .english (s := wholeLine Demo.longLine 0) Demo.longReach ⟨by decide, by decide⟩ .decimal).1.1 rfl
set_option maxRecDepth 10000 in
example := C68_only_unparseable .english (s := wholeLine Demo.longLine 0) Demo.longReach ⟨by decide, by decide⟩
  (fun i hi => .inl (by
    have : i = 0 := by
      have : i < 1 := hi
      omega
    subst this; exact ⟨_, rfl⟩)) .decimal rfl
set_option maxRecDepth 10000 in
example : AmountResolver.english.go (wholeLine Demo.longLine 0) = .error .decimal :=
  C68_unparseable_crashes .english (s := wholeLine Demo.longLine 0) Demo.longReach ⟨by decide, by decide⟩
    (a := 0) (str := List.replicate 30 '1')
    ⟨by decide, by decide, ⟨_, rfl, by decide⟩, by omega⟩
    ⟨0, _, .one ⟨rfl, by decide⟩, fun h => absurd h (by decide), .plain (by rintro ⟨c, hc, _⟩; cases hc) (by intro hc; cases hc)
      (by rintro t ⟨ht, _⟩; cases ht)⟩ rfl
example : AmountResolver.english.go (wholeLine Demo.barredLine 0) = .error .noTokenAttrs :=
  C68_bare_token_crashes .english (s := wholeLine Demo.barredLine 0) Demo.barredReach ⟨by decide, by decide⟩
    (a := 0) (t := ['1']) ⟨by decide, by decide, ⟨['1'], rfl, by decide⟩, by omega⟩ ⟨rfl, by decide⟩ (by decide) (by decide)
example := C68_run_panics .english (l := Demo.barredLine) (by decide) 4 .noTokenAttrs rfl

/-! ### C69: english() -/

/-- C69: what english() reads on a line without custom tags and characters: numbers are the digit tokens,
`,` and `'` are delimiters, `.` is the decimal point. -/
theorem C69_english_tokens {l : LLLine W} {h : History W} (hr : Reachable l h) (hp : PlainTags l h) (hc : PlainChars l h)
    (i : Nat) :
    (∀ t, NumAt l h i t ↔ textAt l i = some t ∧ t ≠ [] ∧ ∀ c ∈ t, IsDigit c) ∧
    (DelimAt .english h i ↔ textAt l i = some [','] ∨ textAt l i = some ['\'']) ∧
    (DecAt .english h i ↔ textAt l i = some ['.']) := by
  refine ⟨fun t => plain_num hr hp, ?_, plain_char hc⟩
  constructor
  · rintro ⟨c, h1, h2⟩
    rw [plain_char hc] at h1
    simp [AmountResolver.english] at h2
    rcases h2 with rfl | rfl
    · exact .inl h1
    · exact .inr h1
  · rintro (h1 | h1)
    · exact ⟨',', (plain_char hc).2 h1, by decide⟩
    · exact ⟨'\'', (plain_char hc).2 h1, by decide⟩

example := C69_english_tokens Demo.amountReach Demo.amountTags Demo.amountChars 3

/-- C69: the documentation of english(), for every number of groups: digit groups with `,` or `'` between
them, optionally a fraction, are one amount over the whole line. -/
theorem C69_english_doc {l : LLLine W} {h : History W} (hr : Reachable l h) (hp : PlainTags l h) (hc : PlainChars l h)
    (ptr : Nat) {gs : List Str} {seps : List Char} (hrd : Reads l 0 gs seps) (hd : ∀ c ∈ seps, c = ',' ∨ c = '\'')
    {d : W.Decimal} :
    (l.ll_tokens.length = 2 * seps.length + 1 → W.parseDecimal gs.flatten = some d →
      AmountResolver.english.go (wholeLine l ptr) = .ok [⟨0, l.ll_tokens.length - 1, d⟩]) ∧
    (∀ f, l.ll_tokens.length = 2 * seps.length + 3 → textAt l (2 * seps.length + 1) = some ['.'] →
      textAt l (2 * seps.length + 2) = some f → f ≠ [] → (∀ c ∈ f, IsDigit c) →
      W.parseDecimal (gs.flatten ++ '.' :: f) = some d →
      AmountResolver.english.go (wholeLine l ptr) = .ok [⟨0, l.ll_tokens.length - 1, d⟩]) := by
  have hd' : ∀ c ∈ seps, c ∈ AmountResolver.english.delimiters := by
    intro c hcs
    rcases hd c hcs with rfl | rfl <;> decide
  refine ⟨fun hlen hv => ?_, fun f hlen h1 h2 hf hf' hv => ?_⟩
  · rw [C67_grouped hr hp hc ptr hrd hd' hlen hv, hlen]; rfl
  · rw [C67_fraction (r := .english) hr hp hc ptr hrd hd' (by decide) h1 h2 hf hf' hlen hv, hlen]; rfl

section
open Demo
example : AmountResolver.english.go (wholeLine (lineOf "1,000,000".toList) 3) = .ok [⟨0, 4, ("1000000".toList : Str)⟩] :=
  (C69_english_doc (gs := [['1'], ['0', '0', '0'], ['0', '0', '0']]) (seps := [',', ','])
    (.create [.Text "1,000,000".toList []] utf8Len _ (textWF _) rfl)
    (creation_plainTags (textWF _) rfl (textNoCustom _ _)) (creation_plainChars (textWF _) rfl (textNoCustom _ _))
    3 ⟨rfl, by decide, by decide⟩ (by decide)).1 rfl rfl
example : AmountResolver.english.go (wholeLine (lineOf "1'000'240.00".toList) 3) = .ok [⟨0, 6, ("1000240.00".toList : Str)⟩] :=
  (C69_english_doc (gs := [['1'], ['0', '0', '0'], ['2', '4', '0']]) (seps := ['\'', '\''])
    (.create [.Text "1'000'240.00".toList []] utf8Len _ (textWF _) rfl)
    (creation_plainTags (textWF _) rfl (textNoCustom _ _)) (creation_plainChars (textWF _) rfl (textNoCustom _ _))
    3 ⟨rfl, by decide, by decide⟩ (by decide)).2 ['0', '0'] rfl rfl rfl (by decide) (by decide) rfl
end

/-- C69, full claim: the four documented examples are one amount each, with the documented value. -/
def C69_claim (W : World) : Prop :=
  ∀ ex ∈ [("1'000'240.00", "1000240.00"), ("1,000,000", "1000000"), ("1,00,00", "10000"), ("1.00,00", "1.0000")],
    ∀ l d, createLineFromString W ex.1.toList = .ok l → W.parseDecimal ex.2.toList = some d →
      AmountResolver.english.go (wholeLine l 0) = .ok [⟨0, l.ll_tokens.length - 1, d⟩]

/-- C69 is false: `1.00,00` is read as the two amounts 1.00 and 00. -/
theorem C69_english_doc_false : ¬ C69_claim Demo.W := by
  intro claim
  have h1 := claim ("1.00,00", "1.0000") (by simp) (Demo.lineOf "1.00,00".toList) ("1.0000".toList : Str) rfl rfl
  have h2 : AmountResolver.english.go (wholeLine (Demo.lineOf "1.00,00".toList) 0) =
    .ok [⟨0, 2, ("1.00".toList : Str)⟩, ⟨4, 4, ("00".toList : Str)⟩] := rfl
  rw [h2] at h1
  injection h1 with h1
  injection h1 with _ h1
  cases h1

/-- C69, in every world and on every plain line: after a fraction, another delimiter and a group are not
part of the amount. -/
theorem C69_partial {l : LLLine W} {h : History W} (hr : Reachable l h) (hp : PlainTags l h) (hc : PlainChars l h)
    (ptr : Nat) {gs : List Str} {seps : List Char} (hrd : Reads l 0 gs seps) (hd : ∀ c ∈ seps, c = ',' ∨ c = '\'')
    {f g : Str} {c : Char} (h1 : textAt l (2 * seps.length + 1) = some ['.'])
    (h2 : textAt l (2 * seps.length + 2) = some f) (hf : f ≠ []) (hf' : ∀ c ∈ f, IsDigit c)
    (h3 : textAt l (2 * seps.length + 3) = some [c]) (hc3 : c = ',' ∨ c = '\'')
    (h4 : textAt l (2 * seps.length + 4) = some g) (hg4 : g ≠ []) (hg' : ∀ c ∈ g, IsDigit c)
    (hlen : l.ll_tokens.length = 2 * seps.length + 5) {d d' : W.Decimal}
    (hv : W.parseDecimal (gs.flatten ++ '.' :: f) = some d) (hv' : W.parseDecimal g = some d') :
    AmountResolver.english.go (wholeLine l ptr) =
      .ok [⟨0, 2 * seps.length + 2, d⟩, ⟨2 * seps.length + 4, 2 * seps.length + 4, d'⟩] := by
  have hd' : ∀ c ∈ seps, c ∈ AmountResolver.english.delimiters := by
    intro c hcs
    rcases hd c hcs with rfl | rfl <;> decide
  exact C67_after_fraction (r := .english) hr hp hc ptr hrd hd' (by decide) h1 h2 hf hf' h3
    (by rcases hc3 with rfl | rfl <;> decide) h4 hg4 hg' hlen hv hv'

section
open Demo
example : AmountResolver.english.go (wholeLine (lineOf "1.00,00".toList) 3) =
    .ok [⟨0, 2, ("1.00".toList : Str)⟩, ⟨4, 4, ("00".toList : Str)⟩] :=
  C69_partial (gs := [['1']]) (seps := []) (f := ['0', '0']) (g := ['0', '0']) (c := ',')
    (.create [.Text "1.00,00".toList []] utf8Len _ (textWF _) rfl)
    (creation_plainTags (textWF _) rfl (textNoCustom _ _)) (creation_plainChars (textWF _) rfl (textNoCustom _ _))
    3 ⟨rfl, by decide, by decide⟩ (by decide) rfl rfl (by decide) (by decide) rfl (by decide) rfl (by decide)
    (by decide) rfl rfl rfl
end

/-! ### C70: french() -/

/-- C70, full claim: the four documented examples are one amount each, with the documented value. -/
def C70_claim (W : World) : Prop :=
  ∀ ex ∈ [("1'000'240,00", "1000240.00"), ("1 000 000", "1000000"), ("1,00", "1.00"), ("1.00,00", "100.00")],
    ∀ l d, createLineFromString W ex.1.toList = .ok l → W.parseDecimal ex.2.toList = some d →
      AmountResolver.french.go (wholeLine l 0) = .ok [⟨0, l.ll_tokens.length - 1, d⟩]

/-- C70 is false: `1,00` is read as the two amounts 1 and 00. -/
theorem C70_french_doc_false : ¬ C70_claim Demo.W := by
  intro claim
  have h1 := claim ("1,00", "1.00") (by simp) (Demo.lineOf "1,00".toList) ("1.00".toList : Str) rfl rfl
  have h2 : AmountResolver.french.go (wholeLine (Demo.lineOf "1,00".toList) 0) =
    .ok [⟨0, 0, (['1'] : Str)⟩, ⟨2, 2, (['0', '0'] : Str)⟩] := rfl
  rw [h2] at h1
  injection h1 with h1
  injection h1 with _ h1
  cases h1

/-- C70: no french amount has a fraction, on any line: its number is just its digit groups, one after the
other. -/
theorem C70_no_fraction {s : LLSelection W} {h : History W} (hr : Reachable s.ll_line.val h) (hs : s.Inside)
    (out : List (LLCursorAssignment W.Decimal)) (ho : AmountResolver.french.go s = .ok out) :
    ∀ x ∈ out, ∃ gs : List Str, gs ≠ [] ∧ W.parseDecimal gs.flatten = some x.value ∧
      ∀ g ∈ gs, ∃ i, x.start_idx ≤ i ∧ i ≤ x.end_idx ∧ NumAt s.ll_line.val h i g := by
  intro x hx
  have hdd : ∀ i, DecAt .french h i → DelimAt .french h i := fun i hd => ⟨'.', hd, by decide⟩
  obtain ⟨gs, last, tail, hne, hl, h1, h2, _, hv, hcase⟩ := C67_value .french hr hs out ho x hx
  have hmem : ∀ e, last ≤ e → e = x.end_idx → ∀ g ∈ gs, ∃ i, x.start_idx ≤ i ∧ i ≤ x.end_idx ∧ NumAt s.ll_line.val h i g := by
    intro e hle he g hg
    obtain ⟨k, hk, rfl⟩ := List.getElem_of_mem hg
    exact ⟨x.start_idx + 2 * k, by omega, by omega, h1 k hk⟩
  rcases hcase with ⟨he, rfl, _⟩ | ⟨_, _, hnd, hc, _⟩ | ⟨_, _, _, hnd, hc, _⟩ | ⟨he, _, _, hn⟩
  · exact ⟨gs, hne, by rwa [List.append_nil] at hv, hmem last (Nat.le_refl _) he.symm⟩
  · exact absurd (hdd _ hc) hnd
  · exact absurd (hdd _ hc) hnd
  · have hpos : 0 < gs.length := List.length_pos_iff.2 hne
    refine ⟨gs ++ [tail], by simp, by simpa using hv, fun g hg => ?_⟩
    rcases List.mem_append.1 hg with hg | hg
    · exact hmem (last + 1) (by omega) he.symm g hg
    · rw [List.mem_singleton] at hg
      subst hg
      exact ⟨last + 1, by omega, by omega, hn⟩

/-- C70: on lines without custom tags the number of a french amount consists of digits only, so a french
amount is never anything but a natural number. -/
theorem C70_digits_only {s : LLSelection W} {h : History W} (hr : Reachable s.ll_line.val h) (hp : PlainTags s.ll_line.val h)
    (hs : s.Inside) (out : List (LLCursorAssignment W.Decimal)) (ho : AmountResolver.french.go s = .ok out) :
    ∀ x ∈ out, ∃ str : Str, W.parseDecimal str = some x.value ∧ str ≠ [] ∧ ∀ c ∈ str, IsDigit c := by
  intro x hx
  obtain ⟨gs, hne, hv, hg⟩ := C70_no_fraction hr hs out ho x hx
  refine ⟨gs.flatten, hv, ?_, ?_⟩
  · match gs, hne with
    | g :: gs, _ =>
      obtain ⟨i, _, _, hn⟩ := hg g (List.mem_cons_self ..)
      have := ((plain_num hr hp).1 hn).2.1
      simp [this]
  · intro c hc
    obtain ⟨g, hgm, hcg⟩ := List.mem_flatten.1 hc
    obtain ⟨i, _, _, hn⟩ := hg g hgm
    exact ((plain_num hr hp).1 hn).2.2 c hcg

/-- C70, what holds: groups separated by single spaces, dots and apostrophes are one amount. -/
theorem C70_partial {l : LLLine W} {h : History W} (hr : Reachable l h) (hp : PlainTags l h) (hc : PlainChars l h)
    (ptr : Nat) {gs : List Str} {seps : List Char} (hrd : Reads l 0 gs seps)
    (hd : ∀ c ∈ seps, c = ' ' ∨ c = '.' ∨ c = '\'') {d : W.Decimal}
    (hlen : l.ll_tokens.length = 2 * seps.length + 1) (hv : W.parseDecimal gs.flatten = some d) :
    AmountResolver.french.go (wholeLine l ptr) = .ok [⟨0, l.ll_tokens.length - 1, d⟩] := by
  have hd' : ∀ c ∈ seps, c ∈ AmountResolver.french.delimiters := by
    intro c hcs
    rcases hd c hcs with rfl | rfl | rfl <;> decide
  rw [C67_grouped hr hp hc ptr hrd hd' hlen hv, hlen]; rfl

section
open Demo
theorem Demo.frenchGo : AmountResolver.french.go (wholeLine (lineOf "1.00,00".toList) 3) =
    .ok [⟨0, 2, ("100".toList : Str)⟩, ⟨4, 4, ("00".toList : Str)⟩] := rfl
example := C70_no_fraction (s := wholeLine (lineOf "1.00,00".toList) 3)
  (.create [.Text "1.00,00".toList []] utf8Len _ (textWF _) rfl) ⟨by decide, by decide⟩ _ Demo.frenchGo
example := C70_digits_only (s := wholeLine (lineOf "1.00,00".toList) 3)
  (.create [.Text "1.00,00".toList []] utf8Len _ (textWF _) rfl) (creation_plainTags (textWF _) rfl (textNoCustom _ _))
  ⟨by decide, by decide⟩ _ Demo.frenchGo
example : AmountResolver.french.go (wholeLine (lineOf "1 000 000".toList) 3) = .ok [⟨0, 4, ("1000000".toList : Str)⟩] :=
  C70_partial (gs := [['1'], ['0', '0', '0'], ['0', '0', '0']]) (seps := [' ', ' '])
    (.create [.Text "1 000 000".toList []] utf8Len _ (textWF _) rfl)
    (creation_plainTags (textWF _) rfl (textNoCustom _ _)) (creation_plainChars (textWF _) rfl (textNoCustom _ _))
    3 ⟨rfl, by decide, by decide⟩ (by decide) rfl rfl
end

/-! ### C71 for the amount resolver -/

/-- C71: whenever the amount resolver returns, the run succeeds and the new line is again a line of honest
resolvers. -/
theorem C71_amount_resolver (r : AmountResolver) {l : LLLine W} {h : History W} (hh : Honest l h)
    (ne : l.ll_tokens ≠ []) (ptr : Nat) (out : List (LLCursorAssignment W.Decimal))
    (ho : r.go (wholeLine l ptr) = .ok out) :
    ∃ l', l.run ptr (r.resolver W) = .ok l' ∧ Honest l' (h ++ out.map (recOf (W := W) .amount)) := by
  have hs := wholeLine_inside ne ptr
  exact C23_honest_run_ok hh ne ptr (r.resolver W) out
    ⟨amount_resolver r ho, amount_honest r (s := wholeLine l ptr) hh.spec.1.rep hs ho⟩

example := C71_amount_resolver .english Demo.amountHonest Demo.amountLine_ne 5 _ Demo.amountGo

/-- C71: the run of the amount resolver panics only where the resolver does. -/
theorem C71_amount_run_panics_iff (r : AmountResolver) {l : LLLine W} {h : History W} (hh : Honest l h)
    (ne : l.ll_tokens ≠ []) (ptr : Nat) (p : Panic) :
    l.run ptr (r.resolver W) = .error p ↔ AmountsFail r l h (l.ll_tokens.length - 1) p 0 := by
  have hs := wholeLine_inside ne ptr
  rw [← show _ ↔ AmountsFail r l h (l.ll_tokens.length - 1) p 0 from
    (C68_panics_iff r (s := wholeLine l ptr) hh.spec.1 hs p).1]
  constructor
  · intro he
    cases hg : r.go (wholeLine l ptr) with
    | ok out =>
      obtain ⟨l', hl, _⟩ := C71_amount_resolver r hh ne ptr out hg
      rw [hl] at he; cases he
    | error q =>
      rw [C68_run_panics r ne ptr q hg] at he
      cases he
      rfl
  · exact C68_run_panics r ne ptr p

example := C71_amount_run_panics_iff .english Demo.amountHonest Demo.amountLine_ne 5 .decimal

end LNlp
