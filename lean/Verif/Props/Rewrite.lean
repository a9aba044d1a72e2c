import Verif.Lemmas.Rewrite
import Verif.Props.Grammar
/- C140: whether a search expression may be replaced by another is settled by one line. -/
namespace LNlp
variable {W : World} {α β : Type}

namespace Demo

/-- values for a test line -/
def spare : (k : Ty Demo.W) → Val k
  | .char => 'x'
  | .textTag => TextTag.SYMB
  | .amount => ['x']
  | .clauseKeyword => ClauseKeyword.And
  | .clause => Clause.Independent
  | .tag => ['x']
  | .user _ => ['x']

/-- `all((seq((attr(0), attr(2))), seq((attr(1), attr_eq(2, "c")))))` -/
def apart : Pat Demo.W ((Str × Str) × (Str × Unit)) :=
  .both (.seq (.attr (.user 0)) (.attr (.user 2)))
    (.seq (.attr (.user 1)) (.attrEq (.user 2) ['c']))

theorem apart_noText : apart.NoText := ⟨⟨trivial, trivial⟩, trivial, trivial⟩

theorem apart_lawful : apart.Lawful := by
  intro k v hv
  simp only [apart, Pat.Compares, false_or] at hv
  cases hv
  refine ⟨rfl, fun u v' h1 h2 => ?_⟩
  have h1 : u = (['c'] : Str) := (beq_iff_eq (α := Str)).1 h1
  rw [h1]
  exact h2

/-- `seq((all((attr(0), attr(1))), attr(2)))` -/
def together : Pat Demo.W ((Str × Str) × Str) :=
  .seq (.both (.attr (.user 0)) (.attr (.user 1))) (.attr (.user 2))

theorem together_mentions : ¬ together.Mentions (.user 9) := by
  rintro ((h | h) | h) <;> exact absurd (Ty.user.inj h) (by decide)

theorem together_fresh (w : (k : Ty Demo.W) → Val k) : together.Fresh w := by
  rintro k v ((h | h) | h) <;> exact h.elim

/-- the second token of what `apart` finds has two different beginnings: four attributes on three tokens -/
example : (apart.sketch spare).map (fun r => r.range) = [(0, 0), (1, 2), (0, 1), (2, 2)] := rfl

end Demo

/-- Every expression without `token_text` has a test line; it has one token and one more for every `seq`, and a search
of it for the expression reports the whole line. -/
theorem C140_test_line (hu : 0 < W.usizeBound) (w : (k : Ty W) → Val k) (mk : Ty W) (mv : Val mk) (a : Pat W α)
    (ht : a.NoText) (lw : a.Lawful) :
    ∃ l, a.TestLine w mk mv l ∧
      ∀ ptr, ∃ as x, (wholeLine l ptr).findBy a.matcher = .ok as ∧ (wholeLine l ptr, x) ∈ as := by
  obtain ⟨l, hh, hlen, nt⟩ := marked_line hu mk mv a.tokens (a.sketch w) (a.sketch_inside w)
  refine ⟨l, ⟨hh, hlen, nt⟩, fun ptr => ?_⟩
  obtain ⟨hr, ho⟩ := hh.spec
  have pos := a.tokens_pos
  have ne : l.ll_tokens ≠ [] := List.length_pos_iff.1 (by omega)
  obtain ⟨as, has⟩ := findBy_total (wholeLine_inside ne ptr)
    (show TotalOn (wholeLine l ptr).ll_line.val a.matcher from built_totalOn a.built hr)
  obtain ⟨x, hx⟩ := a.sketch_holds (w := w) nt ht (fun k v h => (lw k v h).1)
  obtain ⟨rs, hrs, hiff⟩ := a.matcher_spec hr ho (i := 0) (by omega)
  refine ⟨as, x, has, (mem_findBy has).2 ⟨rfl, ⟨Nat.le_refl _, Nat.zero_le _⟩, rs, hrs, (hiff x _).2 ?_⟩⟩
  show a.Holds l _ 0 (l.ll_tokens.length - 1) x
  rw [hlen]
  exact hx.mono (fun y _ hy => List.mem_append_right _ hy)

example := C140_test_line (W := Demo.W) (by decide) Demo.spare (.user 9) ['m'] Demo.apart Demo.apart_noText
  Demo.apart_lawful

/-- what is found on the test line is found on the sketch -/
private theorem drop_marks {w : (k : Ty W) → Val k} {mk : Ty W} {mv : Val mk} {a : Pat W α} {l : LLLine W} {b : Pat W β}
    {i j : Nat} {y : β} (hm : ¬ b.Mentions mk) (hy : b.Holds l (· ∈ a.testHistory w mk mv) i j y) :
    b.Holds l (· ∈ a.sketch w) i j y := by
  refine hy.mono (fun r hr hmem => ?_)
  rcases List.mem_append.1 hmem with h | h
  · obtain ⟨i, _, rfl⟩ := (marked_history mk mv _ _).1 h
    exact absurd hr hm
  · exact h

/-- Replacing is settled by one search: on every line, `find_by` reports for `b` all the ranges it reports for `a`,
exactly if it reports for `b` the whole test line of `a`. -/
theorem C140_one_search {w : (k : Ty W) → Val k} {mk : Ty W} {mv : Val mk} {a : Pat W α} (ht : a.NoText) (lw : a.Lawful)
    {l : LLLine W} (hl : a.TestLine w mk mv l) (b : Pat W β) (hm : ¬ b.Mentions mk) (fresh : b.Fresh w) (ptr : Nat) :
    (∀ l' h', Honest l' h' → Covers LLSelection.findBy l' a.matcher b.matcher) ↔
      ∃ bs y, (wholeLine l ptr).findBy b.matcher = .ok bs ∧ (wholeLine l ptr, y) ∈ bs := by
  obtain ⟨hh, hlen, nt⟩ := hl
  obtain ⟨hr, ho⟩ := hh.spec
  have pos := a.tokens_pos
  have ne : l.ll_tokens ≠ [] := List.length_pos_iff.1 (by omega)
  constructor
  · intro hc
    obtain ⟨x, hx⟩ := a.sketch_holds (w := w) nt ht (fun k v h => (lw k v h).1)
    obtain ⟨y, hy⟩ := (covers_iff hh a b).1 (hc l _ hh) 0 (a.tokens - 1) x
      (hx.mono (fun y _ hy => List.mem_append_right _ hy))
    obtain ⟨bs, hbs⟩ := findBy_total (wholeLine_inside ne ptr)
      (show TotalOn (wholeLine l ptr).ll_line.val b.matcher from built_totalOn b.built hr)
    obtain ⟨rs, hrs, hiff⟩ := b.matcher_spec hr ho (i := 0) (by omega)
    refine ⟨bs, y, hbs, (mem_findBy hbs).2 ⟨rfl, ⟨Nat.le_refl _, Nat.zero_le _⟩, rs, hrs, (hiff y _).2 ?_⟩⟩
    show b.Holds l _ 0 (l.ll_tokens.length - 1) y
    rw [hlen]
    exact hy
  · rintro ⟨bs, y, hbs, hy⟩ l' h' hh'
    obtain ⟨_, _, rs, hrs, hmem⟩ := (mem_findBy hbs).1 hy
    obtain ⟨rs', hrs', hiff⟩ := b.matcher_spec hr ho (i := 0) (by omega)
    have hrs : b.matcher.go (.fwd 0) l = .ok rs := hrs
    rw [hrs] at hrs'
    cases hrs'
    have hb := (hiff y _).1 hmem
    have hb : b.Holds l (· ∈ a.testHistory w mk mv) 0 (a.tokens - 1) y := by rw [← hlen]; exact hb
    exact (covers_iff hh' a b).2 (fun i j x hx =>
      (drop_marks hm hb).replace nt ht (fun k v h => (lw k v h).2) fresh hx)

example : ∃ l, Demo.apart.TestLine Demo.spare (.user 9) ['m'] l ∧
    ((∀ l' h', Honest l' h' → Covers LLSelection.findBy l' Demo.apart.matcher Demo.together.matcher) ↔
      ∃ bs y, (wholeLine l 0).findBy Demo.together.matcher = .ok bs ∧ (wholeLine l 0, y) ∈ bs) :=
  have ⟨l, hl, _⟩ := C140_test_line (W := Demo.W) (by decide) Demo.spare (.user 9) ['m'] Demo.apart
    Demo.apart_noText Demo.apart_lawful
  ⟨l, hl, C140_one_search Demo.apart_noText Demo.apart_lawful hl _ Demo.together_mentions (Demo.together_fresh _) 0⟩

/-- … and by one line: on every line exactly if on the test line. -/
theorem C140_one_line {w : (k : Ty W) → Val k} {mk : Ty W} {mv : Val mk} {a : Pat W α} (ht : a.NoText) (lw : a.Lawful)
    {l : LLLine W} (hl : a.TestLine w mk mv l) (b : Pat W β) (hm : ¬ b.Mentions mk) (fresh : b.Fresh w) :
    (∀ l' h', Honest l' h' → Covers LLSelection.findBy l' a.matcher b.matcher) ↔
      Covers LLSelection.findBy l a.matcher b.matcher := by
  refine ⟨fun hc => hc l _ hl.honest, fun hc => ?_⟩
  rw [C140_one_search ht lw hl b hm fresh 0]
  obtain ⟨hh, hlen, nt⟩ := hl
  obtain ⟨hr, ho⟩ := hh.spec
  have pos := a.tokens_pos
  have ne : l.ll_tokens ≠ [] := List.length_pos_iff.1 (by omega)
  obtain ⟨x, hx⟩ := a.sketch_holds (w := w) nt ht (fun k v h => (lw k v h).1)
  obtain ⟨as, bs, has, hbs, hab⟩ := hc (wholeLine l 0) rfl (wholeLine_inside ne 0)
  obtain ⟨rs, hrs, hiff⟩ := a.matcher_spec hr ho (i := 0) (by omega)
  obtain ⟨⟨q, y⟩, hq, he⟩ := hab (wholeLine l 0, x) ((mem_findBy has).2
    ⟨rfl, ⟨Nat.le_refl _, Nat.zero_le _⟩, rs, hrs, (hiff x _).2 (by
      show a.Holds l _ 0 (l.ll_tokens.length - 1) x
      rw [hlen]
      exact hx.mono (fun y _ hy => List.mem_append_right _ hy))⟩)
  simp only at he
  subst he
  exact ⟨bs, y, hbs, hq⟩

example : ∃ l, Demo.apart.TestLine Demo.spare (.user 9) ['m'] l ∧
    ((∀ l' h', Honest l' h' → Covers LLSelection.findBy l' Demo.apart.matcher Demo.together.matcher) ↔
      Covers LLSelection.findBy l Demo.apart.matcher Demo.together.matcher) :=
  have ⟨l, hl, _⟩ := C140_test_line (W := Demo.W) (by decide) Demo.spare (.user 9) ['m'] Demo.apart
    Demo.apart_noText Demo.apart_lawful
  ⟨l, hl, C140_one_line Demo.apart_noText Demo.apart_lawful hl _ Demo.together_mentions (Demo.together_fresh _)⟩

/-- whether an expression without `token_text` can be replaced, in terms of the sketch -/
private theorem everywhere_iff (hu : 0 < W.usizeBound) (w : (k : Ty W) → Val k) {mk : Ty W} (mv : Val mk) {a : Pat W α}
    (ht : a.NoText) (lw : a.Lawful) {b : Pat W β} (hm : ¬ b.Mentions mk) (fresh : b.Fresh w) (search : Searching W)
    (line : List (Rec W))
    (hin : ∀ r ∈ line, r.range.1 ≤ r.range.2 ∧ r.range.2 < a.tokens + 1)
    (F : LLLine W → History W → Rec W → Prop) (view : LLLine W → LLLine W)
    (vt : ∀ l, (∀ i, textAt l i = none) → ∀ i, textAt (view l) i = none)
    (hF : ∀ l, l.ll_tokens.length = a.tokens + 1 → ∀ k p q v,
      (⟨k, (p, q), v⟩ : Rec W) ∈ a.sketch w →
        F l (creationHistory W (fun _ => 0) (markedInput mk mv (a.tokens + 1)) ++ line) ⟨k, (p + 1, q + 1), v⟩)
    (hF' : ∀ l, l.ll_tokens.length = a.tokens + 1 → ∀ k p q v, k ≠ mk →
      F l (creationHistory W (fun _ => 0) (markedInput mk mv (a.tokens + 1)) ++ line) ⟨k, (p, q), v⟩ →
        0 < p ∧ (⟨k, (p - 1, q - 1), v⟩ : Rec W) ∈ a.sketch w ∧ 0 < q)
    (spec : ∀ l h, Honest l h → (Covers search l a.matcher b.matcher ↔
      ∀ i j x, a.Holds (view l) (F l h) (i + 1) j x → ∃ y, b.Holds (view l) (F l h) (i + 1) j y)) :
    (∀ l h, Honest l h → Covers search l a.matcher b.matcher) ↔
      (∀ l h, Honest l h → Covers LLSelection.findBy l a.matcher b.matcher) := by
  obtain ⟨l0, hl0, -⟩ := C140_test_line hu w mk mv a ht lw
  have pos := a.tokens_pos
  constructor
  · intro hc
    obtain ⟨l, hh, hlen, nt⟩ := marked_line hu mk mv (a.tokens + 1) line hin
    obtain ⟨x, hx⟩ := a.sketch_holds (w := w) nt ht (fun k v h => (lw k v h).1)
    obtain ⟨e, x', hx', he⟩ := hx.carry (l' := view l) (C := fun _ _ => True) (f := (· + 1)) (G := F l _) nt
      (fun k p q v hv => ⟨q + 1, v, hF l hlen k p q v hv, rfl, fun _ _ h => h⟩) (fun _ _ _ => trivial)
    obtain ⟨y, hy⟩ := (spec l _ hh).1 (hc l _ hh) 0 e x' hx'
    have hy := hy.mono (G := fun r => r.ty ≠ mk ∧ F l _ r) (fun r hr h => ⟨fun h0 => hm (h0 ▸ hr), h⟩)
    obtain ⟨e', y', hy', he'⟩ := hy.carry (l' := l0) (C := fun _ _ => True) (f := (· - 1)) (G := (· ∈ a.sketch w))
      (vt l nt)
      (fun k p q v hv => by
        obtain ⟨h1, h2, h3⟩ := hF' l hlen k p q v hv.1 hv.2
        exact ⟨q - 1, v, h2, by show q - 1 + 1 = q + 1 - 1; omega, fun _ _ h => h⟩) (fun _ _ _ => trivial)
    intro l' h' hh'
    have : e' = a.tokens - 1 := by omega
    subst this
    exact (covers_iff hh' a b).2 (fun i j x hx => hy'.replace hl0.texts ht (fun k v h => (lw k v h).2) fresh hx)
  · intro hc l h hh
    obtain ⟨x, hx⟩ := a.sketch_holds (w := w) hl0.texts ht (fun k v h => (lw k v h).1)
    obtain ⟨y, hy⟩ := (covers_iff hl0.honest a b).1 (hc l0 _ hl0.honest) 0 (a.tokens - 1) x
      (hx.mono (fun y _ hy => List.mem_append_right _ hy))
    exact (spec l h hh).2 (fun i j x hx =>
      (drop_marks hm hy).replace hl0.texts ht (fun k v h => (lw k v h).2) fresh hx)

/-- Replacing is the same question for `find_by` and `match_forwards` … -/
theorem C140_forwards (hu : 0 < W.usizeBound) (w : (k : Ty W) → Val k) {mk : Ty W} (mv : Val mk) {a : Pat W α}
    (ht : a.NoText) (lw : a.Lawful) (b : Pat W β) (hm : ¬ b.Mentions mk) (fresh : b.Fresh w) :
    (∀ l h, Honest l h → Covers LLSelection.matchForwards l a.matcher b.matcher) ↔
      (∀ l h, Honest l h → Covers LLSelection.findBy l a.matcher b.matcher) := by
  refine everywhere_iff hu w mv ht lw hm fresh _
    ((a.sketch w).map (fun r => ⟨r.ty, (r.range.1 + 1, r.range.2 + 1), r.val⟩)) ?_ (fun _ h => (· ∈ h)) id
    (fun _ h => h) ?_ ?_ (fun l h hh => covers_forwards_iff hh a b)
  · intro r hr
    obtain ⟨q, hq, rfl⟩ := List.mem_map.1 hr
    have := a.sketch_inside w q hq
    simp only
    omega
  · intro l _ k p q v hv
    exact List.mem_append_right _ (List.mem_map.2 ⟨_, hv, rfl⟩)
  · intro l _ k p q v hk hv
    rcases List.mem_append.1 hv with h | h
    · obtain ⟨i, _, h⟩ := (marked_history mk mv _ _).1 h
      exact absurd (congrArg Rec.ty h) hk
    · obtain ⟨⟨k', ⟨p', q'⟩, v'⟩, hr, he⟩ := List.mem_map.1 h
      cases he
      exact ⟨by omega, hr, by omega⟩

example := C140_forwards (W := Demo.W) (by decide) Demo.spare (mk := .user 9) ['m'] Demo.apart_noText Demo.apart_lawful
  Demo.together Demo.together_mentions (Demo.together_fresh _)

/-- … and for `match_backwards`. -/
theorem C140_backwards (hu : 0 < W.usizeBound) (w : (k : Ty W) → Val k) {mk : Ty W} (mv : Val mk) {a : Pat W α}
    (ht : a.NoText) (lw : a.Lawful) (b : Pat W β) (hm : ¬ b.Mentions mk) (fresh : b.Fresh w) :
    (∀ l h, Honest l h → Covers LLSelection.matchBackwards l a.matcher b.matcher) ↔
      (∀ l h, Honest l h → Covers LLSelection.findBy l a.matcher b.matcher) := by
  refine everywhere_iff hu w mv ht lw hm fresh _
    ((a.sketch w).map (fun r => ⟨r.ty, (a.tokens - (r.range.2 + 1), a.tokens - (r.range.1 + 1)), r.val⟩)) ?_
    (fun l h => backFacts l.ll_tokens.length h) backLine ?_ ?_ ?_ (fun l h hh => covers_backwards_iff hh a b)
  · intro r hr
    obtain ⟨q, hq, rfl⟩ := List.mem_map.1 hr
    have := a.sketch_inside w q hq
    simp only
    omega
  · intro l nt i
    by_cases hi : i < l.ll_tokens.length
    · rw [textAt_backLine hi, nt]
    · unfold textAt
      rw [List.getElem?_eq_none (by simp only [backLine, List.length_reverse]; omega)]
      rfl
  · intro l hlen k p q v hv
    have hi := a.sketch_inside w _ hv
    simp only at hi
    refine ⟨by simp only [hlen]; omega, by simp only [hlen]; omega, List.mem_append_right _ (List.mem_map.2 ⟨_, hv, ?_⟩)⟩
    simp only [hlen, Nat.add_sub_cancel]
  · intro l hlen k p q v hk hv
    obtain ⟨h1, h2, hv⟩ := hv
    simp only [hlen] at h1 h2 hv
    rcases List.mem_append.1 hv with h | h
    · obtain ⟨i, _, h⟩ := (marked_history mk mv _ _).1 h
      exact absurd (congrArg Rec.ty h) hk
    · obtain ⟨⟨k', ⟨p', q'⟩, v'⟩, hr, he⟩ := List.mem_map.1 h
      have hi := a.sketch_inside w _ hr
      simp only at hi
      simp only [Rec.mk.injEq, Prod.mk.injEq] at he
      obtain ⟨rfl, ⟨e1, e2⟩, e3⟩ := he
      cases e3
      refine ⟨by omega, ?_, by omega⟩
      rw [show p - 1 = p' by omega, show q - 1 = q' by omega]
      exact hr

example := C140_backwards (W := Demo.W) (by decide) Demo.spare (mk := .user 9) ['m'] Demo.apart_noText Demo.apart_lawful
  Demo.together Demo.together_mentions (Demo.together_fresh _)

/-- For example, `all((seq((a, c)), seq((b, c))))` can not be replaced by `seq((all((a, b)), c))`: the test line has
three tokens … -/
theorem C140_merge_false (hu : 0 < W.usizeBound) (w : (k : Ty W) → Val k) {mk k1 k2 k3 : Ty W} (h1 : k1 ≠ mk) (h2 : k2 ≠ mk)
    (h3 : k3 ≠ mk) (h12 : k1 ≠ k2) (h13 : k1 ≠ k3) (h23 : k2 ≠ k3) :
    ¬ ∀ l h, Honest l h → Covers LLSelection.findBy l
      (X.all2 (X.seq2 (X.attr k1) (X.attr k3)) (X.seq2 (X.attr k2) (X.attr k3)))
      (X.seq2 (X.all2 (X.attr k1) (X.attr k2)) (X.attr k3)) := by
  intro hc
  let a : Pat W _ := .both (.seq (.attr k1) (.attr k3)) (.seq (.attr k2) (.attr k3))
  let b : Pat W _ := .seq (.both (.attr k1) (.attr k2)) (.attr k3)
  have hm : ¬ b.Mentions mk := by
    rintro ((h | h) | h)
    · exact h1 h
    · exact h2 h
    · exact h3 h
  have ht : a.NoText := ⟨⟨trivial, trivial⟩, trivial, trivial⟩
  have lw : a.Lawful := by rintro k v ((h | h) | (h | h)) <;> exact h.elim
  obtain ⟨l, hl, -⟩ := C140_test_line hu w mk (w mk) a ht lw
  obtain ⟨x, hx⟩ := a.sketch_holds (w := w) hl.texts ht (fun k v h => (lw k v h).1)
  obtain ⟨y, hy⟩ := (covers_iff hl.honest a b).1 (hc l _ hl.honest) 0 (a.tokens - 1) x
    (hx.mono (fun y _ hy => List.mem_append_right _ hy))
  obtain ⟨⟨y1, y2⟩, y3⟩ := y
  obtain ⟨m, ⟨hm1, hm2⟩, _⟩ := drop_marks hm hy
  simp only [Pat.Holds, a, Pat.sketch, Pat.tokens, List.map_cons, List.map_nil, List.cons_append, List.nil_append,
    List.mem_cons, Rec.mk.injEq, h12, h12.symm, h13, h23, List.not_mem_nil, false_and, or_false, false_or, true_and,
    Prod.mk.injEq] at hm1 hm2
  have e1 := hm1.1
  have e2 := hm2.1
  simp at e1 e2
  omega

example := C140_merge_false (W := Demo.W) (by decide) Demo.spare (mk := .user 9) (k1 := .user 0) (k2 := .user 1)
  (k3 := .user 2) (fun h => absurd (Ty.user.inj h) (by decide)) (fun h => absurd (Ty.user.inj h) (by decide))
  (fun h => absurd (Ty.user.inj h) (by decide)) (fun h => absurd (Ty.user.inj h) (by decide))
  (fun h => absurd (Ty.user.inj h) (by decide)) (fun h => absurd (Ty.user.inj h) (by decide))

/-- … the other way round it can: whatever the expressions, on every line. -/
theorem C140_merge {γ : Type} (a : Pat W α) (b : Pat W β) (c : Pat W γ) {l : LLLine W} {h : History W} (hh : Honest l h) :
    Covers LLSelection.findBy l (X.seq2 (X.all2 a.matcher b.matcher) c.matcher)
      (X.all2 (X.seq2 a.matcher c.matcher) (X.seq2 b.matcher c.matcher)) := by
  refine (covers_iff hh (.seq (.both a b) c) (.both (.seq a c) (.seq b c))).2 ?_
  rintro i j ⟨⟨x, y⟩, z⟩ ⟨m, ⟨h1, h2⟩, h3⟩
  exact ⟨((x, z), (y, z)), ⟨m, h1, h3⟩, ⟨m, h2, h3⟩⟩

example := C140_merge (Pat.attr (.user 0)) (Pat.attr (.user 1)) Pat.text Demo.readmeHonest

namespace Demo

def one : Pat Demo.W Str := .attr (.user 0)
def oneX : Pat Demo.W Unit := .attrEq (.user 0) ['x']

theorem one_lawful : one.Lawful := fun _ _ h => h.elim
theorem oneX_mentions : ¬ oneX.Mentions (.user 9) := fun h => absurd (Ty.user.inj h) (by decide)

/-- other values for a test line -/
def other : (k : Ty Demo.W) → Val k
  | .user _ => ['y']
  | k => spare k

theorem oneX_fresh : oneX.Fresh other := by
  rintro k v h
  cases h
  rfl

end Demo

/-- The values of the test line must be none that the replacement compares with: a test line with the value `"x"` can
not tell `attr` from `attr_eq(&"x")`. -/
theorem C140_fresh_needed : ∃ l, Demo.one.TestLine Demo.spare (.user 9) ['m'] l ∧
    Covers LLSelection.findBy l Demo.one.matcher Demo.oneX.matcher ∧
    ¬ ∀ l' h', Honest l' h' → Covers LLSelection.findBy l' Demo.one.matcher Demo.oneX.matcher := by
  obtain ⟨l, hl, -⟩ := C140_test_line (W := Demo.W) (by decide) Demo.spare (.user 9) ['m'] Demo.one trivial Demo.one_lawful
  refine ⟨l, hl, ?_, ?_⟩
  · refine (covers_iff hl.honest Demo.one Demo.oneX).2 (fun i j x hx => ⟨(), x, ?_, hx⟩)
    rcases List.mem_append.1 hx with h | h
    · obtain ⟨_, _, h⟩ := (marked_history _ _ _ _).1 h
      exact absurd (Ty.user.inj (congrArg Rec.ty h)) (by decide)
    · rw [Pat.sketch.eq_def] at h
      simp only [Demo.one, List.mem_singleton] at h
      cases h
      rfl
  · obtain ⟨l', hl', -⟩ := C140_test_line (W := Demo.W) (by decide) Demo.other (.user 9) ['m'] Demo.one trivial
      Demo.one_lawful
    intro hc
    obtain ⟨x, hx⟩ := Demo.one.sketch_holds (w := Demo.other) hl'.texts trivial (fun k v h => h.elim)
    obtain ⟨y, hy⟩ := (covers_iff hl'.honest Demo.one Demo.oneX).1 (hc l' _ hl'.honest) 0 _ x
      (hx.mono (fun y _ hy => List.mem_append_right _ hy))
    obtain ⟨v, hv, hmem⟩ := drop_marks Demo.oneX_mentions hy
    rw [Pat.sketch.eq_def] at hmem
    simp only [Demo.one, List.mem_singleton] at hmem
    cases hmem
    exact absurd hv (by decide)

/-- With `any_of` no test line would do: it can find all that `attr` finds on the test line and yet not everywhere,
because attributes of its first alternative hide what the second would find. -/
theorem C140_any_of_false (hu : 0 < W.usizeBound) (w : (k : Ty W) → Val k) {mk k0 k1 : Ty W} (mv : Val mk)
    (h1 : k1 ≠ mk) (h01 : k0 ≠ k1) {l : LLLine W} (hl : (Pat.attr k0).TestLine w mk mv l) :
    Covers LLSelection.findBy l (X.attr k0) (X.anyOf2 (X.attr k1) (X.attr k0)) ∧
    ¬ ∀ l' h', Honest l' h' → Covers LLSelection.findBy l' (X.attr k0) (X.anyOf2 (X.attr k1) (X.attr k0)) := by
  constructor
  · intro s hs hi
    subst hs
    obtain ⟨hr, ho⟩ := hl.honest.spec
    have hno : ∀ i, i < s.ll_line.val.ll_tokens.length → (X.attr k1).go (.fwd i) s.ll_line.val = .ok [] := by
      intro i hi
      obtain ⟨rs, hrs, hiff⟩ := (Pat.attr k1).matcher_spec hr ho hi
      refine hrs.trans (congrArg Except.ok (List.eq_nil_iff_forall_not_mem.2 ?_))
      rintro ⟨x, j⟩ hm
      have := (hiff x j).1 hm
      rcases List.mem_append.1 this with h | h
      · obtain ⟨_, _, h⟩ := (marked_history mk mv _ _).1 h
        exact h1 (congrArg Rec.ty h)
      · exact h01 (congrArg Rec.ty (List.mem_singleton.1 h)).symm
    have hany : Built (fun _ => True) false (X.anyOf2 (X.attr k1) (X.attr k0)) :=
      .anyOf2 (.attr k1 trivial) (.attr k0 trivial)
    obtain ⟨as, ha⟩ := findBy_total hi (m := X.attr k0) (built_totalOn (Pat.attr k0).built hr)
    obtain ⟨bs, hb⟩ := findBy_total hi (m := X.anyOf2 (X.attr k1) (X.attr k0)) (built_totalOn hany hr)
    refine ⟨as, bs, ha, hb, ?_⟩
    rintro ⟨p, x⟩ hp
    obtain ⟨e1, e2, rs, hrs, hm⟩ := (mem_findBy ha).1 hp
    have hlt : p.start_idx < s.ll_line.val.ll_tokens.length := by have := e2.2; have := hi.2; omega
    refine ⟨(p, .B x), (mem_findBy hb).2 ⟨e1, e2, _, anyOf2_ok_iff.2 ⟨[], hno _ hlt, .inr ⟨rfl, rs, hrs, rfl⟩⟩, ?_⟩, rfl⟩
    exact List.mem_map.2 ⟨_, hm, rfl⟩
  · intro hc
    obtain ⟨l, hh, hlen, -⟩ := marked_line hu mk mv 2 [⟨k0, (0, 1), w k0⟩, ⟨k1, (0, 0), w k1⟩] (by
      intro r hr
      simp only [List.mem_cons, List.not_mem_nil, or_false] at hr
      rcases hr with rfl | rfl <;> simp)
    obtain ⟨hr, ho⟩ := hh.spec
    obtain ⟨r0, hr0, iff0⟩ := (Pat.attr k0).matcher_spec hr ho (i := 0) (by omega)
    obtain ⟨r1, hr1, iff1⟩ := (Pat.attr k1).matcher_spec hr ho (i := 0) (by omega)
    obtain ⟨as, bs, ha, hb, hab⟩ := hc l _ hh (wholeLine l 0) rfl (wholeLine_inside (List.length_pos_iff.1 (by omega)) 0)
    obtain ⟨⟨q, y⟩, hq, he⟩ := hab (wholeLine l 0, w k0) ((mem_findBy ha).2
      ⟨rfl, ⟨Nat.le_refl _, Nat.zero_le _⟩, r0, hr0, (iff0 _ _).2 (by
        show (⟨k0, (0, l.ll_tokens.length - 1), w k0⟩ : Rec W) ∈ _
        rw [hlen]
        exact List.mem_append_right _ (List.mem_cons_self ..))⟩)
    simp only at he
    subst he
    obtain ⟨_, _, rs, hrs, hm⟩ := (mem_findBy hb).1 hq
    obtain ⟨r1', hr1', h⟩ := anyOf2_ok_iff.1 hrs
    have hr1' : (Pat.attr k1).matcher.go (.fwd 0) l = .ok r1' := hr1'
    rw [hr1] at hr1'
    cases hr1'
    have hne : (w k1, 0) ∈ r1 := (iff1 _ _).2 (List.mem_append_right _ (by simp))
    rcases h with ⟨_, rfl⟩ | ⟨rfl, _⟩
    · obtain ⟨⟨x, j⟩, hx, he⟩ := List.mem_map.1 hm
      have hj : j = l.ll_tokens.length - 1 := congrArg Prod.snd he
      rw [hlen] at hj
      subst hj
      have := (iff1 _ _).1 hx
      rcases List.mem_append.1 this with h | h
      · obtain ⟨_, _, h⟩ := (marked_history mk mv _ _).1 h
        exact h1 (congrArg Rec.ty h)
      · simp only [List.mem_cons, List.not_mem_nil, or_false] at h
        rcases h with h | h
        · exact h01 (congrArg Rec.ty h).symm
        · exact absurd (congrArg (fun r => r.range.2) h) (by simp)
    · cases hne

example : ∃ l, Demo.one.TestLine Demo.spare (.user 9) ['m'] l ∧
    ¬ ∀ l' h', Honest l' h' →
      Covers LLSelection.findBy l' (X.attr (.user 0)) (X.anyOf2 (X.attr (.user 1)) (X.attr (W := Demo.W) (.user 0))) :=
  have ⟨l, hl, _⟩ := C140_test_line (W := Demo.W) (by decide) Demo.spare (.user 9) ['m'] Demo.one trivial Demo.one_lawful
  ⟨l, hl, (C140_any_of_false (by decide) Demo.spare _ (fun h => absurd (Ty.user.inj h) (by decide))
    (fun h => absurd (Ty.user.inj h) (by decide)) hl).2⟩

end LNlp
