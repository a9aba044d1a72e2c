import Verif.Spec.Amount
import Verif.Lemmas.Honest
/- The amount resolver follows the grammar. -/
namespace LNlp
variable {W : World}

/-! ### matchers -/

theorem numAt_lt {l : LLLine W} {h : History W} {i : Nat} {t : Str} (hn : NumAt l h i t) : i < l.ll_tokens.length := by
  obtain ⟨h1, _⟩ := hn
  unfold textAt at h1
  cases he : l.ll_tokens[i]? with
  | none => rw [he] at h1; cases h1
  | some _ => exact (List.getElem?_eq_some_iff.1 he).1

theorem numAt_unique {l : LLLine W} {h : History W} {i : Nat} {t t' : Str} (hn : NumAt l h i t) (hn' : NumAt l h i t') :
    t = t' := by
  have := hn.1.symm.trans hn'.1
  exact Option.some.inj this

theorem natn_fwd {l : LLLine W} {h : History W} (rep : Rep l h) {i : Nat} (hi : i < l.ll_tokens.length) :
    (∃ t rs, NumAt l h i t ∧ (natnText W).go (.fwd i) l = .ok ((((), t), i) :: rs)) ∨
    ((∀ t, ¬ NumAt l h i t) ∧ (natnText W).go (.fwd i) l = .ok []) := by
  have hg := tagText_fwd rep .NATN hi
  unfold natnText
  cases ht : textAt l i with
  | none =>
    right
    rw [hg, ht]
    exact ⟨fun t h => by rw [NumAt, ht] at h; exact absurd h.1 (by simp), rfl⟩
  | some t =>
    rw [hg, ht]
    simp only [Option.toList_some, List.flatMap_cons, List.flatMap_nil, List.append_nil]
    by_cases hc : TextTag.NATN ∈ tagsOn h i
    · left
      have : 0 < (tagsOn h i).count .NATN := List.count_pos_iff.2 hc
      obtain ⟨n, hn⟩ : ∃ n, (tagsOn h i).count .NATN = n + 1 := ⟨(tagsOn h i).count .NATN - 1, by omega⟩
      rw [hn, List.replicate_succ]
      exact ⟨t, _, ⟨ht, hc⟩, rfl⟩
    · right
      rw [List.count_eq_zero.2 hc]
      exact ⟨fun t h => hc h.2, rfl⟩

/-- a selection of the line -/
def selOf (rc : Rc (LLLine W)) (a b : Nat) : LLSelection W := { ll_line := rc, start_idx := a, end_idx := b }

theorem num_next {rc : Rc (LLLine W)} {h : History W} (rep : Rep rc.val h) {a e : Nat} (hae : a ≤ e)
    (he : e < rc.val.ll_tokens.length) :
    (∃ t, NumAt rc.val h (e + 1) t ∧
      (selOf rc a e).matchFirstForwards (natnText W) = .ok (some (selOf rc a (e + 1), ((), t)))) ∨
    ((∀ t, ¬ NumAt rc.val h (e + 1) t) ∧ (selOf rc a e).matchFirstForwards (natnText W) = .ok none) := by
  obtain ⟨h1, h2⟩ := C42_match_forwards (selOf rc a e) (natnText W) ⟨hae, he⟩
  by_cases hl : e + 1 = rc.val.ll_tokens.length
  · right
    refine ⟨fun t ht => ?_, (h1 hl).2⟩
    have := numAt_lt ht; omega
  · have hlt : e + 1 < rc.val.ll_tokens.length := by omega
    rcases natn_fwd rep hlt with ⟨t, rs, hn, hg⟩ | ⟨hn, hg⟩
    · left; exact ⟨t, hn, ((h2 hlt).2 _ hg).2⟩
    · right; exact ⟨hn, ((h2 hlt).2 _ hg).2⟩

theorem char_fwd {l : LLLine W} {h : History W} (rep : Rep l h) (set : List Char) {i : Nat} (hi : HasAttr h i) :
    (X.tokenHasAny (W := W) .char set).go (.fwd i) l =
      .ok (((charsOn h i).filter (fun c => decide (c ∈ set))).map (fun c => (c, i))) := by
  refine ((rep_oneOf_fwd rep .char set i).trans (if_pos hi)).trans ?_
  have he : (fun x : Char => setContains (W := W) .char set x) = fun c => decide (c ∈ set) := by
    funext c
    rw [Bool.eq_iff_iff, decide_eq_true_iff]
    constructor
    · intro h
      obtain ⟨c', hs, he⟩ := List.any_eq_true.1 h
      have : c' = c := eq_of_beq (α := Char) he
      exact this ▸ hs
    · intro h
      exact List.any_eq_true.2 ⟨c, h, by simp [valEq]⟩
  exact congrArg (fun f : Char → Bool => (.ok ((List.filter f (charsOn h i)).map (fun c => (c, i))) : R (List (Char × Nat)))) he

theorem char_next {rc : Rc (LLLine W)} {h : History W} (rep : Rep rc.val h) (set : List Char) {a e : Nat} (hae : a ≤ e)
    (he : e < rc.val.ll_tokens.length) :
    (¬ Testable rc.val h (e + 1) ∧
      (selOf rc a e).matchFirstForwards (X.tokenHasAny (W := W) .char set) = .error .noTokenAttrs) ∨
    (∃ c : Char, Testable rc.val h (e + 1) ∧ (∃ c ∈ charsOn h (e + 1), c ∈ set) ∧ e + 1 < rc.val.ll_tokens.length ∧
      (selOf rc a e).matchFirstForwards (X.tokenHasAny (W := W) .char set) = .ok (some (selOf rc a (e + 1), c))) ∨
    (Testable rc.val h (e + 1) ∧ (¬ ∃ c ∈ charsOn h (e + 1), c ∈ set) ∧
      (selOf rc a e).matchFirstForwards (X.tokenHasAny (W := W) .char set) = .ok none) := by
  obtain ⟨h1, h2⟩ := C42_match_forwards (selOf rc a e) (X.tokenHasAny (W := W) .char set) ⟨hae, he⟩
  by_cases hl : e + 1 = rc.val.ll_tokens.length
  · right; right
    refine ⟨fun hlt => by omega, ?_, (h1 hl).2⟩
    rintro ⟨c, hc, _⟩
    have := (rep.bounds _ ((mem_valuesOf (W := W) (k := .char) (v := c)).1 hc)).1
    simp only at this; omega
  · have hlt : e + 1 < rc.val.ll_tokens.length := by omega
    by_cases hx : HasAttr h (e + 1)
    · have hg := char_fwd rep set hx
      cases hv : (charsOn h (e + 1)).filter (fun c => decide (c ∈ set)) with
      | nil =>
        right; right
        refine ⟨fun _ => hx, ?_, ?_⟩
        · rintro ⟨c, hc, hs⟩
          exact (List.filter_eq_nil_iff.1 hv) c hc (decide_eq_true hs)
        · rw [hv] at hg; exact ((h2 hlt).2 _ hg).2
      | cons c cs =>
        right; left
        have hmem : c ∈ (charsOn h (e + 1)).filter (fun c => decide (c ∈ set)) := by
          rw [hv]; exact List.mem_cons_self ..
        obtain ⟨hc, hs⟩ := List.mem_filter.1 hmem
        refine ⟨c, fun _ => hx, ⟨c, hc, of_decide_eq_true hs⟩, hlt, ?_⟩
        rw [hv] at hg; exact ((h2 hlt).2 _ hg).2
    · left
      have hf : (X.tokenHasAny (W := W) .char set).go (.fwd (e + 1)) rc.val = _ :=
        (rep_oneOf_fwd rep .char set (e + 1)).trans (if_neg hx)
      exact ⟨fun ht => hx (ht hlt), ((h2 hlt).1 _ hf).2⟩

theorem num_first {rc : Rc (LLLine W)} {h : History W} (rep : Rep rc.val h) {a b : Nat} 
    (hb : b < rc.val.ll_tokens.length) :
    (∃ i t, FirstNum rc.val h a b i ∧ NumAt rc.val h i t ∧
      (selOf rc a b).findFirstBy (natnText W) = .ok (some (selOf rc i i, ((), t)))) ∨
    ((∀ j, a ≤ j → j ≤ b → ∀ t, ¬ NumAt rc.val h j t) ∧ (selOf rc a b).findFirstBy (natnText W) = .ok none) := by
  obtain ⟨h1, h2, h3⟩ := C40_find_first_by (selOf rc a b) (natnText W)
  have hok : ∀ i, (selOf rc a b).Has i → i < rc.val.ll_tokens.length := fun i hi => Nat.lt_of_le_of_lt hi.2 hb
  cases hf : (selOf rc a b).findFirstBy (natnText W) with
  | error e =>
    obtain ⟨i, e, hi, hg⟩ := h3.1 ⟨e, hf⟩
    rcases natn_fwd rep (hok i hi) with ⟨t, rs, _, hg'⟩ | ⟨_, hg'⟩ <;> rw [show (selOf rc a b).ll_line.val = rc.val from rfl, hg'] at hg <;> cases hg
  | ok o =>
    match o, hf with
    | none, hf =>
      right
      refine ⟨fun j hj1 hj2 t ht => ?_, rfl⟩
      have hg := h1.1 hf j ⟨hj1, hj2⟩
      rcases natn_fwd rep (hok j ⟨hj1, hj2⟩) with ⟨t', rs, _, hg'⟩ | ⟨hn, _⟩
      · rw [show (selOf rc a b).ll_line.val = rc.val from rfl, hg'] at hg; cases hg
      · exact hn t ht
    | some (p, ((), t)), hf =>
      left
      obtain ⟨hl, hhas, ⟨rs, hg⟩, hbefore⟩ := h2 p _ hf
      have hi := hok _ hhas
      rcases natn_fwd rep hi with ⟨t', rs', hn, hg'⟩ | ⟨_, hg'⟩
      · rw [show (selOf rc a b).ll_line.val = rc.val from rfl, hg'] at hg
        have hg := Except.ok.inj hg
        have e1 : t' = t := (Prod.mk.inj (Prod.mk.inj (List.cons.inj hg).1).1).2
        have e2 : p.start_idx = p.end_idx := (Prod.mk.inj (List.cons.inj hg).1).2
        subst e1
        refine ⟨p.start_idx, t', ⟨hhas.1, hhas.2, ⟨t', hn⟩, ?_⟩, hn, ?_⟩
        · intro j hj1 hj2 u hu
          have hj : (selOf rc a b).Has j := ⟨hj1, Nat.le_trans (Nat.le_of_lt hj2) hhas.2⟩
          have hgj := hbefore j hj hj2
          rcases natn_fwd rep (hok j hj) with ⟨t', rs, _, hg'⟩ | ⟨hn, _⟩
          · rw [show (selOf rc a b).ll_line.val = rc.val from rfl, hg'] at hgj; cases hgj
          · exact hn u hu
        · have : p = selOf rc p.start_idx p.start_idx := by
            cases p; simp only at hl e2; subst e2; subst hl; rfl
          rw [← this]
      · rw [show (selOf rc a b).ll_line.val = rc.val from rfl, hg'] at hg; cases hg

/-! ### the loops -/

theorem groups_le {r : AmountResolver} {l : LLLine W} {h : History W} {a e : Nat} {s : Str} (hg : Groups r l h a e s) :
    a ≤ e ∧ e < l.ll_tokens.length := by
  induction hg with
  | one hn => exact ⟨Nat.le_refl _, numAt_lt hn⟩
  | more _ _ hn ih => have := numAt_lt hn; omega

/-- what the inner loop returns -/
inductive DelimDone (r : AmountResolver) (rc : Rc (LLLine W)) (h : History W) (a : Nat) : R (AmountSt W) → Prop
  | noAttrs {e : Nat} {s : Str} : Groups r rc.val h a e s → ¬ Testable rc.val h (e + 1) →
      DelimDone r rc h a (.error .noTokenAttrs)
  | trailing {e : Nat} {s : Str} : Groups r rc.val h a e s → Testable rc.val h (e + 1) → DelimAt r h (e + 1) →
      (∀ t, ¬ NumAt rc.val h (e + 2) t) → e + 1 < rc.val.ll_tokens.length →
      DelimDone r rc h a (.ok ⟨selOf rc a (e + 1), s, some (selOf rc a e)⟩)
  | free {e : Nat} {s : Str} : Groups r rc.val h a e s → Testable rc.val h (e + 1) → ¬ DelimAt r h (e + 1) →
      DelimDone r rc h a (.ok ⟨selOf rc a e, s, none⟩)

theorem delimiterLoop_done (r : AmountResolver) {rc : Rc (LLLine W)} {h : History W} (rep : Rep rc.val h) {a : Nat} :
    ∀ (fuel e : Nat) (s : Str), Groups r rc.val h a e s → rc.val.ll_tokens.length - e < fuel →
      DelimDone r rc h a (r.delimiterLoop fuel ⟨selOf rc a e, s, none⟩) := by
  intro fuel
  induction fuel with
  | zero => intro e s _ hf; omega
  | succ fuel ih =>
    intro e s hg hf
    obtain ⟨hae, he⟩ := groups_le hg
    unfold AmountResolver.delimiterLoop
    rcases char_next rep r.delimiters hae he with ⟨ht, hm⟩ | ⟨c, ht, hd, hlt, hm⟩ | ⟨ht, hd, hm⟩
    · simp only [hm]
      exact .noAttrs hg ht
    · simp only [hm]
      rcases num_next rep (a := a) (Nat.le_succ_of_le hae) hlt with ⟨t, hn, hm2⟩ | ⟨hn, hm2⟩
      · simp only [hm2]
        have := numAt_lt hn
        exact ih (e + 2) (s ++ t) (.more hg hd hn) (by omega)
      · simp only [hm2]
        exact .trailing hg ht hd hn hlt
    · simp only [hm]
      exact .free hg ht hd

/-- what one iteration of the outer loop has found when it parses the number -/
inductive StepDone (r : AmountResolver) (rc : Rc (LLLine W)) (h : History W) (a : Nat) : R (AmountSt W) → Prop
  | noAttrs {e : Nat} {s : Str} : Groups r rc.val h a e s → ¬ Testable rc.val h (e + 1) →
      StepDone r rc h a (.error .noTokenAttrs)
  | found {b next : Nat} {str : Str} {st : AmountSt W} : IsAmount r rc.val h a b str (next + 1) →
      st.number_string = str → st.selection = selOf rc a next → st.last_valid_selection.getD st.selection = selOf rc a b →
      a ≤ next → next < rc.val.ll_tokens.length →
      StepDone r rc h a (.ok st)

theorem decAt_single {r : AmountResolver} {h : History W} {i : Nat} :
    (∃ c ∈ charsOn h i, c ∈ [r.decimal]) ↔ DecAt r h i := by
  constructor
  · rintro ⟨c, hc, hd⟩
    rw [List.mem_singleton] at hd
    subst hd
    exact hc
  · intro hd; exact ⟨_, hd, List.mem_singleton.2 rfl⟩

theorem step_done (r : AmountResolver) {rc : Rc (LLLine W)} {h : History W} (rep : Rep rc.val h) {a : Nat} {t : Str}
    (hn : NumAt rc.val h a t) {fuel : Nat} (hf : rc.val.ll_tokens.length < fuel) :
    StepDone r rc h a (match r.delimiterLoop fuel ⟨selOf rc a a, t, none⟩ with
      | .error e => .error e
      | .ok st => r.decimalPart st) := by
  have hd := delimiterLoop_done r rep fuel a t (.one hn) (by omega)
  generalize r.delimiterLoop fuel ⟨selOf rc a a, t, none⟩ = x at hd
  cases hd with
  | noAttrs hg ht => exact .noAttrs hg ht
  | @trailing e s hg ht hd hn hlt =>
    have := groups_le hg
    exact .found (b := e) (next := e + 1) ⟨e, s, hg, ht, .trailing hd hn⟩ rfl rfl rfl (by omega) hlt
  | @free e s hg ht hd =>
    obtain ⟨hae, he⟩ := groups_le hg
    simp only [AmountResolver.decimalPart]
    rcases char_next rep ([r.decimal] : List (Val (W := W) Ty.char)) hae he with ⟨ht', hm⟩ | ⟨c, _, hc, hlt, hm⟩ | ⟨_, hc, hm⟩
    · exact absurd ht ht'
    · have hc := decAt_single.1 hc
      simp only [hm]
      rcases num_next rep (a := a) (Nat.le_succ_of_le hae) hlt with ⟨t, hn, hm2⟩ | ⟨hn, hm2⟩
      · simp only [hm2]
        exact .found (next := e + 2) ⟨e, s, hg, ht, .fraction hd hc hn⟩ rfl rfl rfl (by omega) (numAt_lt hn)
      · simp only [hm2]
        exact .found (next := e + 1) ⟨e, s, hg, ht, .point hd hc hn⟩ rfl rfl rfl (by omega) hlt
    · have hc : ¬ DecAt r h (e + 1) := fun h => hc (decAt_single.2 h)
      simp only [hm]
      rcases num_next rep (a := a) hae he with ⟨t, hn, hm2⟩ | ⟨hn, hm2⟩
      · simp only [hm2]
        exact .found (next := e + 1) ⟨e, s, hg, ht, .adjacent hd hc hn⟩ rfl rfl rfl (by omega) (numAt_lt hn)
      · simp only [hm2]
        exact .found (next := e) ⟨e, s, hg, ht, .plain hd hc hn⟩ rfl rfl rfl hae he

theorem split_right {rc : Rc (LLLine W)} {start stop i next : Nat} (h : start ≤ next + 1) :
    ∃ x, (selOf rc start stop).splitWith (selOf rc i next) =
      .ok (x, if next + 1 ≤ stop then some (selOf rc (next + 1) stop) else none) := by
  refine ⟨if i > 0 then (selOf rc start stop).selectionFrom start (i - 1) else none, ?_⟩
  refine Eq.trans (if_pos rfl) ?_
  congr 2
  show (if max (next + 1) start ≤ min stop stop then some (selOf rc (max (next + 1) start) (min stop stop)) else none) = _
  rw [Nat.max_eq_left h, Nat.min_self]

/-- what the outer loop returns -/
inductive OuterDone (r : AmountResolver) (l : LLLine W) (h : History W) (stop start : Nat)
    (attrs : List (LLCursorAssignment W.Decimal)) : R (List (LLCursorAssignment W.Decimal)) → Prop
  | ok {out : List (LLCursorAssignment W.Decimal)} : Amounts r l h stop start out →
      OuterDone r l h stop start attrs (.ok (attrs ++ out))
  | error {p : Panic} : AmountsFail r l h stop p start → OuterDone r l h stop start attrs (.error p)

theorem outerLoop_done (r : AmountResolver) {rc : Rc (LLLine W)} {h : History W} (rep : Rep rc.val h) {inner stop : Nat}
    (hin : rc.val.ll_tokens.length < inner) (hstop : stop < rc.val.ll_tokens.length) :
    ∀ (fuel start : Nat) (attrs : List (LLCursorAssignment W.Decimal)), stop - start < fuel →
      OuterDone r rc.val h stop start attrs (r.outerLoop inner fuel (selOf rc start stop) attrs) := by
  intro fuel
  induction fuel with
  | zero => intro start attrs hf; omega
  | succ fuel ih =>
    intro start attrs hf
    unfold AmountResolver.outerLoop
    rcases num_first rep (a := start) hstop with ⟨i, t, hfirst, hn, hm⟩ | ⟨hno, hm⟩
    · simp only [hm]
      have hs := step_done r rep hn hin
      show OuterDone r rc.val h stop start attrs (match r.delimiterLoop inner ⟨selOf rc i i, t, none⟩ with
        | .error e => .error e
        | .ok st => _)
      generalize hdl : r.delimiterLoop inner ⟨selOf rc i i, t, none⟩ = dl at hs
      cases dl with
      | error p =>
        simp only at hs ⊢
        cases hs with
        | noAttrs hg ht => exact .error (.noAttrs hfirst hg ht)
      | ok st0 =>
        simp only at hs ⊢
        generalize r.decimalPart st0 = dp at hs
        cases hs with
        | noAttrs hg ht => exact .error (.noAttrs hfirst hg ht)
        | @found b next str st ha h1 h2 h3 hle hlt =>
          simp only [h1, h2, h3]
          cases hp : W.parseDecimal str with
          | none => exact .error (.number hfirst ha hp)
          | some d =>
            simp only []
            rw [h2] at h3
            obtain ⟨f1, f2, _, _⟩ := id hfirst
            obtain ⟨x, hx⟩ := split_right (rc := rc) (start := start) (stop := stop) (i := i) (next := next) (by omega)
            simp only [hx, h3]
            by_cases hc : next + 1 ≤ stop
            · simp only [if_pos hc]
              have hih := ih (next + 1) (attrs ++ [⟨i, b, d⟩]) (by omega)
              show OuterDone r rc.val h stop start attrs
                (r.outerLoop inner fuel (selOf rc (next + 1) stop) (attrs ++ [⟨i, b, d⟩]))
              generalize r.outerLoop inner fuel _ _ = res at hih ⊢
              cases hih with
              | ok ho =>
                rw [List.append_assoc]
                exact .ok (.next hfirst ha hp ho)
              | error hfail => exact .error (.later hfirst ha hp hfail)
            · simp only [if_neg hc]
              exact .ok (.next hfirst ha hp (.done (fun j h1 h2 => by omega)))
    · simp only [hm]
      have : OuterDone r rc.val h stop start attrs (.ok (attrs ++ [])) := .ok (.done hno)
      rwa [List.append_nil] at this

end LNlp
