import Verif.Lemmas.StoreProps
import Verif.Spec.Display
/- Helper lemmas about /repo/src/ll_line/display.rs. -/
namespace LNlp
variable {W : World}

theorem rep_include {d : LLLineDisplay W} {h : History W} (rep : Rep d.ll_line h) (k : Ty W) :
    d.include k = .ok { d with include_attrs := d.include_attrs ++ (rangesOf k h).flatMap (fun r =>
      ((valuesOf k r h).map (valDbg k)).reverse.map (fun s => (r, s))) } := by
  unfold LLLineDisplay.include
  rw [rep.ranges k, flatMapR_ok (g := fun r =>
      ((valuesOf k r h).map (valDbg k)).reverse.map (fun s => (r, s)))]
  intro r hr
  obtain ⟨b, hb⟩ := rep_present_range rep hr
  have hbk := rep.buckets r b hb k
  have hne := mem_rangesOf_iff_values.1 hr
  simp only [hb, TypeBucket.getDebug, hbk, if_neg hne, DynBucket.downcast_self]

/-! ### the header -/

theorem headerOf_nil : headerOf [] = [] := rfl
theorem headerOf_single (t : LLToken) : headerOf [t] = shown t := by
  simp [headerOf, List.intercalate]

theorem headerOf_append {a b : List LLToken} (ha : a ≠ []) (hb : b ≠ []) :
    headerOf (a ++ b) = headerOf a ++ [' ', ' '] ++ headerOf b := by
  induction a with
  | nil => exact absurd rfl ha
  | cons t ts ih =>
    cases ts with
    | nil =>
      cases b with
      | nil => exact absurd rfl hb
      | cons u us => simp [headerOf, List.intercalate]
    | cons t' ts' =>
      have := ih (by simp)
      have e : ∀ (x y : LLToken) (l : List LLToken), headerOf (x :: y :: l) = shown x ++ [' ', ' '] ++ headerOf (y :: l) := by
        intro x y l; simp [headerOf, List.intercalate]
      rw [List.cons_append, List.cons_append, e, ← List.cons_append, this, e]
      simp [List.append_assoc]

theorem displayText_eq (t : LLToken) : t.displayText = shown t := rfl

/-- the state of the first loop of `fmt` -/
theorem header_loop (toks : List LLToken) :
    toks.foldl (HeaderSt.step W) { starts := [], ends := [], opening_line := [], is_first := true } =
      { starts := (List.range toks.length).map (colStart W toks)
        ends := (List.range toks.length).map (colEnd W toks)
        opening_line := headerOf toks
        is_first := decide (toks = []) } := by
  suffices H : ∀ (suf pre : List LLToken), toks = pre ++ suf →
      pre.foldl (HeaderSt.step W) { starts := [], ends := [], opening_line := [], is_first := true } =
      { starts := (List.range pre.length).map (colStart W toks)
        ends := (List.range pre.length).map (colEnd W toks)
        opening_line := headerOf pre
        is_first := decide (pre = []) } →
      toks.foldl (HeaderSt.step W) { starts := [], ends := [], opening_line := [], is_first := true } =
      { starts := (List.range toks.length).map (colStart W toks)
        ends := (List.range toks.length).map (colEnd W toks)
        opening_line := headerOf toks
        is_first := decide (toks = []) } by
    exact H toks [] rfl rfl
  intro suf
  induction suf with
  | nil => intro pre h hp; rw [List.append_nil] at h; subst h; exact hp
  | cons t suf ih =>
    intro pre h hp
    apply ih (pre ++ [t]) (by rw [h]; simp)
    rw [List.foldl_append, hp]
    simp only [List.foldl_cons, List.foldl_nil]
    have htake : toks.take pre.length = pre := by rw [h]; simp
    have htake1 : toks.take (pre.length + 1) = pre ++ [t] := by
      rw [h, List.take_append]; simp [List.take_of_length_le]
    have hs : (if decide (pre = []) = true then headerOf pre else headerOf pre ++ List.replicate SPACE_PADDING ' ') =
        (if pre.length = 0 then [] else headerOf pre ++ [' ', ' ']) := by
      cases pre with
      | nil => simp [headerOf_nil]
      | cons a b => simp [SPACE_PADDING]
    have ht : (if pre.length = 0 then [] else headerOf pre ++ [' ', ' ']) ++ shown t = headerOf (pre ++ [t]) := by
      cases pre with
      | nil => simp [headerOf_single]
      | cons a b => rw [headerOf_append (by simp) (by simp), headerOf_single]; simp
    simp only [HeaderSt.step, hs, displayText_eq, ht, List.length_append, List.length_singleton,
      List.range_succ, List.map_append, List.map_singleton]
    simp only [colStart, colEnd, htake, htake1]
    simp

theorem colStart_le_colEnd (L : WidthLaws W) (toks : List LLToken) {i j : Nat} (hij : i ≤ j)
    (hj : j < toks.length) : colStart W toks i ≤ colEnd W toks j := by
  unfold colStart colEnd
  have hsplit : toks.take (j + 1) = toks.take i ++ (toks.drop i).take (j + 1 - i) := by
    have : j + 1 = i + (j + 1 - i) := by omega
    rw [this, List.take_add]; congr 2; omega
  have hne : (toks.drop i).take (j + 1 - i) ≠ [] := by
    intro h
    have := congrArg List.length h
    simp only [List.length_take, List.length_drop, List.length_nil] at this
    omega
  rw [hsplit]
  by_cases hi : i = 0
  · subst hi
    simp only [if_true, List.take_zero, List.nil_append]
    rw [L.nil]
    exact Nat.zero_le _
  · have hne' : toks.take i ≠ [] := by
      intro h
      have := congrArg List.length h
      simp only [List.length_take, List.length_nil] at this
      omega
    rw [if_neg hi, headerOf_append hne' hne]
    exact L.mono _ _

theorem AdditiveWidth.spaces (L : AdditiveWidth W) (a : Str) :
    W.strWidth (a ++ [' ', ' ']) = W.strWidth a + W.strWidth [' ', ' '] := by
  have := L.append a []
  rwa [List.append_nil, L.nil, Nat.add_zero] at this

theorem additive_mono (L : AdditiveWidth W) : WidthLaws W :=
  ⟨L.nil, fun a b => by rw [L.append, L.spaces]; omega⟩

theorem colEnd_eq (L : AdditiveWidth W) (toks : List LLToken) {i j : Nat} (hij : i ≤ j)
    (hj : j < toks.length) :
    colEnd W toks j = colStart W toks i + W.strWidth (headerOf ((toks.drop i).take (j + 1 - i))) := by
  unfold colStart colEnd
  have hsplit : toks.take (j + 1) = toks.take i ++ (toks.drop i).take (j + 1 - i) := by
    have : j + 1 = i + (j + 1 - i) := by omega
    rw [this, List.take_add]; congr 2; omega
  have hne : (toks.drop i).take (j + 1 - i) ≠ [] := by
    intro h
    have := congrArg List.length h
    simp only [List.length_take, List.length_drop, List.length_nil] at this
    omega
  by_cases hi : i = 0
  · subst hi
    rw [hsplit]; simp [L.nil]
  · have hne' : toks.take i ≠ [] := by
      intro h
      have := congrArg List.length h
      simp only [List.length_take, List.length_nil] at this
      omega
    rw [if_neg hi, hsplit, headerOf_append hne' hne, L.append, L.spaces]

/-! ### the bracket lines -/

theorem bracketLine_ok {toks : List LLToken} {item : LRange × Str}
    (h1 : item.1.1 < toks.length) (h2 : item.1.2 < toks.length)
    (hle : colStart W toks item.1.1 ≤ colEnd W toks item.1.2) :
    bracketLine W ((List.range toks.length).map (colStart W toks)) ((List.range toks.length).map (colEnd W toks)) item
      = .ok (attrLine W toks item) := by
  have e1 : ((List.range toks.length).map (colStart W toks))[item.1.1]? = some (colStart W toks item.1.1) := by
    simp [h1]
  have e2 : ((List.range toks.length).map (colEnd W toks))[item.1.2]? = some (colEnd W toks item.1.2) := by
    simp [h2]
  unfold bracketLine
  simp only [e1, e2, World.subUsize, hle, if_true]
  unfold attrLine bracket
  generalize colStart W toks item.1.1 = a at *
  generalize colEnd W toks item.1.2 = b at *
  by_cases hw : b - a ≤ 1
  · have h3 : ¬ b - a > 1 := by omega
    have h4 : b - 1 - (a + 1) = 0 := by omega
    simp [hw, h3, h4]
  · have h3 : b - a > 1 := by omega
    have h4 : b - 1 - (a + 1) = b - a - 2 := by omega
    simp [hw, h3, h4]

theorem bracketLine_error_iff {toks : List LLToken} {item : LRange × Str}
    (h1 : item.1.1 < toks.length) (h2 : item.1.2 < toks.length) :
    (∃ e, bracketLine W ((List.range toks.length).map (colStart W toks))
      ((List.range toks.length).map (colEnd W toks)) item = .error e) ↔
    W.overflowChecks = true ∧ colEnd W toks item.1.2 < colStart W toks item.1.1 := by
  by_cases hle : colStart W toks item.1.1 ≤ colEnd W toks item.1.2
  · rw [bracketLine_ok h1 h2 hle]
    constructor
    · rintro ⟨e, he⟩; cases he
    · rintro ⟨_, h⟩; omega
  · have e1 : ((List.range toks.length).map (colStart W toks))[item.1.1]? = some (colStart W toks item.1.1) := by
      simp [h1]
    have e2 : ((List.range toks.length).map (colEnd W toks))[item.1.2]? = some (colEnd W toks item.1.2) := by
      simp [h2]
    unfold bracketLine
    simp only [e1, e2, World.subUsize, if_neg hle]
    cases hc : W.overflowChecks with
    | true => simp; omega
    | false => simp

theorem include_fold {l : LLLine W} {h : History W} (rep : Rep l h) : ∀ (ks : List (Ty W)) (items : List (LRange × Str)),
    foldR (fun (d : LLLineDisplay W) k => d.with k) { ll_line := l, include_attrs := items } ks =
      .ok { ll_line := l, include_attrs := items ++ ks.flatMap (fun k => shownValues k h) }
  | [], items => by simp [foldR]
  | k :: ks, items => by
    have hi := rep_include (d := { ll_line := l, include_attrs := items }) rep k
    have e : (rangesOf k h).flatMap (fun r => ((valuesOf k r h).map (valDbg k)).reverse.map (fun s => (r, s))) =
        shownValues k h := by
      unfold shownValues
      congr 1; funext r
      rw [← List.map_reverse, List.map_map]; rfl
    simp only [e] at hi
    simp only [foldR, LLLineDisplay.with, hi]
    have := include_fold rep ks (items ++ shownValues k h)
    simp only [LLLineDisplay.with] at this
    rw [this]; simp

theorem shownValues_bounds {l : LLLine W} {h : History W} (rep : Rep l h) {k : Ty W} {item : LRange × Str}
    (hi : item ∈ shownValues k h) : ∃ v, (⟨k, item.1, v⟩ : Rec W) ∈ h ∧ item.2 = valDbg k v ∧
      item.1.1 < l.ll_tokens.length ∧ item.1.2 < l.ll_tokens.length := by
  unfold shownValues at hi
  simp only [List.mem_flatMap, List.mem_map, List.mem_reverse] at hi
  obtain ⟨r, _, v, hv, rfl⟩ := hi
  have := mem_valuesOf.1 hv
  exact ⟨v, this, rfl, rep.bounds _ this⟩

theorem shownValues_length (k : Ty W) (h : History W) :
    (shownValues k h).length = (h.filter (fun x => decide (x.ty = k))).length := by
  rw [← values_count k h]
  simp [shownValues, List.length_flatMap]

end LNlp
