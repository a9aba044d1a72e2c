import Verif.Lemmas.DisplayProps
import Verif.Props.Select
/- C54–C57: rendering a line. -/
namespace LNlp
variable {W : World}

theorem Demo.additive : AdditiveWidth Demo.W := ⟨rfl, fun _ _ => by
  show (_ : Str).length = _ + 2 + _
  simp only [List.length_append]; rfl⟩

/-- C54: without attributes the display is the token texts joined by two spaces; with attributes it
starts with that text. -/
theorem C54_header (l : LLLine W) :
    (LLLineDisplay.new l).fmt = .ok (headerOf l.ll_tokens) ∧
    ∀ (items : List (LRange × Str)) (out : Str),
      LLLineDisplay.fmt { ll_line := l, include_attrs := items } = .ok out → headerOf l.ll_tokens <+: out := by
  constructor
  · simp [LLLineDisplay.fmt, LLLineDisplay.new, header_loop]
  · intro items out h
    simp only [LLLineDisplay.fmt, header_loop] at h
    split at h
    · cases h
    · cases h; exact List.prefix_append _ _

example : headerOf Demo.exLine.ll_tokens = ['P','a','y',' ',' ',' ',' ',' ','1','2',' ',' ','a','b',' ',' ',
  ',',' ',' ',' ',' ',' ','<','>',' ',' ','1',' ',' ','_',' ',' ','0'] := rfl
example := C54_header Demo.exLine2

/-- C55, C56: the whole rendering of a line whose attributes start at or before their end: the header,
then one line per value of the included types.  The line of an attribute on tokens `i..=j` is indented
to the column where token `i` starts, and its bracket is as wide as the text up to the end of token `j`. -/
theorem C55_display {l : LLLine W} {h : History W} (hr : Reachable l h) (ho : Ordered h) (L : WidthLaws W)
    (ks : List (Ty W)) :
    ∃ d, displayWith l ks = .ok d ∧
      d.fmt = .ok (headerOf l.ll_tokens ++
        (ks.flatMap (fun k => shownValues k h)).flatMap (attrLine W l.ll_tokens)) := by
  have hf := include_fold hr.rep ks []
  refine ⟨_, hf, ?_⟩
  simp only [LLLineDisplay.fmt, header_loop, List.nil_append]
  rw [flatMapR_ok (g := attrLine W l.ll_tokens)]
  intro item hi
  obtain ⟨k, _, hi⟩ := List.mem_flatMap.1 hi
  obtain ⟨v, hv, _, h1, h2⟩ := shownValues_bounds hr.rep hi
  exact bracketLine_ok h1 h2 (colStart_le_colEnd L _ (ho _ hv) h2)

example := C55_display Demo.exReach2 Demo.exHist2_ordered (additive_mono Demo.additive) [Ty.user 2, .char]

/-- C55: if the width of a string is the sum of the widths of its parts, the bracket is exactly as wide
as the shown text of the tokens it spans, and starts below it. -/
theorem C55_columns (L : AdditiveWidth W) (toks : List LLToken) (i j : Nat) (hij : i ≤ j) (hj : j < toks.length) :
    colEnd W toks j - colStart W toks i = W.strWidth (headerOf ((toks.drop i).take (j + 1 - i))) ∧
    (∀ k, i = k + 1 → colStart W toks i = colEnd W toks k + W.strWidth [' ', ' ']) ∧
    colStart W toks 0 = 0 := by
  refine ⟨by rw [colEnd_eq L toks hij hj]; omega, ?_, ?_⟩
  · rintro k rfl
    simp [colStart, colEnd, L.spaces]
  · simp [colStart, L.nil]

example := C55_columns Demo.additive Demo.exLine2.ll_tokens 0 2 (by decide) (by decide)

/-- C55: this law of widths holds if the width of a text is the sum of the widths of its characters. -/
theorem C55_summed (w : Char → Nat) (hw : ∀ s, W.strWidth s = (s.map w).sum) : AdditiveWidth W :=
  ⟨by rw [hw]; rfl, fun a b => by simp only [hw, List.map_append, List.sum_append]⟩

example := C55_summed (W := Demo.W) (fun _ => 1) (fun s => by
  show s.length = _
  induction s with
  | nil => rfl
  | cons c s ih => rw [List.map_cons, List.sum_cons, ← ih, List.length_cons, Nat.add_comm])

/-- widths as of unicode-width 0.1.14 for one emoji: a variation selector narrows it -/
def Demo.narrowing : Str → Nat
  | [] => 0
  | '⌚' :: '\uFE0E' :: s => 1 + Demo.narrowing s
  | c :: s => (if c = '⌚' then 2 else if c = '\uFE0E' then 0 else 1) + Demo.narrowing s
def Demo.narrowW : World := { Demo.W with strWidth := Demo.narrowing }

theorem Demo.narrowing_append (b : Str) : ∀ a : Str,
    Demo.narrowing (a ++ (' ' :: ' ' :: b)) = Demo.narrowing a + 2 + Demo.narrowing b := by
  intro a
  induction a using Demo.narrowing.induct with
  | case1 => simp [Demo.narrowing]; omega
  | case2 s ih => simp only [List.cons_append, Demo.narrowing, ih]; omega
  | case3 c s h ih =>
    have e1 : Demo.narrowing (c :: s) = (if c = '⌚' then 2 else if c = '\uFE0E' then 0 else 1) + Demo.narrowing s := by
      rw [Demo.narrowing]
      exact h
    have e2 : Demo.narrowing (c :: (s ++ ' ' :: ' ' :: b)) =
        (if c = '⌚' then 2 else if c = '\uFE0E' then 0 else 1) + Demo.narrowing (s ++ ' ' :: ' ' :: b) := by
      rw [Demo.narrowing]
      intro s' hc hs
      cases s with
      | nil => cases hs
      | cons d s => cases hs; exact h s hc rfl
    rw [List.cons_append, e1, e2, ih]
    omega

/-- C55: the law also holds of widths where a text becomes narrower by what is appended to it. -/
theorem C55_narrowing : AdditiveWidth Demo.narrowW ∧
    ¬ ∀ a b, Demo.narrowW.strWidth a ≤ Demo.narrowW.strWidth (a ++ b) := by
  refine ⟨⟨rfl, fun a b => ?_⟩, fun h => absurd (h ['⌚'] ['\uFE0E']) (by decide)⟩
  show Demo.narrowing _ = Demo.narrowing a + 2 + Demo.narrowing b
  rw [← Demo.narrowing_append]
  simp

/-- C55: the shape of a bracket. -/
theorem C55_bracket (width : Nat) :
    (bracket width).length = max 1 width ∧ (bracket width).head? = some '╰' ∧
    (2 ≤ width → (bracket width).getLast? = some '╯') ∧
    ∀ n c, 0 < n → n + 1 < width → (bracket width)[n]? = some c → c = '─' := by
  unfold bracket
  by_cases hw : width ≤ 1
  · rw [if_pos hw]
    refine ⟨by simp; omega, rfl, fun h => by omega, fun n c h1 h2 => by omega⟩
  · rw [if_neg hw]
    refine ⟨by simp; omega, rfl, fun _ => by rw [List.getLast?_append]; rfl, ?_⟩
    intro n c h1 h2 h3
    obtain ⟨n, rfl⟩ : ∃ k, n = k + 1 := ⟨n - 1, by omega⟩
    simp only [List.cons_append, List.nil_append, List.getElem?_cons_succ] at h3
    rw [List.getElem?_append_left (by simp; omega)] at h3
    rw [List.getElem?_replicate] at h3
    split at h3
    · cases h3; rfl
    · cases h3

example := C55_bracket 5

/-- C56: including a type adds one item per value: ranges in order of first assignment, newest value of
a range first; nothing else changes.  It never panics. -/
theorem C56_include {l : LLLine W} {h : History W} (hr : Reachable l h) (items : List (LRange × Str)) (k : Ty W) :
    (LLLineDisplay.mk l items).include k = .ok (LLLineDisplay.mk l (items ++
      (rangesOf k h).flatMap (fun r => (valuesOf k r h).reverse.map (fun v => (r, valDbg k v))))) ∧
    (LLLineDisplay.mk l items).with k = (LLLineDisplay.mk l items).include k := by
  refine ⟨?_, rfl⟩
  rw [rep_include (d := { ll_line := l, include_attrs := items }) hr.rep k]
  simp only [← List.map_reverse, List.map_map]
  rfl

example := C56_include Demo.exReach2 [] (Ty.user 2)

/-- C56: every assigned value of an included type is shown, once. -/
theorem C56_one_line_per_value {h : History W} (k : Ty W) :
    (shownValues k h).length = (h.filter (fun x => decide (x.ty = k))).length ∧
    ∀ r v, (⟨k, r, v⟩ : Rec W) ∈ h → (r, valDbg k v) ∈ shownValues k h := by
  constructor
  · exact shownValues_length k h
  · intro r v hm
    unfold shownValues
    simp only [List.mem_flatMap, List.mem_map, List.mem_reverse]
    exact ⟨r, mem_rangesOf.2 ⟨v, hm⟩, v, mem_valuesOf.2 hm, rfl⟩

example := (C56_one_line_per_value (h := Demo.exHist2) (Ty.user 2)).1

/-- C57: rendering a line never panics, if all its resolvers assigned selections obtained through the
API. -/
theorem C57_never_panics {l : LLLine W} {h : History W} (hh : Honest l h) (L : WidthLaws W) (ks : List (Ty W)) :
    ∃ d out, displayWith l ks = .ok d ∧ d.fmt = .ok out := by
  obtain ⟨d, h1, h2⟩ := C55_display hh.spec.1 hh.spec.2 L ks
  exact ⟨d, _, h1, h2⟩

example := C57_never_panics Demo.nestHonest0 (additive_mono Demo.additive) [.char, .textTag]

/-- C57 for arbitrary reachable lines: including never panics, and rendering panics exactly with
overflow checks and an included attribute whose end column lies before its start column. -/
theorem C57_panics_iff {l : LLLine W} {h : History W} (hr : Reachable l h) (ks : List (Ty W)) :
    ∃ d, displayWith l ks = .ok d ∧
      ((∃ e, d.fmt = .error e) ↔ W.overflowChecks = true ∧ ∃ x ∈ h, x.ty ∈ ks ∧
        colEnd W l.ll_tokens x.range.2 < colStart W l.ll_tokens x.range.1) := by
  refine ⟨_, include_fold hr.rep ks [], ?_⟩
  simp only [LLLineDisplay.fmt, header_loop, List.nil_append]
  have key := flatMapR_error_iff (f := bracketLine W ((List.range l.ll_tokens.length).map (colStart W l.ll_tokens))
    ((List.range l.ll_tokens.length).map (colEnd W l.ll_tokens))) (l := ks.flatMap (fun k => shownValues k h))
  have lift : (∃ e, (match flatMapR (bracketLine W ((List.range l.ll_tokens.length).map (colStart W l.ll_tokens))
      ((List.range l.ll_tokens.length).map (colEnd W l.ll_tokens))) (ks.flatMap (fun k => shownValues k h)) with
      | .error e => .error e
      | .ok rest => .ok (headerOf l.ll_tokens ++ rest) : R Str) = .error e) ↔
      ∃ e, flatMapR (bracketLine W ((List.range l.ll_tokens.length).map (colStart W l.ll_tokens))
      ((List.range l.ll_tokens.length).map (colEnd W l.ll_tokens))) (ks.flatMap (fun k => shownValues k h)) = .error e := by
    cases flatMapR (bracketLine W ((List.range l.ll_tokens.length).map (colStart W l.ll_tokens))
      ((List.range l.ll_tokens.length).map (colEnd W l.ll_tokens))) (ks.flatMap (fun k => shownValues k h)) <;> simp
  refine lift.trans (key.trans ?_)
  constructor
  · rintro ⟨item, hi, he⟩
    obtain ⟨k, hk, hi⟩ := List.mem_flatMap.1 hi
    obtain ⟨v, hv, _, h1, h2⟩ := shownValues_bounds hr.rep hi
    obtain ⟨hc, hlt⟩ := (bracketLine_error_iff h1 h2).1 he
    exact ⟨hc, _, hv, hk, hlt⟩
  · rintro ⟨hc, x, hx, hk, hlt⟩
    have hb := hr.rep.bounds x hx
    refine ⟨(x.range, valDbg x.ty x.val), List.mem_flatMap.2 ⟨x.ty, hk, ?_⟩, (bracketLine_error_iff hb.1 hb.2).2 ⟨hc, hlt⟩⟩
    exact (C56_one_line_per_value x.ty).2 x.range x.val hx

example := C57_panics_iff Demo.exReach2 [Ty.user 2]

/-- C57 for arbitrary assigned ranges -/
def C57_claim : Prop := ∀ (W : World) (l : LLLine W) (h : History W), Reachable l h → WidthLaws W →
  ∀ (ks : List (Ty W)) d, displayWith l ks = .ok d → ∃ out, d.fmt = .ok out

/-- a resolver that assigns a range that ends before it starts -/
def Demo.invRes : Resolver Demo.W where
  attr := Ty.user 2
  go := fun _ => .ok ([⟨2, 0, (['x'] : Str)⟩], false)
def Demo.invLine : LLLine Demo.W := Demo.getOk Demo.emptyLine (Demo.exLine.run 7 Demo.invRes)
theorem Demo.invReach : Reachable Demo.invLine (Demo.exHist ++
    ([⟨2, 0, (['x'] : Str)⟩] : List (LLCursorAssignment (Val (Ty.user (W := Demo.W) 2)))).map (recOf (Ty.user 2))) :=
  .run Demo.exLine Demo.exHist 7 Demo.invRes _ false Demo.invLine Demo.exReach Demo.exLine_ne rfl rfl

/-- C57 does not extend to resolvers that assign a range ending before it starts (such an assignment can
only be made from a selection of another line): rendering it panics with overflow checks. -/
theorem C57_inverted_false : ¬ C57_claim := by
  intro H
  obtain ⟨d, hd, hiff⟩ := C57_panics_iff Demo.invReach [Ty.user 2]
  obtain ⟨out, ho⟩ := H _ _ _ Demo.invReach (additive_mono Demo.additive) [Ty.user 2] d hd
  obtain ⟨e, he⟩ := hiff.2 ⟨rfl, ⟨Ty.user 2, (2, 0), (['x'] : Str)⟩, by simp [recOf], by simp, by decide⟩
  rw [ho] at he; cases he

/-- C57 for widths of any kind -/
def C57_any_width_claim : Prop := ∀ (W : World) (l : LLLine W) (h : History W), Honest l h →
  ∀ (ks : List (Ty W)) d, displayWith l ks = .ok d → ∃ out, d.fmt = .ok out

/-- a world in which texts of four characters have no width -/
def Demo.oddW : World := { Demo.W with strWidth := fun s => if s.length = 4 then 0 else s.length }
def Demo.oddLine : LLLine Demo.oddW :=
  Demo.getOk ⟨[], ⟨TypeIdToMany.empty, [], [], HMap.empty⟩⟩ (createLineFromString Demo.oddW ['a', ' ', 'b'])

/-- C57 needs the law of widths: a width may be such that rendering panics. -/
theorem C57_width_needed : ¬ C57_any_width_claim := by
  intro H
  have hh : Honest Demo.oddLine _ := .create [.Text ['a', ' ', 'b'] []] utf8Len _ (by
    intro t ht a ha; rw [List.mem_singleton.1 ht] at ha; cases ha) rfl
  obtain ⟨d, hd, hiff⟩ := C57_panics_iff hh.spec.1 [Ty.textTag]
  obtain ⟨out, ho⟩ := H _ _ _ hh [Ty.textTag] d hd
  obtain ⟨e, he⟩ := hiff.2 ⟨rfl, ⟨Ty.textTag, (1, 1), TextTag.SPACE⟩, by
    show _ ∈ ([_, _, _, _, _, _] : History Demo.oddW)
    exact .tail _ (.tail _ (.tail _ (.head _))), by simp, by decide⟩
  rw [ho] at he; cases he

end LNlp
