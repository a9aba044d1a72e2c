import Verif.Lemmas.Recurse
import Verif.Props.Docs
/- Property C134: matchers of the user that call themselves. -/
namespace LNlp
variable {W : World} {T : Ty W → Prop} {has : Bool}

/-! ### C134: matchers that call themselves -/

/-- C134: on a line none of whose attributes runs backwards, a `go` that calls itself only behind a match ends: however
deep it is unrolled, more levels than the line has tokens make no difference. -/
theorem C134_ends {Out : Type} {F : XMatch W Out → XMatch W Out} (hc : Calls T has true F) {l : LLLine W} {h : History W}
    (hr : Reachable l h) (ho : Ordered h) (d : Dir) (n : Nat) (hn : l.ll_tokens.length + 2 ≤ n) :
    (X.levels F n).go d l = (X.levels F (l.ll_tokens.length + 2)).go d l := levels_settled hr ho hc d n hn

example := C134_ends (again_calls (.attrEq (W := Demo.W) .textTag (T := fun _ => True) (has := false) trivial TextTag.SPACE))
  Demo.exReach2 Demo.exHist2_ordered (.fwd 0) 100 (by decide)

/-- C134: so its results are those its code gives, where the calls of itself give these results … -/
theorem C134_equation {Out : Type} {F : XMatch W Out → XMatch W Out} (hc : Calls T has true F) {l : LLLine W} {h : History W}
    (hr : Reachable l h) (ho : Ordered h) (d : Dir) : (X.recursive F).go d l = (F (X.recursive F)).go d l :=
  recursive_unfold hr ho hc d

/-- C134: … and no other results do that: every matcher that behaves as this code says has them. -/
theorem C134_unique {Out : Type} {F : XMatch W Out → XMatch W Out} (hc : Calls T has true F) {l : LLLine W} {h : History W}
    (hr : Reachable l h) (ho : Ordered h) (r : XMatch W Out) (heq : ∀ d, r.go d l = (F r).go d l) (d : Dir) :
    r.go d l = (X.recursive F).go d l := recursive_unique hr ho hc heq d

example := C134_unique (again_calls (.attrEq (W := Demo.W) .textTag (T := fun _ => True) (has := false) trivial TextTag.SPACE))
  Demo.exReach2 Demo.exHist2_ordered _
  (C134_equation (again_calls (.attrEq (W := Demo.W) .textTag (T := fun _ => True) (has := false) trivial TextTag.SPACE))
    Demo.exReach2 Demo.exHist2_ordered) (.fwd 0)

/-- C134: it may be used like a matcher of the library: everything said about matcher expressions holds of it. -/
theorem C134_builtin {Out : Type} {F : XMatch W Out → XMatch W Out} (hc : Calls T has true F) : Built T has (X.recursive F) :=
  recursive_built hc

example := C134_builtin (again_calls (.attrEq (W := Demo.W) .textTag (T := fun _ => True) (has := false) trivial TextTag.SPACE))

/-- C134: for instance, its results lie in the line and go the right way. -/
theorem C134_results_inside {Out : Type} {F : XMatch W Out → XMatch W Out} (hc : Calls (fun _ => True) true true F)
    {l : LLLine W} {h : History W} (hr : Reachable l h) (ho : Ordered h) (i : Nat) :
    (∀ out, (X.recursive F).go (.fwd i) l = .ok out → ∀ r ∈ out, i ≤ r.2 ∧ r.2 < l.ll_tokens.length) ∧
    (∀ out, (X.recursive F).go (.bwd i) l = .ok out → ∀ r ∈ out, r.2 ≤ i ∧ r.2 < l.ll_tokens.length) :=
  C34_results_inside (recursive_built hc) hr ho i

example := C134_results_inside (again_calls (.attrEq (W := Demo.W) .textTag (T := fun _ => True) (has := true) trivial TextTag.SPACE))
  Demo.exReach2 Demo.exHist2_ordered 0

/-- C134: and it does not panic if it does not use `token_has_any`.  (Where attributes run backwards, the code need not return,
`C134_backwards_needed`; so nothing is said there.) -/
theorem C134_never_panics {Out : Type} {F : XMatch W Out → XMatch W Out} (hc : Calls T false true F)
    {l : LLLine W} {h : History W} (hr : Reachable l h) (_ho : Ordered h) (d : Dir) (hd : d.at < l.ll_tokens.length) :
    ∃ out, (X.recursive F).go d l = .ok out := by
  cases hg : (X.recursive F).go d l with
  | ok out => exact ⟨out, rfl⟩
  | error e => exact absurd (C36_panics (recursive_built hc) hr d hd e hg).2.1 (by simp)

example := C134_never_panics (again_calls (.attrEq (W := Demo.W) .textTag (T := fun _ => True) (has := false) trivial TextTag.SPACE))
  Demo.exReach2 Demo.exHist2_ordered (.fwd 0) (by decide)

/-- C134: a matcher for "`m`, once or more often" finds exactly the rows of matches of `m`, each adjacent to the next, and
how many they are; in both directions. -/
theorem C134_many {α : Type} {m : XMatch W α} (hm : Built T has m) {l : LLLine W} {h : History W} (hr : Reachable l h)
    (ho : Ordered h) (d : Dir) (out : List (Nat × Nat)) (hg : (X.many m).go d l = .ok out) (n j : Nat) :
    (n, j) ∈ out ↔ InARow m l n d j :=
  mem_many hr ho hm _ d (Nat.lt_succ_self _) out hg n j

example := C134_many (.attrEq (W := Demo.W) .textTag (T := fun _ => True) (has := false) trivial TextTag.WORD)
  Demo.exReach2 Demo.exHist2_ordered (.fwd 0) _ rfl 1 0

/-- C134: searching with it finds exactly the rows that start in the selection. -/
theorem C134_find_many {α : Type} {m : XMatch W α} (hm : Built T has m) {h : History W} (s : LLSelection W)
    (hr : Reachable s.ll_line.val h) (ho : Ordered h) (out : List (LLSelection W × Nat)) (hf : s.findBy (X.many m) = .ok out)
    (p : LLSelection W) (n : Nat) :
    (p, n) ∈ out ↔ p.ll_line = s.ll_line ∧ s.Has p.start_idx ∧ InARow m s.ll_line.val n (.fwd p.start_idx) p.end_idx := by
  rw [mem_findBy hf]
  constructor
  · rintro ⟨h1, h2, rs, h3, h4⟩
    exact ⟨h1, h2, (C134_many hm hr ho _ rs h3 _ _).1 h4⟩
  · rintro ⟨h1, h2, h3⟩
    cases hg : (X.many m).go (.fwd p.start_idx) s.ll_line.val with
    | ok rs => exact ⟨h1, h2, rs, rfl, (C134_many hm hr ho _ rs hg _ _).2 h3⟩
    | error e =>
      obtain ⟨e', he⟩ := findBy_error_iff.2 ⟨_, e, h2, hg⟩
      rw [hf] at he; cases he

example := C134_find_many (.attrEq (W := Demo.W) .textTag (T := fun _ => True) (has := false) trivial TextTag.WORD) (Demo.sel 0 5)
  Demo.exReach2 Demo.exHist2_ordered _ rfl (Demo.sel 0 0) 1

/-- C134: "any number of consecutive spaces", which `x::whitespace()` does not match (C97), is matched by repeating it: from
the first of `c` whitespace tokens in a row, all of them, then all but the last, and so on. -/
theorem C134_spaces_forwards {l : LLLine W} {h : History W} (hr : Reachable l h) (ho : Ordered h) (ht : PlainTags l h)
    (c i : Nat) (hi : i < l.ll_tokens.length) (hs : ∀ k, i ≤ k → k < i + c → tagAt l k = some .SPACE)
    (he : tagAt l (i + c) ≠ some .SPACE) :
    (X.many X.whitespace).go (.fwd i) l = .ok ((List.range c).reverse.map (fun n => (n + 1, i + n))) := by
  have hb : Built (fun _ => True) false (X.whitespace (W := W)) := .attrEq _ trivial _
  induction c generalizing i with
  | zero =>
    have hw := (C97_one_token_partial hr ht hi).1
    rw [if_neg (by simpa using he)] at hw
    rw [many_unfold hr ho hb]
    simp only [X.seq2, hw, flatMapR]
    rfl
  | succ c ih =>
    have hw := (C97_one_token_partial hr ht hi).1
    rw [if_pos (hs i (Nat.le_refl _) (by omega))] at hw
    have hq : (X.seq2 X.whitespace (X.many X.whitespace)).go (.fwd i) l =
        .ok ((List.range c).reverse.map (fun n => (((), n + 1), i + 1 + n))) := by
      simp only [X.seq2, hw, flatMapR]
      simp only [X.goAfter, Dir.after]
      by_cases hn : i + 1 < l.ll_tokens.length
      · rw [if_pos hn]
        simp only [ih (i + 1) hn (fun k h1 h2 => hs k (by omega) (by omega)) (by rwa [Nat.add_assoc, Nat.add_comm 1 c])]
        simp only [List.map_map, Function.comp_def, List.append_nil]
      · rw [if_neg hn]
        have hc : c = 0 := by
          cases c with
          | zero => rfl
          | succ c =>
            exfalso
            have := hs (i + 1) (by omega) (by omega)
            unfold tagAt at this
            rw [List.getElem?_eq_none (by omega)] at this
            cases this
        subst hc
        rfl
    rw [many_unfold hr ho hb, hq, hw]
    simp only [List.map_map, Function.comp_def, List.map_cons, List.map_nil]
    rw [List.range_succ_eq_map, List.reverse_cons, List.map_append, ← List.map_reverse, List.map_map]
    congr 2
    refine List.map_congr_left (fun n _ => ?_)
    simp only [Function.comp, Nat.succ_eq_add_one]
    congr 1
    omega

/-- C134: … and backwards from the last of them. -/
theorem C134_spaces_backwards {l : LLLine W} {h : History W} (hr : Reachable l h) (ho : Ordered h) (ht : PlainTags l h)
    (c i : Nat) (hi : i < l.ll_tokens.length) (hci : c ≤ i + 1) (hs : ∀ k, i < k + c → k ≤ i → tagAt l k = some .SPACE)
    (he : ∀ k, k + c = i → tagAt l k ≠ some .SPACE) :
    (X.many X.whitespace).go (.bwd i) l = .ok ((List.range c).reverse.map (fun n => (n + 1, i - n))) := by
  have hb : Built (fun _ => True) false (X.whitespace (W := W)) := .attrEq _ trivial _
  induction c generalizing i with
  | zero =>
    have hw := (C97_one_token_partial hr ht hi).2
    rw [if_neg (he i rfl)] at hw
    rw [many_unfold hr ho hb]
    simp only [X.seq2, hw, flatMapR]
    rfl
  | succ c ih =>
    have hw := (C97_one_token_partial hr ht hi).2
    rw [if_pos (hs i (by omega) (Nat.le_refl _))] at hw
    have hq : (X.seq2 X.whitespace (X.many X.whitespace)).go (.bwd i) l =
        .ok ((List.range c).reverse.map (fun n => (((), n + 1), i - 1 - n))) := by
      simp only [X.seq2, hw, flatMapR]
      simp only [X.goAfter, Dir.after]
      by_cases hn : i > 0
      · rw [if_pos hn]
        simp only [ih (i - 1) (by omega) (by omega) (fun k h1 h2 => hs k (by omega) (by omega)) (fun k hk => he k (by omega))]
        simp only [List.map_map, Function.comp_def, List.append_nil]
      · rw [if_neg hn]
        have hc : c = 0 := by omega
        subst hc
        rfl
    rw [many_unfold hr ho hb, hq, hw]
    simp only [List.map_map, Function.comp_def, List.map_cons, List.map_nil]
    rw [List.range_succ_eq_map, List.reverse_cons, List.map_append, ← List.map_reverse, List.map_map]
    congr 2
    refine List.map_congr_left (fun n _ => ?_)
    simp only [Function.comp, Nat.succ_eq_add_one]
    congr 1
    omega

/-- a tab, a space, a word, a space and a tab -/
def Demo.gapsText : Str := ['\t', ' ', 'a', ' ', '\t']
def Demo.gapsLine : LLLine Demo.W := Demo.getOk Demo.emptyLine (createLineFromString Demo.W Demo.gapsText)
theorem Demo.gapsReach : Reachable Demo.gapsLine (creationHistory Demo.W utf8Len [.Text Demo.gapsText []]) :=
  .create _ _ _ (string_wf _) rfl
theorem Demo.gapsPlain : PlainTags Demo.gapsLine (creationHistory Demo.W utf8Len [.Text Demo.gapsText []]) :=
  creation_plainTags (string_wf _) (size := utf8Len) rfl (string_noCustom _ _)
theorem Demo.gapsOrdered : Ordered (creationHistory Demo.W utf8Len [.Text Demo.gapsText []]) :=
  creation_ordered (string_wf _) (l := Demo.gapsLine) rfl

example := C134_spaces_forwards Demo.gapsReach Demo.gapsOrdered Demo.gapsPlain 2 0 (by decide)
  (by
    intro k _ hk
    rcases (show k = 0 ∨ k = 1 by omega) with rfl | rfl <;> rfl) (by decide)
example := C134_spaces_backwards Demo.gapsReach Demo.gapsOrdered Demo.gapsPlain 2 4 (by decide) (by decide)
  (by
    intro k h1 h2
    rcases (show k = 3 ∨ k = 4 by omega) with rfl | rfl <;> rfl) (by intro k hk; rw [show k = 2 by omega]; decide)

/-- the first result of a matcher whose results are listed longest first -/
theorem head_rows {α : Type} (c : Nat) (f : Nat → α) : ((List.range c).reverse.map f).head? = if c = 0 then none else some (f (c - 1)) := by
  cases c with
  | zero => rfl
  | succ c => rw [List.range_succ, List.reverse_append]; rfl

/-- C134: so trimming with it removes all whitespace, which `trim(whitespace())` does not (C92): if `a` and `b` are the first
and the last token of the selection that are not whitespace, exactly `a ..= b` is left. -/
theorem C134_trim {h : History W} (s : LLSelection W) (hr : Reachable s.ll_line.val h) (ho : Ordered h)
    (ht : PlainTags s.ll_line.val h) (hs : s.Inside) (a b : Nat) (ha : s.start_idx ≤ a) (hab : a ≤ b) (hb : b ≤ s.end_idx)
    (before : ∀ k, s.start_idx ≤ k → k < a → tagAt s.ll_line.val k = some .SPACE) (first : tagAt s.ll_line.val a ≠ some .SPACE)
    (last : tagAt s.ll_line.val b ≠ some .SPACE) (after : ∀ k, b < k → k ≤ s.end_idx → tagAt s.ll_line.val k = some .SPACE) :
    s.trim (X.many X.whitespace) = .ok (some { ll_line := s.ll_line, start_idx := a, end_idx := b }) := by
  have hi := hs
  unfold LLSelection.Inside at hi
  have h1 := C134_spaces_forwards hr ho ht (a - s.start_idx) s.start_idx (by omega)
    (fun k h1 h2 => before k h1 (by omega)) (by rw [Nat.add_sub_cancel' ha]; exact first)
  have h2 := C134_spaces_backwards hr ho ht (s.end_idx - b) s.end_idx (by omega) (by omega)
    (fun k h1 h2 => after k (by omega) h2) (fun k hk => by rw [show k = b by omega]; exact last)
  have e1 : ((List.range (a - s.start_idx)).reverse.map (fun k => (k + 1, s.start_idx + k))).head? =
      if s.start_idx = a then none else some (a - s.start_idx, a - 1) := by
    rw [head_rows]
    by_cases c : s.start_idx = a
    · rw [if_pos c, if_pos (by omega)]
    · rw [if_neg c, if_neg (by omega)]
      exact congrArg some (Prod.ext (by simp only; omega) (by simp only; omega))
  have e2 : ((List.range (s.end_idx - b)).reverse.map (fun k => (k + 1, s.end_idx - k))).head? =
      if s.end_idx = b then none else some (s.end_idx - b, b + 1) := by
    rw [head_rows]
    by_cases c : s.end_idx = b
    · rw [if_pos c, if_pos (by omega)]
    · rw [if_neg c, if_neg (by omega)]
      exact congrArg some (Prod.ext (by simp only; omega) (by simp only; omega))
  unfold LLSelection.trim LLSelection.trimSelection
  rw [h1, h2]
  simp only [if_true, e1, e2]
  by_cases c1 : s.start_idx = a <;> by_cases c2 : s.end_idx = b
  · rw [if_pos c1, if_pos c2]; simp only
    rw [if_pos ⟨by omega, by omega⟩, c1, c2]
  · rw [if_pos c1, if_neg c2]
    simp only [checkedSub, show 1 ≤ b + 1 by omega, if_true, Option.getD_some, Nat.add_sub_cancel]
    rw [if_pos ⟨by omega, by omega⟩, c1]
  · rw [if_neg c1, if_pos c2]; simp only
    rw [show a - 1 + 1 = a by omega, if_pos ⟨by omega, by omega⟩, c2]
  · rw [if_neg c1, if_neg c2]
    simp only [checkedSub, show 1 ≤ b + 1 by omega, if_true, Option.getD_some, Nat.add_sub_cancel]
    rw [show a - 1 + 1 = a by omega, if_pos ⟨by omega, by omega⟩]

example := C134_trim (wholeLine Demo.gapsLine 0) Demo.gapsReach Demo.gapsOrdered Demo.gapsPlain ⟨by decide, by decide⟩ 2 2
  (by decide) (by decide) (by decide)
  (by
    intro k _ hk
    rcases (show k = 0 ∨ k = 1 by omega) with rfl | rfl <;> rfl) (by decide) (by decide)
  (by
    intro k h1 h2
    have : (wholeLine Demo.gapsLine 0).end_idx = 4 := rfl
    rcases (show k = 3 ∨ k = 4 by omega) with rfl | rfl <;> rfl)

/-- a run of tokens with a property ends -/
theorem run_ends {P : Nat → Prop} {n : Nat} (hP : ∀ k, n ≤ k → ¬ P k) (i : Nat) :
    ∃ c, (∀ k, i ≤ k → k < i + c → P k) ∧ ¬ P (i + c) := by
  generalize e : n - i = m
  induction m generalizing i with
  | zero => exact ⟨0, fun k h1 h2 => by omega, hP _ (by omega)⟩
  | succ m ih =>
    by_cases hp : P i
    · obtain ⟨c, h1, h2⟩ := ih (i + 1) (by omega)
      refine ⟨c + 1, fun k h3 h4 => ?_, by rwa [show i + (c + 1) = i + 1 + c by omega]⟩
      by_cases hk : k = i
      · rwa [hk]
      · exact h1 k (by omega) (by omega)
    · exact ⟨0, fun k h1 h2 => by omega, hp⟩

/-- C134: … and nothing is left of a selection that is all whitespace. -/
theorem C134_trim_all {h : History W} (s : LLSelection W) (hr : Reachable s.ll_line.val h) (ho : Ordered h)
    (ht : PlainTags s.ll_line.val h) (hs : s.Inside)
    (all : ∀ k, s.start_idx ≤ k → k ≤ s.end_idx → tagAt s.ll_line.val k = some .SPACE) :
    s.trim (X.many X.whitespace) = .ok none := by
  have hi := hs
  unfold LLSelection.Inside at hi
  obtain ⟨c, hc1, hc2⟩ := run_ends (P := fun k => tagAt s.ll_line.val k = some .SPACE) (n := s.ll_line.val.ll_tokens.length)
    (fun k hk => by simp [tagAt, List.getElem?_eq_none hk]) s.start_idx
  have hc3 : s.end_idx < s.start_idx + c := by
    refine Decidable.byContradiction (fun hn => hc2 (all _ (by omega) (by omega)))
  have h1 := C134_spaces_forwards hr ho ht c s.start_idx (by omega) hc1 hc2
  have hcalls : Calls (fun _ => True) false true
      (fun r => UserTree.again.matcher (parts (X.seq2 (X.whitespace (W := W)) r) X.whitespace)) :=
    again_calls (.attrEq (W := W) .textTag (T := fun _ => True) (has := false) trivial TextTag.SPACE)
  obtain ⟨out, h2⟩ := C134_never_panics hcalls hr ho (.bwd s.end_idx) hi.2
  have h3 : ∀ r ∈ out, r.2 ≤ s.end_idx := fun r hm =>
    ((C134_results_inside (again_calls (.attrEq (W := W) .textTag (T := fun _ => True) (has := true) trivial TextTag.SPACE)) hr ho s.end_idx).2
      out h2 r hm).1
  change (X.many X.whitespace).go _ _ = _ at h2
  unfold LLSelection.trim LLSelection.trimSelection
  rw [h1, h2]
  simp only [if_true, head_rows, show c ≠ 0 by omega, if_false]
  cases e : out.head? with
  | none =>
    simp only
    rw [if_neg (by omega)]
  | some r =>
    have := h3 r (List.mem_of_head? e)
    simp only [checkedSub]
    split
    · rw [if_neg (by simp only [Option.getD_some]; omega)]
    · rw [if_neg (by simp only [Option.getD_none]; omega)]

example := C134_trim_all ⟨⟨0, Demo.gapsLine⟩, 0, 1⟩ Demo.gapsReach Demo.gapsOrdered Demo.gapsPlain ⟨by decide, by decide⟩
  (by
    intro k _ (hk : k ≤ 1)
    rcases (show k = 0 ∨ k = 1 by omega) with rfl | rfl <;> rfl)

/-! what C134 excludes -/

/-- C134 without the condition on the attributes -/
def C134_ends_claim : Prop :=
  ∀ (l : LLLine Demo.W) (h : History Demo.W), Reachable l h → ∀ (k : Ty Demo.W) (d : Dir), ∃ N, ∀ n, N ≤ n →
    (X.levels (fun r => UserTree.again.matcher (parts (X.seq2 (X.attr k) r) (X.attr k))) n).go d l =
    (X.levels (fun r => UserTree.again.matcher (parts (X.seq2 (X.attr k) r) (X.attr k))) N).go d l

/-- assigns a value on the tokens 1 to 0, as a resolver can with a selection from a matcher that jumps (`C122_jump_false`) -/
def Demo.reversing : Resolver Demo.W :=
  { attr := Ty.user 2, go := fun _ => .ok ([{ start_idx := 1, end_idx := 0, value := ['v'] }], false) }
def Demo.reversedLine : LLLine Demo.W := Demo.getOk Demo.emptyLine (Demo.padLine.run 0 Demo.reversing)
theorem Demo.reversedReach : Reachable Demo.reversedLine
    (creationHistory Demo.W utf8Len [.Text [' ', 'a', ' '] []] ++ [⟨Ty.user 2, (1, 0), ['v']⟩]) :=
  .run Demo.padLine _ 0 Demo.reversing [{ start_idx := 1, end_idx := 0, value := ['v'] }] false _ Demo.padReach
    (by decide) rfl rfl

/-- C134: where an attribute runs backwards, a matcher that repeats it does not end: it comes back to where it was. -/
theorem C134_backwards_needed : ¬ C134_ends_claim := by
  intro claim
  have hd : (X.attr (W := Demo.W) (Ty.user 2)).go (.fwd 1) Demo.reversedLine = .ok [(['v'], 0)] := rfl
  have key : ∀ n, ∃ out, (X.levels (fun r => UserTree.again.matcher (parts (X.seq2 (X.attr (Ty.user 2)) r) (X.attr (Ty.user 2)))) n).go
      (.fwd 1) Demo.reversedLine = .ok out ∧ out.length = n := by
    intro n
    induction n with
    | zero => exact ⟨[], rfl, rfl⟩
    | succ n ih =>
      obtain ⟨out, ho, hl⟩ := ih
      refine ⟨out.map (fun r => (r.1 + 1, r.2)) ++ [(1, 0)], ?_, ?_⟩
      · simp only [X.levels]
        generalize X.levels (fun r => UserTree.again.matcher (parts (X.seq2 (X.attr (Ty.user (W := Demo.W) 2)) r) (X.attr (Ty.user 2)))) n = rest
          at ho ⊢
        rw [again_go]
        simp only [X.seq2, hd, flatMapR, X.goAfter]
        rw [show (Dir.fwd 1).after 0 Demo.reversedLine = some (.fwd 1) from rfl]
        simp only [ho, List.append_nil, List.map_cons, List.map_nil, List.map_map]
        rfl
      · simp [hl]
  obtain ⟨N, hN⟩ := claim _ _ Demo.reversedReach (Ty.user 2) (.fwd 1)
  obtain ⟨o1, h1, l1⟩ := key N
  obtain ⟨o2, h2, l2⟩ := key (N + 1)
  rw [hN (N + 1) (by omega), h1] at h2
  cases h2
  omega

end LNlp
