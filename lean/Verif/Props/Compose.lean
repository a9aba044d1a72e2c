import Verif.Lemmas.Compose
import Verif.Lemmas.Select
import Verif.Demo.Examples
import Verif.Props.Tokenize
import Verif.Props.Select
import Verif.Props.Store
/-
C78–C81: lines put together from parts, what the tokens depend on, and source slices.
-/
namespace LNlp
variable {W : World}

/-! ### C78 -/

/-- C78: the line of `xs ++ ys` is the line of `xs` followed by the line of `ys`: its tokens are those of
`xs` and then those of `ys`, moved behind them; and every attribute lookup at a token gives what the
same lookup gives on the part the token comes from. -/
theorem C78_concat (size : Str → Nat) (xs ys : List (InputToken W)) (l : LLLine W)
    (wf : ∀ t ∈ xs ++ ys, t.WF) (ok : createLineFromInputTokens W (xs ++ ys) size = .ok l)
    (fits : totalSize ((xs ++ ys).flatMap (tokensOf W size)) < W.usizeBound) :
    ∃ lx ly, createLineFromInputTokens W xs size = .ok lx ∧ createLineFromInputTokens W ys size = .ok ly ∧
      l.ll_tokens = lx.ll_tokens ++ ly.ll_tokens.map (LLToken.shift lx.ll_tokens.length (endOf lx.ll_tokens)) ∧
      ∀ k : Ty W,
        (∀ i, i < lx.ll_tokens.length →
          (X.attr k).go (.fwd i) l = (X.attr k).go (.fwd i) lx ∧
          (X.attr k).go (.bwd i) l = (X.attr k).go (.bwd i) lx) ∧
        (∀ i, i < ly.ll_tokens.length →
          (X.attr k).go (.fwd (lx.ll_tokens.length + i)) l =
            shiftResults lx.ll_tokens.length ((X.attr k).go (.fwd i) ly) ∧
          (X.attr k).go (.bwd (lx.ll_tokens.length + i)) l =
            shiftResults lx.ll_tokens.length ((X.attr k).go (.bwd i) ly)) := by
  have wfx : ∀ t ∈ xs, t.WF := fun t ht => wf t (by simp [ht])
  have wfy : ∀ t ∈ ys, t.WF := fun t ht => wf t (by simp [ht])
  obtain ⟨hg, ht, rep⟩ := create_inv wf ok
  rw [List.flatMap_append, totalSize_append] at fits
  obtain ⟨lx, okx⟩ := create_ok (size := size) wfx (fun t ht => hg t (by simp [ht])) (Or.inr (by omega))
  obtain ⟨ly, oky⟩ := create_ok (size := size) wfy (fun t ht => hg t (by simp [ht])) (Or.inr (by omega))
  obtain ⟨hgx, htx, repx⟩ := create_inv wfx okx
  obtain ⟨hgy, hty, repy⟩ := create_inv wfy oky
  have hy : ∀ t ∈ ys, tokensOf W size t ≠ [] := fun t ht => (inputTokens_ok size (hgy t ht)).2
  have hn : lx.ll_tokens.length = (xs.flatMap (tokensOf W size)).length := by rw [htx, layoutM_length]
  have hm : ly.ll_tokens.length = (ys.flatMap (tokensOf W size)).length := by rw [hty, layoutM_length]
  have hlen : l.ll_tokens.length = lx.ll_tokens.length + ly.ll_tokens.length := by
    rw [ht, layoutM_length, List.flatMap_append, List.length_append, hn, hm]
  refine ⟨lx, ly, okx, oky, ?_, ?_⟩
  · rw [ht, List.flatMap_append, layoutM_append]
    rw [hn, htx, hty, endOf_layout, endPosM_eq _ _ (by omega)]
    rw [← layoutM_shift _ _ _ _ _ (by omega), Nat.zero_add (0 + _)]
  intro k
  constructor
  · intro i hi
    constructor
    · refine (rep_attr_fwd rep k (by omega)).trans (Eq.trans ?_ (rep_attr_fwd repx k hi).symm)
      congr 1
      refine (attrF_local k _ i).trans (Eq.trans ?_ (attrF_local k _ i).symm)
      rw [creation_filter_left size xs ys hy (fun r => decide (r.1 = i))
        (by intro r; apply decide_eq_false; simp only [shiftR]; omega)]
    · refine (rep_attr_bwd rep k (by omega)).trans (Eq.trans ?_ (rep_attr_bwd repx k hi).symm)
      congr 1
      refine (attrB_local k _ i).trans (Eq.trans ?_ (attrB_local k _ i).symm)
      rw [creation_filter_left size xs ys hy (fun r => decide (r.2 = i))
        (by intro r; apply decide_eq_false; simp only [shiftR]; omega)]
  · intro i hi
    constructor
    · refine (rep_attr_fwd rep k (by omega)).trans ?_
      rw [show (X.attr k).go (.fwd i) ly = _ from rep_attr_fwd repy k hi]
      refine congrArg Except.ok (a₂ := (attrF k (creationHistory W size ys) i).map _) ?_
      refine (attrF_local k _ _).trans ?_
      rw [creation_filter_right size xs ys hy (fun r => decide (r.1 = lx.ll_tokens.length + i)) (by
        intro x hx
        have := (repx.bounds x hx).1
        simp only [decide_eq_false_iff_not]; omega)]
      have e : (fun x : Rec W => decide ((shiftR (xs.flatMap (tokensOf W size)).length x.range).1 = lx.ll_tokens.length + i)) =
          fun x : Rec W => decide (x.range.1 = i) := by
        funext x; simp only [shiftR]; congr 1; apply propext; omega
      rw [e, hn, attrF_shift, ← attrF_local]
    · refine (rep_attr_bwd rep k (by omega)).trans ?_
      rw [show (X.attr k).go (.bwd i) ly = _ from rep_attr_bwd repy k hi]
      refine congrArg Except.ok (a₂ := (attrB k (creationHistory W size ys) i).map _) ?_
      refine (attrB_local k _ _).trans ?_
      rw [creation_filter_right size xs ys hy (fun r => decide (r.2 = lx.ll_tokens.length + i)) (by
        intro x hx
        have := (repx.bounds x hx).2
        simp only [decide_eq_false_iff_not]; omega)]
      have e : (fun x : Rec W => decide ((shiftR (xs.flatMap (tokensOf W size)).length x.range).2 = lx.ll_tokens.length + i)) =
          fun x : Rec W => decide (x.range.2 = i) := by
        funext x; simp only [shiftR]; congr 1; apply propext; omega
      rw [e, hn, attrB_shift, ← attrB_local]

example := C78_concat List.length (Demo.exInput.take 1) (Demo.exInput.drop 1) Demo.exLine Demo.exInput_wf
  Demo.exLine_ok (by decide)

/-- C78: conversely, if both parts can be created and the sizes fit, so can the whole. -/
theorem C78_concat_ok (size : Str → Nat) (xs ys : List (InputToken W)) (lx ly : LLLine W)
    (wf : ∀ t ∈ xs ++ ys, t.WF) (okx : createLineFromInputTokens W xs size = .ok lx)
    (oky : createLineFromInputTokens W ys size = .ok ly)
    (fits : totalSize ((xs ++ ys).flatMap (tokensOf W size)) < W.usizeBound) :
    ∃ l, createLineFromInputTokens W (xs ++ ys) size = .ok l := by
  obtain ⟨hgx, _, _⟩ := create_inv (fun t ht => wf t (by simp [ht])) okx
  obtain ⟨hgy, _, _⟩ := create_inv (fun t ht => wf t (by simp [ht])) oky
  refine create_ok wf ?_ (Or.inr fits)
  intro t ht
  rcases List.mem_append.1 ht with ht | ht
  · exact hgx t ht
  · exact hgy t ht

example := C78_concat_ok List.length (Demo.exInput.take 1) (Demo.exInput.drop 1) _ _ Demo.exInput_wf rfl rfl (by decide)

/-! ### C79 -/

/-- C79: attributes given with the input have no influence on tokens, tags and positions, nor on whether
creation succeeds. -/
theorem C79_attrs_do_not_matter (size : Str → Nat) (input input' : List (InputToken W))
    (wf : ∀ t ∈ input, t.WF) (wf' : ∀ t ∈ input', t.WF) (hB : 0 < W.usizeBound)
    (same : input.map InputToken.bare = input'.map InputToken.bare) (l : LLLine W)
    (ok : createLineFromInputTokens W input size = .ok l) :
    ∃ l', createLineFromInputTokens W input' size = .ok l' ∧ l'.ll_tokens = l.ll_tokens := by
  obtain ⟨hg, ht, rep⟩ := create_inv wf ok
  have hflat : input'.flatMap (tokensOf W size) = input.flatMap (tokensOf W size) := by
    rw [← bare_flat, ← same, bare_flat]
  have hg' : ∀ t ∈ input', GoodInput W t := by
    intro t ht
    have : t.bare ∈ input.map InputToken.bare := by rw [same]; exact List.mem_map_of_mem ht
    obtain ⟨u, hu, he⟩ := List.mem_map.1 this
    rw [← bare_good, ← he, bare_good]; exact hg u hu
  have fits : W.overflowChecks = false ∨ totalSize (input'.flatMap (tokensOf W size)) < W.usizeBound := by
    cases hc : W.overflowChecks with
    | false => exact Or.inl rfl
    | true => right; rw [hflat]; exact (C10_checked_positions_exact hc hB size input l wf ok).1
  obtain ⟨l', ok'⟩ := create_ok wf' hg' fits
  obtain ⟨_, ht', _⟩ := create_inv wf' ok'
  exact ⟨l', ok', by rw [ht', ht, hflat]⟩

example := C79_attrs_do_not_matter List.length Demo.exInput (Demo.exInput.map InputToken.bare) Demo.exInput_wf
  (by intro t ht a ha; obtain ⟨u, _, rfl⟩ := List.mem_map.1 ht; cases u <;> simp [InputToken.bare, InputToken.attrList] at ha)
  (by decide) (by simp [Demo.exInput, InputToken.bare]) _ Demo.exLine_ok

/-- C79: the size function has no influence on the texts and tags of the tokens. -/
theorem C79_size_does_not_matter (size size' : Str → Nat) (input : List (InputToken W)) (l l' : LLLine W)
    (wf : ∀ t ∈ input, t.WF) (ok : createLineFromInputTokens W input size = .ok l)
    (ok' : createLineFromInputTokens W input size' = .ok l') :
    l'.ll_tokens.map (·.token) = l.ll_tokens.map (·.token) := by
  obtain ⟨_, ht, _⟩ := create_inv wf ok
  obtain ⟨_, ht', _⟩ := create_inv wf ok'
  rw [ht, ht', layoutM_tokens, layoutM_tokens, flat_tokens]

example := C79_size_does_not_matter List.length utf8Len Demo.exInput _ _ Demo.exInput_wf Demo.exLine_ok rfl

/-! ### C80 -/

/-- C80: on a line made of texts and sized by any additive measure, after any runs, tokens `i ..= j` are
a slice of the source text, and the positions of `i` and `j` are the bounds of this slice. -/
theorem C80_slice (L : SplitLaws W) {size : Str → Nat} (A : Additive size) (input : List (InputToken W))
    (text : ∀ t ∈ input, ∃ s as, t = .Text s as) (wf : ∀ t ∈ input, t.WF) (l0 l : LLLine W)
    (ok : createLineFromInputTokens W input size = .ok l0) (runs : RunsTo l0 l)
    (fits : size ((input.map InputToken.str).flatten) < W.usizeBound)
    (i j : Nat) (a b : LLToken) (hij : i ≤ j) (ha : l.ll_tokens[i]? = some a) (hb : l.ll_tokens[j]? = some b) :
    ∃ pre post, (input.map InputToken.str).flatten = pre ++ coveredText l.ll_tokens (i, j) ++ post ∧
      a.pos_starts_at = size pre ∧ b.pos_ends_at = size (pre ++ coveredText l.ll_tokens (i, j)) := by
  have hflat : input.flatMap (tokensOf W size) =
      (input.flatMap (fun t => textPieces W t.str)).map (fun p => (LToken.Text p.1 p.2, size p.1)) := by
    rw [List.map_flatMap]
    clear ok fits wf
    induction input with
    | nil => rfl
    | cons t ts ih =>
      obtain ⟨s, as, rfl⟩ := text t (by simp)
      rw [List.flatMap_cons, List.flatMap_cons, ih (fun t ht => text t (by simp [ht]))]
      rfl
  have hsrc : (input.map InputToken.str).flatten = ((input.flatMap (fun t => textPieces W t.str)).map (·.1)).flatten := by
    clear ok fits wf hflat
    induction input with
    | nil => rfl
    | cons t ts ih =>
      rw [List.flatMap_cons, List.map_append, List.flatten_append, ← ih (fun t ht => text t (by simp [ht])),
        textPieces_concat, L.concat]
      rfl
  generalize hP : input.flatMap (fun t => textPieces W t.str) = P at hflat hsrc
  rw [runsTo_tokens runs] at ha hb ⊢
  have hfit : totalSize (input.flatMap (tokensOf W size)) < W.usizeBound := by
    rw [hflat, size_flatten A, ← hsrc]; exact fits
  obtain ⟨hlen, key⟩ := C02_positions_tile size input l0 wf ok hfit
  have htok := C01_exact_tokens size input l0 wf ok
  rw [hflat] at htok key
  have hcov : coveredText l0.ll_tokens (i, j) = (((P.drop i).take (j + 1 - i)).map (·.1)).flatten := by
    have e : l0.ll_tokens.map (fun t => t.token.str) = P.map (·.1) := by
      have := congrArg (List.map LToken.str) htok
      simpa [List.map_map, Function.comp_def, LToken.str] using this
    unfold coveredText
    rw [List.map_take, List.map_drop, e, ← List.map_drop, ← List.map_take]
  obtain ⟨_, _, _, h3, _⟩ := key i a ha
  obtain ⟨n, h1, _, h3', h4⟩ := key j b hb
  rw [List.getElem?_map] at h1
  cases hp : P[j]? with
  | none => simp [hp] at h1
  | some p =>
    simp only [hp, Option.map_some, Option.some.injEq, Prod.mk.injEq] at h1
    have hsplit : P = P.take i ++ ((P.drop i).take (j + 1 - i) ++ P.drop (j + 1)) := by
      have e2 : P.drop (j + 1) = (P.drop i).drop (j + 1 - i) := by
        rw [List.drop_drop]; congr 1; omega
      rw [e2, List.take_append_drop, List.take_append_drop]
    have htk : P.take (j + 1) = P.take i ++ (P.drop i).take (j + 1 - i) := by
      have : P.take (i + (j + 1 - i)) = _ := List.take_add
      rw [show i + (j + 1 - i) = j + 1 by omega] at this
      exact this
    refine ⟨((P.take i).map (·.1)).flatten, ((P.drop (j + 1)).map (·.1)).flatten, ?_, ?_, ?_⟩
    · rw [hsrc, hcov]
      conv => lhs; rw [hsplit]
      simp [List.map_append]
    · rw [h3, ← List.map_take, size_flatten A]
    · rw [h4, h3', ← List.map_take, size_flatten A, ← h1.2, ← A.append, hcov]
      congr 1
      rw [← List.flatten_append, ← List.map_append, ← htk]
      have : P.take (j + 1) = P.take j ++ [p] := by
        rw [List.take_add_one, hp]; rfl
      rw [this, List.map_append, List.flatten_append]; simp

/-- the number of UTF-16 units of a string -/
def Demo.utf16Len (s : Str) : Nat := (s.map (fun c => if c.toNat < 65536 then 1 else 2)).sum
theorem Demo.utf16_additive : Additive Demo.utf16Len := ⟨rfl, by intro a b; simp [Demo.utf16Len]⟩
def Demo.textInput : List (InputToken Demo.W) := [.Text ['d','é',' ','1','2','a'] [], .Text [' ','x'] []]
def Demo.twoLine : LLLine Demo.W := Demo.getOk Demo.emptyLine (createLineFromInputTokens Demo.W Demo.textInput Demo.utf16Len)
theorem Demo.twoLine_ok : createLineFromInputTokens Demo.W Demo.textInput Demo.utf16Len = .ok Demo.twoLine := rfl
theorem Demo.textInput_text : ∀ t ∈ Demo.textInput, ∃ s as, t = .Text s as := by
  intro t ht; simp only [Demo.textInput, List.mem_cons, List.not_mem_nil, or_false] at ht
  rcases ht with rfl | rfl <;> exact ⟨_, _, rfl⟩
theorem Demo.textInput_wf : ∀ t ∈ Demo.textInput, t.WF := by
  intro t ht a ha; simp only [Demo.textInput, List.mem_cons, List.not_mem_nil, or_false] at ht
  rcases ht with rfl | rfl <;> simp [InputToken.attrList] at ha
theorem Demo.twoRuns : RunsTo Demo.twoLine (Demo.getOk Demo.emptyLine (Demo.twoLine.run 7 Demo.exRes)) :=
  .run 7 Demo.exRes .refl rfl

example := C80_slice Demo.splitLaws Demo.utf16_additive Demo.textInput Demo.textInput_text Demo.textInput_wf
  Demo.twoLine _ rfl Demo.twoRuns (by decide) 0 2 _ _ (by decide) rfl rfl

/-- C80 for `query`: the text of an entry is the slice of the source between the positions of its tokens. -/
theorem C80_query_slice (L : SplitLaws W) {size : Str → Nat} (A : Additive size) (input : List (InputToken W))
    (text : ∀ t ∈ input, ∃ s as, t = .Text s as) (wf : ∀ t ∈ input, t.WF) (l0 l : LLLine W)
    (ok : createLineFromInputTokens W input size = .ok l0) (runs : RunsTo l0 l)
    (fits : size ((input.map InputToken.str).flatten) < W.usizeBound)
    (k : Ty W) (out : List (LRange × Str × List (Val k))) (hq : l.query k = .ok out)
    (r : LRange) (s : Str) (vs : List (Val k)) (he : (r, s, vs) ∈ out) (hr : r.1 ≤ r.2) :
    ∃ pre post a b, (input.map InputToken.str).flatten = pre ++ s ++ post ∧
      l.ll_tokens[r.1]? = some a ∧ l.ll_tokens[r.2]? = some b ∧
      a.pos_starts_at = size pre ∧ b.pos_ends_at = size (pre ++ s) := by
  obtain ⟨h, hreach⟩ := runsTo_reachable (.create input size l0 wf ok) runs
  have rep := hreach.rep
  have ho : ∀ r ∈ rangesOf k h, r.1 ≤ r.2 + 1 := by
    intro r hr
    apply Classical.byContradiction
    intro hn
    obtain ⟨e, he⟩ := rep_query_error rep k ⟨r, hr, hn⟩
    rw [he] at hq; cases hq
  rw [rep_query rep k ho] at hq
  obtain rfl := Except.ok.inj hq
  obtain ⟨r', hr', e⟩ := List.mem_map.1 he
  simp only [Prod.mk.injEq] at e
  obtain ⟨rfl, rfl, _⟩ := e
  obtain ⟨v, hv⟩ := mem_rangesOf.1 hr'
  have hb := rep.bounds _ hv
  obtain ⟨pre, post, h1, h2, h3⟩ := C80_slice L A input text wf l0 l ok runs fits r'.1 r'.2 _ _ hr
    (List.getElem?_eq_getElem hb.1) (List.getElem?_eq_getElem hb.2)
  exact ⟨pre, post, _, _, h1, List.getElem?_eq_getElem hb.1, List.getElem?_eq_getElem hb.2, h2, h3⟩

example := C80_query_slice Demo.splitLaws Demo.utf16_additive Demo.textInput Demo.textInput_text Demo.textInput_wf
  Demo.twoLine _ rfl Demo.twoRuns (by decide) (Ty.user 2) _ rfl (0, 2) _ _ (List.Mem.head _) (by decide)

/-- C80 for `find`: the range of a find is the slice of the source covered by the match. -/
theorem C80_find_slice (L : SplitLaws W) {size : Str → Nat} (A : Additive size) (input : List (InputToken W))
    (text : ∀ t ∈ input, ∃ s as, t = .Text s as) (wf : ∀ t ∈ input, t.WF) (l0 l : LLLine W)
    (ok : createLineFromInputTokens W input size = .ok l0) (runs : RunsTo l0 l)
    (fits : size ((input.map InputToken.str).flatten) < W.usizeBound)
    {Out : Type} (m : XMatch W Out) (hm : WellBehaved l m) (fs : List (LLLineFind Out)) (hf : l.find m = .ok fs)
    (f : LLLineFind Out) (hin : f ∈ fs) :
    ∃ i j pre post rs, m.go (.fwd i) l = .ok rs ∧ (f.attr, j) ∈ rs ∧
      (input.map InputToken.str).flatten = pre ++ coveredText l.ll_tokens (i, j) ++ post ∧
      f.range = (size pre, size (pre ++ coveredText l.ll_tokens (i, j))) := by
  obtain ⟨g, hg, rfl⟩ := flatMapR_inv hf
  obtain ⟨i, hi, hfi⟩ := List.mem_flatMap.1 hin
  have hi' : i < l.ll_tokens.length := List.mem_range.1 hi
  have hgi := hg i hi
  cases hgo : m.go (.fwd i) l with
  | error e => simp [hgo] at hgi
  | ok rs =>
    simp only [hgo] at hgi
    have hb := hm.1 i rs hi' hgo
    have hmap := mapR_ok (fun r : Out × Nat =>
      match l.posStartAt i with
      | .error e => .error e
      | .ok s =>
        match l.posEndAt r.2 with
        | .error e => .error e
        | .ok e => .ok ({ start_pos_at := s, end_pos_at := e, found := r.1 } : LLLineFind Out))
      (fun r => { start_pos_at := (l.ll_tokens[i]).pos_starts_at,
                  end_pos_at := ((l.ll_tokens[r.2]?).map (·.pos_ends_at)).getD 0, found := r.1 }) rs (by
        intro r hr
        have h2 := (hb r hr).2
        simp only [LLLine.posStartAt, LLLine.posEndAt, List.getElem?_eq_getElem hi', List.getElem?_eq_getElem h2]
        rfl)
    have hgi := hgi.symm.trans hmap
    rw [Except.ok.inj hgi] at hfi
    obtain ⟨r, hr, rfl⟩ := List.mem_map.1 hfi
    obtain ⟨h1, h2⟩ := hb r hr
    obtain ⟨pre, post, e1, e2, e3⟩ := C80_slice L A input text wf l0 l ok runs fits i r.2 _ _ h1
      (List.getElem?_eq_getElem hi') (List.getElem?_eq_getElem h2)
    refine ⟨i, r.2, pre, post, rs, hgo, hr, e1, ?_⟩
    simp only [LLLineFind.range, List.getElem?_eq_getElem h2, Option.map_some, Option.getD_some, e2, e3]

example := C80_find_slice Demo.splitLaws Demo.utf16_additive Demo.textInput Demo.textInput_text Demo.textInput_wf
  Demo.twoLine Demo.twoLine rfl .refl (by decide) (X.attr Ty.textTag)
  (builtin_wellBehaved (.attr _ trivial) (create_inv Demo.textInput_wf Demo.twoLine_ok).2.2
    (creation_ordered Demo.textInput_wf Demo.twoLine_ok))
  _ rfl _ (List.Mem.head _)

/-! ### C81 -/

/-- the tag that goes with a text: `NATN` for digits, otherwise the tag of a word -/
def tagOfText (W : World) (s : Str) : TextTag :=
  if ∀ c ∈ s, IsDigit c then .NATN else wordTag W s

/-- C81, full claim: tokens with the same text have the same tag. -/
def C81_claim (W : World) : Prop :=
  ∀ (size : Str → Nat) (i1 i2 : List (InputToken W)) (l1 l2 : LLLine W), (∀ t ∈ i1, t.WF) → (∀ t ∈ i2, t.WF) →
    createLineFromInputTokens W i1 size = .ok l1 → createLineFromInputTokens W i2 size = .ok l2 →
    ∀ t1 ∈ l1.ll_tokens, ∀ t2 ∈ l2.ll_tokens, ∀ s g1 g2, t1.token = .Text s g1 → t2.token = .Text s g2 → g1 = g2

/-- C81 is false: the underscore of "1_0" is `PUNC`, the underscore of "_" is `SYMB`. -/
theorem C81_same_text_same_tag_false : ¬ C81_claim Demo.W := by
  intro h
  have wf : ∀ s : Str, ∀ t ∈ [InputToken.Text (W := Demo.W) s []], t.WF := by
    intro s t ht a ha; simp at ht; subst ht; simp [InputToken.attrList] at ha
  have := h List.length [.Text ['1','_','0'] []] [.Text ['_'] []] _ _ (wf _) (wf _) rfl rfl
    ⟨1, 1, 2, .Text ['_'] .PUNC⟩ (List.mem_cons_of_mem _ (List.mem_cons_self ..))
    ⟨0, 0, 1, .Text ['_'] .SYMB⟩ (List.mem_cons_self ..) ['_'] .PUNC .SYMB rfl rfl
  cases this

/-- C81, what holds: the tag is a function of the text, except for single ASCII characters that are
neither digit, letter nor documented punctuation; these are `PUNC` inside a digit word.
Missing from the full claim: exactly these exceptions. -/
theorem C81_partial (A : AsciiLaws W) (size : Str → Nat) (input : List (InputToken W)) (l : LLLine W)
    (wf : ∀ t ∈ input, t.WF) (h : createLineFromInputTokens W input size = .ok l) :
    ∀ tok ∈ l.ll_tokens, ∀ s tag, tok.token = .Text s tag →
      tag = tagOfText W s ∨
      (tag = .PUNC ∧ ∃ c, s = [c] ∧ c.toNat < 128 ∧ ¬ IsDigit c ∧ W.isAlphabetic c = false ∧ ¬ DocPunct c) := by
  intro tok ht s tag he
  have hne : s ≠ [] := by
    rintro rfl; exact C04_no_empty_tokens size input l wf h tok ht tag he
  have h5 := C05_natn_iff_digits size input l wf h tok ht s tag he
  obtain ⟨h6a, h6b, h6c⟩ := C06_tags_determined A size input l wf h tok ht s tag he
  have h7 := (C07_punc_partial A size input l wf h tok ht s tag he).1
  by_cases hd : ∀ c ∈ s, IsDigit c
  · left; rw [tagOfText, if_pos hd]; exact h5.2 ⟨hne, hd⟩
  · have hn : tag ≠ .NATN := fun e => hd (h5.1 e).2
    rw [tagOfText, if_neg hd]
    cases tag with
    | NATN => exact absurd rfl hn
    | SPACE => left; rw [wordTag, if_pos (h6a rfl)]
    | WORD =>
      left
      have hw := h6b.1 rfl
      obtain ⟨c, cs, rfl, hc, _⟩ := id hw
      rw [wordTag, if_neg, if_neg, if_pos hw]
      · rintro ⟨d, _, hd, hp⟩
        simp only [List.cons.injEq] at hd
        rw [hd.1, A.punct_not_alpha d hp] at hc; cases hc
      · intro hh
        have := A.alpha_not_space c hc
        rw [hh c (by simp)] at this; cases this
    | PUNC =>
      obtain ⟨c, rfl, hc⟩ := h7 rfl
      by_cases hp : DocPunct c
      · left
        rw [wordTag, if_neg, if_pos ⟨c, by simp, rfl, hp⟩]
        intro hh
        have := A.punct_not_space c hp
        rw [hh c (by simp)] at this; cases this
      · rcases hc with hc | ⟨h1, h2, h3⟩
        · exact absurd hc hp
        · exact Or.inr ⟨rfl, c, rfl, h1, h2, h3, hp⟩
    | SYMB =>
      left
      obtain ⟨⟨c, hc, hs⟩, hp, hw, _⟩ := h6c rfl
      rw [wordTag, if_neg (fun hh => hs (hh c hc)), if_neg, if_neg hw]
      rintro ⟨d, _, e, hd'⟩; exact hp d e hd'

example := C81_partial Demo.asciiLaws List.length Demo.exInput _ Demo.exInput_wf Demo.exInput_ok.choose_spec

end LNlp
