import Verif.Lemmas.Mirror
import Verif.Props.Match
import Verif.Props.Tokenize
import Verif.Props.Grammar
import Verif.Demo.Mirror
/- C148: reading a line from right to left. -/
namespace LNlp
variable {W : World} {Out : Type}

/-- C148: matching backwards is matching forwards on the line written from right to left, and the other way round: an
expression without `x::token_has_any` finds the same things, in the same order, with their ends counted from the other
end, and panics on neither line. -/
theorem C148_matchers {l l' : LLLine W} {h h' : History W} (hr : Reachable l h) (hr' : Reachable l' h') (s : Reversed l h l' h')
    {T : Ty W → Prop} {m : XMatch W Out} (hm : Built T false m) (d : Dir) (hd : d.at < l.ll_tokens.length) :
    ∃ rs, m.go d l = .ok rs ∧ m.go (d.mirror l.ll_tokens.length) l' = .ok (mirrorL l.ll_tokens.length rs) := by
  obtain ⟨rs, hg⟩ := built_false_ok hm hr.rep d hd
  exact ⟨rs, hg, expr_mirror hr hr' s hm d hd rs hg⟩

/-- C148: a line created from inputs of one token each, and the line created from the same inputs in the opposite order,
are each other written from right to left. -/
theorem C148_lines {size : Str → Nat} {input : List (InputToken W)} {l l' : LLLine W} (wf : ∀ t ∈ input, t.WF)
    (hs : ∀ t ∈ input, SingleInput W t) (ok : createLineFromInputTokens W input size = .ok l)
    (ok' : createLineFromInputTokens W input.reverse size = .ok l') :
    Reversed l (creationHistory W size input) l' (creationHistory W size input.reverse) := lines_reversed wf hs ok ok'

/-- C148: whether a line can be created does not depend on the order of the inputs. -/
theorem C148_order (L : SplitLaws W) (hB : 0 < W.usizeBound) (size : Str → Nat) {input input' : List (InputToken W)}
    (wf : ∀ t ∈ input, t.WF) (hp : input.Perm input') :
    (∃ l, createLineFromInputTokens W input size = .ok l) ↔ ∃ l', createLineFromInputTokens W input' size = .ok l' := by
  have h1 := C09_creation_panics_iff L hB size input wf
  have h2 := C09_creation_panics_iff L hB size input' (fun t ht => wf t (hp.mem_iff.2 ht))
  have e1 : (∃ t ∈ input, BadInput W t) ↔ ∃ t ∈ input', BadInput W t :=
    ⟨fun ⟨t, ht, hb⟩ => ⟨t, hp.mem_iff.1 ht, hb⟩, fun ⟨t, ht, hb⟩ => ⟨t, hp.mem_iff.2 ht, hb⟩⟩
  have e2 : totalSize (input.flatMap (tokensOf W size)) = totalSize (input'.flatMap (tokensOf W size)) :=
    ((hp.flatMap_right _).map _).sum_nat
  rw [e1, e2, ← h2] at h1
  have no : ∀ {x : R (LLLine W)}, (∃ l, x = .ok l) ↔ ¬ ∃ e, x = .error e := by
    intro x
    cases x with
    | ok a => exact ⟨fun _ ⟨e, h⟩ => (by cases h), fun _ => ⟨a, rfl⟩⟩
    | error e => exact ⟨fun ⟨_, h⟩ => (by cases h), fun h => absurd ⟨e, rfl⟩ h⟩
  rw [no, no, h1]

example := (C148_order Demo.splitLaws (by decide) List.length Demo.lr_wf (List.reverse_perm Demo.lrInput).symm).1 ⟨_, Demo.lr_ok⟩

theorem Demo.lrReversed : Reversed Demo.lrLine (creationHistory Demo.W List.length Demo.lrInput) Demo.rlLine
    (creationHistory Demo.W List.length Demo.lrInput.reverse) := C148_lines Demo.lr_wf Demo.lr_single Demo.lr_ok Demo.rl_ok

example := C148_matchers Demo.lrHonest.spec.1 Demo.rlHonest.spec.1 Demo.lrReversed
  (m := X.seq2 (X.attr (Ty.user 0)) X.tokenText) (.seq2 (T := fun _ => True) (.attr _ trivial) .tokenText) (.fwd 1) (by decide)

/-- C148: `x::token_has_any` has to be left out: forwards it panics on a custom token without attributes, backwards it does not
(C29, C30). -/
theorem C148_token_has_any_false : ∃ e, (X.tokenHasAny (W := Demo.W) .textTag [TextTag.NATN]).go (.fwd 3) Demo.lrLine = .error e ∧
    (X.tokenHasAny (W := Demo.W) .textTag [TextTag.NATN]).go ((Dir.fwd 3).mirror 4) Demo.rlLine = .ok [] := ⟨_, rfl, rfl⟩

/-- C148: being each other written from right to left goes both ways. -/
theorem C148_back {l l' : LLLine W} {h h' : History W} (s : Reversed l h l' h') : Reversed l' h' l h := s.symm

example := C148_back Demo.lrReversed

/-- C148: growing a selection to the right is growing it to the left on the line written from right to left, and the
other way round. -/
theorem C148_extend {l l' : LLLine W} {h h' : History W} (hr : Reachable l h) (hr' : Reachable l' h') (s : Reversed l h l' h')
    {T : Ty W → Prop} {m : XMatch W Out} (hm : Built T false m) (p p' : Nat) (a b : Nat) (hab : a ≤ b) (hb : b < l.ll_tokens.length) :
    let sel : LLSelection W := ⟨⟨p, l⟩, a, b⟩
    (∃ found, sel.matchForwards m = .ok found ∧
      (sel.mirror ⟨p', l'⟩).matchBackwards m = .ok (found.map (fun r => (r.1.mirror ⟨p', l'⟩, r.2)))) ∧
    ∃ found, sel.matchBackwards m = .ok found ∧
      (sel.mirror ⟨p', l'⟩).matchForwards m = .ok (found.map (fun r => (r.1.mirror ⟨p', l'⟩, r.2))) := by
  intro sel
  have hlen := s.length
  constructor
  · by_cases e : b + 1 = l.ll_tokens.length
    · refine ⟨[], ?_, ?_⟩
      · exact if_pos e
      · refine if_pos ?_
        simp only [sel, LLSelection.mirror]
        rw [mirrorIdx_inside hb]; omega
    · obtain ⟨rs, h1, h2⟩ := C148_matchers hr hr' s hm (.fwd (b + 1)) (by simp only [Dir.at]; omega)
      refine ⟨rs.map (fun r => (⟨⟨p, l⟩, a, r.2⟩, r.1)), ?_, ?_⟩
      · unfold LLSelection.matchForwards
        rw [if_neg e, show m.go (.fwd (sel.end_idx + 1)) sel.ll_line.val = _ from h1]
      · unfold LLSelection.matchBackwards
        have e1 : mirrorIdx l.ll_tokens.length b - 1 = mirrorIdx l.ll_tokens.length (b + 1) := by
          rw [mirrorIdx_inside hb, mirrorIdx_inside (by omega)]; omega
        simp only [sel, LLSelection.mirror, e1]
        rw [if_neg (by rw [mirrorIdx_inside hb]; omega)]
        simp only [Dir.mirror] at h2
        rw [h2]
        simp only [mirrorL, List.map_map]
        rfl
  · by_cases e : a = 0
    · refine ⟨[], ?_, ?_⟩
      · exact if_pos e
      · refine if_pos ?_
        simp only [sel, LLSelection.mirror]
        rw [mirrorIdx_inside (by omega)]; omega
    · obtain ⟨rs, h1, h2⟩ := C148_matchers hr hr' s hm (.bwd (a - 1)) (by simp only [Dir.at]; omega)
      refine ⟨rs.map (fun r => (⟨⟨p, l⟩, r.2, b⟩, r.1)), ?_, ?_⟩
      · unfold LLSelection.matchBackwards
        rw [if_neg e, show m.go (.bwd (sel.start_idx - 1)) sel.ll_line.val = _ from h1]
      · unfold LLSelection.matchForwards
        have e1 : mirrorIdx l.ll_tokens.length a + 1 = mirrorIdx l.ll_tokens.length (a - 1) := by
          rw [mirrorIdx_inside (by omega), mirrorIdx_inside (by omega)]; omega
        simp only [sel, LLSelection.mirror, e1]
        rw [if_neg (by rw [mirrorIdx_inside (by omega)]; omega)]
        simp only [Dir.mirror] at h2
        rw [h2]
        simp only [mirrorL, List.map_map]
        rfl

example := C148_extend Demo.lrHonest.spec.1 Demo.rlHonest.spec.1 Demo.lrReversed
  (m := X.attr (Ty.user 0)) (.attr (T := fun _ => True) _ trivial) 7 8 1 2 (by decide) (by decide)

/-- C148: `find_by_forwards_and_backwards` finds the same on the line written from right to left. -/
theorem C148_both_ways {l l' : LLLine W} {h h' : History W} (hr : Reachable l h) (hr' : Reachable l' h') (s : Reversed l h l' h')
    {T : Ty W → Prop} {m : XMatch W Out} (hm : Built T false m) (p p' : Nat) (a b : Nat) (hab : a ≤ b) (hb : b < l.ll_tokens.length) :
    let sel : LLSelection W := ⟨⟨p, l⟩, a, b⟩
    ∃ found found', sel.findByForwardsAndBackwards m = .ok found ∧
      (sel.mirror ⟨p', l'⟩).findByForwardsAndBackwards m = .ok found' ∧
      ∀ i j x, (⟨⟨p, l⟩, i, j⟩, x) ∈ found ↔
        (⟨⟨p', l'⟩, mirrorIdx l.ll_tokens.length j, mirrorIdx l.ll_tokens.length i⟩, x) ∈ found' := by
  intro sel
  have hlen := s.length
  have ok : ∀ {l : LLLine W} {h : History W} (_ : Reachable l h) (p a b : Nat) (_ : b < l.ll_tokens.length),
      ∃ found, (⟨⟨p, l⟩, a, b⟩ : LLSelection W).findByForwardsAndBackwards m = .ok found := by
    intro l h hr p a b hb
    refine ⟨_, flatMapR_ok_iff.2 ⟨fun i hi => ?_, rfl⟩⟩
    have hi' := mem_rangeIncl.1 hi
    simp only at hi'
    obtain ⟨fs, hf⟩ := built_false_ok hm hr.rep (.fwd i) (by simp only [Dir.at]; omega)
    obtain ⟨bs, hb⟩ := built_false_ok hm hr.rep (.bwd i) (by simp only [Dir.at]; omega)
    simp only [hf, hb]
    exact ⟨_, rfl⟩
  have mem : ∀ {l : LLLine W} {p a b : Nat} {found}, (⟨⟨p, l⟩, a, b⟩ : LLSelection W).findByForwardsAndBackwards m = .ok found →
      ∀ i j x, (⟨⟨p, l⟩, i, j⟩, x) ∈ found ↔
        (a ≤ i ∧ i ≤ b ∧ ∃ rs, m.go (.fwd i) l = .ok rs ∧ (x, j) ∈ rs) ∨ (a ≤ j ∧ j ≤ b ∧ ∃ rs, m.go (.bwd j) l = .ok rs ∧ (x, i) ∈ rs) := by
    intro l p a b found hf i j x
    obtain ⟨fs, bs, hok, rfl⟩ := mem_findBoth hf
    simp only [List.mem_flatMap, mem_rangeIncl, List.mem_append, List.mem_map, Prod.mk.injEq]
    constructor
    · rintro ⟨i', hi, ⟨r, hr, e, rfl⟩ | ⟨r, hr, e, rfl⟩⟩
      · cases e; exact .inl ⟨hi.1, hi.2, _, (hok _ hi).1, hr⟩
      · cases e; exact .inr ⟨hi.1, hi.2, _, (hok _ hi).2, hr⟩
    · rintro (⟨h1, h2, rs, hg, hx⟩ | ⟨h1, h2, rs, hg, hx⟩)
      · refine ⟨i, ⟨h1, h2⟩, .inl ⟨(x, j), ?_, rfl, rfl⟩⟩
        rw [(hok i ⟨h1, h2⟩).1] at hg; cases hg; exact hx
      · refine ⟨j, ⟨h1, h2⟩, .inr ⟨(x, i), ?_, rfl, rfl⟩⟩
        rw [(hok j ⟨h1, h2⟩).2] at hg; cases hg; exact hx
  have inMirror : ∀ (rs : List (Out × Nat)) x j, (x, mirrorIdx l.ll_tokens.length j) ∈ mirrorL l.ll_tokens.length rs ↔ (x, j) ∈ rs := by
    intro rs x j
    simp only [mirrorL, List.mem_map, Prod.mk.injEq, mirrorIdx_inj]
    exact ⟨fun ⟨r, hr, e1, e2⟩ => by subst e1; subst e2; exact hr, fun hx => ⟨_, hx, rfl, rfl⟩⟩
  have turn : ∀ d : Dir, d.at < l.ll_tokens.length → ∀ x j, (∃ rs, m.go (d.mirror l.ll_tokens.length) l' = .ok rs ∧
      (x, mirrorIdx l.ll_tokens.length j) ∈ rs) ↔ ∃ rs, m.go d l = .ok rs ∧ (x, j) ∈ rs := by
    intro d hd x j
    obtain ⟨rs, h1, h2⟩ := C148_matchers hr hr' s hm d hd
    rw [h1, h2]
    constructor
    · rintro ⟨_, e, hx⟩; cases e; exact ⟨_, rfl, (inMirror rs x j).1 hx⟩
    · rintro ⟨_, e, hx⟩; cases e; exact ⟨_, rfl, (inMirror rs x j).2 hx⟩
  obtain ⟨found, h1⟩ := ok hr p a b hb
  obtain ⟨found', h2⟩ := ok hr' p' (mirrorIdx l.ll_tokens.length b) (mirrorIdx l.ll_tokens.length a)
    (by rw [hlen]; exact mirrorIdx_lt (by omega))
  refine ⟨found, found', h1, h2, fun i j x => ?_⟩
  rw [mem h1, mem h2, or_comm]
  have inside : ∀ i, (mirrorIdx l.ll_tokens.length b ≤ mirrorIdx l.ll_tokens.length i ∧
      mirrorIdx l.ll_tokens.length i ≤ mirrorIdx l.ll_tokens.length a) ↔ a ≤ i ∧ i ≤ b := by
    intro i
    unfold mirrorIdx
    rw [if_pos hb, if_pos (by omega : a < _)]
    split <;> omega
  refine or_congr ?_ ?_
  · rw [← and_assoc, ← and_assoc, inside]
    refine and_congr_right fun hi => ?_
    exact (turn (.bwd j) (by simp only [Dir.at]; omega) x i).symm
  · rw [← and_assoc, ← and_assoc, inside]
    refine and_congr_right fun hi => ?_
    exact (turn (.fwd i) (by simp only [Dir.at]; omega) x j).symm

example := C148_both_ways Demo.lrHonest.spec.1 Demo.rlHonest.spec.1 Demo.lrReversed
  (m := X.seq2 (X.attr (Ty.user 0)) X.tokenText) (.seq2 (T := fun _ => True) (.attr _ trivial) .tokenText) 7 8 0 3
  (by decide) (by decide)

/-- C148: `trim_start` is `trim_end` on the line written from right to left, and the other way round, except where
`trim_end` keeps the token it should trim (C50): when all tokens from the first of the line are to be trimmed. -/
theorem C148_trim {l l' : LLLine W} {h h' : History W} (hr : Reachable l h) (hr' : Reachable l' h') (s : Reversed l h l' h')
    {T : Ty W → Prop} {m : XMatch W Out} (hm : Built T false m) (p p' : Nat) (a b : Nat) (hab : a ≤ b) (hb : b < l.ll_tokens.length) :
    let sel : LLSelection W := ⟨⟨p, l⟩, a, b⟩
    (∃ o o', sel.trimStart m = .ok o ∧ (sel.mirror ⟨p', l'⟩).trimEnd m = .ok o' ∧
      (o' = o.map (·.mirror ⟨p', l'⟩) ↔ ¬ (b + 1 = l.ll_tokens.length ∧ ∃ x rs, m.go (.fwd a) l = .ok ((x, b) :: rs)))) ∧
    ∃ o o', sel.trimEnd m = .ok o ∧ (sel.mirror ⟨p', l'⟩).trimStart m = .ok o' ∧
      (o' = o.map (·.mirror ⟨p', l'⟩) ↔ ¬ (a = 0 ∧ ∃ x rs, m.go (.bwd b) l = .ok ((x, 0) :: rs))) := by
  intro sel
  have hlen := s.length
  have ea : mirrorIdx l.ll_tokens.length a = l.ll_tokens.length - 1 - a := mirrorIdx_inside (by omega)
  have eb : mirrorIdx l.ll_tokens.length b = l.ll_tokens.length - 1 - b := mirrorIdx_inside hb
  have ab : mirrorIdx l.ll_tokens.length b ≤ mirrorIdx l.ll_tokens.length a := by omega
  constructor
  · obtain ⟨rs, h1, h2⟩ := C148_matchers hr hr' s hm (.fwd a) (by simp only [Dir.at]; omega)
    cases rs with
    | nil =>
      refine ⟨_, _, trimStart_nil (line := ⟨p, l⟩) hab h1, trimEnd_nil (line := ⟨p', l'⟩) (a := mirrorIdx l.ll_tokens.length b) ab h2, ?_⟩
      rw [h1]
      simp [LLSelection.mirror, sel]
    | cons r rs =>
      have hin := (built_results hm hr.rep False (fun c => c.elim) _ _ h1 r (by simp)).1
      have er : mirrorIdx l.ll_tokens.length r.2 = l.ll_tokens.length - 1 - r.2 := mirrorIdx_inside hin
      obtain ⟨x, j⟩ := r
      simp only at hin er
      refine ⟨_, _, trimStart_cons (line := ⟨p, l⟩) hab h1, trimEnd_cons (line := ⟨p', l'⟩) (a := mirrorIdx l.ll_tokens.length b) h2, ?_⟩
      rw [h1]
      simp only [er, eb, Except.ok.injEq, List.cons.injEq, Prod.mk.injEq]
      by_cases e : j + 1 ≤ b
      · rw [if_pos (by omega), if_pos e]
        simp only [Option.map_some, LLSelection.mirror, Option.some.injEq, eb]
        rw [mirrorIdx_inside (by omega)]
        refine ⟨fun _ => ?_, fun _ => ?_⟩
        · rintro ⟨_, _, _, ⟨_, e2⟩, _⟩; omega
        · congr 1
      · rw [if_neg e]
        by_cases e2 : j = b ∧ b + 1 = l.ll_tokens.length
        · rw [if_pos (by omega)]
          simp only [Option.map_none, reduceCtorEq, false_iff, Classical.not_not]
          exact ⟨e2.2, x, rs, ⟨rfl, e2.1⟩, rfl⟩
        · rw [if_neg (by omega)]
          simp only [Option.map_none, true_iff]
          rintro ⟨e3, _, _, ⟨_, e4⟩, _⟩
          exact e2 ⟨e4, e3⟩
  · obtain ⟨rs, h1, h2⟩ := C148_matchers hr hr' s hm (.bwd b) (by simp only [Dir.at]; omega)
    cases rs with
    | nil =>
      refine ⟨_, _, trimEnd_nil (line := ⟨p, l⟩) hab h1, trimStart_nil (line := ⟨p', l'⟩) (b := mirrorIdx l.ll_tokens.length a) ab h2, ?_⟩
      rw [h1]
      simp [LLSelection.mirror, sel]
    | cons r rs =>
      have hin := (built_results hm hr.rep False (fun c => c.elim) _ _ h1 r (by simp)).1
      have er : mirrorIdx l.ll_tokens.length r.2 = l.ll_tokens.length - 1 - r.2 := mirrorIdx_inside hin
      obtain ⟨x, j⟩ := r
      simp only at hin er
      refine ⟨_, _, trimEnd_cons (line := ⟨p, l⟩) (a := a) h1, trimStart_cons (line := ⟨p', l'⟩) (b := mirrorIdx l.ll_tokens.length a) ab h2, ?_⟩
      rw [h1]
      simp only [er, ea, Except.ok.injEq, List.cons.injEq, Prod.mk.injEq]
      by_cases e : a + 1 ≤ j
      · rw [if_pos (by omega), if_pos (by omega)]
        simp only [Option.map_some, LLSelection.mirror, Option.some.injEq, ea]
        rw [mirrorIdx_inside (by omega)]
        refine ⟨fun _ => ?_, fun _ => ?_⟩
        · rintro ⟨_, _, _, ⟨_, e2⟩, _⟩; omega
        · congr 1; omega
      · by_cases e2 : j = 0 ∧ a = 0
        · rw [if_neg (by omega), if_pos (by omega)]
          simp only [Option.map_some, reduceCtorEq, false_iff, Classical.not_not]
          exact ⟨e2.2, x, rs, ⟨rfl, e2.1⟩, rfl⟩
        · rw [if_neg (by omega), if_neg (by omega)]
          simp only [Option.map_none, true_iff]
          rintro ⟨e3, _, _, ⟨_, e4⟩, _⟩
          exact e2 ⟨e4, e3⟩

example := C148_trim Demo.lrHonest.spec.1 Demo.rlHonest.spec.1 Demo.lrReversed
  (m := X.attr (Ty.user 0)) (.attr (T := fun _ => True) _ trivial) 7 8 1 3 (by decide) (by decide)

/-- C148: `find_by` over the whole line finds the same as `find_by` of the mirrored expression (C35) over the line
written from right to left. -/
theorem C148_find_by {l l' : LLLine W} {h h' : History W} (hr : Reachable l h) (hr' : Reachable l' h')
    (s : Reversed l h l' h') {Out' : Type} {m : XMatch W Out} {m' : XMatch W Out'} {f : Out → Out'} (hm : Mirrored m m' f)
    (p p' : Nat) (ne : l.ll_tokens ≠ []) :
    ∃ found found', (wholeLine l p).findBy m = .ok found ∧ (wholeLine l' p').findBy m' = .ok found' ∧
      ∀ i j, j < l.ll_tokens.length → ∀ y, (∃ x, f x = y ∧ (⟨⟨p, l⟩, i, j⟩, x) ∈ found) ↔
        (⟨⟨p', l'⟩, mirrorIdx l.ll_tokens.length j, mirrorIdx l.ll_tokens.length i⟩, y) ∈ found' := by
  have hlen := s.length
  have hn : 0 < l.ll_tokens.length := List.length_pos_iff.2 ne
  have ok : ∀ {O : Type} {m : XMatch W O} {l : LLLine W} {h : History W}, Built (fun _ => True) false m → Reachable l h →
      0 < l.ll_tokens.length → ∀ p, ∃ found, (wholeLine l p).findBy m = .ok found := by
    intro O m l h hm hr hn p
    refine ⟨_, flatMapR_ok_iff.2 ⟨fun i hi => ?_, rfl⟩⟩
    have hi' := mem_rangeIncl.1 hi
    simp only [wholeLine] at hi'
    obtain ⟨fs, hf⟩ := built_false_ok hm hr.rep (.fwd i) (by simp only [Dir.at]; omega)
    simp only [wholeLine, hf]
    exact ⟨_, rfl⟩
  obtain ⟨found, h1⟩ := ok hm.built.1 hr hn p
  obtain ⟨found', h2⟩ := ok hm.built.2 hr' (by omega) p'
  refine ⟨found, found', h1, h2, fun i j hj y => ?_⟩
  by_cases hi : i < l.ll_tokens.length
  · obtain ⟨outF, outB, e1, e2, e3⟩ := C35_mirror hm hr i j hi hj
    have e4 := expr_mirror hr hr' s hm.built.2 (.bwd j) hj outB e2
    simp only [Dir.mirror] at e4
    have e5 : (y, mirrorIdx l.ll_tokens.length i) ∈ mirrorL l.ll_tokens.length outB ↔ (y, i) ∈ outB := by
      simp only [mirrorL, List.mem_map, Prod.mk.injEq, mirrorIdx_inj]
      exact ⟨fun ⟨r, hr, e1, e2⟩ => by subst e1; subst e2; exact hr, fun hx => ⟨_, hx, rfl, rfl⟩⟩
    have m1 : ∀ x, (⟨⟨p, l⟩, i, j⟩, x) ∈ found ↔ (x, j) ∈ outF := by
      intro x
      rw [mem_findBy h1]
      refine ⟨fun ⟨_, _, rs, hg, hx⟩ => ?_, fun hx => ⟨rfl, ?_, outF, e1, hx⟩⟩
      · have := e1.symm.trans hg; cases this; exact hx
      · simp only [wholeLine, LLSelection.Has]; omega
    have m2 : (⟨⟨p', l'⟩, mirrorIdx l.ll_tokens.length j, mirrorIdx l.ll_tokens.length i⟩, y) ∈ found' ↔
        (y, mirrorIdx l.ll_tokens.length i) ∈ mirrorL l.ll_tokens.length outB := by
      rw [mem_findBy h2]
      refine ⟨fun ⟨_, _, rs, hg, hx⟩ => ?_, fun hx => ⟨rfl, ?_, _, e4, hx⟩⟩
      · have := e4.symm.trans hg; cases this; exact hx
      · have := mirrorIdx_lt hj
        simp only [wholeLine, LLSelection.Has]; omega
    rw [m2, e5, e3]
    simp only [m1]
  · constructor
    · rintro ⟨x, _, hx⟩
      have := ((mem_findBy h1).1 hx).2.1
      simp only [wholeLine, LLSelection.Has] at this
      omega
    · intro hx
      obtain ⟨_, _, rs, hg, hx⟩ := (mem_findBy h2).1 hx
      have := (built_results hm.built.2 hr'.rep False (fun c => c.elim) _ _ hg _ hx).1
      simp only [mirrorIdx, if_neg hi] at this
      omega

example := C148_find_by Demo.lrHonest.spec.1 Demo.rlHonest.spec.1 Demo.lrReversed
  (.seq2 (.attr (Ty.user 0)) .tokenText) 7 8 (by intro h; cases h)

/-- C148: what follows by rules on a line, follows by the rules written from right to left on the line written from
right to left, and nothing else. -/
theorem C148_rules {l l' : LLLine W} {h h' : History W} (hh : Honest l h) (s : Reversed l h l' h') {rules rules' : List (Rule W)}
    (ht : ∀ r ∈ rules, ∃ r' ∈ rules', r.Turned r') (ht' : ∀ r' ∈ rules', ∃ r ∈ rules, r.Turned r') (x : Rec W) :
    Derivable l h rules x ↔ Derivable l' h' rules' (x.mirror l.ll_tokens.length) := by
  obtain ⟨hr, ho⟩ := hh.spec
  have hin : ∀ x ∈ h, InLine l.ll_tokens.length x := fun x hx => ⟨ho x hx, (hr.rep.bounds x hx).2⟩
  refine ⟨fun hx => (derivable_mirror s hin ht hx).2, fun hx => ?_⟩
  have := (derivable_mirror s.symm (s.inLine hin) (fun r' hr' => by
    obtain ⟨r, hr, t⟩ := ht' r' hr'; exact ⟨r, hr, t.symm⟩) hx).2
  rw [s.length, Rec.mirror_twice] at this
  exact this

example := C148_rules Demo.lrHonest Demo.lrReversed (rules := [Demo.pair]) (rules' := [Demo.riap])
  (by simpa using Demo.pairTurned) (by simpa using Demo.pairTurned)

/-- C148: so after a pass of rules in layers, and after a pass of the same rules written from right to left on the line
written from right to left, `query` shows the same values on the same tokens. -/
theorem C148_query {l l' : LLLine W} {h h' : History W} (hh : Honest l h) (hh' : Honest l' h') (s : Reversed l h l' h')
    (ne : l.ll_tokens ≠ []) (prog prog' : List (Nat × Rule W)) (hl : Layered (prog.map (·.2))) (hl' : Layered (prog'.map (·.2)))
    (ht : ∀ r ∈ prog.map (·.2), ∃ r' ∈ prog'.map (·.2), r.Turned r') (ht' : ∀ r' ∈ prog'.map (·.2), ∃ r ∈ prog.map (·.2), r.Turned r') :
    ∃ l1 l1', runAll l (ruleRuns prog) = .ok l1 ∧ runAll l' (ruleRuns prog') = .ok l1' ∧ ∀ k, ∃ q q',
      l1.query k = .ok q ∧ l1'.query k = .ok q' ∧ ∀ i j v, (∃ text vs, ((i, j), text, vs) ∈ q ∧ v ∈ vs) ↔
        ∃ text vs, ((mirrorIdx l.ll_tokens.length j, mirrorIdx l.ll_tokens.length i), text, vs) ∈ q' ∧ v ∈ vs := by
  have ne' : l'.ll_tokens ≠ [] := by
    intro e
    have := s.length
    rw [e] at this
    exact ne (List.length_eq_zero_iff.1 this.symm)
  obtain ⟨l1, h1, h2⟩ := C125_query hh ne prog hl
  obtain ⟨l1', h1', h2'⟩ := C125_query hh' ne' prog' hl'
  refine ⟨l1, l1', h1, h1', fun k => ?_⟩
  obtain ⟨q, hq, h3⟩ := h2 k
  obtain ⟨q', hq', h3'⟩ := h2' k
  refine ⟨q, q', hq, hq', fun i j v => ?_⟩
  rw [h3, h3', C148_rules hh s ht ht']
  rfl

example := C148_query Demo.lrHonest Demo.rlHonest Demo.lrReversed (by intro h; cases h)
  [(1, Demo.owner)] [(1, Demo.renwo)] (by simp [Layered, Demo.owner, Pat.Mentions])
  (by simp [Layered, Demo.renwo, Pat.Mentions]) (by simpa using Demo.ownerTurned) (by simpa using Demo.ownerTurned)

example := C148_lines Demo.lr_wf Demo.lr_single Demo.lr_ok Demo.rl_ok

end LNlp
