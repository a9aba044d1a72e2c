import Verif.Lemmas.Algebra
import Verif.Demo.Examples
import Verif.Props.Select
import Verif.Props.Store
import Verif.Props.Match
/-
C72–C77: laws that relate the matcher combinators to the operations on selections.
-/
namespace LNlp
variable {W : World} {α β : Type}

/-- C72: searching for "`a` then `b`" is searching for `a` and extending every find by `b` to the
right: same selections, same values, same order, and one search panics iff the other does. -/
theorem C72_find_by_seq (s : LLSelection W) (a : XMatch W α) (b : XMatch W β)
    (inLine : ∀ as, s.findBy a = .ok as → ∀ p ∈ as, p.1.end_idx < s.ll_line.val.ll_tokens.length)
    (out : List (LLSelection W × (α × β))) :
    s.findBy (X.seq2 a b) = .ok out ↔
      ∃ (as : List (LLSelection W × α)) (ext : LLSelection W → List (LLSelection W × β)),
        s.findBy a = .ok as ∧ (∀ p ∈ as, p.1.matchForwards b = .ok (ext p.1)) ∧
        out = as.flatMap (fun p => (ext p.1).map (fun q => (q.1, (p.2, q.2)))) := by
  constructor
  · intro h
    obtain ⟨hok, rfl⟩ := findBy_ok_iff.1 h
    have hseq : ∀ i, s.Has i → ∃ as, a.go (.fwd i) s.ll_line.val = .ok as ∧
        (∀ pa ∈ as, ∃ bs, X.goAfter b (.fwd i) pa.2 s.ll_line.val = .ok bs) := by
      intro i hi
      obtain ⟨rs, hrs⟩ := hok i hi
      obtain ⟨as, h1, h2, _⟩ := seq2_ok_iff.1 hrs
      exact ⟨as, h1, h2⟩
    have hfa := findBy_ok_iff (s := s) (m := a) |>.2 ⟨fun i hi => let ⟨as, h, _⟩ := hseq i hi; ⟨as, h⟩, rfl⟩
    refine ⟨_, fun p => okD (p.matchForwards b), hfa, ?_, ?_⟩
    · intro p hp
      have hin := inLine _ hfa p hp
      obtain ⟨hl, hi, rs, hrs, hm⟩ := (mem_findBy hfa (p := p.1) (x := p.2)).1 hp
      obtain ⟨as, h1, h2⟩ := hseq _ hi
      rw [hrs] at h1; cases h1
      obtain ⟨bs, hbs⟩ := h2 _ hm
      have : p.1.matchForwards b = .ok (bs.map (extR p.1)) := by
        rw [matchForwards_after p.1 b p.1.start_idx (by rw [hl]; exact hin)]
        rw [hl, show X.goAfter b (.fwd p.1.start_idx) p.1.end_idx s.ll_line.val = .ok bs from hbs]; rfl
      show _ = Except.ok (okD (p.1.matchForwards b))
      rw [this]; rfl
    · rw [List.flatMap_assoc]
      apply flatMap_congr'
      intro i hi
      have hi' : s.Has i := mem_rangeIncl.1 hi
      obtain ⟨as, h1, h2⟩ := hseq i hi'
      rw [okD_of h1]
      have hs2 : (X.seq2 a b).go (.fwd i) s.ll_line.val = .ok _ := seq2_ok_iff.2 ⟨as, h1, h2, rfl⟩
      rw [okD_of hs2, List.map_flatMap, List.flatMap_map]
      apply flatMap_congr'
      intro pa hpa
      obtain ⟨bs, hbs⟩ := h2 pa hpa
      have hp : (fwdSel s i pa) ∈ (rangeIncl s.start_idx s.end_idx).flatMap
          (fun i => (okD (a.go (.fwd i) s.ll_line.val)).map (fwdSel s i)) := by
        rw [List.mem_flatMap]
        exact ⟨i, hi, by rw [okD_of h1]; exact List.mem_map.2 ⟨pa, hpa, rfl⟩⟩
      have hin := inLine _ hfa _ hp
      have : (fwdSel s i pa).1.matchForwards b = .ok (bs.map (extR (fwdSel s i pa).1)) := by
        rw [matchForwards_after _ b i hin]
        show mapOk _ (X.goAfter b (.fwd i) pa.2 s.ll_line.val) = _
        rw [hbs]; rfl
      show _ = List.map _ (okD ((fwdSel s i pa).1.matchForwards b))
      rw [okD_of hbs, okD_of this, List.map_map, List.map_map]
      rfl
  · rintro ⟨as, ext, hfa, hext, rfl⟩
    obtain ⟨hok, has⟩ := findBy_ok_iff.1 hfa
    have hmem : ∀ i, s.Has i → ∀ rs, a.go (.fwd i) s.ll_line.val = .ok rs → ∀ pa ∈ rs, fwdSel s i pa ∈ as := by
      intro i hi rs hrs pa hpa
      rw [has, List.mem_flatMap]
      exact ⟨i, mem_rangeIncl.2 hi, by rw [okD_of hrs]; exact List.mem_map.2 ⟨pa, hpa, rfl⟩⟩
    have hgo : ∀ i, s.Has i → ∀ rs, a.go (.fwd i) s.ll_line.val = .ok rs → ∀ pa ∈ rs,
        ∃ bs, X.goAfter b (.fwd i) pa.2 s.ll_line.val = .ok bs ∧ ext (fwdSel s i pa).1 = bs.map (extR (fwdSel s i pa).1) := by
      intro i hi rs hrs pa hpa
      have hm := hmem i hi rs hrs pa hpa
      have h1 := hext _ hm
      rw [matchForwards_after _ b i (inLine _ hfa _ hm)] at h1
      obtain ⟨bs, hbs, he⟩ := mapOk_ok.1 h1
      exact ⟨bs, hbs, he⟩
    rw [findBy_ok_iff]
    constructor
    · intro i hi
      obtain ⟨rs, hrs⟩ := hok i hi
      exact ⟨_, seq2_ok_iff.2 ⟨rs, hrs, fun pa hpa => let ⟨bs, h, _⟩ := hgo i hi rs hrs pa hpa; ⟨bs, h⟩, rfl⟩⟩
    · rw [has, List.flatMap_assoc]
      apply flatMap_congr'
      intro i hi
      have hi' : s.Has i := mem_rangeIncl.1 hi
      obtain ⟨rs, hrs⟩ := hok i hi'
      rw [okD_of hrs]
      have hs2 : (X.seq2 a b).go (.fwd i) s.ll_line.val = .ok _ :=
        seq2_ok_iff.2 ⟨rs, hrs, fun pa hpa => let ⟨bs, h, _⟩ := hgo i hi' rs hrs pa hpa; ⟨bs, h⟩, rfl⟩
      rw [okD_of hs2, List.map_flatMap, List.flatMap_map]
      apply flatMap_congr'
      intro pa hpa
      obtain ⟨bs, hbs, he⟩ := hgo i hi' rs hrs pa hpa
      rw [okD_of hbs, he, List.map_map, List.map_map]
      rfl

example := C72_find_by_seq (Demo.sel 0 5) (X.attr (Ty.user 2)) (X.attr (Ty.user 2)) (by
  intro as h p hp
  obtain ⟨rfl⟩ : _ = as := Except.ok.inj h
  revert p; decide) [(Demo.sel 0 4, ((['x'] : Str), (['y'] : Str))), (Demo.sel 0 4, ((['x'] : Str), (['y'] : Str)))]

/-- C73: extending by "`a` then `b`" is extending by `a` and then by `b`, to the right. -/
theorem C73_match_forwards_seq (s : LLSelection W) (a : XMatch W α) (b : XMatch W β)
    (inLine : ∀ as, s.matchForwards a = .ok as → ∀ p ∈ as, p.1.end_idx < s.ll_line.val.ll_tokens.length)
    (out : List (LLSelection W × (α × β))) :
    s.matchForwards (X.seq2 a b) = .ok out ↔
      ∃ (as : List (LLSelection W × α)) (ext : LLSelection W → List (LLSelection W × β)),
        s.matchForwards a = .ok as ∧ (∀ p ∈ as, p.1.matchForwards b = .ok (ext p.1)) ∧
        out = as.flatMap (fun p => (ext p.1).map (fun q => (q.1, (p.2, q.2)))) := by
  by_cases hend : s.end_idx + 1 = s.ll_line.val.ll_tokens.length
  · simp only [LLSelection.matchForwards, hend, if_true, Except.ok.injEq]
    constructor
    · rintro rfl; exact ⟨[], fun _ => [], rfl, by simp, rfl⟩
    · rintro ⟨as, ext, rfl, _, rfl⟩; rfl
  · have step : ∀ {γ : Type} (m : XMatch W γ), s.matchForwards m =
        mapOk (extR s) (m.go (.fwd (s.end_idx + 1)) s.ll_line.val) := by
      intro γ m
      rw [LLSelection.matchForwards, if_neg hend]
      cases m.go (.fwd (s.end_idx + 1)) s.ll_line.val <;> rfl
    have key : ∀ as, a.go (.fwd (s.end_idx + 1)) s.ll_line.val = .ok as → ∀ pa ∈ as,
        (extR s pa).1.matchForwards b = mapOk (extR (extR s pa).1)
          (X.goAfter b (.fwd (s.end_idx + 1)) pa.2 s.ll_line.val) := by
      intro as ha pa hpa
      exact matchForwards_after _ b _ (inLine _ (by rw [step, ha]; rfl) (extR s pa) (List.mem_map.2 ⟨pa, hpa, rfl⟩))
    rw [step, step]
    constructor
    · intro h
      obtain ⟨xs, hxs, rfl⟩ := mapOk_ok.1 h
      obtain ⟨as, ha, hb, rfl⟩ := seq2_ok_iff.1 hxs
      have hk : ∀ pa ∈ as, (extR s pa).1.matchForwards b =
          .ok ((okD (X.goAfter b (.fwd (s.end_idx + 1)) pa.2 s.ll_line.val)).map (extR (extR s pa).1)) := by
        intro pa hpa
        obtain ⟨bs, hbs⟩ := hb pa hpa
        rw [key as ha pa hpa, hbs]; rfl
      refine ⟨as.map (extR s), fun p => okD (p.matchForwards b), by rw [ha]; rfl, ?_, ?_⟩
      · intro p hp
        obtain ⟨pa, hpa, rfl⟩ := List.mem_map.1 hp
        show _ = Except.ok (okD ((extR s pa).1.matchForwards b))
        rw [hk pa hpa]; rfl
      · rw [List.map_flatMap, List.flatMap_map]
        apply flatMap_congr'
        intro pa hpa
        show _ = List.map _ (okD ((extR s pa).1.matchForwards b))
        rw [hk pa hpa, okD_of rfl, List.map_map, List.map_map]
        rfl
    · rintro ⟨_, ext, has, hext, rfl⟩
      obtain ⟨as, ha, rfl⟩ := mapOk_ok.1 has
      have hb : ∀ pa ∈ as, ∃ bs, X.goAfter b (.fwd (s.end_idx + 1)) pa.2 s.ll_line.val = .ok bs ∧
          ext (extR s pa).1 = bs.map (extR (extR s pa).1) := by
        intro pa hpa
        have := hext (extR s pa) (List.mem_map.2 ⟨pa, hpa, rfl⟩)
        rw [key as ha pa hpa] at this
        exact mapOk_ok.1 this
      rw [mapOk_ok]
      refine ⟨_, seq2_ok_iff.2 ⟨as, ha, fun pa hpa => let ⟨bs, h, _⟩ := hb pa hpa; ⟨bs, h⟩, rfl⟩, ?_⟩
      rw [List.map_flatMap, List.flatMap_map]
      apply flatMap_congr'
      intro pa hpa
      obtain ⟨bs, hbs, he⟩ := hb pa hpa
      rw [okD_of hbs, he, List.map_map, List.map_map]
      rfl

example := C73_match_forwards_seq (Demo.sel 0 2) X.tokenText (X.tokenText (W := Demo.W)) (by
  intro as h p hp
  obtain ⟨rfl⟩ : _ = as := Except.ok.inj h
  revert p; decide) [(Demo.sel 0 4, (['a', 'b'], [',']))]
example : (Demo.sel 0 2).matchForwards (X.seq2 X.tokenText (X.tokenText (W := Demo.W))) =
    .ok [(Demo.sel 0 4, (['a', 'b'], [',']))] := rfl

/-- C73 to the left: "`a` then `b`" read from right to left. -/
theorem C73_match_backwards_seq (s : LLSelection W) (a : XMatch W α) (b : XMatch W β)
    (out : List (LLSelection W × (α × β))) :
    s.matchBackwards (X.seq2 a b) = .ok out ↔
      ∃ (as : List (LLSelection W × α)) (ext : LLSelection W → List (LLSelection W × β)),
        s.matchBackwards a = .ok as ∧ (∀ p ∈ as, p.1.matchBackwards b = .ok (ext p.1)) ∧
        out = as.flatMap (fun p => (ext p.1).map (fun q => (q.1, (p.2, q.2)))) := by
  by_cases hend : s.start_idx = 0
  · simp only [LLSelection.matchBackwards, hend, if_true, Except.ok.injEq]
    constructor
    · rintro rfl; exact ⟨[], fun _ => [], rfl, by simp, rfl⟩
    · rintro ⟨as, ext, rfl, _, rfl⟩; rfl
  · have step : ∀ {γ : Type} (m : XMatch W γ), s.matchBackwards m =
        mapOk (extL s) (m.go (.bwd (s.start_idx - 1)) s.ll_line.val) := by
      intro γ m
      rw [LLSelection.matchBackwards, if_neg hend]
      cases m.go (.bwd (s.start_idx - 1)) s.ll_line.val <;> rfl
    have key : ∀ pa : α × Nat, (extL s pa).1.matchBackwards b = mapOk (extL (extL s pa).1)
          (X.goAfter b (.bwd (s.start_idx - 1)) pa.2 s.ll_line.val) :=
      fun pa => matchBackwards_after _ b _
    rw [step, step]
    constructor
    · intro h
      obtain ⟨xs, hxs, rfl⟩ := mapOk_ok.1 h
      obtain ⟨as, ha, hb, rfl⟩ := seq2_ok_iff.1 hxs
      have hk : ∀ pa ∈ as, (extL s pa).1.matchBackwards b =
          .ok ((okD (X.goAfter b (.bwd (s.start_idx - 1)) pa.2 s.ll_line.val)).map (extL (extL s pa).1)) := by
        intro pa hpa
        obtain ⟨bs, hbs⟩ := hb pa hpa
        rw [key pa, hbs]; rfl
      refine ⟨as.map (extL s), fun p => okD (p.matchBackwards b), by rw [ha]; rfl, ?_, ?_⟩
      · intro p hp
        obtain ⟨pa, hpa, rfl⟩ := List.mem_map.1 hp
        show _ = Except.ok (okD ((extL s pa).1.matchBackwards b))
        rw [hk pa hpa]; rfl
      · rw [List.map_flatMap, List.flatMap_map]
        apply flatMap_congr'
        intro pa hpa
        show _ = List.map _ (okD ((extL s pa).1.matchBackwards b))
        rw [hk pa hpa, okD_of rfl, List.map_map, List.map_map]
        rfl
    · rintro ⟨_, ext, has, hext, rfl⟩
      obtain ⟨as, ha, rfl⟩ := mapOk_ok.1 has
      have hb : ∀ pa ∈ as, ∃ bs, X.goAfter b (.bwd (s.start_idx - 1)) pa.2 s.ll_line.val = .ok bs ∧
          ext (extL s pa).1 = bs.map (extL (extL s pa).1) := by
        intro pa hpa
        have := hext (extL s pa) (List.mem_map.2 ⟨pa, hpa, rfl⟩)
        rw [key pa] at this
        exact mapOk_ok.1 this
      rw [mapOk_ok]
      refine ⟨_, seq2_ok_iff.2 ⟨as, ha, fun pa hpa => let ⟨bs, h, _⟩ := hb pa hpa; ⟨bs, h⟩, rfl⟩, ?_⟩
      rw [List.map_flatMap, List.flatMap_map]
      apply flatMap_congr'
      intro pa hpa
      obtain ⟨bs, hbs, he⟩ := hb pa hpa
      rw [okD_of hbs, he, List.map_map, List.map_map]
      rfl

example := C73_match_backwards_seq (Demo.sel 4 5) X.tokenText (X.tokenText (W := Demo.W))
  [(Demo.sel 2 5, (['a', 'b'], ['1', '2']))]
example : (Demo.sel 4 5).matchBackwards (X.seq2 X.tokenText (X.tokenText (W := Demo.W))) =
    .ok [(Demo.sel 2 5, (['a', 'b'], ['1', '2']))] := rfl

/-- C74: searching for `all((a, b))` finds exactly the selections that both searches find, with the
values of both. -/
theorem C74_find_by_all (s : LLSelection W) (a : XMatch W α) (b : XMatch W β) :
    ((∃ out, s.findBy (X.all2 a b) = .ok out) ↔
      (∃ as, s.findBy a = .ok as) ∧ ∃ bs, s.findBy b = .ok bs) ∧
    ∀ out as bs, s.findBy (X.all2 a b) = .ok out → s.findBy a = .ok as → s.findBy b = .ok bs →
      ∀ p x y, (p, (x, y)) ∈ out ↔ (p, x) ∈ as ∧ (p, y) ∈ bs := by
  constructor
  · constructor
    · rintro ⟨out, h⟩
      obtain ⟨hok, _⟩ := findBy_ok_iff.1 h
      constructor
      · refine ⟨_, findBy_ok_iff.2 ⟨fun i hi => ?_, rfl⟩⟩
        obtain ⟨rs, hrs⟩ := hok i hi
        obtain ⟨as, _, h1, _, _⟩ := all2_ok_iff.1 hrs
        exact ⟨as, h1⟩
      · refine ⟨_, findBy_ok_iff.2 ⟨fun i hi => ?_, rfl⟩⟩
        obtain ⟨rs, hrs⟩ := hok i hi
        obtain ⟨_, bs, _, h1, _⟩ := all2_ok_iff.1 hrs
        exact ⟨bs, h1⟩
    · rintro ⟨⟨as, ha⟩, ⟨bs, hb⟩⟩
      obtain ⟨ha, _⟩ := findBy_ok_iff.1 ha
      obtain ⟨hb, _⟩ := findBy_ok_iff.1 hb
      refine ⟨_, findBy_ok_iff.2 ⟨fun i hi => ?_, rfl⟩⟩
      obtain ⟨as, ha⟩ := ha i hi
      obtain ⟨bs, hb⟩ := hb i hi
      exact ⟨_, all2_ok_iff.2 ⟨as, bs, ha, hb, rfl⟩⟩
  · intro out as bs ho ha hb p x y
    rw [mem_findBy ho, mem_findBy ha, mem_findBy hb]
    have mem : ∀ (as : List (α × Nat)) (bs : List (β × Nat)) (j : Nat),
        ((x, y), j) ∈ as.flatMap (fun pa => bs.filterMap (fun pb =>
          if pa.2 = pb.2 then some ((pa.1, pb.1), pa.2) else none)) ↔ (x, j) ∈ as ∧ (y, j) ∈ bs := by
      intro as bs j
      simp only [List.mem_flatMap, List.mem_filterMap]
      constructor
      · rintro ⟨⟨x', j1⟩, h1, ⟨y', j2⟩, h2, he⟩
        by_cases hj : j1 = j2
        · simp only [hj, if_true, Option.some.injEq, Prod.mk.injEq] at he
          obtain ⟨⟨rfl, rfl⟩, rfl⟩ := he
          exact ⟨hj ▸ h1, h2⟩
        · simp [hj] at he
      · rintro ⟨h1, h2⟩
        exact ⟨(x, j), h1, (y, j), h2, by simp⟩
    constructor
    · rintro ⟨hl, hi, rs, hrs, hm⟩
      obtain ⟨as', bs', h1, h2, rfl⟩ := all2_ok_iff.1 hrs
      have := (mem as' bs' _).1 hm
      exact ⟨⟨hl, hi, as', h1, this.1⟩, hl, hi, bs', h2, this.2⟩
    · rintro ⟨⟨hl, hi, as', h1, hx⟩, _, _, bs', h2, hy⟩
      exact ⟨hl, hi, _, all2_ok_iff.2 ⟨as', bs', h1, h2, rfl⟩, (mem as' bs' _).2 ⟨hx, hy⟩⟩

example := C74_find_by_all (Demo.sel 0 8) (X.attrEq (W := Demo.W) .textTag TextTag.NATN) X.tokenText
example : (Demo.sel 0 4).findBy (X.all2 (X.attrEq (W := Demo.W) .textTag TextTag.NATN) X.tokenText) =
    .ok [(Demo.sel 2 2, ((), ['1', '2']))] := rfl

/-- C74: searching for `any_of((a, b))` finds every selection `a` finds, and a selection that `b` finds
exactly if nothing of `a` starts at the same token. -/
theorem C74_find_by_any_of (s : LLSelection W) (a : XMatch W α) (b : XMatch W β)
    (out : List (LLSelection W × AnyOf2 α β)) (as : List (LLSelection W × α)) (bs : List (LLSelection W × β))
    (ho : s.findBy (X.anyOf2 a b) = .ok out) (ha : s.findBy a = .ok as) (hb : s.findBy b = .ok bs) :
    (∀ p x, (p, AnyOf2.A x) ∈ out ↔ (p, x) ∈ as) ∧
    ∀ p y, (p, AnyOf2.B y) ∈ out ↔ (p, y) ∈ bs ∧ ∀ q ∈ as, q.1.start_idx ≠ p.start_idx := by
  have ha' := fun p x => mem_findBy ha (p := p) (x := x)
  constructor
  · intro p x
    rw [mem_findBy ho, mem_findBy ha]
    constructor
    · rintro ⟨hl, hi, rs, hrs, hm⟩
      obtain ⟨as', h1, ⟨_, rfl⟩ | ⟨_, bs', _, rfl⟩⟩ := anyOf2_ok_iff.1 hrs
      · obtain ⟨⟨x', j⟩, hx, he⟩ := List.mem_map.1 hm
        cases he; exact ⟨hl, hi, as', h1, hx⟩
      · obtain ⟨⟨x', j⟩, hx, he⟩ := List.mem_map.1 hm
        cases he
    · rintro ⟨hl, hi, rs, hrs, hm⟩
      refine ⟨hl, hi, _, anyOf2_ok_iff.2 ⟨rs, hrs, Or.inl ⟨List.ne_nil_of_mem hm, rfl⟩⟩, List.mem_map.2 ⟨_, hm, rfl⟩⟩
  · intro p y
    rw [mem_findBy ho, mem_findBy hb]
    constructor
    · rintro ⟨hl, hi, rs, hrs, hm⟩
      obtain ⟨as', h1, ⟨_, rfl⟩ | ⟨rfl, bs', h2, rfl⟩⟩ := anyOf2_ok_iff.1 hrs
      · obtain ⟨⟨x', j⟩, hx, he⟩ := List.mem_map.1 hm
        cases he
      · obtain ⟨⟨x', j⟩, hx, he⟩ := List.mem_map.1 hm
        cases he
        refine ⟨⟨hl, hi, bs', h2, hx⟩, ?_⟩
        rintro ⟨q, x⟩ hq hst
        obtain ⟨_, _, rs, hrs, hmem⟩ := (ha' q x).1 hq
        simp only at hst
        rw [hst, h1] at hrs; cases hrs; cases hmem
    · rintro ⟨⟨hl, hi, rs, hrs, hm⟩, hno⟩
      refine ⟨hl, hi, _, anyOf2_ok_iff.2 ⟨[], ?_, Or.inr ⟨rfl, rs, hrs, rfl⟩⟩, List.mem_map.2 ⟨_, hm, rfl⟩⟩
      obtain ⟨hok, _⟩ := findBy_ok_iff.1 ha
      obtain ⟨as', h1⟩ := hok _ hi
      cases as' with
      | nil => exact h1
      | cons z zs =>
        exact absurd rfl (hno ({ ll_line := s.ll_line, start_idx := p.start_idx, end_idx := z.2 }, z.1)
          ((ha' _ _).2 ⟨rfl, hi, _, h1, List.mem_cons_self ..⟩))

example := C74_find_by_any_of (Demo.sel 0 4) (X.attr (W := Demo.W) (Ty.user 2)) X.tokenText _ _ _ rfl rfl rfl

/-- C75 (the README's layering, e.g. `Money = Symbol + Number`): searching both ways for "an `S`, then
an `A`" never panics and yields exactly the neighbouring pairs of attributes assigned earlier: an `S`
followed by an `A` when the pair starts in the selection, and an `A` followed by an `S` when it ends
there; the value pair is always (the `S`, the `A`) and the range covers both. -/
theorem C75_layering {l : LLLine W} {h : History W} (hr : Reachable l h) {ptr : Nat}
    {s : LLSelection W} (hl : s.ll_line = ⟨ptr, l⟩) (hs : s.Inside) (S A : Ty W) :
    ∃ out, s.findByForwardsAndBackwards (X.seq2 (X.attr S) (X.attr A)) = .ok out ∧
      ∀ p x y, (p, (x, y)) ∈ out ↔ p.ll_line = s.ll_line ∧ ∃ m,
        (s.Has p.start_idx ∧ (⟨S, (p.start_idx, m), x⟩ : Rec W) ∈ h ∧ (⟨A, (m + 1, p.end_idx), y⟩ : Rec W) ∈ h) ∨
        (s.Has p.end_idx ∧ (⟨A, (p.start_idx, m), y⟩ : Rec W) ∈ h ∧ (⟨S, (m + 1, p.end_idx), x⟩ : Rec W) ∈ h) := by
  have hlv : s.ll_line.val = l := by rw [hl]
  have rep := hr.rep
  have inl : ∀ i, s.Has i → i < l.ll_tokens.length := by
    intro i hi; have := hs.2; rw [hlv] at this; have := hi.2; omega
  have hbt : Built (fun _ => True) false (X.seq2 (X.attr S) (X.attr A)) := .seq2 (.attr S trivial) (.attr A trivial)
  have hgo : ∀ d : Dir, d.at < l.ll_tokens.length → ∃ out, (X.seq2 (X.attr S) (X.attr A)).go d l = .ok out := by
    intro d hd
    cases hg : (X.seq2 (X.attr S) (X.attr A)).go d l with
    | ok out => exact ⟨out, rfl⟩
    | error e =>
      obtain ⟨_, h2, _⟩ := C36_panics hbt hr d hd e hg
      cases h2
  cases hf : s.findByForwardsAndBackwards (X.seq2 (X.attr S) (X.attr A)) with
  | error e =>
    obtain ⟨i, e', hi, he⟩ := findBoth_error_iff.1 ⟨e, hf⟩
    rw [hlv] at he
    rcases he with he | he
    · obtain ⟨out, ho⟩ := hgo (.fwd i) (inl i hi); rw [ho] at he; cases he
    · obtain ⟨out, ho⟩ := hgo (.bwd i) (inl i hi); rw [ho] at he; cases he
  | ok out =>
    refine ⟨out, rfl, ?_⟩
    intro p x y
    obtain ⟨fs, bs, hfb, rfl⟩ := mem_findBoth hf
    rw [hlv] at hfb
    have attrF : ∀ (k : Ty W) i as v j, (X.attr k).go (.fwd i) l = .ok as → ((v, j) ∈ as ↔ (⟨k, (i, j), v⟩ : Rec W) ∈ h) := by
      intro k i as v j ha
      by_cases hi : i < l.ll_tokens.length
      · obtain ⟨o, h1, h2⟩ := C14_attr_forwards hr k i hi
        rw [ha] at h1; cases h1; exact h2 v j
      · have := (rep_attr_oob rep k hi).1
        change (X.attr k).go (.fwd i) l = _ at this
        rw [ha] at this; cases this
    have attrB : ∀ (k : Ty W) j as v i, (X.attr k).go (.bwd j) l = .ok as → ((v, i) ∈ as ↔ (⟨k, (i, j), v⟩ : Rec W) ∈ h) := by
      intro k j as v i ha
      by_cases hj : j < l.ll_tokens.length
      · obtain ⟨o, h1, h2⟩ := C15_attr_backwards hr k j hj
        rw [ha] at h1; cases h1; exact h2 v i
      · have := (rep_attr_oob rep k hj).2
        change (X.attr k).go (.bwd j) l = _ at this
        rw [ha] at this; cases this
    have okF : ∀ (k : Ty W) i, i < l.ll_tokens.length → ∃ as, (X.attr k).go (.fwd i) l = .ok as :=
      fun k i hi => ⟨_, rep_attr_fwd rep k hi⟩
    have okB : ∀ (k : Ty W) i, i < l.ll_tokens.length → ∃ as, (X.attr k).go (.bwd i) l = .ok as :=
      fun k i hi => ⟨_, rep_attr_bwd rep k hi⟩
    have seqF : ∀ i, s.Has i → ∀ j, ((x, y), j) ∈ fs i ↔ ∃ m, (⟨S, (i, m), x⟩ : Rec W) ∈ h ∧ (⟨A, (m + 1, j), y⟩ : Rec W) ∈ h := by
      intro i hi j
      rw [C33_seq2 _ _ _ _ _ (hfb i hi).1]
      constructor
      · rintro ⟨m, d', ⟨as, ha, hx⟩, ⟨rfl, _⟩, bs', hb, hy⟩
        exact ⟨m, (attrF _ _ _ _ _ ha).1 hx, (attrF _ _ _ _ _ hb).1 hy⟩
      · rintro ⟨m, hx, hy⟩
        have hm : m + 1 < l.ll_tokens.length := (rep.bounds _ hy).1
        obtain ⟨as, ha⟩ := okF S i (inl i hi)
        obtain ⟨bs', hb⟩ := okF A (m + 1) hm
        exact ⟨m, .fwd (m + 1), ⟨as, ha, (attrF _ _ _ _ _ ha).2 hx⟩, ⟨rfl, hm⟩, bs', hb, (attrF _ _ _ _ _ hb).2 hy⟩
    have seqB : ∀ j, s.Has j → ∀ i, ((x, y), i) ∈ bs j ↔ ∃ m, (⟨A, (i, m), y⟩ : Rec W) ∈ h ∧ (⟨S, (m + 1, j), x⟩ : Rec W) ∈ h := by
      intro j hj i
      rw [C33_seq2 _ _ _ _ _ (hfb j hj).2]
      constructor
      · rintro ⟨m, d', ⟨as, ha, hx⟩, ⟨m', rfl, rfl⟩, bs', hb, hy⟩
        exact ⟨m', (attrB _ _ _ _ _ hb).1 hy, (attrB _ _ _ _ _ ha).1 hx⟩
      · rintro ⟨m, hy, hx⟩
        have hm : m < l.ll_tokens.length := (rep.bounds _ hy).2
        obtain ⟨as, ha⟩ := okB S j (inl j hj)
        obtain ⟨bs', hb⟩ := okB A m hm
        exact ⟨m + 1, .bwd m, ⟨as, ha, (attrB _ _ _ _ _ ha).2 hx⟩, ⟨m, rfl, rfl⟩, bs', hb, (attrB _ _ _ _ _ hb).2 hy⟩
    rw [List.mem_flatMap]
    constructor
    · rintro ⟨i, hi, hp⟩
      have hi' : s.Has i := mem_rangeIncl.1 hi
      rcases List.mem_append.1 hp with hp | hp
      · obtain ⟨⟨⟨x', y'⟩, j⟩, hm, he⟩ := List.mem_map.1 hp
        cases he
        obtain ⟨m, h1, h2⟩ := (seqF i hi' j).1 hm
        exact ⟨rfl, m, Or.inl ⟨hi', h1, h2⟩⟩
      · obtain ⟨⟨⟨x', y'⟩, j⟩, hm, he⟩ := List.mem_map.1 hp
        cases he
        obtain ⟨m, h1, h2⟩ := (seqB i hi' j).1 hm
        exact ⟨rfl, m, Or.inr ⟨hi', h1, h2⟩⟩
    · obtain ⟨pl, ps, pe⟩ := p
      rintro ⟨rfl, m, ⟨hi, h1, h2⟩ | ⟨hi, h1, h2⟩⟩
      · exact ⟨ps, mem_rangeIncl.2 hi, List.mem_append_left _ (List.mem_map.2 ⟨((x, y), pe), (seqF ps hi pe).2 ⟨m, h1, h2⟩, rfl⟩)⟩
      · exact ⟨pe, mem_rangeIncl.2 hi, List.mem_append_right _ (List.mem_map.2 ⟨((x, y), ps), (seqB pe hi ps).2 ⟨m, h1, h2⟩, rfl⟩)⟩

example := C75_layering Demo.exReach2 (s := Demo.sel 0 8) rfl ⟨by decide, by decide⟩ (Ty.user 1) (Ty.user 0)

/-- C76, as users expect it: a search in both directions reports a match once. -/
def C76_claim : Prop := ∀ (W : World) (l : LLLine W) (h : History W) (ptr : Nat), Reachable l h →
  ∀ s : LLSelection W, s.ll_line = ⟨ptr, l⟩ → s.Inside → ∀ (k : Ty W) out,
    s.findByForwardsAndBackwards (X.attr k) = .ok out → ∀ i j,
      (out.filter (fun p => decide (p.1.start_idx = i ∧ p.1.end_idx = j))).length ≤ (valuesOf k (i, j) h).length

/-- C76: false: a match inside the selection is found once in each direction. -/
theorem C76_reported_once_false : ¬ C76_claim := by
  intro claim
  have := claim Demo.W Demo.exLine2 _ 7 Demo.exReach2 (Demo.sel 0 4) rfl ⟨by decide, by decide⟩ (Ty.user 2) _ rfl 3 4
  exact absurd this (by decide)

/-- C76, what holds: `x::attr` searched in both directions reports every value on range `(i, j)` once
for each end of the range that lies in the selection, so twice for the ranges inside the selection. -/
theorem C76_partial {l : LLLine W} {h : History W} (hr : Reachable l h) {ptr : Nat}
    {s : LLSelection W} (hl : s.ll_line = ⟨ptr, l⟩) (hs : s.Inside) (k : Ty W)
    {out : List (LLSelection W × Val k)} (ho : s.findByForwardsAndBackwards (X.attr k) = .ok out) (i j : Nat) :
    (out.filter (fun p => decide (p.1.start_idx = i ∧ p.1.end_idx = j))).length =
      (if s.start_idx ≤ i ∧ i ≤ s.end_idx then (valuesOf k (i, j) h).length else 0) + (if s.start_idx ≤ j ∧ j ≤ s.end_idx then (valuesOf k (i, j) h).length else 0) := by
  have hlv : s.ll_line.val = l := by rw [hl]
  have rep := hr.rep
  have inl : ∀ i, s.Has i → i < l.ll_tokens.length := by
    intro i hi; have := hs.2; rw [hlv] at this; have := hi.2; omega
  obtain ⟨fs, bs, hfb, rfl⟩ := mem_findBoth ho
  rw [hlv] at hfb
  rw [List.filter_flatMap, List.length_flatMap]
  have hp := rangeIncl_pairwise s.start_idx s.end_idx
  have hh : ∀ t, (if s.start_idx ≤ t ∧ t ≤ s.end_idx then (valuesOf k (i, j) h).length else 0) =
      if t ∈ rangeIncl s.start_idx s.end_idx then (valuesOf k (i, j) h).length else 0 := by
    intro t
    by_cases ht : s.start_idx ≤ t ∧ t ≤ s.end_idx
    · rw [if_pos ht, if_pos (mem_rangeIncl.2 ht)]
    · rw [if_neg ht, if_neg (fun h => ht (mem_rangeIncl.1 h))]
  rw [hh i, hh j, ← sum_once _ i j _ hp]
  congr 1
  apply List.map_congr_left
  intro t ht
  have ht' : s.Has t := mem_rangeIncl.1 ht
  have h1 := (hfb t ht').1
  have h2 := (hfb t ht').2
  rw [show (X.attr k).go (.fwd t) l = _ from rep_attr_fwd rep k (inl t ht')] at h1
  rw [show (X.attr k).go (.bwd t) l = _ from rep_attr_bwd rep k (inl t ht')] at h2
  have h1 := Except.ok.inj h1
  have h2 := Except.ok.inj h2
  rw [List.filter_append, List.length_append, List.filter_map, List.filter_map, List.length_map, List.length_map]
  congr 1
  · by_cases hti : t = i
    · subst hti
      rw [if_pos rfl]
      have := filter_ranges (fun r => valuesOf k r h) id (fun r => r.1 = t) (fun r => r.2) j (t, j)
        (by rintro ⟨a, b⟩; simp) _ (rangesOf_nodup k h) (fun hn => valuesOf_not_mem hn)
      simp only [id] at this
      rw [← h1]
      have e : ((fun p : LLSelection W × Val k => decide (p.1.start_idx = t ∧ p.1.end_idx = j)) ∘
          fun r : Val k × Nat => (({ ll_line := s.ll_line, start_idx := t, end_idx := r.2 } : LLSelection W), r.1)) =
          fun q => decide (q.2 = j) := by funext q; simp
      rw [e, this, List.length_map]
    · rw [if_neg hti, List.length_eq_zero_iff, List.filter_eq_nil_iff]
      intro q _
      simp [hti]
  · by_cases hti : t = j
    · subst hti
      rw [if_pos rfl]
      have := filter_ranges (fun r => valuesOf k r h) id (fun r => r.2 = t) (fun r => r.1) i (i, t)
        (by rintro ⟨a, b⟩; simp [and_comm]) _ (rangesOf_nodup k h) (fun hn => valuesOf_not_mem hn)
      simp only [id] at this
      rw [← h2]
      have e : ((fun p : LLSelection W × Val k => decide (p.1.start_idx = i ∧ p.1.end_idx = t)) ∘
          fun r : Val k × Nat => (({ ll_line := s.ll_line, start_idx := r.2, end_idx := t } : LLSelection W), r.1)) =
          fun q => decide (q.2 = i) := by funext q; simp
      rw [e, this, List.length_map]
    · rw [if_neg hti, List.length_eq_zero_iff, List.filter_eq_nil_iff]
      intro q _
      simp [hti]

example := C76_partial Demo.exReach2 (s := Demo.sel 0 4) rfl ⟨by decide, by decide⟩ (Ty.user 2) rfl 3 4

/-- C77: splitting a selection splits the search: the matches of `self` are the matches of the part before
`other`, then those of `other`, then those of the part after it; and the search of `self` panics iff one
of the three does. -/
theorem C77_find_by_split_with (s other : LLSelection W) (hp : other.PartOf s) (a b : Option (LLSelection W))
    (h : s.splitWith other = .ok (a, b)) (m : XMatch W α) (out : List (LLSelection W × α)) :
    s.findBy m = .ok out ↔ ∃ before mid after, findOpt a m = .ok before ∧ other.findBy m = .ok mid ∧
      findOpt b m = .ok after ∧ out = before ++ mid ++ after := by
  obtain ⟨hl, h1, h2, h3⟩ := hp
  obtain ⟨F, heq⟩ : ∃ F : Nat → R (List (LLSelection W × α)), ∀ t : LLSelection W, t.ll_line = s.ll_line →
      t.findBy m = flatMapR F (rangeIncl t.start_idx t.end_idx) :=
    ⟨_, fun t ht => by unfold LLSelection.findBy; rw [ht]⟩
  have hopt : ∀ x y, findOpt (s.selectionFrom x y) m =
      flatMapR F (rangeIncl (max x s.start_idx) (min y s.end_idx)) := by
    intro x y
    unfold LLSelection.selectionFrom
    simp only
    split
    · exact heq _ rfl
    · rw [rangeIncl_nil (by omega)]; rfl
  unfold LLSelection.splitWith at h
  rw [if_pos (by rw [hl])] at h
  have hab := Except.ok.inj h
  simp only [Prod.mk.injEq] at hab
  obtain ⟨rfl, rfl⟩ := hab
  rw [heq s rfl, heq other hl, hopt]
  rw [rangeIncl_append (m := other.end_idx) (by omega) h3, flatMapR_append_iff]
  rw [show max (other.end_idx + 1) s.start_idx = other.end_idx + 1 by omega, Nat.min_self]
  by_cases h0 : other.start_idx > 0
  · rw [if_pos h0, hopt]
    rw [rangeIncl_append (a := s.start_idx) (m := other.start_idx - 1) (b := other.end_idx) (by omega) (by omega)]
    rw [show other.start_idx - 1 + 1 = other.start_idx by omega, Nat.max_self,
      show min (other.start_idx - 1) s.end_idx = other.start_idx - 1 by omega]
    simp only [flatMapR_append_iff]
    constructor
    · rintro ⟨_, o3, ⟨o1, o2, e1, e2, rfl⟩, e3, rfl⟩; exact ⟨o1, o2, o3, e1, e2, e3, rfl⟩
    · rintro ⟨o1, o2, o3, e1, e2, e3, rfl⟩; exact ⟨_, o3, ⟨o1, o2, e1, e2, rfl⟩, e3, rfl⟩
  · rw [if_neg h0, show s.start_idx = other.start_idx by omega]
    constructor
    · rintro ⟨o2, o3, e2, e3, rfl⟩; exact ⟨[], o2, o3, rfl, e2, e3, rfl⟩
    · rintro ⟨o1, o2, o3, e1, e2, e3, rfl⟩; cases e1; exact ⟨o2, o3, e2, e3, rfl⟩

example := C77_find_by_split_with (Demo.sel 0 8) (Demo.sel 2 4) ⟨rfl, by decide, by decide, by decide⟩ _ _ rfl
  (X.attr (Ty.user 2)) _ |>.1 rfl

end LNlp
