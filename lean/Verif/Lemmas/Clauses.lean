import Verif.Lemmas.Resolve
import Verif.Props.Select
/- Facts about the clause resolver on lines whose tags and keywords sit on single tokens. -/
namespace LNlp
variable {W : World}

/-- the range of a selection -/
def LLSelection.rng (s : LLSelection W) : LRange := (s.start_idx, s.end_idx)

/-- `x::attr::<ClauseKeyword>()`, with its output type spelled out -/
def kwMatch (W : World) : XMatch W ClauseKeyword := X.attr (W := W) .clauseKeyword

theorem keyword_go {l : LLLine W} {h : History W} (rep : Rep l h) (h1 : OneToken h) {i : Nat}
    (hi : i < l.ll_tokens.length) :
    (kwMatch W).go (.fwd i) l =
      .ok ((keywordsOn h i).map (fun v : ClauseKeyword => ((v, i) : ClauseKeyword × Nat))) ∧
    (kwMatch W).go (.bwd i) l =
      .ok ((keywordsOn h i).map (fun v : ClauseKeyword => ((v, i) : ClauseKeyword × Nat))) := by
  have := single_attr rep (k := .clauseKeyword) (fun x hx ht => h1 x hx (Or.inl ht)) hi
  exact ⟨this.1, this.2.1⟩

theorem tagEq_plain {l : LLLine W} {h : History W} (rep : Rep l h) (h1 : ∀ x ∈ h, x.ty = .textTag → x.range.1 = x.range.2) {i : Nat}
    (hi : i < l.ll_tokens.length) (tag : TextTag) :
    (X.attrEq (W := W) .textTag tag).go (.fwd i) l =
      .ok (((tagsOn h i).filter (fun w => w == tag)).map (fun _ => ((), i))) ∧
    (X.attrEq (W := W) .textTag tag).go (.bwd i) l =
      .ok (((tagsOn h i).filter (fun w => w == tag)).map (fun _ => ((), i))) := by
  have := single_attr rep (k := .textTag) h1 hi
  exact ⟨this.2.2.1 tag, this.2.2.2 tag⟩

theorem tagEq_go {l : LLLine W} {h : History W} (rep : Rep l h) (h1 : OneToken h) {i : Nat}
    (hi : i < l.ll_tokens.length) (tag : TextTag) :
    (X.attrEq (W := W) .textTag tag).go (.fwd i) l =
      .ok (((tagsOn h i).filter (fun w => w == tag)).map (fun _ => ((), i))) ∧
    (X.attrEq (W := W) .textTag tag).go (.bwd i) l =
      .ok (((tagsOn h i).filter (fun w => w == tag)).map (fun _ => ((), i))) :=
  tagEq_plain rep (fun x hx ht => h1 x hx (Or.inr ht)) hi tag

theorem delim_fwd {l : LLLine W} {h : History W} (rep : Rep l h) (h1 : OneToken h) {i : Nat}
    (hi : i < l.ll_tokens.length) : ∃ out, (clauseDelimiter W).go (.fwd i) l = .ok out ∧
      (∀ r ∈ out, r.2 = i) ∧ (out ≠ [] ↔ Delim h i) := by
  have hk := (keyword_go rep h1 hi).1
  have ht := (tagEq_go rep h1 hi .PUNC).1
  have hp : (tagsOn h i).filter (fun w => w == TextTag.PUNC) ≠ [] ↔ TextTag.PUNC ∈ tagsOn h i := by
    rw [Ne, List.filter_eq_nil_iff]; simp
  cases hv : keywordsOn h i with
  | nil =>
    refine ⟨_, (anyOf2_ok_iff (a := kwMatch W)).2 ⟨_, hk, Or.inr ⟨by rw [hv]; rfl, _, ht, rfl⟩⟩, ?_, ?_⟩
    · intro r hr; simp only [List.map_map, List.mem_map, Function.comp] at hr
      obtain ⟨_, _, rfl⟩ := hr; rfl
    · unfold Delim; rw [hv, ← hp]
      simp
  | cons a b =>
    refine ⟨_, (anyOf2_ok_iff (a := kwMatch W)).2 ⟨_, hk, Or.inl ⟨by rw [hv]; simp, rfl⟩⟩, ?_, ?_⟩
    · intro r hr; simp only [List.map_map, List.mem_map, Function.comp] at hr
      obtain ⟨_, _, rfl⟩ := hr; rfl
    · have : Delim h i := Or.inl (by rw [hv]; simp)
      simp [this, hv]

theorem delim_wellBehaved {l : LLLine W} {h : History W} (rep : Rep l h) (h1 : OneToken h) :
    WellBehaved l (clauseDelimiter W) := by
  have hbuilt : Built (W := W) (fun _ => True) false (clauseDelimiter W) :=
    .anyOf2 (.attr _ trivial) (.attrEq _ trivial _)
  constructor
  · intro i out hi hg r hr
    obtain ⟨out', hg', h2, _⟩ := delim_fwd rep h1 hi
    rw [hg] at hg'; cases hg'
    rw [h2 r hr]; exact ⟨Nat.le_refl _, hi⟩
  · intro i out hi hg r hr
    have hk := (keyword_go rep h1 hi).2
    have ht := (tagEq_go rep h1 hi .PUNC).2
    obtain ⟨as, ha, hcase⟩ := (anyOf2_ok_iff (a := kwMatch W)).1 hg
    rw [hk] at ha; cases ha
    rcases hcase with ⟨_, rfl⟩ | ⟨_, bs, hb, rfl⟩
    · simp only [List.map_map, List.mem_map, Function.comp] at hr
      obtain ⟨_, _, rfl⟩ := hr; exact Nat.le_refl _
    · rw [ht] at hb; cases hb
      simp only [List.map_map, List.mem_map, Function.comp] at hr
      obtain ⟨_, _, rfl⟩ := hr; exact Nat.le_refl _

theorem delim_found {s : LLSelection W} {h : History W} (rep : Rep s.ll_line.val h) (h1 : OneToken h)
    (hs : s.Inside) {a b : Nat} : FoundIn (clauseDelimiter W) s a b ↔ s.Has a ∧ b = a ∧ Delim h a := by
  unfold FoundIn
  constructor
  · rintro ⟨ha, out, x, hg, hx⟩
    obtain ⟨out', hg', h2, h3⟩ := delim_fwd rep h1 (i := a) (by have := hs.2; have := ha.2; omega)
    rw [hg] at hg'; cases hg'
    exact ⟨ha, h2 _ hx, h3.1 (List.ne_nil_of_mem hx)⟩
  · rintro ⟨ha, rfl, hd⟩
    obtain ⟨out', hg', h2, h3⟩ := delim_fwd rep h1 (i := b) (by have := hs.2; have := ha.2; omega)
    obtain ⟨⟨x, j⟩, hr⟩ := List.exists_mem_of_ne_nil _ (h3.2 hd)
    have := h2 _ hr
    simp only at this; subst this
    exact ⟨ha, out', x, hg', hr⟩

theorem clause_pieces {s : LLSelection W} {h : History W} (rep : Rep s.ll_line.val h) (h1 : OneToken h)
    (hs : s.Inside) : ∃ out, s.splitBy (clauseDelimiter W) = .ok out ∧ (∀ p ∈ out, p.PartOf s) ∧
      MaximalRuns (Delim h) s.start_idx s.end_idx (out.map LLSelection.rng) := by
  have hw := delim_wellBehaved rep h1
  have hok : ∃ out, s.splitBy (clauseDelimiter W) = .ok out := by
    cases hsp : s.splitBy (clauseDelimiter W) with
    | ok out => exact ⟨out, rfl⟩
    | error e =>
      obtain ⟨i, e', hi, he⟩ := (C47_panics_iff s (clauseDelimiter W)).1 ⟨e, hsp⟩
      obtain ⟨out', hg', _⟩ := delim_fwd rep h1 (i := i) (by have := hs.2; have := hi.2; omega)
      rw [he] at hg'; cases hg'
  obtain ⟨out, hout⟩ := hok
  obtain ⟨hpart, hdisj, hcover, _⟩ := C47_split_by s (clauseDelimiter W) hs hw out hout
  obtain ⟨hbound, hclean⟩ := C48_partial s (clauseDelimiter W) hs hw out hout
  have hclean := hclean (by
    intro ms hms
    have hsorted := findBy_sorted hms
    apply List.Pairwise.imp_of_mem _ hsorted
    intro p q hp hq hpq
    have hp' := (delim_found rep h1 hs (a := p.1.start_idx) (b := p.1.end_idx)).1 (by
      obtain ⟨_, h2, rs, h3, h4⟩ := (mem_findBy hms).1 hp; exact ⟨h2, rs, p.2, h3, h4⟩)
    have hq' := (delim_found rep h1 hs (a := q.1.start_idx) (b := q.1.end_idx)).1 (by
      obtain ⟨_, h2, rs, h3, h4⟩ := (mem_findBy hms).1 hq; exact ⟨h2, rs, q.2, h3, h4⟩)
    omega)
  have hnod : ∀ p ∈ out, ∀ t, p.Has t → ¬ Delim h t := by
    intro p hp t ht hd
    have hpp := hpart p hp
    have hst : s.Has t := ⟨by have := hpp.2.1; have := ht.1; omega, by have := hpp.2.2.2; have := ht.2; omega⟩
    exact hclean p hp t t ((delim_found rep h1 hs).2 ⟨hst, rfl, hd⟩) t (Nat.le_refl _) (Nat.le_refl _) ht
  have hb : ∀ p ∈ out, (p.start_idx = s.start_idx ∨ 0 < p.start_idx ∧ Delim h (p.start_idx - 1)) ∧
      (p.end_idx = s.end_idx ∨ Delim h (p.end_idx + 1)) := by
    intro p hp
    obtain ⟨_, h2, h3⟩ := hbound p hp
    refine ⟨h2.imp id ?_, h3.imp id ?_⟩
    · rintro ⟨a, b, hf, he⟩
      obtain ⟨_, rfl, hd⟩ := (delim_found rep h1 hs).1 hf
      rw [← he]; exact ⟨by omega, by simpa using hd⟩
    · rintro ⟨a, b, hf, he⟩
      obtain ⟨_, rfl, hd⟩ := (delim_found rep h1 hs).1 hf
      rw [he]; exact hd
  refine ⟨out, hout, hpart, ?_, ?_⟩
  · rw [List.pairwise_map]
    exact hdisj.imp (fun h => by simp only [LLSelection.rng]; omega)
  · intro i j
    rw [List.mem_map]
    constructor
    · rintro ⟨p, hp, he⟩
      cases he
      obtain ⟨hl, h2, h3, h4⟩ := hpart p hp
      obtain ⟨hb1, hb2⟩ := hb p hp
      exact ⟨h2, h3, h4, fun t ht1 ht2 => hnod p hp t ⟨ht1, ht2⟩, hb1.imp id (·.2), hb2⟩
    · rintro ⟨ha, hij, hjb, hno, hi, hj⟩
      have hd : s.Has i := ⟨ha, by omega⟩
      obtain ⟨p, hp, hpi, _⟩ := hcover i hd (by
        intro a b hf hab
        obtain ⟨_, rfl, hdel⟩ := (delim_found rep h1 hs).1 hf
        have : b = i := by omega
        subst this; exact hno _ (Nat.le_refl _) hij hdel)
      obtain ⟨_, h2, h3, h4⟩ := hpart p hp
      obtain ⟨hb1, hb2⟩ := hb p hp
      refine ⟨p, hp, ?_⟩
      simp only [LLSelection.Has] at hpi
      have e1 : p.start_idx = i := by
        apply Classical.byContradiction
        intro hne
        rcases hi with hi | hi
        · omega
        · exact hnod p hp (i - 1) ⟨by omega, by omega⟩ hi
      have e2 : p.end_idx = j := by
        apply Classical.byContradiction
        intro hne
        rcases Nat.lt_or_gt_of_ne hne with hlt | hgt
        · rcases hb2 with hb2 | hb2
          · omega
          · exact hno _ (by omega) (by omega) hb2
        · rcases hj with hj | hj
          · omega
          · exact hnod p hp (j + 1) ⟨by omega, by omega⟩ hj
      simp only [LLSelection.rng, e1, e2]

theorem space_head {h : History W} {i : Nat} :
    ((((tagsOn h i).filter (fun w => w == TextTag.SPACE)).map (fun _ => ((), i)) : List (Unit × Nat)).head?).map (·.2) =
      if TextTag.SPACE ∈ tagsOn h i then some i else none := by
  by_cases hm : TextTag.SPACE ∈ tagsOn h i
  · rw [if_pos hm]
    obtain ⟨x, hx⟩ : ∃ x, ((tagsOn h i).filter (fun w => w == TextTag.SPACE)).head? = some x := by
      cases hf : (tagsOn h i).filter (fun w => w == TextTag.SPACE) with
      | nil => rw [List.filter_eq_nil_iff] at hf; exact absurd (beq_self_eq_true TextTag.SPACE) (hf _ hm)
      | cons a b => exact ⟨a, rfl⟩
    simp [List.head?_map, hx]
  · rw [if_neg hm]
    have : (tagsOn h i).filter (fun w => w == TextTag.SPACE) = [] := by
      rw [List.filter_eq_nil_iff]; intro x hx; simp; rintro rfl; exact hm hx
    simp [this]

theorem trim_plain {p : LLSelection W} {h : History W} (rep : Rep p.ll_line.val h) (h1 : ∀ x ∈ h, x.ty = .textTag → x.range.1 = x.range.2)
    (hp : p.Inside) : p.trim X.whitespace = .ok ((trimmed h p.rng).map (fun r =>
      { ll_line := p.ll_line, start_idx := r.1, end_idx := r.2 })) := by
  have hlt : p.start_idx < p.ll_line.val.ll_tokens.length := by have := hp.1; have := hp.2; omega
  have hf := (tagEq_plain rep h1 hlt .SPACE).1
  have hb := (tagEq_plain rep h1 hp.2 .SPACE).2
  have h1 : trimFind (X.whitespace (W := W)) (.fwd p.start_idx) p.ll_line.val true =
      .ok (if TextTag.SPACE ∈ tagsOn h p.start_idx then some p.start_idx else none) := by
    rw [← space_head]
    unfold trimFind X.whitespace
    simp only [hf, firstEnd, if_true]
  have h2 : trimFind (X.whitespace (W := W)) (.bwd p.end_idx) p.ll_line.val true =
      .ok (if TextTag.SPACE ∈ tagsOn h p.end_idx then some p.end_idx else none) := by
    rw [← space_head]
    unfold trimFind X.whitespace
    simp only [hb, firstEnd, if_true]
  unfold LLSelection.trim
  rw [trimSelection_eq, h1, h2]
  have hne := hp.1
  simp only [trimmed, LLSelection.rng]
  by_cases c1 : TextTag.SPACE ∈ tagsOn h p.start_idx <;> by_cases c2 : TextTag.SPACE ∈ tagsOn h p.end_idx
  · simp only [c1, c2, if_true, Option.map_some, Option.getD_some]
    by_cases h3 : p.start_idx + 1 < p.end_idx
    · rw [if_pos h3, if_pos (by omega)]; rfl
    · rw [if_neg h3, if_neg (by omega)]; rfl
  · simp only [c1, c2, if_true, if_false, Option.map_some, Option.getD_some, Option.map_none, Option.getD_none]
    by_cases h3 : p.start_idx + 1 < p.end_idx + 1
    · rw [if_pos h3, if_pos (by omega)]; rfl
    · rw [if_neg h3, if_neg (by omega)]; rfl
  · simp only [c1, c2, if_true, if_false, Option.map_some, Option.getD_some, Option.map_none, Option.getD_none]
    have hne2 : p.start_idx ≠ p.end_idx := by intro e; rw [e] at c1; exact c1 c2
    rw [if_pos (by omega), if_pos (by omega)]; rfl
  · simp only [c1, c2, if_false, Option.map_none, Option.getD_none]
    rw [if_pos (by omega), if_pos (by omega)]; rfl

theorem trim_space {p : LLSelection W} {h : History W} (rep : Rep p.ll_line.val h) (h1 : OneToken h)
    (hp : p.Inside) : p.trim X.whitespace = .ok ((trimmed h p.rng).map (fun r =>
      { ll_line := p.ll_line, start_idx := r.1, end_idx := r.2 })) :=
  trim_plain rep (fun x hx ht => h1 x hx (Or.inr ht)) hp

theorem keyword_before {p : LLSelection W} {h : History W} (rep : Rep p.ll_line.val h) (h1 : OneToken h)
    (hp : p.Inside) :
    (keywordBefore h p.rng = none ∧ p.matchFirstBackwards (X.attr (W := W) .clauseKeyword) = .ok none) ∨
    ∃ q, ∃ kw : ClauseKeyword, keywordBefore h p.rng = some kw ∧
      p.matchFirstBackwards (X.attr (W := W) .clauseKeyword) = .ok (some (q, kw)) := by
  show (keywordBefore h p.rng = none ∧ p.matchFirstBackwards (kwMatch W) = .ok none) ∨
    ∃ q, ∃ kw : ClauseKeyword, keywordBefore h p.rng = some kw ∧
      p.matchFirstBackwards (kwMatch W) = .ok (some (q, kw))
  unfold LLSelection.matchFirstBackwards LLSelection.matchBackwards keywordBefore
  by_cases h0 : p.start_idx = 0
  · simp [h0, LLSelection.rng]
  · have hk := (keyword_go rep h1 (i := p.start_idx - 1) (by have := hp.1; have := hp.2; omega)).2
    simp only [h0, if_false, hk, LLSelection.rng]
    cases (keywordsOn h (p.start_idx - 1)) with
    | nil => left; exact ⟨rfl, rfl⟩
    | cons a b => right; exact ⟨_, a, rfl, rfl⟩

theorem filterMap_congr' {α β : Type} {f g : α → Option β} : ∀ {l : List α}, (∀ x ∈ l, f x = g x) →
    l.filterMap f = l.filterMap g
  | [], _ => rfl
  | x :: xs, h => by
    rw [List.filterMap_cons, List.filterMap_cons, h x (by simp), filterMap_congr' (fun y hy => h y (by simp [hy]))]

/-- one iteration over the pieces -/
theorem clauseStep_eq {p : LLSelection W} {h : History W} (rep : Rep p.ll_line.val h) (h1 : OneToken h)
    (hp : p.Inside) (found : Bool) (acc : List (LLCursorAssignment Clause)) :
    clauseStep (found, acc) p = .ok (found || isCondition h p.rng,
      acc ++ ((trimmed h p.rng).map (fun r => ⟨r.1, r.2, kindOf found (keywordBefore h p.rng)⟩)).toList) := by
  unfold clauseStep isCondition
  rw [trim_space rep h1 hp]
  cases ht : trimmed h p.rng with
  | none => simp
  | some r =>
    simp only [Option.map_some]
    rcases keyword_before rep h1 hp with ⟨hk, ho⟩ | ⟨q, kw, hk, ho⟩
    · rw [ho, hk]; cases found <;> simp [LLSelection.finishWithAttr, kindOf]
    · rw [ho, hk]; cases kw <;> cases found <;> simp [LLSelection.finishWithAttr, kindOf]

theorem clausesMany_snoc (h : History W) (ps : List LRange) (p : LRange) :
    (ps ++ [p]).zipIdx.filterMap (fun q =>
      (trimmed h q.1).map (fun r => (⟨r.1, r.2, clauseKind h ((ps ++ [p]).take q.2) q.1⟩ : LLCursorAssignment Clause))) =
    ps.zipIdx.filterMap (fun q =>
      (trimmed h q.1).map (fun r => (⟨r.1, r.2, clauseKind h (ps.take q.2) q.1⟩ : LLCursorAssignment Clause))) ++
    ((trimmed h p).map (fun r => (⟨r.1, r.2, clauseKind h ps p⟩ : LLCursorAssignment Clause))).toList := by
  rw [List.zipIdx_append, List.filterMap_append]
  congr 1
  · apply filterMap_congr'
    rintro ⟨q, n⟩ hq
    obtain ⟨_, hn, _⟩ := List.mem_zipIdx hq
    rw [List.take_append_of_le_length (by simp at hn ⊢; omega)]
  · simp only [List.zipIdx_cons, List.zipIdx_nil, Nat.zero_add, List.filterMap_cons, List.filterMap_nil]
    rw [List.take_append_of_le_length (Nat.le_refl _), List.take_length]
    cases trimmed h p <;> rfl

theorem clause_fold {h : History W} (h1 : OneToken h) : ∀ (suf pre : List (LLSelection W)),
    (∀ p ∈ suf, Rep p.ll_line.val h ∧ p.Inside) →
    foldR clauseStep ((pre.map LLSelection.rng).any (isCondition h),
      (pre.map LLSelection.rng).zipIdx.filterMap (fun q =>
      (trimmed h q.1).map (fun r => (⟨r.1, r.2, clauseKind h ((pre.map LLSelection.rng).take q.2) q.1⟩ : LLCursorAssignment Clause)))) suf
     = .ok (((pre ++ suf).map LLSelection.rng).any (isCondition h),
      ((pre ++ suf).map LLSelection.rng).zipIdx.filterMap (fun q =>
      (trimmed h q.1).map (fun r => (⟨r.1, r.2, clauseKind h (((pre ++ suf).map LLSelection.rng).take q.2) q.1⟩ : LLCursorAssignment Clause))))
  | [], pre, _ => by simp [foldR]
  | p :: suf, pre, hs => by
    obtain ⟨rep, hp⟩ := hs p (by simp)
    have ih := clause_fold h1 suf (pre ++ [p]) (fun q hq => hs q (by simp [hq]))
    rw [List.map_append, List.map_cons, List.map_nil, clausesMany_snoc] at ih
    simp only [foldR, clauseStep_eq rep h1 hp]
    rw [List.append_assoc, List.singleton_append] at ih
    rw [← ih]
    simp only [List.any_append, List.any_cons, List.any_nil, Bool.or_false, clauseKind]

theorem clauseGo_eq {s : LLSelection W} {h : History W} (rep : Rep s.ll_line.val h) (h1 : OneToken h)
    (hs : s.Inside) : ∃ ps, MaximalRuns (Delim h) s.start_idx s.end_idx ps ∧
      clauseGo s = .ok (clausesOf h ps) := by
  obtain ⟨out, hout, hpart, hruns⟩ := clause_pieces rep h1 hs
  refine ⟨_, hruns, ?_⟩
  have hin : ∀ p ∈ out, Rep p.ll_line.val h ∧ p.Inside := fun p hp =>
    ⟨by rw [(hpart p hp).1]; exact rep, inside_of_partOf (hpart p hp) hs⟩
  unfold clauseGo
  rw [hout]
  match out, hin with
  | [], _ => rfl
  | [c], hin =>
    obtain ⟨repc, hc⟩ := hin c (by simp)
    simp only [clauseSingle, trim_space repc h1 hc, clausesOf, List.map_cons, List.map_nil]
    cases ht : trimmed h c.rng with
    | none => simp
    | some r =>
      simp only [Option.map_some]
      rcases keyword_before repc h1 hc with ⟨hk, ho⟩ | ⟨q, kw, hk, ho⟩
      · rw [ho, hk]; simp [LLSelection.finishWithAttr]
      · rw [ho, hk]; cases kw <;> simp [LLSelection.finishWithAttr]
  | a :: b :: c, hin =>
    have := clause_fold h1 (a :: b :: c) [] hin
    simp only [List.map_nil, List.any_nil, List.zipIdx_nil, List.filterMap_nil, List.nil_append] at this
    simp only [this]
    simp only [clausesOf, List.map_cons]

theorem clausesOf_ranges (h : History W) (ps : List LRange) :
    (clausesOf h ps).map (fun a => (a.start_idx, a.end_idx)) = ps.filterMap (trimmed h) := by
  have many : ∀ (f : LRange × Nat → Clause) (ps : List LRange) (n : Nat),
      ((ps.zipIdx n).filterMap (fun q => (trimmed h q.1).map
        (fun r => (⟨r.1, r.2, f q⟩ : LLCursorAssignment Clause)))).map (fun a => (a.start_idx, a.end_idx)) =
      ps.filterMap (trimmed h) := by
    intro f ps
    induction ps with
    | nil => intro n; rfl
    | cons p ps ih =>
      intro n
      rw [List.zipIdx_cons, List.filterMap_cons, List.filterMap_cons]
      cases trimmed h p with
      | none => exact ih (n + 1)
      | some r => simp only [Option.map_some, List.map_cons, ih (n + 1)]
  unfold clausesOf
  split
  · next p => simp only [List.map_map, List.filterMap_cons, List.filterMap_nil]; cases trimmed h p <;> rfl
  · exact many _ ps 0

/-- every token outside the delimiters belongs to a run -/
theorem maximalRuns_cover {D : Nat → Prop} {a b : Nat} {ps : List LRange} (h : MaximalRuns D a b ps) {t : Nat}
    (ha : a ≤ t) (hb : t ≤ b) (hd : ¬ D t) : ∃ p ∈ ps, p.1 ≤ t ∧ t ≤ p.2 := by
  have left : ∀ n t, a ≤ t → t - a = n → ¬ D t → ∃ i, a ≤ i ∧ i ≤ t ∧ (∀ u, i ≤ u → u ≤ t → ¬ D u) ∧ (i = a ∨ D (i - 1)) := by
    intro n
    induction n with
    | zero => intro t h1 h2 h3; exact ⟨t, h1, Nat.le_refl _, fun u h4 h5 => by
        have : u = t := by omega
        subst this; exact h3, Or.inl (by omega)⟩
    | succ n ih =>
      intro t h1 h2 h3
      by_cases hd : D (t - 1)
      · exact ⟨t, h1, Nat.le_refl _, fun u h4 h5 => by
          have : u = t := by omega
          subst this; exact h3, Or.inr hd⟩
      · obtain ⟨i, hi1, hi2, hi3, hi4⟩ := ih (t - 1) (by omega) (by omega) hd
        refine ⟨i, hi1, by omega, fun u h4 h5 => ?_, hi4⟩
        by_cases hu : u = t
        · subst hu; exact h3
        · exact hi3 u h4 (by omega)
  have right : ∀ n t, t ≤ b → b - t = n → ¬ D t → ∃ j, t ≤ j ∧ j ≤ b ∧ (∀ u, t ≤ u → u ≤ j → ¬ D u) ∧ (j = b ∨ D (j + 1)) := by
    intro n
    induction n with
    | zero => intro t h1 h2 h3; exact ⟨t, Nat.le_refl _, h1, fun u h4 h5 => by
        have : u = t := by omega
        subst this; exact h3, Or.inl (by omega)⟩
    | succ n ih =>
      intro t h1 h2 h3
      by_cases hd : D (t + 1)
      · exact ⟨t, Nat.le_refl _, h1, fun u h4 h5 => by
          have : u = t := by omega
          subst this; exact h3, Or.inr hd⟩
      · obtain ⟨j, hi1, hi2, hi3, hi4⟩ := ih (t + 1) (by omega) (by omega) hd
        refine ⟨j, by omega, hi2, fun u h4 h5 => ?_, hi4⟩
        by_cases hu : u = t
        · subst hu; exact h3
        · exact hi3 u (by omega) h5
  obtain ⟨i, hi1, hi2, hi3, hi4⟩ := left _ t ha rfl hd
  obtain ⟨j, hj1, hj2, hj3, hj4⟩ := right _ t hb rfl hd
  refine ⟨(i, j), (h.2 i j).2 ⟨hi1, by omega, hj2, fun u h1 h2 => ?_, hi4, hj4⟩, hi2, hj1⟩
  by_cases hu : u ≤ t
  · exact hi3 u h1 hu
  · exact hj3 u (by omega) h2

end LNlp
