import Verif.Spec.EndToEnd
import Verif.Lemmas.Currency
/- Lemmas for the end-to-end properties. -/
namespace LNlp
variable {W : World}

theorem values_block (k : Ty W) (r : LRange) (vs : List (Val k)) :
    valuesOf k r (vs.map (fun v => (⟨k, r, v⟩ : Rec W))) = vs := by
  induction vs with
  | nil => rfl
  | cons v vs ih =>
    rw [List.map_cons, show (⟨k, r, v⟩ : Rec W) :: vs.map (fun v => ⟨k, r, v⟩) = [⟨k, r, v⟩] ++ vs.map (fun v => ⟨k, r, v⟩) from rfl,
      valuesOf_append, ih]
    have : valuesOf k r [(⟨k, r, v⟩ : Rec W)] = [v] := valuesOf_snoc_self k r [] v
    rw [this]; rfl

theorem covered_one (l : LLLine W) {i : Nat} (hi : i < l.ll_tokens.length) :
    coveredText l.ll_tokens (i, i) = (textAt l i).getD [] := by
  unfold coveredText textAt
  rw [List.getElem?_eq_getElem hi, List.drop_eq_getElem_cons hi]
  simp only [Nat.add_sub_cancel_left, List.take_succ_cons, List.take_zero, List.map_cons, List.map_nil, List.flatten_cons,
    List.flatten_nil, List.append_nil, Option.bind_some]
  cases h : (l.ll_tokens[i]).token <;> rfl

theorem between_all (l : LLLine W) (ne : l.ll_tokens ≠ []) : between 0 (l.ll_tokens.length - 1) = List.range l.ll_tokens.length := by
  have := List.length_pos_iff.2 ne
  rw [between, List.range_eq_range', Nat.sub_zero, Nat.sub_add_cancel this]

/-- the query for a type that single tokens get for the first time -/
theorem query_tokens {l : LLLine W} {h : History W} {k : Ty W} (f : Nat → List (Val k)) (ne : l.ll_tokens ≠ [])
    (rep : Rep l (h ++ (between 0 (l.ll_tokens.length - 1)).flatMap (fun i => (f i).map (fun v => ⟨k, (i, i), v⟩))))
    (hn : ∀ x ∈ h, x.ty ≠ k) : l.query k = .ok (tokenEntries l f) := by
  rw [between_all l ne] at rep
  have hnd : ((List.range l.ll_tokens.length).map (fun i => ((i, i) : LRange))).Nodup := by
    rw [List.nodup_iff_pairwise_ne, List.pairwise_map]
    exact (List.nodup_iff_pairwise_ne.1 List.nodup_range).imp (fun h e => h (congrArg Prod.fst e))
  obtain ⟨hb1, hb2⟩ := blocks_history k (fun i : Nat => ((i, i) : LRange))
    (fun i => (f i).map (fun v => (⟨k, (i, i), v⟩ : Rec W))) (List.range l.ll_tokens.length) hnd (by
      intro x _ y hy; obtain ⟨v, _, rfl⟩ := List.mem_map.1 hy; rfl)
  have hranges := rangesOf_append_of_none k h ((List.range l.ll_tokens.length).flatMap (fun i => (f i).map (fun v => (⟨k, (i, i), v⟩ : Rec W)))) hn
  rw [hb1] at hranges
  simp only [values_block] at hranges hb2
  rw [rep_query rep k, hranges, List.map_map]
  · congr 1
    unfold tokenEntries
    have key : ∀ (is : List Nat), (∀ i ∈ is, i < l.ll_tokens.length) →
        (is.filter (fun x => !(f x).isEmpty)).map ((fun r : LRange => (r, coveredText l.ll_tokens r,
          valuesOf k r (h ++ (List.range l.ll_tokens.length).flatMap (fun i => (f i).map (fun v => (⟨k, (i, i), v⟩ : Rec W)))))) ∘ fun i => (i, i)) =
        is.filterMap (fun i => if (f i).isEmpty then none else some ((i, i), (textAt l i).getD [], f i)) := by
      intro is
      induction is with
      | nil => intro _; rfl
      | cons i is ih =>
        intro hlt
        have hi := hlt i (List.mem_cons_self ..)
        rw [List.filterMap_cons, ← ih (fun j hj => hlt j (List.mem_cons_of_mem _ hj))]
        by_cases he : (f i).isEmpty = true
        · rw [List.filter_cons_of_neg (by rw [he]; intro h; cases h), if_pos he]
        · rw [List.filter_cons_of_pos (by rw [Bool.not_eq_true] at he; rw [he]; rfl), if_neg he, List.map_cons]
          simp only [Function.comp]
          rw [valuesOf_append, valuesOf_none k _ _ hn, List.nil_append, hb2 i (List.mem_range.2 hi), covered_one l hi]
    exact key _ (fun i hi => List.mem_range.1 hi)
  · rw [hranges]
    intro r hr
    obtain ⟨a, ha, rfl⟩ := List.mem_map.1 hr
    exact Nat.le_succ _

theorem tokenEntries_tokens {α : Type} {l l' : LLLine W} (ht : l'.ll_tokens = l.ll_tokens) (f : Nat → List α) :
    tokenEntries l' f = tokenEntries l f := by
  unfold tokenEntries
  rw [ht]
  simp only [textAt_tokens ht]

theorem plain_tag_mem {l : LLLine W} {h : History W} (ht : PlainTags l h) {i : Nat} {tag : TextTag} :
    tag ∈ tagsOn h i ↔ tagAt l i = some tag := by
  have := ht.1 i
  unfold tagsOn
  rw [this, Option.mem_toList]

theorem trimmed_strip {l : LLLine W} {h : History W} (hm : ∀ i, TextTag.SPACE ∈ tagsOn h i ↔ tagAt l i = some .SPACE)
    (a b i j : Nat) : trimmed h (a, b) = some (i, j) ↔ Strip l a b i j := by
  unfold trimmed
  simp only [hm]
  by_cases c1 : tagAt l a = some .SPACE <;> by_cases c2 : tagAt l b = some .SPACE <;> simp only [c1, c2, if_true, if_false]
  all_goals
    constructor
    · intro he
      split at he
      · cases he
        refine ⟨?_, ?_, ?_⟩ <;> (try simp only [c1, c2, if_true, if_false]) <;> omega
      · cases he
    · rintro ⟨h1, h2, h3⟩
      simp only [c1, c2, if_true, if_false] at h1 h2
      rw [if_pos (by omega)]
      congr 2 <;> omega

theorem gaps_length (s : LLSelection W) : ∀ (ms : List LRange) (i : Nat), (gaps s i ms).length ≤ ms.length + 1 := by
  intro ms
  induction ms with
  | nil => intro i; unfold gaps; cases s.selectionFrom i s.end_idx <;> simp
  | cons m ms ih =>
    intro i
    unfold gaps
    rw [List.length_append, List.length_cons]
    have := ih (m.2 + 1)
    have : (gapBefore s i m.1).toList.length ≤ 1 := by cases gapBefore s i m.1 <;> simp
    omega

theorem isKeyword_unique {r : ClauseKeywordResolver} {t : Str} {k k' : ClauseKeyword} (h : IsKeyword r t k) (h' : IsKeyword r t k') :
    k = k' := by
  cases k <;> cases k' <;> simp only [IsKeyword] at h h' <;> simp_all

section clauses
variable {r : ClauseKeywordResolver} {l : LLLine W} {h : History W} {ps : List LRange}

theorem mem_take_sorted {ps : List LRange} (hp : ps.Pairwise (fun p q => p.2 < q.1)) (hle : ∀ p ∈ ps, p.1 ≤ p.2) {n : Nat} {p : LRange} (hn : ps[n]? = some p)
    (q : LRange) : q ∈ ps.take n ↔ q ∈ ps ∧ q.2 < p.1 := by
  obtain ⟨hlt, he⟩ := List.getElem?_eq_some_iff.1 hn
  have hsplit : ps = ps.take n ++ p :: ps.drop (n + 1) := by
    rw [← he, ← List.drop_eq_getElem_cons hlt, List.take_append_drop]
  have hpp := hp
  rw [hsplit, List.pairwise_append] at hpp
  constructor
  · intro hq
    exact ⟨List.mem_of_mem_take hq, hpp.2.2 q hq p (List.mem_cons_self ..)⟩
  · rintro ⟨hq, hlt'⟩
    rw [hsplit] at hq
    rcases List.mem_append.1 hq with hq | hq
    · exact hq
    · rcases List.mem_cons.1 hq with rfl | hq
      · have := hle q (List.mem_of_getElem? hn); omega
      · have h1 := (List.pairwise_cons.1 hpp.2.1).1 q hq
        have h2 := hle q (List.mem_of_mem_drop hq)
        have h3 := hle p (List.mem_of_getElem? hn)
        omega

theorem clausesOf_mem (hp : ps.Pairwise (fun p q => p.2 < q.1)) (hrun : ∀ a b, (a, b) ∈ ps ↔ IsRun r l a b)
    (hst : ∀ a b i j, trimmed h (a, b) = some (i, j) ↔ Strip l a b i j)
    (hkw : ∀ a b k, keywordBefore h (a, b) = some k ↔ Follows r l a k) (i j : Nat) (v : Clause) :
    (⟨i, j, v⟩ : LLCursorAssignment Clause) ∈ clausesOf h ps ↔ ClauseAt r l i j v := by
  have hle : ∀ p ∈ ps, p.1 ≤ p.2 := fun p hp' => ((hrun p.1 p.2).1 hp').le
  have hc : ∀ a b, isCondition h (a, b) = true ↔ (∃ i j, Strip l a b i j) ∧ Follows r l a .ConditionStart := by
    intro a b
    unfold isCondition
    rw [Bool.and_eq_true, beq_iff_eq, hkw, Option.isSome_iff_exists]
    constructor
    · rintro ⟨⟨⟨i, j⟩, h1⟩, h2⟩; exact ⟨⟨i, j, (hst ..).1 h1⟩, h2⟩
    · rintro ⟨⟨i, j, h1⟩, h2⟩; exact ⟨⟨(i, j), (hst ..).2 h1⟩, h2⟩
  -- the case of several runs, by position
  have many : (∀ a, ¬ OnlyRun r l a) →
      ((⟨i, j, v⟩ : LLCursorAssignment Clause) ∈ ps.zipIdx.filterMap (fun q =>
        (trimmed h q.1).map (fun r => (⟨r.1, r.2, clauseKind h (ps.take q.2) q.1⟩ : LLCursorAssignment Clause))) ↔ ClauseAt r l i j v) := by
    intro sev
    have step : (⟨i, j, v⟩ : LLCursorAssignment Clause) ∈ ps.zipIdx.filterMap (fun q =>
        (trimmed h q.1).map (fun r => (⟨r.1, r.2, clauseKind h (ps.take q.2) q.1⟩ : LLCursorAssignment Clause))) ↔
        ∃ a b n, ps[n]? = some (a, b) ∧ Strip l a b i j ∧ clauseKind h (ps.take n) (a, b) = v := by
      rw [List.mem_filterMap]
      constructor
      · rintro ⟨⟨⟨a, b⟩, n⟩, hm, he⟩
        obtain ⟨⟨i', j'⟩, h1, h2⟩ := Option.map_eq_some_iff.1 he
        cases h2
        exact ⟨a, b, n, List.mem_zipIdx_iff_getElem?.1 hm, (hst ..).1 h1, rfl⟩
      · rintro ⟨a, b, n, hm, h1, rfl⟩
        exact ⟨((a, b), n), List.mem_zipIdx_iff_getElem?.2 hm, Option.map_eq_some_iff.2 ⟨(i, j), (hst ..).2 h1, rfl⟩⟩
    have cond : ∀ a b n, ps[n]? = some (a, b) → ((ps.take n).any (isCondition h) = true ↔ ConditionBefore r l a) := by
      intro a b n hn
      rw [List.any_eq_true]
      constructor
      · rintro ⟨⟨a', b'⟩, hm, hq⟩
        obtain ⟨h1, h2⟩ := (mem_take_sorted hp hle hn _).1 hm
        obtain ⟨⟨i, j, h3⟩, h4⟩ := (hc ..).1 hq
        exact ⟨a', b', i, j, h2, (hrun ..).1 h1, h3, h4⟩
      · rintro ⟨a', b', i, j, h2, h1, h3, h4⟩
        exact ⟨(a', b'), (mem_take_sorted hp hle hn _).2 ⟨(hrun ..).2 h1, h2⟩, (hc ..).2 ⟨⟨i, j, h3⟩, h4⟩⟩
    rw [step]
    constructor
    · rintro ⟨a, b, n, hn, hs, rfl⟩
      have hr : IsRun r l a b := (hrun ..).1 (List.mem_of_getElem? hn)
      unfold clauseKind kindOf
      cases hk : keywordBefore h (a, b) with
      | none =>
        have no : ∀ k, ¬ Follows r l a k := fun k hf => by rw [(hkw a b k).2 hf] at hk; cases hk
        by_cases hcb : (ps.take n).any (isCondition h) = true
        · simp only [hcb, if_true]
          exact .trailing hr hs (no _) (sev a) ((cond a b n hn).1 hcb)
        · simp only [hcb]
          exact .leading hr hs (no _) (no _) (sev a) (fun hx => hcb ((cond a b n hn).2 hx))
      | some k =>
        have only : ∀ k', Follows r l a k' → k' = k := fun k' hf => by
          rw [(hkw a b k').2 hf] at hk; exact Option.some.inj hk
        have hf := (hkw a b k).1 hk
        cases k with
        | ConditionStart => exact .condition hr hs hf
        | Then => exact .then_ hr hs hf (sev a)
        | And =>
          by_cases hcb : (ps.take n).any (isCondition h) = true
          · simp only [hcb, if_true]
            exact .trailing hr hs (fun hx => by cases only _ hx) (sev a) ((cond a b n hn).1 hcb)
          · simp only [hcb]
            exact .leading hr hs (fun hx => by cases only _ hx) (fun hx => by cases only _ hx) (sev a)
              (fun hx => hcb ((cond a b n hn).2 hx))
    · intro hca
      have pos : ∀ a b, IsRun r l a b → ∃ n, ps[n]? = some (a, b) := fun a b hr => List.getElem?_of_mem ((hrun ..).2 hr)
      cases hca with
      | @condition a b run strip kw =>
        obtain ⟨n, hn⟩ := pos a b run
        refine ⟨a, b, n, hn, strip, ?_⟩
        unfold clauseKind kindOf
        rw [(hkw a b _).2 kw]
      | @independent a b run strip kw only => exact absurd only (sev a)
      | @then_ a b run strip kw several =>
        obtain ⟨n, hn⟩ := pos a b run
        refine ⟨a, b, n, hn, strip, ?_⟩
        unfold clauseKind kindOf
        rw [(hkw a b _).2 kw]
      | @trailing a b run strip kw several hcb =>
        obtain ⟨n, hn⟩ := pos a b run
        refine ⟨a, b, n, hn, strip, ?_⟩
        unfold clauseKind kindOf
        rw [(cond a b n hn).2 hcb]
        cases hk : keywordBefore h (a, b) with
        | none => rfl
        | some k =>
          cases k with
          | ConditionStart => exact absurd ((hkw ..).1 hk) kw
          | Then => rfl
          | And => rfl
      | @leading a b run strip kw kw' several hcb =>
        obtain ⟨n, hn⟩ := pos a b run
        refine ⟨a, b, n, hn, strip, ?_⟩
        unfold clauseKind kindOf
        rw [Bool.eq_false_iff.2 (fun hx => hcb ((cond a b n hn).1 hx))]
        cases hk : keywordBefore h (a, b) with
        | none => rfl
        | some k =>
          cases k with
          | ConditionStart => exact absurd ((hkw ..).1 hk) kw
          | Then => exact absurd ((hkw ..).1 hk) kw'
          | And => rfl
  match ps, hp, hrun, many with
  | [], _, hrun, _ =>
    have no : ∀ a b, ¬ IsRun r l a b := fun a b hr => by have := (hrun a b).2 hr; cases this
    constructor
    · intro hm; cases hm
    · intro hca; cases hca <;> exact absurd ‹IsRun r l _ _› (no _ _)
  | [(a, b)], _, hrun, _ =>
    have one : ∀ a' b', IsRun r l a' b' → a' = a ∧ b' = b := fun a' b' hr => by
      have := List.mem_singleton.1 ((hrun a' b').2 hr)
      cases this; exact ⟨rfl, rfl⟩
    have only : OnlyRun r l a := fun a' b' hr => (one a' b' hr).1
    have hr : IsRun r l a b := (hrun a b).1 (List.mem_singleton.2 rfl)
    unfold clausesOf
    simp only [List.mem_map, Option.mem_toList]
    constructor
    · rintro ⟨⟨i', j'⟩, h1, h2⟩
      have hs := (hst ..).1 h1
      cases h2
      by_cases hk : keywordBefore h (a, b) = some .ConditionStart
      · rw [if_pos hk]
        exact .condition hr hs ((hkw ..).1 hk)
      · rw [if_neg hk]
        exact .independent hr hs (fun hx => hk ((hkw a b _).2 hx)) only
    · intro hca
      cases hca with
      | @condition a' b' run strip kw =>
        obtain ⟨rfl, rfl⟩ := one _ _ run
        exact ⟨(i, j), (hst ..).2 strip, by rw [if_pos ((hkw a' b' _).2 kw)]⟩
      | @independent a' b' run strip kw _ =>
        obtain ⟨rfl, rfl⟩ := one _ _ run
        exact ⟨(i, j), (hst ..).2 strip, by rw [if_neg (fun hx => kw ((hkw a' b' _).1 hx))]⟩
      | @then_ a' b' run strip kw sev =>
        obtain ⟨rfl, rfl⟩ := one _ _ run
        exact absurd only sev
      | @trailing a' b' run strip kw sev _ =>
        obtain ⟨rfl, rfl⟩ := one _ _ run
        exact absurd only sev
      | @leading a' b' run strip kw _ sev _ =>
        obtain ⟨rfl, rfl⟩ := one _ _ run
        exact absurd only sev
  | (a, b) :: (a', b') :: ps, hp, hrun, many =>
    have sev : ∀ c, ¬ OnlyRun r l c := by
      intro c ho
      have h1 := (hrun a b).1 (List.mem_cons_self ..)
      have h2 := (hrun a' b').1 (List.mem_cons_of_mem _ (List.mem_cons_self ..))
      have h3 := (List.pairwise_cons.1 hp).1 _ (List.mem_cons_self ..)
      have := ho _ _ h1; have := ho _ _ h2; have := h1.le
      simp only at h3
      omega
    unfold clausesOf
    exact many sev
end clauses

end LNlp
