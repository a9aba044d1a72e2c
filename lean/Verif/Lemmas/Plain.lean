import Verif.Lemmas.Clauses
/- Lines without custom tags: what the resolvers need, and that other resolvers keep it. -/
namespace LNlp
variable {W : World}

theorem noCustom_history {k : Ty W} {size : Str → Nat} {input : List (InputToken W)} (h : NoCustom k input) :
    ∀ (i : Nat), ∀ x ∈ inputHistory W size i input, x.ty ≠ k := by
  intro i x hx
  rw [inputHistory_eq, List.mem_flatMap] at hx
  obtain ⟨q, hq, hx⟩ := hx
  obtain ⟨a, ha, rfl⟩ := List.mem_map.1 hx
  have : ∀ (input : List (InputToken W)) (i : Nat), ∀ q ∈ inputSpans W size i input, q.2 ∈ input := by
    intro input
    induction input with
    | nil => intro i q hq; cases hq
    | cons t ts ih =>
      intro i q hq
      simp only [inputSpans, List.mem_cons] at hq
      rcases hq with rfl | hq
      · simp
      · exact List.mem_cons_of_mem _ (ih _ q hq)
  exact h q.2 (this input i q hq) a ha

theorem creation_values {k : Ty W} {size : Str → Nat} {input : List (InputToken W)} {l : LLLine W}
    (wf : ∀ t ∈ input, t.WF) (ok : createLineFromInputTokens W input size = .ok l) (h : NoCustom k input) (i : Nat) :
    valuesOf k (i, i) (creationHistory W size input) =
      match l.ll_tokens[i]? with
      | some t => valuesOf k (i, i) (builtinOf W t.token i)
      | none => [] := by
  obtain ⟨_, htoks, _⟩ := create_inv wf ok
  have hmap : (input.flatMap (tokensOf W size)).map (·.1) = l.ll_tokens.map (·.token) := by
    rw [htoks, layoutM_tokens]
  rw [creationHistory, valuesOf_append, valuesOf_none k _ _ (noCustom_history h 0), List.append_nil, hmap]
  cases ht : l.ll_tokens[i]? with
  | some t =>
    exact (builtin_blocks k (l.ll_tokens.map (·.token))).2 (t.token, i) (by
      rw [List.mem_zipIdx_iff_getElem?]; simp [ht])
  | none =>
    apply valuesOf_no_range
    intro x hx
    rw [builtinHistory, List.mem_flatMap] at hx
    obtain ⟨⟨tok, n⟩, hp, hx⟩ := hx
    rw [List.mem_zipIdx_iff_getElem?] at hp
    rw [builtinOf_range _ _ _ hx]
    intro he
    simp only [Prod.mk.injEq, and_self] at he
    subst he
    simp [ht] at hp

theorem creation_single {k : Ty W} {size : Str → Nat} {input : List (InputToken W)} (h : NoCustom k input) :
    ∀ x ∈ creationHistory W size input, x.ty = k → x.range.1 = x.range.2 := by
  intro x hx hk
  rw [creationHistory, List.mem_append] at hx
  rcases hx with hx | hx
  · rw [builtinHistory, List.mem_flatMap] at hx
    obtain ⟨⟨tok, n⟩, hp, hx⟩ := hx
    rw [builtinOf_range _ _ _ hx]
  · exact absurd hk (noCustom_history h 0 x hx)

theorem creation_plainTags {size : Str → Nat} {input : List (InputToken W)} {l : LLLine W}
    (wf : ∀ t ∈ input, t.WF) (ok : createLineFromInputTokens W input size = .ok l) (h : NoCustom .textTag input) :
    PlainTags l (creationHistory W size input) := by
  refine ⟨fun i => ?_, creation_single h⟩
  rw [creation_values wf ok h, tagAt]
  cases l.ll_tokens[i]? with
  | none => rfl
  | some t =>
    simp only [Option.bind_some]
    rw [valuesOf_builtinOf_textTag]
    cases t.token <;> rfl

theorem creation_plainChars {size : Str → Nat} {input : List (InputToken W)} {l : LLLine W}
    (wf : ∀ t ∈ input, t.WF) (ok : createLineFromInputTokens W input size = .ok l) (h : NoCustom .char input) :
    PlainChars l (creationHistory W size input) := by
  refine ⟨fun i => ?_, creation_single h⟩
  rw [creation_values wf ok h, charAt, textAt]
  cases l.ll_tokens[i]? with
  | none => rfl
  | some t =>
    simp only [Option.bind_some]
    rw [valuesOf_builtinOf_char]
    cases t.token with
    | Value => rfl
    | Text s tag =>
      match s with
      | [] => rfl
      | [c] => rfl
      | _ :: _ :: _ => rfl

theorem creation_oneToken {size : Str → Nat} {input : List (InputToken W)}
    (h1 : NoCustom .textTag input) (h2 : NoCustom .clauseKeyword input) : OneToken (creationHistory W size input) := by
  rintro x hx (hk | hk)
  · exact creation_single h2 x hx hk
  · exact creation_single h1 x hx hk

theorem run_tokens {l l' : LLLine W} {ptr : Nat} {r : Resolver W} (h : l.run ptr r = .ok l') :
    l'.ll_tokens = l.ll_tokens := by
  by_cases e : l.ll_tokens = []
  · rw [run_empty e] at h; cases h; rfl
  · obtain ⟨_, _, _, _, rfl⟩ := run_inv e h; rfl

theorem tagAt_tokens {l l' : LLLine W} (ht : l'.ll_tokens = l.ll_tokens) (i : Nat) : tagAt l' i = tagAt l i := by
  unfold tagAt; rw [ht]
theorem textAt_tokens {l l' : LLLine W} (ht : l'.ll_tokens = l.ll_tokens) (i : Nat) : textAt l' i = textAt l i := by
  unfold textAt; rw [ht]
theorem charAt_tokens {l l' : LLLine W} (ht : l'.ll_tokens = l.ll_tokens) (i : Nat) : charAt l' i = charAt l i := by
  unfold charAt; rw [textAt_tokens ht]

theorem plainTags_run {l l' : LLLine W} {h : History W} {k : Ty W} (ht : l'.ll_tokens = l.ll_tokens)
    (hp : PlainTags l h) (hk : k ≠ .textTag) (asgs : List (LLCursorAssignment (Val k))) :
    PlainTags l' (h ++ asgs.map (recOf k)) := by
  have hn : ∀ x ∈ asgs.map (recOf k), x.ty ≠ .textTag := by
    intro x hx
    obtain ⟨a, _, rfl⟩ := List.mem_map.1 hx
    exact hk
  refine ⟨fun i => ?_, fun x hx hxk => ?_⟩
  · rw [valuesOf_append, valuesOf_none _ _ _ hn, List.append_nil, hp.1, tagAt_tokens ht]
  · rcases List.mem_append.1 hx with hx | hx
    · exact hp.2 x hx hxk
    · exact absurd hxk (hn x hx)

theorem plainChars_run {l l' : LLLine W} {h : History W} {k : Ty W} (ht : l'.ll_tokens = l.ll_tokens)
    (hp : PlainChars l h) (hk : k ≠ .char) (asgs : List (LLCursorAssignment (Val k))) :
    PlainChars l' (h ++ asgs.map (recOf k)) := by
  have hn : ∀ x ∈ asgs.map (recOf k), x.ty ≠ .char := by
    intro x hx
    obtain ⟨a, _, rfl⟩ := List.mem_map.1 hx
    exact hk
  refine ⟨fun i => ?_, fun x hx hxk => ?_⟩
  · rw [valuesOf_append, valuesOf_none _ _ _ hn, List.append_nil, hp.1, charAt_tokens ht]
  · rcases List.mem_append.1 hx with hx | hx
    · exact hp.2 x hx hxk
    · exact absurd hxk (hn x hx)

theorem oneToken_run {h : History W} {k : Ty W} (hp : OneToken h) (asgs : List (LLCursorAssignment (Val k)))
    (hk : (k ≠ .textTag ∧ k ≠ .clauseKeyword) ∨ ∀ a ∈ asgs, a.start_idx = a.end_idx) :
    OneToken (h ++ asgs.map (recOf k)) := by
  intro x hx hxk
  rcases List.mem_append.1 hx with hx | hx
  · exact hp x hx hxk
  · obtain ⟨a, ha, rfl⟩ := List.mem_map.1 hx
    rcases hk with ⟨h1, h2⟩ | hk
    · rcases hxk with h | h
      · exact absurd h h2
      · exact absurd h h1
    · exact hk a ha

/-- the query for a type assigned for the first time, on distinct ranges -/
theorem query_new {l : LLLine W} {h : History W} {k : Ty W} {asgs : List (LLCursorAssignment (Val k))}
    (rep : Rep l (h ++ asgs.map (recOf k))) (hn : ∀ x ∈ h, x.ty ≠ k)
    (hp : asgs.Pairwise (fun a b => a.end_idx < b.start_idx)) (ho : ∀ a ∈ asgs, a.start_idx ≤ a.end_idx) :
    l.query k = .ok (asgs.map (fun a =>
      ((a.start_idx, a.end_idx), coveredText l.ll_tokens (a.start_idx, a.end_idx), [a.value]))) := by
  have hnd : (asgs.map (fun a => (a.start_idx, a.end_idx))).Nodup := by
    rw [List.nodup_iff_pairwise_ne, List.pairwise_map]
    refine hp.imp_of_mem ?_
    intro a b ha hb hab he
    have := ho a ha
    simp only [Prod.mk.injEq] at he
    omega
  obtain ⟨hb1, hb2⟩ := blocks_history k (fun a : LLCursorAssignment (Val k) => (a.start_idx, a.end_idx))
    (fun a => [recOf k a]) asgs hnd (by
      intro x _ y hy; rw [List.mem_singleton] at hy; subst hy; rfl)
  have hfm : asgs.map (recOf k) = asgs.flatMap (fun a => [recOf k a]) := by rw [List.map_eq_flatMap]
  have hv : ∀ a : LLCursorAssignment (Val k), valuesOf k (a.start_idx, a.end_idx) [recOf k a] = [a.value] :=
    fun a => valuesOf_snoc_self k (a.start_idx, a.end_idx) [] a.value
  have hranges : rangesOf k (h ++ asgs.map (recOf k)) = asgs.map (fun a => (a.start_idx, a.end_idx)) := by
    rw [rangesOf_append_of_none k _ _ hn, hfm, hb1, List.filter_eq_self.2]
    intro a _
    simp only [hv]; rfl
  rw [rep_query rep k, hranges, List.map_map]
  · congr 1
    apply List.map_congr_left
    intro a ha
    simp only [Function.comp]
    rw [valuesOf_append, valuesOf_none k _ _ hn, List.nil_append, hfm, hb2 a ha, hv]
  · rw [hranges]
    intro r hr
    obtain ⟨a, ha, rfl⟩ := List.mem_map.1 hr
    have := ho a ha
    simp only; omega

end LNlp
