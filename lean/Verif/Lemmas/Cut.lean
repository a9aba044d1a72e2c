import Verif.Lemmas.Again
/- Giving the words of a text as one input or as several. -/
namespace LNlp
variable {W : World}

/-- when a whole creation loop succeeds, and with what -/
theorem createLoop_iff {size : Str → Nat} : ∀ (input : List (InputToken W)) (st st' : CreateSt W),
    foldR (createStep W size) st input = .ok st' ↔
      (∀ t ∈ input, GoodInput W t) ∧
      ∃ out, foldR (pushTokens W) (st.lltokens, st.current_size) (input.flatMap (tokensOf W size)) = .ok out ∧
        st' = { spans := st.spans ++ spansFrom W size st.lltokens.length input, lltokens := out.1, current_size := out.2 }
  | [], st, st' => by
    simp only [foldR, List.flatMap_nil, List.not_mem_nil, false_imp_iff, implies_true, true_and, spansFrom,
      List.append_nil, Except.ok.injEq, exists_eq_left']
    exact eq_comm
  | t :: ts, st, st' => by
    have step : ∀ st1, createStep W size st t = .ok st1 ↔ GoodInput W t ∧
        ∃ out, foldR (pushTokens W) (st.lltokens, st.current_size) (tokensOf W size t) = .ok out ∧
          st1 = ⟨st.spans ++ [(st.lltokens.length, st.lltokens.length + (tokensOf W size t).length - 1, t.attrList)],
            out.1, out.2⟩ := by
      intro st1
      constructor
      · intro h
        obtain ⟨hg, _⟩ := createStep_inv h
        refine ⟨hg, ?_⟩
        obtain ⟨h1, h2⟩ := inputTokens_ok size hg
        have hne : (tokensOf W size t).isEmpty = false := by
          cases hh : tokensOf W size t with
          | nil => exact absurd hh h2
          | cons _ _ => rfl
        simp only [createStep, h1, hne] at h
        cases hp : foldR (pushTokens W) (st.lltokens, st.current_size) (tokensOf W size t) with
        | error e => simp [hp] at h
        | ok out =>
          simp only [hp, Bool.false_eq_true, if_false, Except.ok.injEq] at h
          refine ⟨out, rfl, ?_⟩
          rw [← h, pushTokens_inv _ _ _ _ hp]
          simp
      · rintro ⟨hg, out, hp, rfl⟩
        obtain ⟨h1, h2⟩ := inputTokens_ok size hg
        have hne : (tokensOf W size t).isEmpty = false := by
          cases hh : tokensOf W size t with
          | nil => exact absurd hh h2
          | cons _ _ => rfl
        simp only [createStep, h1, hne, hp, Bool.false_eq_true, if_false, Except.ok.injEq]
        rw [pushTokens_inv _ _ _ _ hp]
        simp
    have len : ∀ out, foldR (pushTokens W) (st.lltokens, st.current_size) (tokensOf W size t) = .ok out →
        out.1.length = st.lltokens.length + (tokensOf W size t).length := by
      intro out hp
      rw [pushTokens_inv _ _ _ _ hp]
      simp
    simp only [foldR, List.flatMap_cons, foldR_append, spansFrom]
    constructor
    · intro h
      cases hs : createStep W size st t with
      | error e => rw [hs] at h; cases h
      | ok st1 =>
        rw [hs] at h
        obtain ⟨hg, out, hp, rfl⟩ := (step st1).1 hs
        obtain ⟨hg', out', hp', rfl⟩ := (createLoop_iff ts _ _).1 h
        refine ⟨by intro x hx; rcases List.mem_cons.1 hx with rfl | hx; exact hg; exact hg' x hx, out', ?_, ?_⟩
        · rw [hp]; exact hp'
        · simp only [len out hp, List.append_assoc, List.cons_append, List.nil_append]
    · rintro ⟨hg, out', hp', rfl⟩
      cases hp : foldR (pushTokens W) (st.lltokens, st.current_size) (tokensOf W size t) with
      | error e => rw [hp] at hp'; cases hp'
      | ok out =>
        rw [hp] at hp'
        rw [(step _).2 ⟨hg t (by simp), out, hp, rfl⟩]
        refine (createLoop_iff ts _ _).2 ⟨fun x hx => hg x (by simp [hx]), out', hp', ?_⟩
        simp only [len out hp, List.append_assoc, List.cons_append, List.nil_append]

/-- spans without attributes add nothing -/
theorem addSpans_filter : ∀ (spans : List (Nat × Nat × List (AnyAttribute W))) (l : LLLine W),
    foldR (fun (l : LLLine W) (s : Nat × Nat × List (AnyAttribute W)) => l.addAnyAttrs s.1 s.2.1 s.2.2) l spans =
    foldR (fun (l : LLLine W) (s : Nat × Nat × List (AnyAttribute W)) => l.addAnyAttrs s.1 s.2.1 s.2.2) l
      (spans.filter (fun s => !s.2.2.isEmpty))
  | [], _ => rfl
  | s :: spans, l => by
    simp only [List.filter_cons]
    cases hs : s.2.2 with
    | nil =>
      simp only [List.isEmpty_nil, Bool.not_true, Bool.false_eq_true, if_false, foldR, hs]
      exact addSpans_filter spans l
    | cons a as =>
      simp only [List.isEmpty_cons, Bool.not_false, if_true, foldR, hs]
      cases l.addAnyAttrs s.1 s.2.1 (a :: as) with
      | error e => rfl
      | ok l1 => exact addSpans_filter spans l1

/-- inputs with the same tokens and the same attributes at the same places give the same line -/
theorem create_same {size : Str → Nat} {i1 i2 : List (InputToken W)}
    (hg : (∀ t ∈ i1, GoodInput W t) ↔ ∀ t ∈ i2, GoodInput W t)
    (ht : i1.flatMap (tokensOf W size) = i2.flatMap (tokensOf W size))
    (hs : (spansFrom W size 0 i1).filter (fun s => !s.2.2.isEmpty) =
      (spansFrom W size 0 i2).filter (fun s => !s.2.2.isEmpty)) (l : LLLine W) :
    createLineFromInputTokens W i1 size = .ok l ↔ createLineFromInputTokens W i2 size = .ok l := by
  have half : ∀ (i1 i2 : List (InputToken W)), ((∀ t ∈ i1, GoodInput W t) → ∀ t ∈ i2, GoodInput W t) →
      i1.flatMap (tokensOf W size) = i2.flatMap (tokensOf W size) →
      (spansFrom W size 0 i1).filter (fun s => !s.2.2.isEmpty) =
      (spansFrom W size 0 i2).filter (fun s => !s.2.2.isEmpty) →
      createLineFromInputTokens W i1 size = .ok l → createLineFromInputTokens W i2 size = .ok l := by
    intro i1 i2 hg ht hs h
    unfold createLineFromInputTokens at h ⊢
    cases hf : foldR (createStep W size) { spans := [], lltokens := [], current_size := 0 } i1 with
    | error e => rw [hf] at h; cases h
    | ok st =>
      obtain ⟨g1, out, hp, rfl⟩ := (createLoop_iff _ _ _).1 hf
      rw [ht] at hp
      have hf2 := (createLoop_iff (size := size) i2 { spans := [], lltokens := [], current_size := 0 } _).2
        ⟨hg g1, out, hp, rfl⟩
      rw [hf2]
      rw [hf] at h
      simp only [List.nil_append, List.length_nil] at h ⊢
      cases hn : LLLine.new (W := W) out.1 with
      | error e => rw [hn] at h; cases h
      | ok line =>
        rw [hn] at h
        simp only at h ⊢
        rw [addSpans_filter] at h ⊢
        rw [← hs]
        exact h
  exact ⟨half i1 i2 hg.1 ht hs, half i2 i1 hg.2 ht.symm hs.symm⟩

theorem spansFrom_append (size : Str → Nat) : ∀ (a b : List (InputToken W)) (i : Nat),
    spansFrom W size i (a ++ b) = spansFrom W size i a ++ spansFrom W size (i + (a.flatMap (tokensOf W size)).length) b
  | [], b, i => by simp [spansFrom]
  | t :: a, b, i => by
    simp only [List.cons_append, spansFrom, spansFrom_append size a b, List.flatMap_cons, List.length_append,
      Nat.add_assoc]

theorem spansFrom_bare (size : Str → Nat) : ∀ (a : List (InputToken W)) (i : Nat), (∀ t ∈ a, t.attrList = []) →
    (spansFrom W size i a).filter (fun s => !s.2.2.isEmpty) = []
  | [], _, _ => rfl
  | t :: a, i, h => by
    simp only [spansFrom, List.filter_cons, h t (by simp), List.isEmpty_nil, Bool.not_true, Bool.false_eq_true, if_false]
    exact spansFrom_bare size a _ (fun x hx => h x (by simp [hx]))

end LNlp
