import Verif.Props.ManySentences
/- Lemmas for C161: editing some of the parts of a text. -/
namespace LNlp
variable {W : World}

theorem tokenCount_append (a b : List (LLLine W)) : tokenCount (a ++ b) = tokenCount a + tokenCount b := by
  simp [tokenCount]

theorem analysedAll_exists {p : Nat → Nat} {ss : List (Stage W)} : ∀ {ts : List Str}, (∀ t ∈ ts, ∃ l, Analysed p ss t l) →
    ∃ ls, AnalysedAll p ss ts ls
  | [], _ => ⟨[], trivial⟩
  | t :: ts, h => by
    obtain ⟨l, hl⟩ := h t (by simp)
    obtain ⟨ls, hls⟩ := analysedAll_exists (ts := ts) (fun u hu => h u (by simp [hu]))
    exact ⟨l :: ls, hl, hls⟩

theorem analysedAll_append {p : Nat → Nat} {ss : List (Stage W)} : ∀ {ts us : List Str} {xs ys : List (LLLine W)},
    AnalysedAll p ss ts xs → AnalysedAll p ss us ys → AnalysedAll p ss (ts ++ us) (xs ++ ys)
  | [], _, [], _, _, h => h
  | [], _, _ :: _, _, h, _ => h.elim
  | _ :: _, _, [], _, h, _ => h.elim
  | _ :: _, _, _ :: _, _, h, h' => ⟨h.1, analysedAll_append h.2 h'⟩

theorem queriedAll_append (k : Ty W) : ∀ (xs ys : List (LLLine W)) (n : Nat),
    queriedAll k n (xs ++ ys) = queriedAll k n xs ++ queriedAll k (n + tokenCount xs) ys
  | [], _, _ => rfl
  | x :: xs, ys, n => by
    simp only [List.cons_append, queriedAll, List.append_assoc]
    rw [queriedAll_append k xs ys, tokenCount, tokenCount, List.map_cons, List.sum_cons, Nat.add_assoc]

theorem fromPart_front {r : ClauseKeywordResolver} {A M : List (WithClauses W)} {i j : Nat} {text : Str} {kind : Clause}
    (hj : j < tokenCount (A.map (·.1))) : FromPart r (A ++ M) i j text kind ↔
    ∃ before p behind i' j' k, A = before ++ p :: behind ∧ i = tokenCount (before.map (·.1)) + i' ∧
      j = tokenCount (before.map (·.1)) + j' ∧ ((i', j'), text, [k]) ∈ p.2 ∧
      kind = kindWithin ((∃ o ∈ before ++ behind, HasPart r o.1) ∨ ∃ o ∈ M, HasPart r o.1) (∃ o ∈ before, HasCondition o)
        (AfterThen r p.1 i') k := by
  constructor
  · rintro ⟨B, p, C, i', j', k, h, hi, rfl, hm, hk⟩
    rcases List.append_eq_append_iff.1 h with ⟨a, h1, h2⟩ | ⟨a, h1, h2⟩
    · exfalso
      rw [h1, List.map_append, tokenCount_append] at hj
      omega
    · cases a with
      | nil =>
        exfalso
        rw [List.append_nil] at h1
        rw [h1] at hj
        omega
      | cons a as =>
        rw [List.cons_append] at h2
        cases h2
        refine ⟨B, p, as, i', j', k, h1, hi, rfl, hm, ?_⟩
        rw [hk]
        congr 1
        simp only [List.mem_append, or_and_right, exists_or, or_assoc]
  · rintro ⟨B, p, as, i', j', k, h1, hi, rfl, hm, hk⟩
    refine ⟨B, p, as ++ M, i', j', k, by rw [h1]; simp, hi, rfl, hm, ?_⟩
    rw [hk]
    congr 1
    simp only [List.mem_append, or_and_right, exists_or, or_assoc]

/-- the clauses of the parts lie in the parts -/
def ClausesInside (A : List (WithClauses W)) : Prop :=
  ∀ p ∈ A, ∀ i j text k, ((i, j), text, [k]) ∈ p.2 → i ≤ j ∧ j < p.1.ll_tokens.length

theorem fromPart_back {r : ClauseKeywordResolver} {A B : List (WithClauses W)} (ins : ClausesInside A) {i j : Nat} {text : Str}
    {kind : Clause} : FromPart r (A ++ B) (tokenCount (A.map (·.1)) + i) (tokenCount (A.map (·.1)) + j) text kind ↔
    ∃ before p behind i' j' k, B = before ++ p :: behind ∧ i = tokenCount (before.map (·.1)) + i' ∧
      j = tokenCount (before.map (·.1)) + j' ∧ ((i', j'), text, [k]) ∈ p.2 ∧
      kind = kindWithin ((∃ o ∈ A, HasPart r o.1) ∨ ∃ o ∈ before ++ behind, HasPart r o.1)
        ((∃ o ∈ A, HasCondition o) ∨ ∃ o ∈ before, HasCondition o) (AfterThen r p.1 i') k := by
  have props : ∀ {Q : WithClauses W → Prop} {xs ys zs : List (WithClauses W)},
      (∃ o ∈ (xs ++ ys) ++ zs, Q o) = ((∃ o ∈ xs, Q o) ∨ ∃ o ∈ ys ++ zs, Q o) := by
    intro Q xs ys zs
    simp only [List.mem_append, or_and_right, exists_or, or_assoc]
  have props2 : ∀ {Q : WithClauses W → Prop} {xs ys : List (WithClauses W)},
      (∃ o ∈ xs ++ ys, Q o) = ((∃ o ∈ xs, Q o) ∨ ∃ o ∈ ys, Q o) := by
    intro Q xs ys
    simp only [List.mem_append, or_and_right, exists_or]
  constructor
  · rintro ⟨F, p, C, i', j', k, h, hi, hj, hm, hk⟩
    rcases List.append_eq_append_iff.1 h with ⟨a, h1, h2⟩ | ⟨a, h1, h2⟩
    · refine ⟨a, p, C, i', j', k, h2, ?_, ?_, hm, ?_⟩
      · rw [h1, List.map_append, tokenCount_append] at hi; omega
      · rw [h1, List.map_append, tokenCount_append] at hj; omega
      · rw [hk, h1, props, props2 (Q := HasCondition)]
    · cases a with
      | nil =>
        rw [List.append_nil] at h1
        refine ⟨[], p, C, i', j', k, by simpa using h2.symm, ?_, ?_, hm, ?_⟩
        · rw [h1] at hi; simp [tokenCount] at hi ⊢; omega
        · rw [h1] at hj; simp [tokenCount] at hj ⊢; omega
        · rw [hk, h1, props2]; simp
      | cons a as =>
        exfalso
        rw [List.cons_append] at h2
        cases h2
        obtain ⟨h3, h4⟩ := ins p (by rw [h1]; simp) _ _ _ _ hm
        rw [h1, List.map_append, tokenCount_append, List.map_cons] at hi
        simp only [tokenCount, List.map_cons, List.sum_cons] at hi
        omega
  · rintro ⟨F, p, C, i', j', k, h, rfl, rfl, hm, hk⟩
    refine ⟨A ++ F, p, C, i', j', k, by rw [h]; simp, ?_, ?_, hm, ?_⟩
    · rw [List.map_append, tokenCount_append]; omega
    · rw [List.map_append, tokenCount_append]; omega
    · rw [hk, props, props2 (Q := HasCondition)]

end LNlp
