import Verif.Lemmas.Sentences
import Verif.Spec.ManySentences
/- Clauses of a line made of many sentences. -/
namespace LNlp
variable {W : World}

section
variable {l lx ly : LLLine W} (A : Appended l lx ly) {r : ClauseKeywordResolver} (E : EndsSentence r lx)
include A E

theorem Appended.hasPart : HasPart r l ↔ HasPart r lx ∨ HasPart r ly := by
  constructor
  · rintro ⟨a, b, h⟩
    rcases (A.run E).1 h with h | ⟨a', b', _, _, h⟩
    · exact .inl ⟨_, _, h⟩
    · exact .inr ⟨_, _, h⟩
  · rintro (⟨a, b, h⟩ | ⟨a, b, h⟩)
    · exact ⟨_, _, A.runL E h⟩
    · exact ⟨_, _, A.runR E h⟩

theorem Appended.afterThenL {i : Nat} (hi : i < lx.ll_tokens.length) : AfterThen r l i ↔ AfterThen r lx i := by
  constructor
  · rintro ⟨a, b, h, h1, h2, hf⟩
    rcases (A.run E).1 h with h | ⟨a', b', rfl, rfl, h⟩
    · exact ⟨a, b, h, h1, h2, (A.followsL (by omega) _).1 hf⟩
    · omega
  · rintro ⟨a, b, h, h1, h2, hf⟩
    exact ⟨a, b, A.runL E h, h1, h2, (A.followsL (by omega) _).2 hf⟩

theorem Appended.afterThenR (i : Nat) : AfterThen r l (lx.ll_tokens.length + i) ↔ AfterThen r ly i := by
  constructor
  · rintro ⟨a, b, h, h1, h2, hf⟩
    rcases (A.run E).1 h with h | ⟨a', b', rfl, rfl, hr⟩
    · have := h.lt
      omega
    · exact ⟨a', b', hr, by omega, by omega, (A.followsR E _ _).1 hf⟩
  · rintro ⟨a, b, h, h1, h2, hf⟩
    exact ⟨_, _, A.runR E h, by omega, by omega, (A.followsR E _ _).2 hf⟩

end

/-! ### only the tokens count -/

section
variable {l l' : LLLine W} (h : l.ll_tokens.map (·.token) = l'.ll_tokens.map (·.token)) (r : ClauseKeywordResolver)
include h

theorem textAt_same (i : Nat) : textAt l i = textAt l' i := by rw [textAt_token, textAt_token, h]
theorem tagAt_same (i : Nat) : tagAt l i = tagAt l' i := by rw [tagAt_token, tagAt_token, h]
theorem length_same : l.ll_tokens.length = l'.ll_tokens.length := by simpa using congrArg List.length h
theorem keywordAt_same (i : Nat) (kw : ClauseKeyword) : KeywordAt r l i kw ↔ KeywordAt r l' i kw := by
  unfold KeywordAt; rw [textAt_same h]
theorem separates_same (i : Nat) : Separates r l i ↔ Separates r l' i := by
  unfold Separates; simp only [keywordAt_same h, tagAt_same h]
theorem isRun_same (a b : Nat) : IsRun r l a b ↔ IsRun r l' a b := by
  constructor
  · rintro ⟨h1, h2, h3, h4, h5⟩
    simp only [separates_same h, length_same h] at h2 h3 h4 h5
    exact ⟨h1, h2, h3, h4, h5⟩
  · rintro ⟨h1, h2, h3, h4, h5⟩
    simp only [← separates_same h, ← length_same h] at h2 h3 h4 h5
    exact ⟨h1, h2, h3, h4, h5⟩
theorem strip_same (a b i j : Nat) : Strip l a b i j ↔ Strip l' a b i j := by
  constructor
  · rintro ⟨h1, h2, h3⟩
    rw [tagAt_same h] at h1 h2
    exact ⟨h1, h2, h3⟩
  · rintro ⟨h1, h2, h3⟩
    rw [← tagAt_same h] at h1 h2
    exact ⟨h1, h2, h3⟩
theorem follows_same (a : Nat) (kw : ClauseKeyword) : Follows r l a kw ↔ Follows r l' a kw := by
  unfold Follows; rw [keywordAt_same h]
theorem clauseAt_same (i j : Nat) (kind : Clause) : ClauseAt r l i j kind ↔ ClauseAt r l' i j kind := by
  have e : ∀ a, runKind r l a = runKind r l' a := by
    intro a
    have hO : OnlyRun r l a ↔ OnlyRun r l' a := by unfold OnlyRun; simp only [isRun_same h]
    have hC : ConditionBefore r l a ↔ ConditionBefore r l' a := by
      unfold ConditionBefore; simp only [isRun_same h, strip_same h, follows_same h]
    unfold runKind
    rw [propext hO, propext hC, propext (follows_same h r a .ConditionStart), propext (follows_same h r a .Then)]
  rw [clauseAt_iff, clauseAt_iff]
  simp only [isRun_same h, strip_same h, e]
theorem covered_same (i j : Nat) : coveredText l.ll_tokens (i, j) = coveredText l'.ll_tokens (i, j) := by
  have e : ∀ (toks : List LLToken) (a b : Nat), coveredText toks (a, b) =
      ((((toks.map (·.token)).drop a).take (b + 1 - a)).map LToken.str).flatten := by
    intro toks a b
    unfold coveredText
    rw [← List.map_drop, ← List.map_take, List.map_map]; rfl
  rw [e, e, h]

end

theorem kindWithin_alone (t : Prop) (k : Clause) : kindWithin False False t k = k := by
  cases k <;> simp [kindWithin]

theorem kindWithin_twice {m1 c1 m2 c2 t : Prop} (h : c1 → m1) (k : Clause) :
    kindWithin m2 c2 t (kindWithin m1 c1 t k) = kindWithin (m2 ∨ m1) (c2 ∨ c1) t k := by
  cases k with
  | Condition => rfl
  | TrailingEffect => rfl
  | LeadingEffect => by_cases h1 : c1 <;> by_cases h2 : c2 <;> simp [kindWithin, h1, h2]
  | Independent =>
    by_cases hm : m1
    · by_cases h1 : c1 <;> by_cases h2 : c2 <;> by_cases ht : t <;> simp [kindWithin, h1, h2, hm, ht]
    · have h1 : ¬ c1 := fun hc => hm (h hc)
      by_cases h2 : c2 <;> by_cases ht : t <;> by_cases h3 : m2 <;> simp [kindWithin, h1, h2, hm, ht, h3]

theorem hasPart_of_clause {r : ClauseKeywordResolver} {l : LLLine W} {i j : Nat} {k : Clause} (h : ClauseAt r l i j k) : HasPart r l := by
  obtain ⟨a, b, hr, _⟩ := clauseAt_iff.1 h
  exact ⟨a, b, hr⟩

theorem clauseAt_lt {r : ClauseKeywordResolver} {l : LLLine W} {i j : Nat} {k : Clause} (h : ClauseAt r l i j k) :
    i < l.ll_tokens.length ∧ j < l.ll_tokens.length := by
  obtain ⟨a, b, hr, hs, _⟩ := clauseAt_iff.1 h
  have := strip_bounds hs
  have := hr.lt
  omega

/-- a line made of several lines: its clauses, its parts, and what follows a then word -/
theorem clauseAt_all (r : ClauseKeywordResolver) : ∀ (ls : List (LLLine W)), ls ≠ [] → SentencesEnd r ls → ∀ (l : LLLine W),
    l.ll_tokens.map (·.token) = ls.flatMap (fun x => x.ll_tokens.map (·.token)) →
    (HasPart r l ↔ ∃ o ∈ ls, HasPart r o) ∧
    (∀ before p behind, ls = before ++ p :: behind → ∀ i, i < p.ll_tokens.length →
      (AfterThen r l (tokenCount before + i) ↔ AfterThen r p i)) ∧
    (∀ before p behind, ls = before ++ p :: behind → ∀ i j, i < p.ll_tokens.length → j < p.ll_tokens.length →
      coveredText l.ll_tokens (tokenCount before + i, tokenCount before + j) = coveredText p.ll_tokens (i, j)) ∧
    ∀ i j kind, ClauseAt r l i j kind ↔ ∃ before p behind i' j' k, ls = before ++ p :: behind ∧ i = tokenCount before + i' ∧
      j = tokenCount before + j' ∧ ClauseAt r p i' j' k ∧
      kind = kindWithin (∃ o ∈ before ++ behind, HasPart r o) (∃ o ∈ before, ∃ a b, ClauseAt r o a b .Condition) (AfterThen r p i') k
  | [], ne, _, _, _ => absurd rfl ne
  | [p], _, _, l, ht => by
    have ht : l.ll_tokens.map (·.token) = p.ll_tokens.map (·.token) := by simpa using ht
    have one : ∀ {before behind : List (LLLine W)} {p' : LLLine W}, [p] = before ++ p' :: behind → before = [] ∧ p' = p ∧ behind = [] := by
      intro before behind p' h
      cases before with
      | nil => simp only [List.nil_append, List.cons.injEq] at h; exact ⟨rfl, h.1.symm, h.2.symm⟩
      | cons a as => simp at h
    have hz : tokenCount ([] : List (LLLine W)) = 0 := rfl
    refine ⟨?_, ?_, ?_, ?_⟩
    · simp only [List.mem_singleton, exists_eq_left]
      unfold HasPart
      simp only [isRun_same ht]
    · intro before p' behind h i _
      obtain ⟨rfl, rfl, rfl⟩ := one h
      rw [hz, Nat.zero_add]
      unfold AfterThen
      simp only [isRun_same ht, follows_same ht]
    · intro before p' behind h i j _ _
      obtain ⟨rfl, rfl, rfl⟩ := one h
      rw [hz, Nat.zero_add, Nat.zero_add, covered_same ht]
    · intro i j kind
      rw [clauseAt_same ht]
      constructor
      · intro h
        refine ⟨[], p, [], i, j, kind, rfl, by simp [hz], by simp [hz], h, ?_⟩
        simp [kindWithin_alone]
      · rintro ⟨before, p', behind, i', j', k, h, rfl, rfl, hc, rfl⟩
        obtain ⟨rfl, rfl, rfl⟩ := one h
        simpa [kindWithin_alone, hz] using hc
  | p :: q :: rest, _, ⟨E, hE⟩, l, ht => by
    obtain ⟨ly, hly⟩ : ∃ ly : LLLine W, ly.ll_tokens.map (·.token) = (q :: rest).flatMap (fun x => x.ll_tokens.map (·.token)) :=
      ⟨⟨(q :: rest).flatMap (·.ll_tokens), l.attrs⟩, by simp only [List.map_flatMap]⟩
    have A : Appended l p ly := by
      unfold Appended
      rw [hly, ht, List.flatMap_cons]
    obtain ⟨ihP, ihT, ihX, ihC⟩ := clauseAt_all r (q :: rest) (by simp) hE ly hly
    have count : ∀ before : List (LLLine W), tokenCount (p :: before) = p.ll_tokens.length + tokenCount before := by
      intro before; simp [tokenCount]
    have zero : tokenCount ([] : List (LLLine W)) = 0 := rfl
    have split : ∀ {before behind : List (LLLine W)} {p' : LLLine W}, p :: q :: rest = before ++ p' :: behind →
        (before = [] ∧ p' = p ∧ behind = q :: rest) ∨ ∃ b, before = p :: b ∧ q :: rest = b ++ p' :: behind := by
      intro before behind p' h
      cases before with
      | nil => simp only [List.nil_append, List.cons.injEq] at h; exact .inl ⟨rfl, h.1.symm, h.2.symm⟩
      | cons a as =>
        rw [List.cons_append, List.cons.injEq] at h
        exact .inr ⟨as, by rw [h.1], h.2⟩
    refine ⟨?_, ?_, ?_, ?_⟩
    · rw [A.hasPart E, ihP]
      simp
    · intro before p' behind h i hi
      rcases split h with ⟨rfl, rfl, rfl⟩ | ⟨b, rfl, hb⟩
      · rw [zero, Nat.zero_add]
        exact A.afterThenL E hi
      · rw [count, Nat.add_assoc, A.afterThenR E]
        exact ihT b p' behind hb i hi
    · intro before p' behind h i j hi hj
      rcases split h with ⟨rfl, rfl, rfl⟩ | ⟨b, rfl, hb⟩
      · rw [zero, Nat.zero_add, Nat.zero_add]
        exact A.coveredL hj
      · rw [count, Nat.add_assoc, Nat.add_assoc, A.coveredR]
        exact ihX b p' behind hb i j hi hj
    · intro i j kind
      have twice : ∀ {b behind : List (LLLine W)} {p' : LLLine W} {i' j' : Nat} {k : Clause}, q :: rest = b ++ p' :: behind →
          ClauseAt r p' i' j' k →
          kindWithin (HasPart r p) (∃ i j, ClauseAt r p i j .Condition) (AfterThen r ly (tokenCount b + i'))
            (kindWithin (∃ o ∈ b ++ behind, HasPart r o) (∃ o ∈ b, ∃ a b, ClauseAt r o a b .Condition) (AfterThen r p' i') k) =
          kindWithin (∃ o ∈ (p :: b) ++ behind, HasPart r o) (∃ o ∈ p :: b, ∃ a b, ClauseAt r o a b .Condition) (AfterThen r p' i') k := by
        intro b behind p' i' j' k hb hc
        rw [propext (ihT b p' behind hb i' (clauseAt_lt hc).1), kindWithin_twice]
        · simp only [List.cons_append, List.mem_cons, exists_eq_or_imp]
        · rintro ⟨o, ho, _, _, hk⟩
          exact ⟨o, by simp [ho], hasPart_of_clause hk⟩
      rw [A.clauseAt E]
      constructor
      · rintro (⟨k, hc, rfl⟩ | ⟨i', j', k, rfl, rfl, hc, rfl⟩)
        · refine ⟨[], p, q :: rest, i, j, k, rfl, by simp [zero], by simp [zero], hc, ?_⟩
          rw [propext ihP]
          simp only [List.nil_append, List.not_mem_nil, false_and, exists_false]
        · obtain ⟨b, p', behind, i2, j2, k2, hb, rfl, rfl, hc2, rfl⟩ := (ihC i' j' k).1 hc
          refine ⟨p :: b, p', behind, i2, j2, k2, by rw [hb]; rfl, by rw [count]; omega, by rw [count]; omega, hc2, ?_⟩
          exact twice hb hc2
      · rintro ⟨before, p', behind, i', j', k, h, rfl, rfl, hc, rfl⟩
        rcases split h with ⟨rfl, rfl, rfl⟩ | ⟨b, rfl, hb⟩
        · refine .inl ⟨k, by simpa [zero] using hc, ?_⟩
          rw [propext ihP, zero, Nat.zero_add]
          simp only [List.nil_append, List.not_mem_nil, false_and, exists_false]
        · refine .inr ⟨tokenCount b + i', tokenCount b + j', _, by rw [count]; omega, by rw [count]; omega,
            (ihC _ _ _).2 ⟨b, p', behind, i', j', k, hb, rfl, rfl, hc, rfl⟩, ?_⟩
          exact (twice hb hc).symm

end LNlp
