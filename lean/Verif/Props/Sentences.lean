import Verif.Lemmas.Sentences
import Verif.Props.EndToEnd
import Verif.Props.Piecewise
/-
C105: clauses of several sentences in one line.
-/
namespace LNlp
variable {W : World}

/-! ### C105 -/

/-- C105: if the line of `xs` ends with punctuation, the clauses of the line of `xs ++ ys` are on the ranges
and have the texts of the clauses of the two parts, and their kinds are: a `Condition` and a
`TrailingEffect` stay; a `LeadingEffect` in `ys` becomes a `TrailingEffect` if there is a condition in `xs`; an
`Independent` clause stays only if the other part has nothing but separators, and otherwise becomes a
`TrailingEffect` if a then word is before it or a condition is in the part before it, else a `LeadingEffect`. -/
theorem C105_sentences {size : Str → Nat} {xs ys : List (InputToken W)} {l lx ly : LLLine W}
    (wf : ∀ t ∈ xs ++ ys, t.WF) (ok : createLineFromInputTokens W (xs ++ ys) size = .ok l)
    (okx : createLineFromInputTokens W xs size = .ok lx) (oky : createLineFromInputTokens W ys size = .ok ly)
    (n1 : NoCustom .textTag (xs ++ ys)) (n2 : NoCustom .clauseKeyword (xs ++ ys)) (n3 : NoCustom .clause (xs ++ ys))
    (r : ClauseKeywordResolver) (E : EndsSentence r lx) (ney : ly.ll_tokens ≠ [])
    {q qx qy : List (LRange × Str × List Clause)} (hq : ClauseQuery r l q) (hqx : ClauseQuery r lx qx)
    (hqy : ClauseQuery r ly qy) (i j : Nat) (text : Str) (kind : Clause) :
    ((i, j), text, [kind]) ∈ q ↔
      (∃ k, ((i, j), text, [k]) ∈ qx ∧ kind = kindWithin (HasPart r ly) False (AfterThen r lx i) k) ∨
      (∃ i' j' k, i = lx.ll_tokens.length + i' ∧ j = lx.ll_tokens.length + j' ∧ ((i', j'), text, [k]) ∈ qy ∧
        kind = kindWithin (HasPart r lx) (∃ c ∈ qx, c.2.2 = [.Condition]) (AfterThen r ly i') k) := by
  have wfx : ∀ t ∈ xs, t.WF := fun t ht => wf t (by simp [ht])
  have wfy : ∀ t ∈ ys, t.WF := fun t ht => wf t (by simp [ht])
  obtain ⟨_, ht, _⟩ := create_inv wf ok
  obtain ⟨_, htx, _⟩ := create_inv wfx okx
  obtain ⟨_, hty, _⟩ := create_inv wfy oky
  have A : Appended l lx ly := by
    unfold Appended
    rw [ht, htx, hty, layoutM_tokens, layoutM_tokens, layoutM_tokens, List.flatMap_append, List.map_append]
  have mono : ∀ {k : Ty W}, NoCustom k (xs ++ ys) → NoCustom k xs ∧ NoCustom k ys :=
    fun h => ⟨fun t ht => h t (by simp [ht]), fun t ht => h t (by simp [ht])⟩
  have nex : lx.ll_tokens ≠ [] := List.length_pos_iff.1 E.ne
  have ne : l.ll_tokens ≠ [] := List.length_pos_iff.1 (by rw [A.length]; have := E.ne; omega)
  have pin : ∀ {input : List (InputToken W)} {l' : LLLine W} {q' : List (LRange × Str × List Clause)}, (∀ t ∈ input, t.WF) →
      createLineFromInputTokens W input size = .ok l' → NoCustom .textTag input → NoCustom .clauseKeyword input →
      NoCustom .clause input → l'.ll_tokens ≠ [] → ClauseQuery r l' q' → ∀ i j text vs, ((i, j), text, vs) ∈ q' ↔
        text = coveredText l'.ll_tokens (i, j) ∧ ∃ kind, vs = [kind] ∧ ClauseAt r l' i j kind := by
    intro input l' q' wf ok n1 n2 n3 ne hq
    obtain ⟨p1, p2, l1, l2, e1, e2, e3⟩ := hq
    obtain ⟨l1', l2', q2, f1, f2, f3, _, f4⟩ := C94_clauses_of_input wf ok n1 n2 n3 ne r p1 p2
    rw [e1] at f1; cases f1
    rw [e2] at f2; cases f2
    rw [e3] at f3; cases f3
    exact f4
  have M := pin wf ok n1 n2 n3 ne hq
  have Mx := pin wfx okx (mono n1).1 (mono n2).1 (mono n3).1 nex hqx
  have My := pin wfy oky (mono n1).2 (mono n2).2 (mono n3).2 ney hqy
  have single : ∀ {l' : LLLine W} {i j : Nat} {k : Clause},
      (∃ kind, [k] = [kind] ∧ ClauseAt r l' i j kind) ↔ ClauseAt r l' i j k := by
    intro l' i j k
    constructor
    · rintro ⟨k', e, h⟩; cases e; exact h
    · exact fun h => ⟨k, rfl, h⟩
  have hlt : ∀ {i j k}, ClauseAt r lx i j k → j < lx.ll_tokens.length := by
    intro i j k h
    obtain ⟨a, b, hr, hs, _⟩ := clauseAt_iff.1 h
    have := strip_bounds hs
    have := hr.lt
    omega
  have hc : (∃ c ∈ qx, c.2.2 = [.Condition]) ↔ ∃ i j, ClauseAt r lx i j .Condition := by
    constructor
    · rintro ⟨⟨⟨i, j⟩, t, vs⟩, hm, he⟩
      simp only at he
      subst he
      exact ⟨i, j, single.1 ((Mx ..).1 hm).2⟩
    · rintro ⟨i, j, h⟩
      exact ⟨((i, j), _, [.Condition]), (Mx ..).2 ⟨rfl, _, rfl, h⟩, rfl⟩
  rw [propext hc]
  simp only [M, Mx, My, single]
  rw [A.clauseAt E]
  constructor
  · rintro ⟨rfl, ⟨k, h, rfl⟩ | ⟨i', j', k, rfl, rfl, h, rfl⟩⟩
    · exact .inl ⟨k, ⟨A.coveredL (hlt h), h⟩, rfl⟩
    · exact .inr ⟨i', j', k, rfl, rfl, ⟨A.coveredR i' j', h⟩, rfl⟩
  · rintro (⟨k, ⟨rfl, h⟩, rfl⟩ | ⟨i', j', k, rfl, rfl, ⟨rfl, h⟩, rfl⟩)
    · exact ⟨(A.coveredL (hlt h)).symm, .inl ⟨k, h, rfl⟩⟩
    · exact ⟨(A.coveredR i' j').symm, .inr ⟨i', j', k, rfl, rfl, h, rfl⟩⟩

/-- `"if a."` and `"b,c"` -/
def Demo.ifA : List (InputToken Demo.W) := [.Text ['i', 'f', ' ', 'a', '.'] []]
def Demo.bC : List (InputToken Demo.W) := [.Text ['b', ',', 'c'] []]
def Demo.ifALine : LLLine Demo.W := Demo.getOk Demo.emptyLine (createLineFromInputTokens Demo.W Demo.ifA utf8Len)
def Demo.bCLine : LLLine Demo.W := Demo.getOk Demo.emptyLine (createLineFromInputTokens Demo.W Demo.bC utf8Len)
def Demo.ifABCLine : LLLine Demo.W := Demo.getOk Demo.emptyLine (createLineFromInputTokens Demo.W (Demo.ifA ++ Demo.bC) utf8Len)
theorem Demo.ifABC_wf : ∀ t ∈ Demo.ifA ++ Demo.bC, t.WF := by
  intro t ht a ha
  simp only [Demo.ifA, Demo.bC, List.cons_append, List.nil_append, List.mem_cons, List.not_mem_nil, or_false] at ht
  rcases ht with rfl | rfl <;> cases ha
theorem Demo.ifABC_noCustom (k : Ty Demo.W) : NoCustom k (Demo.ifA ++ Demo.bC) := by
  intro t ht a ha
  simp only [Demo.ifA, Demo.bC, List.cons_append, List.nil_append, List.mem_cons, List.not_mem_nil, or_false] at ht
  rcases ht with rfl | rfl <;> cases ha
theorem Demo.ifA_ends : EndsSentence Demo.kws Demo.ifALine := by
  refine ⟨by decide, rfl, ?_⟩
  rintro kw ⟨t, ht, hk⟩
  have : textAt Demo.ifALine (Demo.ifALine.ll_tokens.length - 1) = some ['.'] := rfl
  rw [this] at ht; cases ht
  cases kw <;> revert hk <;> simp only [IsKeyword] <;> decide
def Demo.clauseQ (l : LLLine Demo.W) : List (LRange × Str × List Clause) :=
  okD ((Demo.runOk (Demo.runOk l 0 (Demo.kws.resolver Demo.W)) 0 (clauseResolver Demo.W)).query .clause)
theorem Demo.ifA_q : ClauseQuery Demo.kws Demo.ifALine (Demo.clauseQ Demo.ifALine) := ⟨0, 0, _, _, rfl, rfl, rfl⟩
theorem Demo.bC_q : ClauseQuery Demo.kws Demo.bCLine (Demo.clauseQ Demo.bCLine) := ⟨0, 0, _, _, rfl, rfl, rfl⟩
theorem Demo.ifABC_q : ClauseQuery Demo.kws Demo.ifABCLine (Demo.clauseQ Demo.ifABCLine) := ⟨0, 0, _, _, rfl, rfl, rfl⟩

example := C105_sentences Demo.ifABC_wf (l := Demo.ifABCLine) (lx := Demo.ifALine) (ly := Demo.bCLine) (size := utf8Len) rfl rfl rfl
  (Demo.ifABC_noCustom _) (Demo.ifABC_noCustom _) (Demo.ifABC_noCustom _) Demo.kws Demo.ifA_ends (by intro h; cases h)
  Demo.ifABC_q Demo.ifA_q Demo.bC_q 5 5 ['b'] .TrailingEffect

/-- C105, the claim that an earlier sentence does not change the kinds of the clauses of a later one that is no
single clause -/
def C105_claim : Prop := ∀ (W : World) (size : Str → Nat) (xs ys : List (InputToken W)) (l lx ly : LLLine W)
  (r : ClauseKeywordResolver) (q qx qy : List (LRange × Str × List Clause)), (∀ t ∈ xs ++ ys, t.WF) →
  createLineFromInputTokens W (xs ++ ys) size = .ok l → createLineFromInputTokens W xs size = .ok lx →
  createLineFromInputTokens W ys size = .ok ly → (∀ k, NoCustom k (xs ++ ys)) → EndsSentence r lx →
  ClauseQuery r l q → ClauseQuery r lx qx → ClauseQuery r ly qy → ∀ i j text k, k ≠ Clause.Independent →
  ((i, j), text, [k]) ∈ qy → ((lx.ll_tokens.length + i, lx.ll_tokens.length + j), text, [k]) ∈ q

/-- C105: false — in `"if a.b,c"` the `b` is a `TrailingEffect` of the condition in the sentence before, in
`"b,c"` alone it is a `LeadingEffect`. -/
theorem C105_crosses_sentences : ¬ C105_claim := by
  intro claim
  have := claim Demo.W utf8Len Demo.ifA Demo.bC Demo.ifABCLine Demo.ifALine Demo.bCLine Demo.kws _ _ _ Demo.ifABC_wf rfl rfl rfl
    Demo.ifABC_noCustom Demo.ifA_ends Demo.ifABC_q Demo.ifA_q Demo.bC_q 0 0 ['b'] .LeadingEffect (by intro h; cases h)
    (by
      have : Demo.clauseQ Demo.bCLine = [((0, 0), ['b'], [.LeadingEffect]), ((2, 2), ['c'], [.LeadingEffect])] := rfl
      rw [this]; simp)
  have e : Demo.clauseQ Demo.ifABCLine =
    [((2, 2), ['a'], [.Condition]), ((4, 4), ['b'], [.TrailingEffect]), ((6, 6), ['c'], [.TrailingEffect])] := rfl
  rw [e] at this
  simp at this

/-- C105: without a condition in the earlier sentence, the clauses of a later one that is no single clause are
unchanged; and the clauses of an earlier sentence that is no single clause always are. -/
theorem C105_without_condition {size : Str → Nat} {xs ys : List (InputToken W)} {l lx ly : LLLine W}
    (wf : ∀ t ∈ xs ++ ys, t.WF) (ok : createLineFromInputTokens W (xs ++ ys) size = .ok l)
    (okx : createLineFromInputTokens W xs size = .ok lx) (oky : createLineFromInputTokens W ys size = .ok ly)
    (n1 : NoCustom .textTag (xs ++ ys)) (n2 : NoCustom .clauseKeyword (xs ++ ys)) (n3 : NoCustom .clause (xs ++ ys))
    (r : ClauseKeywordResolver) (E : EndsSentence r lx) (ney : ly.ll_tokens ≠ [])
    {q qx qy : List (LRange × Str × List Clause)} (hq : ClauseQuery r l q) (hqx : ClauseQuery r lx qx)
    (hqy : ClauseQuery r ly qy) (i j : Nat) (text : Str) (k : Clause) (hk : k ≠ .Independent) :
    (((i, j), text, [k]) ∈ qx → ((i, j), text, [k]) ∈ q) ∧
    ((∀ c ∈ qx, c.2.2 ≠ [.Condition]) → ((i, j), text, [k]) ∈ qy →
      ((lx.ll_tokens.length + i, lx.ll_tokens.length + j), text, [k]) ∈ q) := by
  have M := C105_sentences wf ok okx oky n1 n2 n3 r E ney hq hqx hqy
  have hkind : ∀ (m c t : Prop), ¬ c → kindWithin m c t k = k := by
    intro m c t hc
    cases k with
    | LeadingEffect => simp [kindWithin, hc]
    | TrailingEffect => rfl
    | Condition => rfl
    | Independent => exact absurd rfl hk
  constructor
  · intro h
    exact (M i j text k).2 (.inl ⟨k, h, (hkind _ _ _ id).symm⟩)
  · intro hc h
    exact (M _ _ text k).2 (.inr ⟨i, j, k, rfl, rfl, h, (hkind _ _ _ (fun ⟨c, hm, he⟩ => hc c hm he)).symm⟩)

example := C105_without_condition Demo.ifABC_wf (l := Demo.ifABCLine) (lx := Demo.ifALine) (ly := Demo.bCLine) (size := utf8Len) rfl
  rfl rfl (Demo.ifABC_noCustom _) (Demo.ifABC_noCustom _) (Demo.ifABC_noCustom _) Demo.kws Demo.ifA_ends (by intro h; cases h)
  Demo.ifABC_q Demo.ifA_q Demo.bC_q 2 2 ['a'] .Condition (by intro h; cases h)

end LNlp
