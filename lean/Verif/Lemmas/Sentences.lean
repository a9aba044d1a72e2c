import Verif.Spec.Sentences
import Verif.Lemmas.Piecewise
/- Clauses of a line whose first part ends with punctuation. -/
namespace LNlp
variable {W : World}

/-- the tokens of `l` are those of `lx` followed by those of `ly` -/
def Appended (l lx ly : LLLine W) : Prop :=
  l.ll_tokens.map (·.token) = lx.ll_tokens.map (·.token) ++ ly.ll_tokens.map (·.token)

theorem tagAt_token {l : LLLine W} {i : Nat} :
    tagAt l i = ((l.ll_tokens.map (·.token))[i]?).bind (fun t => match t with | .Text _ g => some g | .Value => none) := by
  unfold tagAt
  rw [List.getElem?_map]
  cases l.ll_tokens[i]? <;> rfl

section
variable {l lx ly : LLLine W} (A : Appended l lx ly) {r : ClauseKeywordResolver}
include A

theorem Appended.length : l.ll_tokens.length = lx.ll_tokens.length + ly.ll_tokens.length := by
  have := congrArg List.length A
  simpa using this

theorem Appended.tokL {i : Nat} (hi : i < lx.ll_tokens.length) :
    (l.ll_tokens.map (·.token))[i]? = (lx.ll_tokens.map (·.token))[i]? := by
  rw [show l.ll_tokens.map (·.token) = _ from A, List.getElem?_append_left (by simpa using hi)]

theorem Appended.tokR (i : Nat) :
    (l.ll_tokens.map (·.token))[lx.ll_tokens.length + i]? = (ly.ll_tokens.map (·.token))[i]? := by
  rw [show l.ll_tokens.map (·.token) = _ from A, List.getElem?_append_right (by simp)]
  simp

theorem Appended.tagL {i : Nat} (hi : i < lx.ll_tokens.length) : tagAt l i = tagAt lx i := by
  rw [tagAt_token, tagAt_token, A.tokL hi]
theorem Appended.tagR (i : Nat) : tagAt l (lx.ll_tokens.length + i) = tagAt ly i := by
  rw [tagAt_token, tagAt_token, A.tokR]
theorem Appended.textL {i : Nat} (hi : i < lx.ll_tokens.length) : textAt l i = textAt lx i := by
  rw [textAt_token, textAt_token, A.tokL hi]
theorem Appended.textR (i : Nat) : textAt l (lx.ll_tokens.length + i) = textAt ly i := by
  rw [textAt_token, textAt_token, A.tokR]

theorem Appended.kwL {i : Nat} (hi : i < lx.ll_tokens.length) (kw : ClauseKeyword) : KeywordAt r l i kw ↔ KeywordAt r lx i kw := by
  unfold KeywordAt; rw [A.textL hi]
theorem Appended.kwR (i : Nat) (kw : ClauseKeyword) : KeywordAt r l (lx.ll_tokens.length + i) kw ↔ KeywordAt r ly i kw := by
  unfold KeywordAt; rw [A.textR]
theorem Appended.sepL {i : Nat} (hi : i < lx.ll_tokens.length) : Separates r l i ↔ Separates r lx i := by
  unfold Separates; simp only [A.kwL hi, A.tagL hi]
theorem Appended.sepR (i : Nat) : Separates r l (lx.ll_tokens.length + i) ↔ Separates r ly i := by
  unfold Separates; simp only [A.kwR, A.tagR]

theorem Appended.coveredL {i j : Nat} (hj : j < lx.ll_tokens.length) :
    coveredText l.ll_tokens (i, j) = coveredText lx.ll_tokens (i, j) := by
  have e : ∀ (toks : List LLToken) (a b : Nat), coveredText toks (a, b) =
      ((((toks.map (·.token)).drop a).take (b + 1 - a)).map LToken.str).flatten := by
    intro toks a b
    unfold coveredText
    rw [← List.map_drop, ← List.map_take, List.map_map]; rfl
  rw [e, e, show l.ll_tokens.map (·.token) = _ from A]
  by_cases hij : i ≤ j
  · rw [List.drop_append_of_le_length (by simp; omega), List.take_append_of_le_length (by simp; omega)]
  · rw [show j + 1 - i = 0 by omega, List.take_zero, List.take_zero]

theorem Appended.coveredR (i j : Nat) :
    coveredText l.ll_tokens (lx.ll_tokens.length + i, lx.ll_tokens.length + j) = coveredText ly.ll_tokens (i, j) := by
  have e : ∀ (toks : List LLToken) (a b : Nat), coveredText toks (a, b) =
      ((((toks.map (·.token)).drop a).take (b + 1 - a)).map LToken.str).flatten := by
    intro toks a b
    unfold coveredText
    rw [← List.map_drop, ← List.map_take, List.map_map]; rfl
  rw [e, e, show l.ll_tokens.map (·.token) = _ from A,
    show lx.ll_tokens.length + j + 1 - (lx.ll_tokens.length + i) = j + 1 - i by omega]
  congr 3
  rw [List.drop_append]
  simp

variable (E : EndsSentence r lx)
include E

theorem Appended.sepLast : Separates r l (lx.ll_tokens.length - 1) :=
  (A.sepL (by have := E.ne; omega)).2 (.inr E.punc)

theorem Appended.runL {a b : Nat} (h : IsRun r lx a b) : IsRun r l a b := by
  have := E.ne
  have hlt := h.lt
  have hle := h.le
  have hl := A.length
  refine ⟨h.le, by omega, fun t h1 h2 hs => h.free t h1 h2 ((A.sepL (by omega)).1 hs), ?_, ?_⟩
  · exact h.left.imp_right (A.sepL (by omega)).2
  · right
    rcases h.right with hr | hr
    · exfalso
      refine h.free b h.le (Nat.le_refl _) ?_
      rw [show b = lx.ll_tokens.length - 1 by omega]
      exact .inr E.punc
    · by_cases hb : b + 1 < lx.ll_tokens.length
      · exact (A.sepL hb).2 hr
      · exfalso
        refine h.free b h.le (Nat.le_refl _) ?_
        rw [show b = lx.ll_tokens.length - 1 by omega]
        exact .inr E.punc

theorem Appended.runR {a b : Nat} (h : IsRun r ly a b) : IsRun r l (lx.ll_tokens.length + a) (lx.ll_tokens.length + b) := by
  have := E.ne
  have hlt := h.lt
  have hle := h.le
  have hl := A.length
  refine ⟨by omega, by omega, ?_, ?_, ?_⟩
  · intro t h1 h2 hs
    refine h.free (t - lx.ll_tokens.length) (by omega) (by omega) ?_
    rw [show t = lx.ll_tokens.length + (t - lx.ll_tokens.length) by omega] at hs
    exact (A.sepR _).1 hs
  · right
    rcases h.left with rfl | hs
    · exact A.sepLast E
    · by_cases ha : a = 0
      · subst ha; exact A.sepLast E
      · rw [show lx.ll_tokens.length + a - 1 = lx.ll_tokens.length + (a - 1) by omega]
        exact (A.sepR _).2 hs
  · rcases h.right with hr | hr
    · left; omega
    · right
      rw [Nat.add_assoc]
      exact (A.sepR _).2 hr

theorem Appended.run {a b : Nat} : IsRun r l a b ↔
    IsRun r lx a b ∨ ∃ a' b', a = lx.ll_tokens.length + a' ∧ b = lx.ll_tokens.length + b' ∧ IsRun r ly a' b' := by
  have := E.ne
  have hl := A.length
  constructor
  · intro h
    have hlt := h.lt
    have hle := h.le
    have hs := A.sepLast E
    by_cases hb : b < lx.ll_tokens.length
    · have hb' : b + 1 < lx.ll_tokens.length := by
        refine Nat.lt_of_not_le (fun hc => h.free b h.le (Nat.le_refl _) ?_)
        rw [show b = lx.ll_tokens.length - 1 by omega]; exact hs
      left
      refine ⟨h.le, hb, fun t h1 h2 hs => h.free t h1 h2 ((A.sepL (by omega)).2 hs), ?_, ?_⟩
      · exact h.left.imp_right (A.sepL (by omega)).1
      · right
        rcases h.right with hr | hr
        · omega
        · exact (A.sepL hb').1 hr
    · have ha : lx.ll_tokens.length ≤ a :=
        Nat.le_of_not_lt (fun hc => h.free (lx.ll_tokens.length - 1) (by omega) (by omega) hs)
      right
      refine ⟨a - lx.ll_tokens.length, b - lx.ll_tokens.length, by omega, by omega, by omega, by omega, ?_, ?_, ?_⟩
      · intro t h1 h2 hs
        exact h.free (lx.ll_tokens.length + t) (by omega) (by omega) ((A.sepR _).2 hs)
      · by_cases h0 : a = lx.ll_tokens.length
        · left; omega
        · right
          rcases h.left with hr | hr
          · omega
          · rw [show a - 1 = lx.ll_tokens.length + (a - lx.ll_tokens.length - 1) by omega] at hr
            exact (A.sepR _).1 hr
      · rcases h.right with hr | hr
        · left; omega
        · right
          rw [show b + 1 = lx.ll_tokens.length + (b - lx.ll_tokens.length + 1) by omega] at hr
          exact (A.sepR _).1 hr
  · rintro (h | ⟨a', b', rfl, rfl, h⟩)
    · exact A.runL E h
    · exact A.runR E h

omit E in
theorem Appended.stripL {a b i j : Nat} (ha : a < lx.ll_tokens.length) (hb : b < lx.ll_tokens.length) :
    Strip l a b i j ↔ Strip lx a b i j := by
  constructor
  · rintro ⟨h1, h2, h3⟩
    rw [A.tagL ha] at h1
    rw [A.tagL hb] at h2
    exact ⟨h1, h2, h3⟩
  · rintro ⟨h1, h2, h3⟩
    rw [← A.tagL ha] at h1
    rw [← A.tagL hb] at h2
    exact ⟨h1, h2, h3⟩

omit E in
theorem Appended.stripR {a b i j : Nat} :
    Strip l (lx.ll_tokens.length + a) (lx.ll_tokens.length + b) i j ↔
      ∃ i' j', i = lx.ll_tokens.length + i' ∧ j = lx.ll_tokens.length + j' ∧ Strip ly a b i' j' := by
  constructor
  · rintro ⟨h1, h2, h3⟩
    rw [A.tagR] at h1 h2
    have hi : lx.ll_tokens.length ≤ i := by split at h1 <;> omega
    refine ⟨i - lx.ll_tokens.length, j - lx.ll_tokens.length, by omega, by omega, ?_, ?_, by omega⟩
    · by_cases h : tagAt ly a = some .SPACE
      · rw [if_pos h] at h1 ⊢; omega
      · rw [if_neg h] at h1 ⊢; omega
    · by_cases h : tagAt ly b = some .SPACE
      · rw [if_pos h] at h2 ⊢; omega
      · rw [if_neg h] at h2 ⊢; omega
  · rintro ⟨i', j', rfl, rfl, h1, h2, h3⟩
    refine ⟨?_, ?_, by omega⟩
    · rw [A.tagR]
      by_cases h : tagAt ly a = some .SPACE
      · rw [if_pos h] at h1 ⊢; omega
      · rw [if_neg h] at h1 ⊢; omega
    · rw [A.tagR]
      by_cases h : tagAt ly b = some .SPACE
      · rw [if_pos h] at h2 ⊢; omega
      · rw [if_neg h] at h2 ⊢; omega

omit E in
theorem Appended.followsL {a : Nat} (ha : a < lx.ll_tokens.length) (kw : ClauseKeyword) :
    Follows r l a kw ↔ Follows r lx a kw := by
  unfold Follows
  rw [A.kwL (by omega)]

theorem Appended.followsR (a : Nat) (kw : ClauseKeyword) :
    Follows r l (lx.ll_tokens.length + a) kw ↔ Follows r ly a kw := by
  have := E.ne
  unfold Follows
  by_cases ha : a = 0
  · subst ha
    constructor
    · rintro ⟨_, hk⟩
      exact absurd ((A.kwL (by omega) kw).1 hk) (E.plain kw)
    · rintro ⟨h, _⟩; omega
  · rw [show lx.ll_tokens.length + a - 1 = lx.ll_tokens.length + (a - 1) by omega, A.kwR]
    constructor
    · rintro ⟨_, h⟩; exact ⟨by omega, h⟩
    · rintro ⟨_, h⟩; exact ⟨by omega, h⟩

end

/-- two runs with a common token are the same -/
theorem run_start {r : ClauseKeywordResolver} {l : LLLine W} {a b a' b' i : Nat} (h : IsRun r l a b) (h' : IsRun r l a' b')
    (h1 : a ≤ i) (h2 : i ≤ b) (h3 : a' ≤ i) (h4 : i ≤ b') : a = a' := by
  rcases Nat.lt_trichotomy a a' with hlt | he | hlt
  · exfalso
    rcases h'.left with h0 | hs
    · omega
    · exact h.free (a' - 1) (by omega) (by omega) hs
  · exact he
  · exfalso
    rcases h.left with h0 | hs
    · omega
    · exact h'.free (a - 1) (by omega) (by omega) hs

theorem strip_bounds {l : LLLine W} {a b i j : Nat} (h : Strip l a b i j) : a ≤ i ∧ i ≤ j ∧ j ≤ b := by
  have h1 := h.first
  have h2 := h.last
  have h3 := h.le
  split at h1 <;> split at h2 <;> omega

theorem afterThen_iff {r : ClauseKeywordResolver} {l : LLLine W} {a b i j : Nat} (h : IsRun r l a b) (hs : Strip l a b i j) :
    AfterThen r l i ↔ Follows r l a .Then := by
  have hb := strip_bounds hs
  constructor
  · rintro ⟨a', b', h', h1, h2, hf⟩
    rw [run_start h h' (i := i) (by omega) (by omega) h1 h2]; exact hf
  · exact fun hf => ⟨a, b, h, by omega, by omega, hf⟩

open Classical in
/-- the kind of the clause of the run starting at `a` -/
noncomputable def runKind (r : ClauseKeywordResolver) (l : LLLine W) (a : Nat) : Clause :=
  if Follows r l a .ConditionStart then .Condition
  else if OnlyRun r l a then .Independent
  else if Follows r l a .Then ∨ ConditionBefore r l a then .TrailingEffect
  else .LeadingEffect

theorem follows_unique {r : ClauseKeywordResolver} {l : LLLine W} {a : Nat} {k k' : ClauseKeyword} (h : Follows r l a k)
    (h' : Follows r l a k') : k = k' := by
  obtain ⟨_, t, ht, hk⟩ := h
  obtain ⟨_, t', ht', hk'⟩ := h'
  rw [ht] at ht'; cases ht'
  exact isKeyword_unique hk hk'

theorem clauseAt_iff {r : ClauseKeywordResolver} {l : LLLine W} {i j : Nat} {kind : Clause} :
    ClauseAt r l i j kind ↔ ∃ a b, IsRun r l a b ∧ Strip l a b i j ∧ kind = runKind r l a := by
  constructor
  · intro h
    cases h with
    | condition run strip kw => exact ⟨_, _, run, strip, by unfold runKind; rw [if_pos kw]⟩
    | independent run strip kw only => exact ⟨_, _, run, strip, by unfold runKind; rw [if_neg kw, if_pos only]⟩
    | then_ run strip kw several =>
      refine ⟨_, _, run, strip, ?_⟩
      unfold runKind
      rw [if_neg (fun h => by cases follows_unique kw h), if_neg several, if_pos (.inl kw)]
    | trailing run strip kw several cond =>
      exact ⟨_, _, run, strip, by unfold runKind; rw [if_neg kw, if_neg several, if_pos (.inr cond)]⟩
    | leading run strip kw kw' several cond =>
      exact ⟨_, _, run, strip, by unfold runKind; rw [if_neg kw, if_neg several, if_neg (fun h => h.elim kw' cond)]⟩
  · rintro ⟨a, b, run, strip, rfl⟩
    unfold runKind
    split
    · next h => exact .condition run strip h
    · next h =>
      split
      · next h' => exact .independent run strip h h'
      · next h' =>
        split
        · next h2 => exact h2.elim (fun h2 => .then_ run strip h2 h') (fun h2 => .trailing run strip h h' h2)
        · next h2 => exact .leading run strip h (fun hx => h2 (.inl hx)) h' (fun hx => h2 (.inr hx))

section
variable {l lx ly : LLLine W} (A : Appended l lx ly) {r : ClauseKeywordResolver} (E : EndsSentence r lx)
include A E

theorem Appended.kindL {a b i j : Nat} (h : IsRun r lx a b) (hs : Strip lx a b i j) :
    runKind r l a = kindWithin (HasPart r ly) False (AfterThen r lx i) (runKind r lx a) := by
  have ha : a < lx.ll_tokens.length := Nat.lt_of_le_of_lt h.le h.lt
  have hC : ConditionBefore r l a ↔ ConditionBefore r lx a := by
    constructor
    · rintro ⟨a', b', i', j', hlt, hr, hst, hf⟩
      rcases (A.run E).1 hr with hr | ⟨a2, b2, rfl, rfl, _⟩
      · exact ⟨a', b', i', j', hlt, hr, (A.stripL (Nat.lt_of_le_of_lt hr.le hr.lt) hr.lt).1 hst,
          (A.followsL (Nat.lt_of_le_of_lt hr.le hr.lt) _).1 hf⟩
      · omega
    · rintro ⟨a', b', i', j', hlt, hr, hst, hf⟩
      exact ⟨a', b', i', j', hlt, A.runL E hr, (A.stripL (Nat.lt_of_le_of_lt hr.le hr.lt) hr.lt).2 hst,
          (A.followsL (Nat.lt_of_le_of_lt hr.le hr.lt) _).2 hf⟩
  have hO : OnlyRun r l a ↔ OnlyRun r lx a ∧ ¬ HasPart r ly := by
    constructor
    · intro ho
      refine ⟨fun a' b' hr => ho a' b' (A.runL E hr), ?_⟩
      rintro ⟨a', b', hr⟩
      have := ho _ _ (A.runR E hr)
      omega
    · rintro ⟨ho, hp⟩ a' b' hr
      rcases (A.run E).1 hr with hr | ⟨a2, b2, rfl, rfl, hr2⟩
      · exact ho _ _ hr
      · exact absurd ⟨_, _, hr2⟩ hp
  have hN : OnlyRun r lx a → ¬ ConditionBefore r lx a := by
    rintro ho ⟨a', b', _, _, hlt, hr, _, _⟩
    have := ho _ _ hr
    have := hr.le
    omega
  unfold runKind
  rw [afterThen_iff h hs]
  have hF : ∀ kw, Follows r l a kw ↔ Follows r lx a kw := A.followsL ha
  rw [propext (hF .ConditionStart), propext (hF .Then), propext hC, propext hO]
  by_cases h1 : Follows r lx a .ConditionStart
  · simp [h1, kindWithin]
  · by_cases h2 : OnlyRun r lx a
    · have := hN h2
      by_cases h3 : HasPart r ly <;> by_cases h4 : Follows r lx a .Then <;> simp [h1, h2, h3, h4, this, kindWithin]
    · by_cases h3 : ConditionBefore r lx a <;> by_cases h4 : Follows r lx a .Then <;> simp [h1, h2, h3, h4, kindWithin]

theorem Appended.kindR {a b i j : Nat} (h : IsRun r ly a b) (hs : Strip ly a b i j) :
    runKind r l (lx.ll_tokens.length + a) =
      kindWithin (HasPart r lx) (∃ i j, ClauseAt r lx i j .Condition) (AfterThen r ly i) (runKind r ly a) := by
  have hcond : (∃ i j, ClauseAt r lx i j .Condition) ↔
      ∃ a' b' i' j', IsRun r lx a' b' ∧ Strip lx a' b' i' j' ∧ Follows r lx a' .ConditionStart := by
    constructor
    · rintro ⟨i', j', hc⟩
      cases hc with
      | condition run strip kw => exact ⟨_, _, _, _, run, strip, kw⟩
    · rintro ⟨a', b', i', j', hr, hst, hf⟩
      exact ⟨_, _, .condition hr hst hf⟩
  have hC : ConditionBefore r l (lx.ll_tokens.length + a) ↔
      (∃ i j, ClauseAt r lx i j .Condition) ∨ ConditionBefore r ly a := by
    rw [hcond]
    constructor
    · rintro ⟨a', b', i', j', hlt, hr, hst, hf⟩
      rcases (A.run E).1 hr with hr | ⟨a2, b2, rfl, rfl, hr2⟩
      · exact .inl ⟨a', b', i', j', hr, (A.stripL (Nat.lt_of_le_of_lt hr.le hr.lt) hr.lt).1 hst,
          (A.followsL (Nat.lt_of_le_of_lt hr.le hr.lt) _).1 hf⟩
      · obtain ⟨i2, j2, _, _, hst2⟩ := A.stripR.1 hst
        exact .inr ⟨a2, b2, i2, j2, by omega, hr2, hst2, (A.followsR E _ _).1 hf⟩
    · rintro (⟨a', b', i', j', hr, hst, hf⟩ | ⟨a', b', i', j', hlt, hr, hst, hf⟩)
      · exact ⟨a', b', i', j', Nat.lt_of_lt_of_le hr.lt (Nat.le_add_right _ _), A.runL E hr,
          (A.stripL (Nat.lt_of_le_of_lt hr.le hr.lt) hr.lt).2 hst, (A.followsL (Nat.lt_of_le_of_lt hr.le hr.lt) _).2 hf⟩
      · exact ⟨_, _, _, _, by omega, A.runR E hr, A.stripR.2 ⟨_, _, rfl, rfl, hst⟩, (A.followsR E _ _).2 hf⟩
  have hO : OnlyRun r l (lx.ll_tokens.length + a) ↔ OnlyRun r ly a ∧ ¬ HasPart r lx := by
    constructor
    · intro ho
      refine ⟨fun a' b' hr => by have := ho _ _ (A.runR E hr); omega, ?_⟩
      rintro ⟨a', b', hr⟩
      have := ho _ _ (A.runL E hr)
      have := hr.lt
      have := hr.le
      omega
    · rintro ⟨ho, hp⟩ a' b' hr
      rcases (A.run E).1 hr with hr | ⟨a2, b2, rfl, rfl, hr2⟩
      · exact absurd ⟨_, _, hr⟩ hp
      · rw [ho _ _ hr2]
  have hN : OnlyRun r ly a → ¬ ConditionBefore r ly a := by
    rintro ho ⟨a', b', _, _, hlt, hr, _, _⟩
    have := ho _ _ hr
    have := hr.le
    omega
  have hP : (∃ i j, ClauseAt r lx i j .Condition) → HasPart r lx := by
    rw [hcond]
    rintro ⟨a', b', _, _, hr, _⟩
    exact ⟨_, _, hr⟩
  unfold runKind
  rw [afterThen_iff h hs]
  have hF : ∀ kw, Follows r l (lx.ll_tokens.length + a) kw ↔ Follows r ly a kw := A.followsR E a
  rw [propext (hF .ConditionStart), propext (hF .Then), propext hC, propext hO]
  revert hP
  generalize (∃ i j, ClauseAt r lx i j .Condition) = c
  intro hP
  by_cases h1 : Follows r ly a .ConditionStart
  · simp [h1, kindWithin]
  · by_cases h2 : OnlyRun r ly a
    · have := hN h2
      by_cases h3 : HasPart r lx
      · by_cases h5 : c <;> by_cases h4 : Follows r ly a .Then <;> simp [h1, h2, h3, h4, h5, this, kindWithin]
      · have h5 : ¬ c := fun hc => h3 (hP hc)
        by_cases h4 : Follows r ly a .Then <;> simp [h1, h2, h3, kindWithin]
    · by_cases h5 : c <;> by_cases h3 : ConditionBefore r ly a <;> by_cases h4 : Follows r ly a .Then <;>
        simp [h1, h2, h3, h4, h5, kindWithin]

theorem Appended.clauseAt {i j : Nat} {kind : Clause} : ClauseAt r l i j kind ↔
    (∃ k, ClauseAt r lx i j k ∧ kind = kindWithin (HasPart r ly) False (AfterThen r lx i) k) ∨
    (∃ i' j' k, i = lx.ll_tokens.length + i' ∧ j = lx.ll_tokens.length + j' ∧ ClauseAt r ly i' j' k ∧
      kind = kindWithin (HasPart r lx) (∃ i j, ClauseAt r lx i j .Condition) (AfterThen r ly i') k) := by
  constructor
  · intro h
    obtain ⟨a, b, hr, hst, rfl⟩ := clauseAt_iff.1 h
    rcases (A.run E).1 hr with hr | ⟨a2, b2, rfl, rfl, hr2⟩
    · have hst := (A.stripL (Nat.lt_of_le_of_lt hr.le hr.lt) hr.lt).1 hst
      exact .inl ⟨_, clauseAt_iff.2 ⟨_, _, hr, hst, rfl⟩, A.kindL E hr hst⟩
    · obtain ⟨i2, j2, rfl, rfl, hst2⟩ := A.stripR.1 hst
      exact .inr ⟨i2, j2, _, rfl, rfl, clauseAt_iff.2 ⟨_, _, hr2, hst2, rfl⟩, A.kindR E hr2 hst2⟩
  · rintro (⟨k, h, rfl⟩ | ⟨i', j', k, rfl, rfl, h, rfl⟩)
    · obtain ⟨a, b, hr, hst, rfl⟩ := clauseAt_iff.1 h
      exact clauseAt_iff.2 ⟨a, b, A.runL E hr, (A.stripL (Nat.lt_of_le_of_lt hr.le hr.lt) hr.lt).2 hst, (A.kindL E hr hst).symm⟩
    · obtain ⟨a, b, hr, hst, rfl⟩ := clauseAt_iff.1 h
      exact clauseAt_iff.2 ⟨_, _, A.runR E hr, A.stripR.2 ⟨_, _, rfl, rfl, hst⟩, (A.kindR E hr hst).symm⟩

end

end LNlp
