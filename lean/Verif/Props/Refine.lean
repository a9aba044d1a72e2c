import Verif.Lemmas.Refine
import Verif.Props.Sentences
/-
C117: more keywords give finer clauses.
-/
namespace LNlp
variable {W : World}

/-! ### C117 -/

/-- what `ClauseQuery` says, by C94 -/
theorem clauseQuery_spec {size : Str → Nat} {input : List (InputToken W)} {l : LLLine W} (wf : ∀ t ∈ input, t.WF)
    (ok : createLineFromInputTokens W input size = .ok l) (n1 : NoCustom .textTag input) (n2 : NoCustom .clauseKeyword input)
    (n3 : NoCustom .clause input) (ne : l.ll_tokens ≠ []) {r : ClauseKeywordResolver}
    {q : List (LRange × Str × List Clause)} (hq : ClauseQuery r l q) :
    q.Pairwise (fun x y => x.1.2 < y.1.1) ∧ ∀ i j text vs, ((i, j), text, vs) ∈ q ↔
      text = coveredText l.ll_tokens (i, j) ∧ ∃ kind, vs = [kind] ∧ ClauseAt r l i j kind := by
  obtain ⟨p1, p2, l1, l2, e1, e2, e3⟩ := hq
  obtain ⟨l1', l2', q2, f1, f2, f3, f5, f4⟩ := C94_clauses_of_input wf ok n1 n2 n3 ne r p1 p2
  rw [e1] at f1; cases f1
  rw [e2] at f2; cases f2
  rw [e3] at f3; cases f3
  exact ⟨f5, f4⟩

section
variable {size : Str → Nat} {input : List (InputToken W)} {l : LLLine W} (wf : ∀ t ∈ input, t.WF)
    (ok : createLineFromInputTokens W input size = .ok l) (n1 : NoCustom .textTag input) (n2 : NoCustom .clauseKeyword input)
    (n3 : NoCustom .clause input) (ne : l.ll_tokens ≠ [])
include wf ok n1 n2 n3 ne

/-- C117: with more keywords, in whatever lists, every clause lies in a clause found with fewer keywords, and its
text in the text of that clause. -/
theorem C117_refines {r r' : ClauseKeywordResolver} (hw : ∀ w, r.Word w → r'.Word w)
    {q q' : List (LRange × Str × List Clause)} (hq : ClauseQuery r l q) (hq' : ClauseQuery r' l q') :
    ∀ e' ∈ q', ∃ e ∈ q, Within e'.1 e.1 ∧ e'.2.1 <:+: e.2.1 := by
  obtain ⟨_, M⟩ := clauseQuery_spec wf ok n1 n2 n3 ne hq
  obtain ⟨_, M'⟩ := clauseQuery_spec wf ok n1 n2 n3 ne hq'
  rintro ⟨⟨i', j'⟩, text', vs'⟩ he'
  obtain ⟨rfl, kind', rfl, hc'⟩ := (M' ..).1 he'
  obtain ⟨a', b', hrun', hst', _⟩ := clauseAt_iff.1 hc'
  obtain ⟨a, b, hrun, ha, hb⟩ := run_exists (r := r) (t := a') (Nat.lt_of_le_of_lt hrun'.le hrun'.lt)
    (fun hs => hrun'.free a' (Nat.le_refl _) hrun'.le (separates_mono hw hs))
  have hbb : b' ≤ b := by
    rcases Nat.lt_or_ge b b' with hlt | hge
    · exfalso
      rcases hrun.right with he | hs
      · have := hrun'.lt; omega
      · exact hrun'.free (b + 1) (by omega) (by omega) (separates_mono hw hs)
    · exact hge
  obtain ⟨i, j, hst, hi, hj⟩ := strip_within ha hbb hst'
  refine ⟨((i, j), coveredText l.ll_tokens (i, j), [runKind r l a]),
    (M ..).2 ⟨rfl, _, rfl, clauseAt_iff.2 ⟨a, b, hrun, hst, rfl⟩⟩, ⟨hi, hj⟩, ?_⟩
  exact covered_within _ ⟨hi, hj⟩ hst'.le

/-- C117: what is no longer in a clause is a space or a separator: every other token is in a clause under any
keywords. -/
theorem C117_covers (r : ClauseKeywordResolver) {q : List (LRange × Str × List Clause)} (hq : ClauseQuery r l q)
    (t : Nat) (hlt : t < l.ll_tokens.length) (hs : tagAt l t ≠ some .SPACE) (hp : tagAt l t ≠ some .PUNC)
    (hw : ∀ text, textAt l t = some text → ¬ r.Word (W.toLowercase text)) :
    ∃ e ∈ q, Within (t, t) e.1 := by
  obtain ⟨_, M⟩ := clauseQuery_spec wf ok n1 n2 n3 ne hq
  obtain ⟨a, b, hrun, ha, hb⟩ := run_exists (r := r) hlt (fun h => (separates_iff.1 h).elim
    (fun ⟨text, ht, h⟩ => hw text ht h) hp)
  obtain ⟨i, j, hst, hi, hj⟩ := strip_mem ha hb hs
  exact ⟨((i, j), coveredText l.ll_tokens (i, j), [runKind r l a]),
    (M ..).2 ⟨rfl, _, rfl, clauseAt_iff.2 ⟨a, b, hrun, hst, rfl⟩⟩, hi, hj⟩

/-- C117: the ranges and texts of the clauses depend only on the set of all keywords, not on the lists they are
in; the lists only decide the kinds. -/
theorem C117_lists {r r' : ClauseKeywordResolver} (hw : ∀ w, r.Word w ↔ r'.Word w)
    {q q' : List (LRange × Str × List Clause)} (hq : ClauseQuery r l q) (hq' : ClauseQuery r' l q') :
    q.map (fun e => (e.1, e.2.1)) = q'.map (fun e => (e.1, e.2.1)) := by
  obtain ⟨P, M⟩ := clauseQuery_spec wf ok n1 n2 n3 ne hq
  obtain ⟨P', M'⟩ := clauseQuery_spec wf ok n1 n2 n3 ne hq'
  have key : ∀ {r : ClauseKeywordResolver} {q : List (LRange × Str × List Clause)},
      (∀ i j text vs, ((i, j), text, vs) ∈ q ↔
        text = coveredText l.ll_tokens (i, j) ∧ ∃ kind, vs = [kind] ∧ ClauseAt r l i j kind) →
      ∀ e, e ∈ q.map (fun e => (e.1, e.2.1)) ↔ e.2 = coveredText l.ll_tokens e.1 ∧
        ∃ a b, IsRun r l a b ∧ Strip l a b e.1.1 e.1.2 := by
    rintro r q M ⟨⟨i, j⟩, text⟩
    constructor
    · intro h
      obtain ⟨⟨⟨i', j'⟩, text', vs⟩, hm, he⟩ := List.mem_map.1 h
      cases he
      obtain ⟨ht, k, _, hc⟩ := (M ..).1 hm
      obtain ⟨a, b, h1, h2, _⟩ := clauseAt_iff.1 hc
      exact ⟨ht, a, b, h1, h2⟩
    · rintro ⟨ht, a, b, h1, h2⟩
      exact List.mem_map.2 ⟨((i, j), text, [runKind r l a]), (M ..).2 ⟨ht, _, rfl, clauseAt_iff.2 ⟨a, b, h1, h2, rfl⟩⟩, rfl⟩
  have sep : ∀ t, Separates r l t ↔ Separates r' l t := fun t =>
    ⟨separates_mono fun w => (hw w).1, separates_mono fun w => (hw w).2⟩
  have run : ∀ a b, IsRun r l a b ↔ IsRun r' l a b := fun a b =>
    ⟨fun h => ⟨h.le, h.lt, fun t h1 h2 hs => h.free t h1 h2 ((sep t).2 hs), h.left.imp id (sep _).1, h.right.imp id (sep _).1⟩,
      fun h => ⟨h.le, h.lt, fun t h1 h2 hs => h.free t h1 h2 ((sep t).1 hs), h.left.imp id (sep _).2, h.right.imp id (sep _).2⟩⟩
  have le : ∀ {r : ClauseKeywordResolver} {q : List (LRange × Str × List Clause)},
      (∀ i j text vs, ((i, j), text, vs) ∈ q ↔
        text = coveredText l.ll_tokens (i, j) ∧ ∃ kind, vs = [kind] ∧ ClauseAt r l i j kind) →
      ∀ e ∈ q, e.1.1 ≤ e.1.2 := by
    rintro r q M ⟨⟨i, j⟩, text, vs⟩ hm
    obtain ⟨_, k, _, hc⟩ := (M ..).1 hm
    obtain ⟨a, b, _, h2, _⟩ := clauseAt_iff.1 hc
    exact h2.le
  have ord : ∀ {q : List (LRange × Str × List Clause)}, q.Pairwise (fun x y => x.1.2 < y.1.1) → (∀ e ∈ q, e.1.1 ≤ e.1.2) →
      (q.map (fun e => (e.1, e.2.1))).Pairwise (fun x y => x.1.1 < y.1.1) := by
    intro q P hle
    rw [List.pairwise_map]
    exact P.imp_of_mem (fun {a b} ha _ h => Nat.lt_of_le_of_lt (hle a ha) h)
  refine sorted_ext (lt := fun x y : LRange × Str => x.1.1 < y.1.1) (fun x => Nat.lt_irrefl _)
    (fun x y h => by omega) (ord P (le M)) (ord P' (le M')) (fun e => ?_)
  rw [key M, key M']
  exact and_congr_right fun _ => ⟨fun ⟨a, b, h1, h2⟩ => ⟨a, b, (run a b).1 h1, h2⟩,
    fun ⟨a, b, h1, h2⟩ => ⟨a, b, (run a b).2 h1, h2⟩⟩

end

/-- without any keyword -/
def Demo.noKws : ClauseKeywordResolver := ⟨[], [], []⟩
/-- the keywords of `Demo.kws` in other lists -/
def Demo.kwsMoved : ClauseKeywordResolver := ⟨Demo.kws.and, Demo.kws.then_, Demo.kws.cond_start⟩
def Demo.ifABCNone : List (LRange × Str × List Clause) :=
  okD ((Demo.runOk (Demo.runOk Demo.ifABCLine 0 (Demo.noKws.resolver Demo.W)) 0 (clauseResolver Demo.W)).query .clause)
def Demo.ifABCMoved : List (LRange × Str × List Clause) :=
  okD ((Demo.runOk (Demo.runOk Demo.ifABCLine 0 (Demo.kwsMoved.resolver Demo.W)) 0 (clauseResolver Demo.W)).query .clause)

/-- `"if a"` without keywords is one clause, with them the clause is `"a"` -/
example : ((0, 2), ['i', 'f', ' ', 'a'], [Clause.LeadingEffect]) ∈ Demo.ifABCNone ∧
    ((2, 2), ['a'], [Clause.Condition]) ∈ Demo.clauseQ Demo.ifABCLine := by decide
example := C117_refines Demo.ifABC_wf (l := Demo.ifABCLine) (size := utf8Len) rfl (Demo.ifABC_noCustom _)
  (Demo.ifABC_noCustom _) (Demo.ifABC_noCustom _) (by intro h; cases h) (r := Demo.noKws) (r' := Demo.kws)
  (fun w h => by simp [ClauseKeywordResolver.Word, Demo.noKws] at h) (q := Demo.ifABCNone) ⟨0, 0, _, _, rfl, rfl, rfl⟩
  Demo.ifABC_q ((2, 2), ['a'], [Clause.Condition]) (by decide)
example := C117_covers Demo.ifABC_wf (l := Demo.ifABCLine) (size := utf8Len) rfl (Demo.ifABC_noCustom _)
  (Demo.ifABC_noCustom _) (Demo.ifABC_noCustom _) (by intro h; cases h) Demo.kws Demo.ifABC_q 2 (by decide) (by decide)
  (by decide) (by intro text ht; cases ht; unfold ClauseKeywordResolver.Word; decide)
example := C117_lists Demo.ifABC_wf (l := Demo.ifABCLine) (size := utf8Len) rfl (Demo.ifABC_noCustom _)
  (Demo.ifABC_noCustom _) (Demo.ifABC_noCustom _) (by intro h; cases h) (r := Demo.kws) (r' := Demo.kwsMoved)
  (fun w => by
    simp only [ClauseKeywordResolver.Word, Demo.kwsMoved]
    exact ⟨fun h => h.elim (fun h => .inr (.inr h)) (fun h => h.elim .inl (fun h => .inr (.inl h))),
      fun h => h.elim (fun h => .inr (.inl h)) (fun h => h.elim (fun h => .inr (.inr h)) .inl)⟩)
  Demo.ifABC_q (q' := Demo.ifABCMoved) ⟨0, 0, _, _, rfl, rfl, rfl⟩

end LNlp
