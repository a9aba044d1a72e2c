import Verif.Lemmas.Beside
import Verif.Lemmas.Document
import Verif.Spec.DocumentShow
/- Rendering lines put together from many parts. -/
namespace LNlp
variable {W : World}

theorem movedRight_zero : ∀ s : Str, movedRight 0 s = s
  | [] => rfl
  | _ :: _ => rfl

theorem movedRight_add (a b : Nat) : ∀ s : Str, movedRight a (movedRight b s) = movedRight (a + b) s
  | [] => rfl
  | c :: s => by
    simp only [movedRight, ← List.append_assoc, List.replicate_append_replicate]

theorem attrLinesAll_moved (k : Ty W) (n : Nat) : ∀ (ls : List (LLLine W)) (m : Nat),
    (attrLinesAll k m ls).map (movedRight n) = attrLinesAll k (n + m) ls
  | [], _ => rfl
  | l :: ls, m => by
    rw [attrLinesAll, attrLinesAll, List.map_append, List.map_map, attrLinesAll_moved k n ls, Nat.add_assoc]
    congr 2
    funext s
    exact movedRight_add n m s

theorem headerOf_all : ∀ (ls : List (LLLine W)), (∀ l ∈ ls, l.ll_tokens ≠ []) → headerOf (ls.flatMap (·.ll_tokens)) = headerAll ls
  | [], _ => rfl
  | [l], _ => by simp [headerAll]
  | l :: m :: ls, ne => by
    have ih := headerOf_all (m :: ls) (fun x hx => ne x (by simp [hx]))
    have hm : (m :: ls).flatMap (·.ll_tokens) ≠ [] := by
      rw [List.flatMap_cons]
      simp [ne m (by simp)]
    rw [List.flatMap_cons, headerOf_append (ne l (by simp)) hm, ih]
    simp [headerAll, List.intercalate]

theorem attrLines_all (L : AdditiveWidth W) (k : Ty W) : ∀ (ls : List (LLLine W)),
    (∀ l ∈ ls, l.ll_tokens ≠ [] ∧ ∃ h, Reachable l h ∧ Ordered h) →
    (entryLines k (queriedAll k 0 ls)).map (attrLine W (ls.flatMap (·.ll_tokens))) = attrLinesAll k 0 ls
  | [], _ => rfl
  | l :: ls, H => by
    have ih := attrLines_all L k ls (fun x hx => H x (by simp [hx]))
    obtain ⟨ne, h, hr, ho⟩ := H l (by simp)
    rw [queriedAll, attrLinesAll, shiftEntry_zero, List.map_id, Nat.zero_add, Nat.zero_add, entryLines_append, List.map_append,
      List.flatMap_cons]
    congr 1
    · unfold attrLines
      rw [List.map_map]
      refine List.map_congr_left fun x hx => ?_
      obtain ⟨b1, b2⟩ := entryLines_bounds hr ho hx
      rw [attrLine_left _ _ b1 b2]
      exact (movedRight_zero _).symm
    · by_cases e : ls = []
      · subst e; rfl
      have ne' : ls.flatMap (·.ll_tokens) ≠ [] := by
        cases ls with
        | nil => exact absurd rfl e
        | cons m ls =>
          rw [List.flatMap_cons]
          simp [(H m (by simp)).1]
      have q := queriedAll_shift k l.ll_tokens.length ls 0
      rw [Nat.add_zero] at q
      have a := attrLinesAll_moved k (columnsOf l) ls 0
      rw [Nat.add_zero] at a
      rw [← q, ← a, ← ih, entryLines_shift, List.map_map, List.map_map]
      refine List.map_congr_left fun x _ => ?_
      exact attrLine_right L ne ne' x.1 x.2

/-- a stage leaves an honest line honest -/
theorem stage_honest (s : Stage W) {l l' : LLLine W} {h : History W} (hh : Honest l h) (p : Nat)
    (run : l.run p s.resolver = .ok l') : ∃ h', Honest l' h' := by
  by_cases ne : l.ll_tokens = []
  · exact ⟨h, .runEmpty l h _ _ l' hh ne run⟩
  · have other : ((∃ k, ∃ t : TextMatchAssignResolver W k, s.resolver = t.resolver) ∨ s.resolver = posTagResolver W ∨
        (∃ kw : ClauseKeywordResolver, s.resolver = kw.resolver W) ∨ s.resolver = clauseResolver W) → ∃ h', Honest l' h' := by
      intro hp
      obtain ⟨asgs, l1, _, hok, hon⟩ := C71_builtin_resolvers hh ne p s.resolver hp
      cases hok.symm.trans run
      exact ⟨_, hon⟩
    cases s with
    | table t => exact other (.inl ⟨_, t, rfl⟩)
    | pos => exact other (.inr (.inl rfl))
    | keywords r => exact other (.inr (.inr (.inl ⟨r, rfl⟩)))
    | clauses => exact other (.inr (.inr (.inr rfl)))
    | amounts r =>
      cases hg : r.go (wholeLine l p) with
      | error e => cases (C68_run_panics r ne p e hg).symm.trans run
      | ok out =>
        obtain ⟨l1, hok, hon⟩ := C71_amount_resolver r hh ne p out hg
        cases hok.symm.trans run
        exact ⟨_, hon⟩

theorem stages_honest : ∀ (ss : List (Stage W)) {l l' : LLLine W} {h : History W} (_ : Honest l h) (p : Nat → Nat),
    runAll l (runsAt p ss) = .ok l' → ∃ h', Honest l' h'
  | [], _, _, h, hh, _, run => by cases run; exact ⟨h, hh⟩
  | s :: ss, l, l', h, hh, p, run => by
    simp only [runsAt, runAll] at run
    cases hr : l.run (p 0) s.resolver with
    | error e => rw [hr] at run; cases run
    | ok l1 =>
      rw [hr] at run
      obtain ⟨h1, hh1⟩ := stage_honest s hh (p 0) hr
      exact stages_honest ss hh1 _ run

theorem analysed_honest {p : Nat → Nat} {ss : List (Stage W)} {t : Str} {l : LLLine W} (h : Analysed p ss t l) :
    l.ll_tokens ≠ [] ∧ ∃ h, Reachable l h ∧ Ordered h := by
  obtain ⟨l0, h0, h1⟩ := h
  refine ⟨?_, ?_⟩
  · rw [runAll_tokens _ h1]
    exact create_ne (string_wf t) h0 (by simp)
  · obtain ⟨g, hg⟩ := stages_honest ss (.create _ _ _ (string_wf t) h0) p h1
    exact ⟨g, hg.spec⟩

theorem analysedAll_honest {p : Nat → Nat} {ss : List (Stage W)} : ∀ {ts : List Str} {ls : List (LLLine W)}, AnalysedAll p ss ts ls →
    ∀ l ∈ ls, l.ll_tokens ≠ [] ∧ ∃ h, Reachable l h ∧ Ordered h
  | [], [], _ => by intro l hl; cases hl
  | _ :: _, [], h => h.elim
  | [], _ :: _, h => h.elim
  | t :: ts, l :: ls, h => by
    intro x hx
    rcases List.mem_cons.1 hx with rfl | hx
    · exact analysed_honest h.1
    · exact analysedAll_honest h.2 x hx

end LNlp
