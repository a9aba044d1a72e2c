import Verif.Lemmas.DocumentShow
import Verif.Lemmas.Steps
import Verif.Spec.ShowSteps
/- Rendering lines put together from parts whose attributes come in some order. -/
namespace LNlp
variable {W : World}

theorem entryLines_flatten (toks : List LLToken) (k : Ty W) (q : List (LRange × Str × List (Val k))) :
    (q.map (attrBlock toks k)).flatten = (entryLines k q).map (attrLine W toks) := by
  unfold entryLines
  rw [List.map_flatMap, List.flatMap_def]
  congr 1
  refine List.map_congr_left fun e _ => ?_
  simp [attrBlock, entryLines]

theorem attrBlocks_flatten (l : LLLine W) (k : Ty W) : (attrBlocks l k).flatten = attrLines l k :=
  entryLines_flatten ..

theorem attrBlock_tokens {a b : List LLToken} (h : a.map (·.token) = b.map (·.token)) (k : Ty W) (e : LRange × Str × List (Val k)) :
    attrBlock a k e = attrBlock b k e :=
  List.map_congr_left fun x _ => attrLine_tokens h x

theorem attrBlocksAll_moved (k : Ty W) (n : Nat) : ∀ (ls : List (LLLine W)) (m : Nat),
    (attrBlocksAll k m ls).map (fun b => b.map (movedRight n)) = attrBlocksAll k (n + m) ls
  | [], _ => rfl
  | l :: ls, m => by
    rw [attrBlocksAll, attrBlocksAll, List.map_append, List.map_map, attrBlocksAll_moved k n ls, Nat.add_assoc]
    congr 2
    funext b
    simp only [Function.comp, List.map_map]
    exact List.map_congr_left fun s _ => movedRight_add n m s

theorem attrBlocks_all (L : AdditiveWidth W) (k : Ty W) : ∀ (ls : List (LLLine W)),
    (∀ l ∈ ls, l.ll_tokens ≠ [] ∧ ∃ h, Reachable l h ∧ Ordered h) →
    (queriedAll k 0 ls).map (attrBlock (ls.flatMap (·.ll_tokens)) k) = attrBlocksAll k 0 ls
  | [], _ => rfl
  | l :: ls, H => by
    have ih := attrBlocks_all L k ls (fun x hx => H x (by simp [hx]))
    obtain ⟨ne, h, hr, ho⟩ := H l (by simp)
    rw [queriedAll, attrBlocksAll, shiftEntry_zero, List.map_id, Nat.zero_add, Nat.zero_add, List.map_append, List.flatMap_cons]
    congr 1
    · unfold attrBlocks
      rw [List.map_map]
      refine List.map_congr_left fun e he => ?_
      simp only [Function.comp, attrBlock, List.map_map]
      refine List.map_congr_left fun x hx => ?_
      have hx' : x ∈ entryLines k (queried l k) := by
        obtain ⟨e', he', hx'⟩ := List.mem_flatMap.1 hx
        rw [List.mem_singleton.1 he'] at hx'
        exact List.mem_flatMap.2 ⟨e, he, hx'⟩
      obtain ⟨b1, b2⟩ := entryLines_bounds hr ho hx'
      rw [attrLine_left _ _ b1 b2]
      exact (movedRight_zero _).symm
    · by_cases e : ls = []
      · subst e; rfl
      have ne' : ls.flatMap (·.ll_tokens) ≠ [] := by
        cases ls with
        | nil => exact absurd rfl e
        | cons m ls =>
          rw [List.flatMap_cons]
          simp [(H m (by simp)).1]
      have q := queriedAll_shift k l.ll_tokens.length ls 0
      rw [Nat.add_zero] at q
      have a := attrBlocksAll_moved k (columnsOf l) ls 0
      rw [Nat.add_zero] at a
      rw [← q, ← a, ← ih, List.map_map, List.map_map]
      refine List.map_congr_left fun e _ => ?_
      have s := entryLines_shift k l.ll_tokens.length [e]
      rw [List.map_singleton] at s
      simp only [Function.comp, attrBlock, s, List.map_map]
      exact List.map_congr_left fun x _ => attrLine_right L ne ne' x.1 x.2

theorem steps_honest : ∀ (ss : List (Step W)) {l l' : LLLine W} {h : History W} (_ : Honest l h) (p : Nat → Nat),
    runAll l (stepsAt p ss) = .ok l' → ∃ h', Honest l' h'
  | [], _, _, h, hh, _, run => by cases run; exact ⟨h, hh⟩
  | s :: ss, l, l', h, hh, p, run => by
    simp only [stepsAt, runAll] at run
    cases hr : l.run (p 0) s.resolver with
    | error e => rw [hr] at run; cases run
    | ok l1 =>
      rw [hr] at run
      obtain ⟨h1, hh1⟩ := step_honest s hh (p 0) hr
      exact steps_honest ss hh1 _ run

theorem analysedBy_honest {p : Nat → Nat} {ss : List (Step W)} {t : Str} {l : LLLine W} (h : AnalysedBy p ss t l) :
    l.ll_tokens ≠ [] ∧ ∃ h, Reachable l h ∧ Ordered h := by
  obtain ⟨l0, h0, h1⟩ := h
  refine ⟨?_, ?_⟩
  · rw [runAll_tokens _ h1]
    exact create_ne (string_wf t) h0 (by simp)
  · obtain ⟨g, hg⟩ := steps_honest ss (.create _ _ _ (string_wf t) h0) p h1
    exact ⟨g, hg.spec⟩

theorem analysedEach_honest {p : Nat → Nat} {ss : List (Step W)} : ∀ {ts : List Str} {ls : List (LLLine W)}, AnalysedEach p ss ts ls →
    ∀ l ∈ ls, l.ll_tokens ≠ [] ∧ ∃ h, Reachable l h ∧ Ordered h
  | [], [], _ => by intro l hl; cases hl
  | _ :: _, [], h => h.elim
  | [], _ :: _, h => h.elim
  | t :: ts, l :: ls, h => by
    intro x hx
    rcases List.mem_cons.1 hx with rfl | hx
    · exact analysedBy_honest h.1
    · exact analysedEach_honest h.2 x hx

end LNlp
