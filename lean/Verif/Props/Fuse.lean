import Verif.Lemmas.Fuse
import Verif.Lemmas.Currency
import Verif.Props.Case
/- C110: assigning in one run or in several. -/
namespace LNlp
variable {W : World}

/-! ### C110 -/

/-- C110: assigning in two runs is assigning in one: the same line, or the same panic. -/
theorem C110_one_run (l : LLLine W) (k : Ty W) (as bs : List (LLCursorAssignment (Val k))) (p p1 p2 : Nat) :
    l.run p (assigning k (as ++ bs)) = runTwo l p1 (assigning k as) p2 (assigning k bs) := by
  unfold runTwo LLLine.run
  by_cases he : l.ll_tokens.isEmpty
  · simp [he]
  · simp only [he, assigning, foldR_append]
    cases hf : foldR (LLLineAttrs.assign k) l.attrs as with
    | error e => rfl
    | ok attrs => simp [he]

/-- C110: any two resolvers of one type can be replaced by one that assigns what they assign. -/
theorem C110_fuse {l l1 l2 : LLLine W} {p1 p2 : Nat} {a b : Resolver W} (same : b.attr = a.attr) (ne : l.ll_tokens ≠ [])
    (h1 : l.run p1 a = .ok l1) (h2 : l1.run p2 b = .ok l2) :
    ∃ as bs, a.go (wholeLine l p1) = .ok (as, false) ∧ b.go (wholeLine l1 p2) = .ok (bs, false) ∧
      ∀ p, l.run p (assigning a.attr (as ++ same ▸ bs)) = .ok l2 := by
  have key : ∀ {l l' : LLLine W} {p : Nat} {r : Resolver W},
      l.ll_tokens ≠ [] → l.run p r = .ok l' → ∃ as, r.go (wholeLine l p) = .ok (as, false) ∧
        ∀ q, l.run q (assigning r.attr as) = .ok l' := by
    intro l l' p r ne h
    cases hf : r.go (wholeLine l p) with
    | error e =>
      unfold LLLine.run at h
      rw [if_neg (by simpa using ne), show r.go ⟨⟨p, l⟩, 0, l.ll_tokens.length - 1⟩ = _ from hf] at h
      cases h
    | ok x =>
      obtain ⟨as, leaked⟩ := x
      unfold LLLine.run at h
      rw [if_neg (by simpa using ne), show r.go ⟨⟨p, l⟩, 0, l.ll_tokens.length - 1⟩ = _ from hf] at h
      cases leaked with
      | true => cases h
      | false =>
        refine ⟨as, rfl, fun q => ?_⟩
        unfold LLLine.run
        rw [if_neg (by simpa using ne)]
        exact h
  have ne1 : l1.ll_tokens ≠ [] := by rw [run_tokens h1]; exact ne
  obtain ⟨as, ha, hra⟩ := key ne h1
  obtain ⟨bs, hb, hrb⟩ := key ne1 h2
  refine ⟨as, bs, ha, hb, fun p => ?_⟩
  obtain ⟨ka, fa⟩ := a
  obtain ⟨kb, fb⟩ := b
  cases same
  refine (C110_one_run l _ as bs p p1 p2).trans ?_
  unfold runTwo
  rw [hra p1]
  exact hrb p2

/-- C110: the order of assignments matters to matchers only between assignments that start at the same token or
end at the same token.  Queries return the same entries, perhaps in another order. -/
theorem C110_order {l l' : LLLine W} {h h' : History W} (hr : Reachable l h) (hr' : Reachable l' h')
    (ht : l.ll_tokens = l'.ll_tokens) (hs : ∀ i, startingAt i h = startingAt i h') (he : ∀ i, endingAt i h = endingAt i h') :
    (∀ {Out : Type} (m : XMatch W Out), Builtin m → ∀ d, m.go d l = m.go d l') ∧
    ∀ k q q', l.query k = .ok q → l'.query k = .ok q' → q.Perm q' := by
  refine ⟨fun m hm d => ?_, fun k q q' hq hq' => ?_⟩
  · rw [same_but_ranges hs he hr.rep hr'.rep ht]
    exact (go_ranges _ l hm d).symm
  · have ord : ∀ {l : LLLine W} {h : History W} {q}, Reachable l h → l.query k = .ok q → ∀ r ∈ rangesOf k h, r.1 ≤ r.2 + 1 := by
      intro l h q hr hq r hm
      apply Nat.le_of_not_lt
      intro hlt
      obtain ⟨e, he⟩ := (C13_query_panics_iff hr k).2 ⟨r, hm, hlt⟩
      rw [hq] at he; cases he
    rw [C13_query_is_history hr k (ord hr hq)] at hq
    rw [C13_query_is_history hr' k (ord hr' hq')] at hq'
    cases hq
    cases hq'
    have e : (rangesOf k h').map (fun r => (r, coveredText l'.ll_tokens r, valuesOf k r h')) =
        (rangesOf k h').map (fun r => (r, coveredText l.ll_tokens r, valuesOf k r h)) := by
      apply List.map_congr_left
      intro r _
      rw [ht, same_values hs]
    rw [e]
    exact (same_ranges_perm hs k).map _

/-- C110, tables: running two tables of one type one after the other is, for matchers and queries, running the
merged table. -/
theorem C110_tables {k : Ty W} (a b m : TextMatchAssignResolver W k) (M : Merges m a b) {l : LLLine W} {h : History W}
    (hr : Reachable l h) (ne : l.ll_tokens ≠ []) (p1 p2 p3 : Nat) :
    ∃ l1 l2 l3, l.run p1 a.resolver = .ok l1 ∧ l1.run p2 b.resolver = .ok l2 ∧ l.run p3 m.resolver = .ok l3 ∧
      (∀ {Out : Type} (x : XMatch W Out), Builtin x → ∀ d, x.go d l2 = x.go d l3) ∧
      ∀ k q q', l2.query k = .ok q → l3.query k = .ok q' → q.Perm q' := by
  obtain ⟨l1, h1, r1⟩ := C58_run a hr ne p1
  have t1 := run_tokens h1
  obtain ⟨l2, h2, r2⟩ := C58_run b r1 (by rw [t1]; exact ne) p2
  have t2 := run_tokens h2
  obtain ⟨l3, h3, r3⟩ := C58_run m hr ne p3
  have t3 := run_tokens h3
  refine ⟨l1, l2, l3, h1, h2, h3, ?_⟩
  have hb : ∀ i, tableValues b l1 i = tableValues b l i := by
    intro i; unfold tableValues textAt; rw [t1]
  have hm : ∀ i, tableValues m l i = tableValues a l i ++ tableValues b l i := by
    intro i
    unfold tableValues
    cases textAt l i with
    | none => rfl
    | some t => simp only [M.caseA, M.caseB, M.values]
  simp only [t1, hb, between_all l ne] at r2
  rw [between_all l ne] at r3
  simp only [hm] at r3
  refine C110_order r2 r3 (by rw [t2, t1, t3]) (fun i => ?_) (fun i => ?_)
  · have d : ∀ x y : History W, startingAt i (x ++ y) = startingAt i x ++ startingAt i y := fun x y => List.filter_append ..
    rw [d, d, d, tokens_startingAt, tokens_startingAt, tokens_startingAt]
    split <;> simp
  · have d : ∀ x y : History W, endingAt i (x ++ y) = endingAt i x ++ endingAt i y := fun x y => List.filter_append ..
    rw [d, d, d, tokens_endingAt, tokens_endingAt, tokens_endingAt]
    split <;> simp

/-- a second table of the type of `Demo.table`, and both in one -/
def Demo.table' : TextMatchAssignResolver Demo.W (Ty.user 5) :=
  .newCaseInsensitive (W := Demo.W) (Ty.user 5) [(['n', 'o', 'w'], [(['n'] : Str)]), (['p', 'a', 'y'], [(['r'] : Str)])]
def Demo.tables : TextMatchAssignResolver Demo.W (Ty.user 5) where
  case_sensitive := false
  lookup := fun t => some ((Demo.table.lookup t).getD [] ++ (Demo.table'.lookup t).getD [])
theorem Demo.merges : Merges Demo.tables Demo.table Demo.table' := ⟨rfl, rfl, fun _ => rfl⟩

example := C110_one_run Demo.exLine (Ty.user 2) [⟨0, 1, (['x'] : Str)⟩] [⟨0, 1, (['y'] : Str)⟩, ⟨2, 2, (['z'] : Str)⟩] 0 1 2
example : ∃ l1 l2, Demo.exLine.run 0 Demo.table.resolver = .ok l1 ∧ l1.run 0 Demo.table'.resolver = .ok l2 ∧
    ∃ as : List (LLCursorAssignment (Val (W := Demo.W) (Ty.user 5))), ∀ p, Demo.exLine.run p (assigning (Ty.user 5) as) = .ok l2 := by
  obtain ⟨l1, h1, r1⟩ := C58_run Demo.table Demo.exReach Demo.exLine_ne 0
  obtain ⟨l2, h2, _⟩ := C58_run Demo.table' r1 (by rw [run_tokens h1]; exact Demo.exLine_ne) 0
  obtain ⟨as, bs, _, _, h⟩ := C110_fuse (a := Demo.table.resolver) (b := Demo.table'.resolver) rfl Demo.exLine_ne h1 h2
  exact ⟨l1, l2, h1, h2, _, h⟩
example := C110_tables Demo.table Demo.table' Demo.tables Demo.merges Demo.exReach Demo.exLine_ne 0 0 0
example := C110_order Demo.exReach2 Demo.exReach2 rfl (fun _ => rfl) (fun _ => rfl)
end LNlp
