import Verif.Spec.Longest
import Verif.Props.Select
/- Property C139: the longest and the shortest match. -/
namespace LNlp
variable {W : World} {Out : Type}

/-! ### C139: the longest and the shortest match -/

/-- C139 as the names say: `match_forwards_longest` returns the (first) longest and `match_forwards_shortest` the (first)
shortest of the results of `match_forwards`. -/
def C139_claim : Prop := ∀ (s : LLSelection Demo.W) (Out : Type) (m : XMatch Demo.W Out) (rs : List (LLSelection Demo.W × Out)),
  s.matchForwards m = .ok rs → (∃ o, s.matchForwardsLongest m = .ok o ∧ FirstLongest rs o) ∧
    ∃ o, s.matchForwardsShortest m = .ok o ∧ FirstShortest rs o

/-- C139: they do not; they are not implemented. -/
theorem C139_false : ¬ C139_claim := by
  intro claim
  obtain ⟨o, ho, _⟩ := (claim (Demo.sel 0 0) _ (X.attr .textTag) _ rfl).1
  cases ho

/-- C139: they panic on every selection with every matcher, found or not. -/
theorem C139_always_panic_partial (s : LLSelection W) (m : XMatch W Out) :
    (∃ e, s.matchForwardsLongest m = .error e) ∧ ∃ e, s.matchForwardsShortest m = .error e :=
  ⟨⟨_, rfl⟩, ⟨_, rfl⟩⟩

example := C139_always_panic_partial (Demo.sel 0 4) (X.attr (Ty.user 2))

/-- one selection reaches further than another with the same start exactly if something of it is left behind the other -/
theorem exceeds_eq {a b : LLSelection W} (hp : a.ll_line = b.ll_line) (ha : a.start_idx ≤ a.end_idx) :
    a.exceeds b = .ok (decide (b.end_idx < a.end_idx)) := by
  unfold LLSelection.exceeds LLSelection.splitWith
  rw [if_pos (by rw [hp])]
  simp only [LLSelection.selectionFrom, Nat.min_self]
  by_cases c : b.end_idx < a.end_idx
  · rw [if_pos (by omega)]; simp [c]
  · rw [if_neg (by omega)]; simp [c]

theorem best_fold {better : LLSelection W → LLSelection W → R Bool} {lt : Nat → Nat → Prop} [DecidableRel lt]
    (P : LLSelection W × Out → Prop)
    (hb : ∀ p b, P p → P b → better p.1 b.1 = .ok (decide (lt b.1.end_idx p.1.end_idx)))
    (trans : ∀ {a b c : Nat}, lt a b → lt b c → lt a c)
    (lt_of : ∀ {a b c : Nat}, ¬ lt b a → lt b c → lt a c) :
    ∀ (rs before after : List (LLSelection W × Out)) (b : LLSelection W × Out), (∀ p ∈ rs, P p) → P b →
      (∀ q ∈ before, lt q.1.end_idx b.1.end_idx) → (∀ q ∈ after, ¬ lt b.1.end_idx q.1.end_idx) →
      ∃ before' p after', before ++ b :: (after ++ rs) = before' ++ p :: after' ∧
        foldR (fun (best : Option (LLSelection W × Out)) p =>
          match best with
          | none => .ok (some p)
          | some b =>
            match better p.1 b.1 with
            | .error e => .error e
            | .ok true => .ok (some p)
            | .ok false => .ok (some b)) (some b) rs = .ok (some p) ∧
        (∀ q ∈ before', lt q.1.end_idx p.1.end_idx) ∧ ∀ q ∈ after', ¬ lt p.1.end_idx q.1.end_idx := by
  intro rs
  induction rs with
  | nil =>
    intro before after b _ _ h1 h2
    exact ⟨before, b, after, by simp, rfl, h1, h2⟩
  | cons p rs ih =>
    intro before after b hP hPb h1 h2
    have hbp := hb p b (hP p (by simp)) hPb
    by_cases c : lt b.1.end_idx p.1.end_idx
    · obtain ⟨before', q, after', e1, e2, e3, e4⟩ := ih (before ++ b :: after) [] p (fun x hx => hP x (by simp [hx]))
        (hP p (by simp)) (by
          intro q hq
          rcases List.mem_append.1 hq with hq | hq
          · exact trans (h1 q hq) c
          · rcases List.mem_cons.1 hq with rfl | hq
            · exact c
            · exact lt_of (h2 q hq) c) (by simp)
      refine ⟨before', q, after', ?_, ?_, e3, e4⟩
      · rw [← e1]; simp
      · rw [← e2, foldR]
        simp only [hbp, c, decide_true]
    · obtain ⟨before', q, after', e1, e2, e3, e4⟩ := ih before (after ++ [p]) b (fun x hx => hP x (by simp [hx])) hPb h1 (by
          intro q hq
          rcases List.mem_append.1 hq with hq | hq
          · exact h2 q hq
          · cases List.mem_singleton.1 hq
            exact c)
      refine ⟨before', q, after', ?_, ?_, e3, e4⟩
      · rw [← e1]; simp
      · rw [← e2, foldR]
        simp only [hbp, c, decide_false]

theorem best_forwards {better : LLSelection W → LLSelection W → R Bool} {lt : Nat → Nat → Prop} [DecidableRel lt]
    (s : LLSelection W) (m : XMatch W Out) (P : LLSelection W × Out → Prop)
    (hb : ∀ p b, P p → P b → better p.1 b.1 = .ok (decide (lt b.1.end_idx p.1.end_idx)))
    (trans : ∀ {a b c : Nat}, lt a b → lt b c → lt a c)
    (lt_of : ∀ {a b c : Nat}, ¬ lt b a → lt b c → lt a c) (rs : List (LLSelection W × Out)) (hm : s.matchForwards m = .ok rs)
    (hP : ∀ p ∈ rs, P p) :
    ∃ o, s.bestForwards better m = .ok o ∧ ((rs = [] ∧ o = none) ∨ ∃ before p after, rs = before ++ p :: after ∧ o = some p ∧
      (∀ q ∈ before, lt q.1.end_idx p.1.end_idx) ∧ ∀ q ∈ after, ¬ lt p.1.end_idx q.1.end_idx) := by
  unfold LLSelection.bestForwards
  rw [hm]
  cases rs with
  | nil => exact ⟨none, rfl, .inl ⟨rfl, rfl⟩⟩
  | cons p rs =>
    obtain ⟨before, q, after, e1, e2, e3, e4⟩ := best_fold P hb trans lt_of rs [] [] p (fun x hx => hP x (by simp [hx]))
      (hP p (by simp)) (by simp) (by simp)
    exact ⟨some q, e2, .inr ⟨before, q, after, e1, rfl, e3, e4⟩⟩

/-- C139: what the names say can be had with `split_with`: folding the results of `match_forwards` so returns the first of
the longest, … -/
theorem C139_longest_instead (s : LLSelection W) (m : XMatch W Out) (hs : s.Inside) (hw : WellBehaved s.ll_line.val m) :
    (∀ e, s.matchForwards m = .error e → s.longestForwards m = .error e) ∧
    ∀ rs, s.matchForwards m = .ok rs → ∃ o, s.longestForwards m = .ok o ∧ FirstLongest rs o := by
  constructor
  · intro e he
    unfold LLSelection.longestForwards LLSelection.bestForwards
    rw [he]
  · intro rs hm
    obtain ⟨o, ho, h⟩ := best_forwards (better := fun p b => p.exceeds b) (lt := fun a b => a < b) s m
      (fun p => p.1.ll_line = s.ll_line ∧ p.1.start_idx ≤ p.1.end_idx)
      (fun p b hp hb => exceeds_eq (hp.1.trans hb.1.symm) hp.2) (fun h1 h2 => Nat.lt_trans h1 h2)
      (fun h1 h2 => Nat.lt_of_le_of_lt (Nat.not_lt.1 h1) h2) rs hm (by
        intro p hp
        have h1 := C42_strictly_larger s m hs hw rs hm p hp
        exact ⟨h1.2.1.1.symm, h1.1.1⟩)
    refine ⟨o, ho, ?_⟩
    simpa only [FirstLongest, Nat.not_lt] using h

/-- three tokens; attributes on the second token, on the second and third, and on the second again -/
def Demo.lengthsRes : Resolver Demo.W :=
  { attr := Ty.user 2
    go := fun _ => .ok ([{ start_idx := 1, end_idx := 1, value := ['v'] }, { start_idx := 1, end_idx := 2, value := ['w'] },
      { start_idx := 1, end_idx := 1, value := ['x'] }], false) }
def Demo.lengthsLine : LLLine Demo.W := Demo.getOk Demo.emptyLine (Demo.nestLine0.run 0 Demo.lengthsRes)
theorem Demo.lengthsReach : Reachable Demo.lengthsLine (creationHistory Demo.W utf8Len [.Text ['a', ' ', 'b'] []] ++
    [⟨Ty.user 2, (1, 1), ['v']⟩, ⟨Ty.user 2, (1, 2), ['w']⟩, ⟨Ty.user 2, (1, 1), ['x']⟩]) :=
  .run Demo.nestLine0 _ 0 Demo.lengthsRes [{ start_idx := 1, end_idx := 1, value := ['v'] },
    { start_idx := 1, end_idx := 2, value := ['w'] }, { start_idx := 1, end_idx := 1, value := ['x'] }] false _
    (.create _ _ _ (by simp [InputToken.WF, InputToken.attrList]) rfl) (by decide) rfl rfl
theorem Demo.lengthsBehaved : WellBehaved Demo.lengthsLine (X.attr (Ty.user 2)) :=
  builtin_wellBehaved (.attr _ trivial) Demo.lengthsReach.rep (by intro x hx; revert x; decide)

example := C139_longest_instead (⟨⟨0, Demo.lengthsLine⟩, 0, 0⟩ : LLSelection Demo.W) (X.attr (Ty.user 2)) ⟨by decide, by decide⟩
  Demo.lengthsBehaved
example : (match (⟨⟨0, Demo.lengthsLine⟩, 0, 0⟩ : LLSelection Demo.W).longestForwards (X.attr (Ty.user 2)) with
    | .ok (some p) => some p.1.end_idx | _ => none) = some 2 := by decide

/-- C139: … and the other way round the first of the shortest. -/
theorem C139_shortest_instead (s : LLSelection W) (m : XMatch W Out) (hs : s.Inside) (hw : WellBehaved s.ll_line.val m) :
    (∀ e, s.matchForwards m = .error e → s.shortestForwards m = .error e) ∧
    ∀ rs, s.matchForwards m = .ok rs → ∃ o, s.shortestForwards m = .ok o ∧ FirstShortest rs o := by
  constructor
  · intro e he
    unfold LLSelection.shortestForwards LLSelection.bestForwards
    rw [he]
  · intro rs hm
    obtain ⟨o, ho, h⟩ := best_forwards (better := fun p b => b.exceeds p) (lt := fun a b => b < a) s m
      (fun p => p.1.ll_line = s.ll_line ∧ p.1.start_idx ≤ p.1.end_idx)
      (fun p b hp hb => exceeds_eq (hb.1.trans hp.1.symm) hb.2) (fun h1 h2 => Nat.lt_trans h2 h1)
      (fun h1 h2 => Nat.lt_of_lt_of_le h2 (Nat.not_lt.1 h1)) rs hm (by
        intro p hp
        have h1 := C42_strictly_larger s m hs hw rs hm p hp
        exact ⟨h1.2.1.1.symm, h1.1.1⟩)
    refine ⟨o, ho, ?_⟩
    simpa only [FirstShortest, Nat.not_lt] using h

example := C139_shortest_instead (⟨⟨0, Demo.lengthsLine⟩, 0, 0⟩ : LLSelection Demo.W) (X.attr (Ty.user 2)) ⟨by decide, by decide⟩
  Demo.lengthsBehaved

end LNlp
