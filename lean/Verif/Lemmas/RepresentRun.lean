import Verif.Lemmas.Represent
/- Programs, runs and creation under a recoding of the attribute values. -/
namespace LNlp
variable {W : World} {T : Types} {ρ : Recoding W T}

/-! ### selections -/

/-- related answers of an API call -/
def AnswerRel {Resp Resp' : Type} (Q : Resp → Resp' → Prop) (a : List LRange × Resp) (a' : List LRange × Resp') : Prop :=
  a.1 = a'.1 ∧ Q a.2 a'.2

/-- related found selections -/
def FoundRel {Out Out' : Type} (S : Out → Out' → Prop) (p : LLSelection W × Out) (p' : LLSelection (W.retype T) × Out') : Prop :=
  p.1.range = p'.1.range ∧ S p.2 p'.2

section
variable {Out Out' : Type} {S : Out → Out' → Prop} {m : XMatch W Out} {m' : XMatch (W.retype T) Out'}
  {rc : Rc (LLLine W)} {rc' : Rc (LLLine (W.retype T))}

theorem answerPairs_rel {x : R (List (LLSelection W × Out))} {y : R (List (LLSelection (W.retype T) × Out'))}
    (h : SameOutcome (AllRel (FoundRel S)) x y) : SameOutcome (AnswerRel (AllRel S)) (answerPairs x) (answerPairs y) := by
  rcases h.either with ⟨e, rfl, rfl⟩ | ⟨a, b, rfl, rfl, h⟩
  · exact rfl
  · exact ⟨h.map_eq (fun _ _ h => h.1), h.map (fun _ _ h => h.2)⟩

theorem findBy_rel (hm : AnswersAlike rc.val rc'.val S m m') (r : LRange) :
    SameOutcome (AllRel (FoundRel S)) ((selAt rc r).findBy m) ((selAt rc' r).findBy m') := by
  refine flatMapR_rel (fun i _ e => ?_) (AllRel.rfl' _)
  subst e
  show SameOutcome _ (match m.go (.fwd i) rc.val with | .error e => _ | .ok rs => _)
    (match m'.go (.fwd i) rc'.val with | .error e => _ | .ok rs => _)
  rcases (hm (.fwd i)).either with ⟨e, h1, h2⟩ | ⟨a, b, h1, h2, h⟩
  · rw [h1, h2]; exact rfl
  · rw [h1, h2]
    exact AllRel.map h (fun p q h => ⟨congrArg (Prod.mk i) h.2, h.1⟩)

theorem findBoth_rel (hm : AnswersAlike rc.val rc'.val S m m') (r : LRange) :
    SameOutcome (AllRel (FoundRel S)) ((selAt rc r).findByForwardsAndBackwards m)
      ((selAt rc' r).findByForwardsAndBackwards m') := by
  refine flatMapR_rel (fun i _ e => ?_) (AllRel.rfl' _)
  subst e
  show SameOutcome _ (match m.go (.fwd i) rc.val with | .error e => _ | .ok rs => _)
    (match m'.go (.fwd i) rc'.val with | .error e => _ | .ok rs => _)
  rcases (hm (.fwd i)).either with ⟨e, h1, h2⟩ | ⟨a, b, h1, h2, h⟩
  · rw [h1, h2]; exact rfl
  · rw [h1, h2]
    show SameOutcome _ (match m.go (.bwd i) rc.val with | .error e => _ | .ok rs => _)
      (match m'.go (.bwd i) rc'.val with | .error e => _ | .ok rs => _)
    rcases (hm (.bwd i)).either with ⟨e, h1, h2⟩ | ⟨a', b', h1, h2, h'⟩
    · rw [h1, h2]; exact rfl
    · rw [h1, h2]
      exact (AllRel.map h (fun p q h => ⟨congrArg (Prod.mk i) h.2, h.1⟩)).append
        (AllRel.map h' (fun p q h => ⟨congrArg (fun x => (x, i)) h.2, h.1⟩))

theorem matchForwards_rel (ht : rc'.val.ll_tokens = rc.val.ll_tokens) (hm : AnswersAlike rc.val rc'.val S m m') (r : LRange) :
    SameOutcome (AllRel (FoundRel S)) ((selAt rc r).matchForwards m) ((selAt rc' r).matchForwards m') := by
  unfold LLSelection.matchForwards
  simp only [selAt, ht]
  by_cases h0 : r.2 + 1 = rc.val.ll_tokens.length
  · simp only [h0, if_true]; exact AllRel.nil
  · simp only [h0, if_false]
    rcases (hm (.fwd (r.2 + 1))).either with ⟨e, h1, h2⟩ | ⟨a, b, h1, h2, h⟩
    · rw [h1, h2]; exact rfl
    · rw [h1, h2]
      exact AllRel.map h (fun p q h => ⟨congrArg (Prod.mk r.1) h.2, h.1⟩)

theorem matchBackwards_rel (hm : AnswersAlike rc.val rc'.val S m m') (r : LRange) :
    SameOutcome (AllRel (FoundRel S)) ((selAt rc r).matchBackwards m) ((selAt rc' r).matchBackwards m') := by
  unfold LLSelection.matchBackwards
  simp only [selAt]
  by_cases h0 : r.1 = 0
  · simp only [h0, if_true]; exact AllRel.nil
  · simp only [h0, if_false]
    rcases (hm (.bwd (r.1 - 1))).either with ⟨e, h1, h2⟩ | ⟨a, b, h1, h2, h⟩
    · rw [h1, h2]; exact rfl
    · rw [h1, h2]
      exact AllRel.map h (fun p q h => ⟨congrArg (fun x => (x, r.2)) h.2, h.1⟩)

theorem selectionFrom_range (rc : Rc (LLLine W)) (r : LRange) (x y : Nat) :
    ((selAt rc r).selectionFrom x y).map LLSelection.range =
      if max x r.1 ≤ min y r.2 then some (max x r.1, min y r.2) else none := by
  unfold LLSelection.selectionFrom
  simp only [selAt]
  by_cases h : max x r.1 ≤ min y r.2
  · simp only [h, if_true]; rfl
  · simp only [h, if_false]; rfl

theorem selectionFrom_ranges (rc : Rc (LLLine W)) (rc' : Rc (LLLine (W.retype T))) (r : LRange) (x y : Nat) :
    ((selAt rc r).selectionFrom x y).toList.map LLSelection.range =
      ((selAt rc' r).selectionFrom x y).toList.map LLSelection.range := by
  have h := (selectionFrom_range rc r x y).trans (selectionFrom_range rc' r x y).symm
  revert h
  cases (selAt rc r).selectionFrom x y <;> cases (selAt rc' r).selectionFrom x y <;> intro h
  · rfl
  · cases h
  · cases h
  · simpa using h

theorem gaps_ranges (rc : Rc (LLLine W)) (rc' : Rc (LLLine (W.retype T))) (r : LRange) : ∀ (rs : List LRange) (a : Nat),
    (gaps (selAt rc r) a rs).map LLSelection.range = (gaps (selAt rc' r) a rs).map LLSelection.range
  | [], a => selectionFrom_ranges rc rc' r a r.2
  | p :: rs, a => by
    simp only [gaps, List.map_append, gaps_ranges rc rc' r rs (p.2 + 1)]
    congr 1
    unfold gapBefore
    cases checkedSub p.1 1 with
    | none => rfl
    | some x => exact selectionFrom_ranges rc rc' r a x

theorem splitBy_rel (hm : AnswersAlike rc.val rc'.val S m m') (r : LRange) :
    SameOutcome (AnswerRel Eq) (answerList ((selAt rc r).splitBy m)) (answerList ((selAt rc' r).splitBy m')) := by
  rcases (findBy_rel hm r).either with ⟨e, h1, h2⟩ | ⟨a, b, h1, h2, h⟩
  · unfold LLSelection.splitBy
    rw [h1, h2]; exact rfl
  · by_cases hle : r.1 ≤ r.2
    · rw [splitBy_eq h1 hle, splitBy_eq h2 hle]
      have hr : a.map (fun p => (p.1.start_idx, p.1.end_idx)) = b.map (fun p => (p.1.start_idx, p.1.end_idx)) :=
        h.map_eq (fun _ _ h => h.1)
      rw [hr]
      exact ⟨gaps_ranges rc rc' r _ _, rfl⟩
    · have hn : rangeIncl r.1 r.2 = [] := by
        apply List.eq_nil_iff_forall_not_mem.2
        intro x hx
        have := mem_rangeIncl.1 hx
        omega
      have e1 : a = [] := by
        simp [LLSelection.findBy, selAt, hn] at h1
        exact h1
      subst e1
      cases h
      unfold LLSelection.splitBy
      rw [h1, h2]
      exact ⟨rfl, rfl⟩

theorem splitWith_rel (rc : Rc (LLLine W)) (rc' : Rc (LLLine (W.retype T))) (r t : LRange) :
    SameOutcome (AnswerRel Eq) (answerTwo ((selAt rc r).splitWith (selAt rc t)))
      (answerTwo ((selAt rc' r).splitWith (selAt rc' t))) := by
  have hs : ∀ x y, ((selAt rc r).selectionFrom x y).isSome = ((selAt rc' r).selectionFrom x y).isSome := by
    intro x y
    have h := (selectionFrom_range rc r x y).trans (selectionFrom_range rc' r x y).symm
    have := congrArg Option.isSome h
    simpa using this
  unfold LLSelection.splitWith
  have e1 : (selAt rc r).ll_line.ptr = (selAt rc t).ll_line.ptr := rfl
  have e2 : (selAt rc' r).ll_line.ptr = (selAt rc' t).ll_line.ptr := rfl
  simp only [e1, e2, if_true]
  show AnswerRel Eq _ _
  by_cases h0 : t.1 > 0
  · have h1 : (selAt rc t).start_idx > 0 := h0
    have h2 : (selAt rc' t).start_idx > 0 := h0
    simp only [h1, h2, if_true]
    refine ⟨?_, Prod.ext (hs _ _) (hs _ _)⟩
    simp only [List.map_append]
    exact congr (congrArg _ (selectionFrom_ranges rc rc' r _ _)) (selectionFrom_ranges rc rc' r _ _)
  · have h1 : ¬ (selAt rc t).start_idx > 0 := h0
    have h2 : ¬ (selAt rc' t).start_idx > 0 := h0
    simp only [h1, h2, if_false]
    refine ⟨?_, Prod.ext rfl (hs _ _)⟩
    simp only [List.map_append]
    exact congr (congrArg _ rfl) (selectionFrom_ranges rc rc' r _ _)

theorem head_rel {as : List (Out × Nat)} {bs : List (Out' × Nat)} (h : AllRel (AtSame S) as bs) :
    as.head?.map (·.2) = bs.head?.map (·.2) := by
  cases h with
  | nil => rfl
  | cons h _ => exact congrArg some h.2

theorem trim_part (f : Nat → Nat) (d : Nat) (b : Bool) : ∀ (x : R (List (Out × Nat))) (y : R (List (Out' × Nat))),
    SameOutcome (AllRel (AtSame S)) x y →
    (if b = true then
      match x with
      | .error e => .error e
      | .ok rs => match rs.head? with | some p => .ok (f p.2) | none => .ok d
     else .ok d : R Nat) =
    (if b = true then
      match y with
      | .error e => .error e
      | .ok rs => match rs.head? with | some p => .ok (f p.2) | none => .ok d
     else .ok d) := by
  intro x y h
  rcases h.either with ⟨e, rfl, rfl⟩ | ⟨_, _, rfl, rfl, h⟩
  · rfl
  · cases h with
    | nil => rfl
    | cons hx _ => simp only [List.head?_cons, hx.2]

theorem trimSelection_rel (hm : AnswersAlike rc.val rc'.val S m m') (r : LRange) (fs fe : Bool) :
    SameOutcome (AnswerRel Eq) (answerOption ((selAt rc r).trimSelection m fs fe))
      (answerOption ((selAt rc' r).trimSelection m' fs fe)) := by
  have he : ∀ (X X' Y Y' : R Nat), X = X' → Y = Y' →
      SameOutcome (AnswerRel Eq)
        (answerOption (match X with
          | .error e => .error e
          | .ok ns => match Y with
            | .error e => .error e
            | .ok ne => if ne ≥ r.1 ∧ ns ≤ ne then
                .ok (some ({ ll_line := rc, start_idx := ns, end_idx := ne } : LLSelection W)) else .ok none))
        (answerOption (match X' with
          | .error e => .error e
          | .ok ns => match Y' with
            | .error e => .error e
            | .ok ne => if ne ≥ r.1 ∧ ns ≤ ne then
                .ok (some ({ ll_line := rc', start_idx := ns, end_idx := ne } : LLSelection (W.retype T))) else .ok none)) := by
    intro X X' Y Y' hX hY
    subst hX hY
    cases X with
    | error e => exact rfl
    | ok ns =>
      cases Y with
      | error e => exact rfl
      | ok ne =>
        by_cases h : ne ≥ r.1 ∧ ns ≤ ne
        · simp only [h, and_self, if_true]; exact ⟨rfl, rfl⟩
        · simp only [h, if_false]; exact ⟨rfl, rfl⟩
  unfold LLSelection.trimSelection
  simp only [selAt]
  exact he _ _ _ _ (trim_part (fun n => n + 1) r.1 fs _ _ (hm (.fwd r.1)))
    (trim_part (fun n => (checkedSub n 1).getD n) r.2 fe _ _ (hm (.bwd r.2)))

end

/-- related calls have related answers -/
theorem exec_rel {rc : Rc (LLLine W)} {rc' : Rc (LLLine (W.retype T))} (tw : Twins ρ rc.val rc'.val) (store : List LRange)
    {Resp Resp' : Type} {Q : Resp → Resp' → Prop} {op : Op W Resp} {op' : Op (W.retype T) Resp'} (ho : OpRel ρ Q op op') :
    SameOutcome (AnswerRel Q) (op.exec rc store) (op'.exec rc' store) := by
  have on : ∀ {Resp Resp' : Type} {Q : Resp → Resp' → Prop} (h : Nat) (f : LLSelection W → Answer Resp)
      (g : LLSelection (W.retype T) → Answer Resp'),
      (∀ r, SameOutcome (AnswerRel Q) (f (selAt rc r)) (g (selAt rc' r))) →
      SameOutcome (AnswerRel Q) (onHandle rc store h f) (onHandle rc' store h g) := by
    intro Resp Resp' Q h f g hfg
    unfold onHandle
    cases store[h]? with
    | none => exact rfl
    | some r => exact hfg r
  cases ho with
  | fromLine h =>
    simp only [Op.exec]; refine on h _ _ (fun r => ?_)
    simp only [LLSelection.fromLine, selAt, tw.toks]
    by_cases h0 : rc.val.ll_tokens.length > 0
    · simp only [h0, if_true]; exact ⟨rfl, rfl⟩
    · simp only [h0, if_false]; exact ⟨rfl, rfl⟩
  | findBy h p => simp only [Op.exec]; exact on h _ _ (fun r => answerPairs_rel (findBy_rel (paired_answers tw p) r))
  | findBoth h p => simp only [Op.exec]; exact on h _ _ (fun r => answerPairs_rel (findBoth_rel (paired_answers tw p) r))
  | matchForwards h p =>
    simp only [Op.exec]; exact on h _ _ (fun r => answerPairs_rel (matchForwards_rel tw.toks (paired_answers tw p) r))
  | matchBackwards h p =>
    simp only [Op.exec]; exact on h _ _ (fun r => answerPairs_rel (matchBackwards_rel (paired_answers tw p) r))
  | splitBy h p => simp only [Op.exec]; exact on h _ _ (fun r => splitBy_rel (paired_answers tw p) r)
  | splitWith h g =>
    simp only [Op.exec]; exact on h _ _ (fun r => on g _ _ (fun t => splitWith_rel rc rc' r t))
  | trimSelection h p x y => simp only [Op.exec]; exact on h _ _ (fun r => trimSelection_rel (paired_answers tw p) r x y)
  | after h =>
    simp only [Op.exec]; refine on h _ _ (fun r => ?_)
    simp only [LLSelection.after, selAt, tw.toks]
    by_cases h0 : r.1 + 1 = rc.val.ll_tokens.length - 1
    · simp only [h0, if_true]; exact ⟨rfl, rfl⟩
    · simp only [h0, if_false]; exact ⟨rfl, rfl⟩

/-- related assignments -/
def AsgRel {V V' : Type} (S : V → V' → Prop) (a : LLCursorAssignment V) (a' : LLCursorAssignment V') : Prop :=
  a.start_idx = a'.start_idx ∧ a.end_idx = a'.end_idx ∧ S a.value a'.value

theorem finishAll_rel {V V' : Type} {S : V → V' → Prop} (store : List LRange) {vs : List (Nat × V)} {vs' : List (Nat × V')}
    (h : AllRel (fun p q => p.1 = q.1 ∧ S p.2 q.2) vs vs') :
    SameOutcome (AllRel (AsgRel S)) (finishAll store vs) (finishAll store vs') := by
  induction h with
  | nil => exact AllRel.nil
  | @cons a b _ _ hab _ ih =>
    obtain ⟨i, v⟩ := a
    obtain ⟨i', v'⟩ := b
    obtain ⟨h1, h2⟩ := hab
    cases h1
    simp only [finishAll]
    cases store[i]? with
    | none => exact rfl
    | some r =>
      rcases ih.either with ⟨e, h1, h2⟩ | ⟨a, b, h1, h2, h⟩
      · simp only [h1, h2]; exact rfl
      · simp only [h1, h2]; exact AllRel.cons ⟨rfl, rfl, by assumption⟩ h

theorem api_rel {rc : Rc (LLLine W)} {rc' : Rc (LLLine (W.retype T))} (tw : Twins ρ rc.val rc'.val) {V V' : Type}
    {S : V → V' → Prop} {p : Api W V} {p' : Api (W.retype T) V'} (hp : ApiRel ρ S p p') :
    ∀ store, SameOutcome (AllRel (AsgRel S)) (p.run rc store) (p'.run rc' store) := by
  induction hp with
  | finish h => intro store; exact finishAll_rel store h
  | panic e => intro store; exact rfl
  | call ho _ ih =>
    intro store
    simp only [Api.run]
    rcases (exec_rel tw store ho).either with ⟨e, h1, h2⟩ | ⟨a, b, h1, h2, h⟩
    · simp only [h1, h2]; exact rfl
    · simp only [h1, h2]
      obtain ⟨a1, a2⟩ := a
      obtain ⟨b1, b2⟩ := b
      obtain ⟨h3, h4⟩ := h
      cases h3
      exact ih _ _ _ h4 _

/-! ### runs -/

/-- the assignment loop, with the same panic -/
theorem assign_rel {n : Nat} {k : Ty W} {asgs : List (LLCursorAssignment (Val k))}
    {asgs' : List (LLCursorAssignment (Val (ρ.ty k)))} (ha : AllRel (AsgRel (ρ.val k)) asgs asgs') :
    ∀ {a : LLLineAttrs W} {a' : LLLineAttrs (W.retype T)} {h : History W} {h' : History (W.retype T)}, RepA n a h →
    RepA n a' h' → SameOutcome (fun _ _ => True) (foldR (LLLineAttrs.assign k) a asgs)
      (foldR (LLLineAttrs.assign (ρ.ty k)) a' asgs') := by
  induction ha with
  | nil => intro a a' h h' _ _; exact trivial
  | @cons x y xs ys hxy _ ih =>
    intro a a' h h' rep rep'
    obtain ⟨h1, h2, h3⟩ := hxy
    by_cases s1 : x.start_idx < n
    · by_cases s2 : x.end_idx < n
      · obtain ⟨a1, e1, r1⟩ := insert_rep rep (x.start_idx, x.end_idx) k x.value s1 s2
        obtain ⟨a2, e2, r2⟩ := insert_rep rep' (y.start_idx, y.end_idx) (ρ.ty k) y.value (h1 ▸ s1) (h2 ▸ s2)
        simp only [foldR, LLLineAttrs.assign, e1, e2]
        exact ih r1 r2
      · have q1 : x.start_idx < a.starts_at.length := by rw [rep.lenS]; exact s1
        have q2 : ¬ x.end_idx < a.ends_at.length := by rw [rep.lenE]; exact s2
        have q3 : y.start_idx < a'.starts_at.length := by rw [rep'.lenS]; exact h1 ▸ s1
        have q4 : ¬ y.end_idx < a'.ends_at.length := by rw [rep'.lenE]; exact h2 ▸ s2
        simp only [foldR, LLLineAttrs.assign, LLLineAttrs.insert, updateAt_ok q1, updateAt_oob q2, updateAt_ok q3,
          updateAt_oob q4]
        exact rfl
    · have q1 : ¬ x.start_idx < a.starts_at.length := by rw [rep.lenS]; exact s1
      have q3 : ¬ y.start_idx < a'.starts_at.length := by rw [rep'.lenS]; exact h1 ▸ s1
      simp only [foldR, LLLineAttrs.assign, LLLineAttrs.insert, updateAt_oob q1, updateAt_oob q3]
      exact rfl

theorem Recoded.twins {l : LLLine W} {l' : LLLine (W.retype T)} (h : Recoded ρ l l') : Twins ρ l l' := by
  obtain ⟨h, h', r, r', ht, hr⟩ := h
  exact rep_twins r.rep r'.rep ht hr

theorem apiResolver_go (k : Ty W) (p : LRange → Api W (Val k)) (l : LLLine W) (ptr : Nat) :
    (apiResolver k p).go (wholeLine l ptr) =
      match (p (wholeLine l ptr).range).run ⟨ptr, l⟩ [(wholeLine l ptr).range] with
      | .ok as => .ok (as, false)
      | .error e => .error e := rfl

theorem run_error_of_go {l : LLLine W} {ptr : Nat} {r : Resolver W} (ne : l.ll_tokens ≠ []) {e : Panic}
    (h : r.go (wholeLine l ptr) = .error e) : l.run ptr r = .error e := by
  have he : l.ll_tokens.isEmpty = false := by cases hl : l.ll_tokens <;> simp_all
  simp only [wholeLine] at h
  simp only [LLLine.run, he, Bool.false_eq_true, if_false, h]

theorem run_rel {l : LLLine W} {l' : LLLine (W.retype T)} (ha : Recoded ρ l l') {r : Resolver W} {r' : Resolver (W.retype T)}
    (hr : ResolverRel ρ r r') (ptr ptr' : Nat) : SameOutcome (Recoded ρ) (l.run ptr r) (l'.run ptr' r') := by
  have tw := ha.twins
  obtain ⟨h, h', hreach, hreach', ht, hh⟩ := ha
  obtain ⟨k, p, p', same, hgo, hgo'⟩ := hr
  rename_i go go'
  by_cases hne : l.ll_tokens = []
  · have hne' : l'.ll_tokens = [] := by rw [ht, hne]
    have e1 : l.run ptr ⟨k, go⟩ = .ok l := by simp [LLLine.run, hne]
    have e2 : l'.run ptr' ⟨ρ.ty k, go'⟩ = .ok l' := by simp [LLLine.run, hne']
    rw [e1, e2]
    exact ⟨h, h', hreach, hreach', ht, hh⟩
  · have hne' : l'.ll_tokens ≠ [] := by rw [ht]; exact hne
    have hrange : (wholeLine l' ptr').range = (wholeLine l ptr).range := by simp [wholeLine, LLSelection.range, ht]
    have key := api_rel (rc := ⟨ptr, l⟩) (rc' := ⟨ptr', l'⟩) tw (same (wholeLine l ptr).range) [(wholeLine l ptr).range]
    rcases key.either with ⟨e, h1, h2⟩ | ⟨asgs, asgs', h1, h2, hasg⟩
    · have g1 : (Resolver.mk k go).go (wholeLine l ptr) = .error e := by
        show go _ = _
        rw [hgo l ptr hne, apiResolver_go, h1]
        rfl
      have g2 : (Resolver.mk (ρ.ty k) go').go (wholeLine l' ptr') = .error e := by
        show go' _ = _
        rw [hgo' l' ptr' hne', apiResolver_go, hrange, h2]
        rfl
      have e1 := run_error_of_go hne g1
      have e2 := run_error_of_go hne' g2
      rw [e1, e2]
      exact rfl
    · have g1 : (Resolver.mk k go).go (wholeLine l ptr) = .ok (asgs, false) := by
        show go _ = _
        rw [hgo l ptr hne, apiResolver_go, h1]
        rfl
      have g2 : (Resolver.mk (ρ.ty k) go').go (wholeLine l' ptr') = .ok (asgs', false) := by
        show go' _ = _
        rw [hgo' l' ptr' hne', apiResolver_go, hrange, h2]
        rfl
      have r1 := run_of_go hne g1
      have r2 := run_of_go hne' g2
      have rep' : RepA l.ll_tokens.length l'.attrs h' := by have := hreach'.rep; rw [Rep, ht] at this; exact this
      have fold := assign_rel hasg hreach.rep rep'
      rcases fold.either with ⟨e, f1, f2⟩ | ⟨a, a', f1, f2, _⟩
      · rw [r1, r2]
        simp only [f1, f2]
        exact rfl
      · have q1 : l.run ptr ⟨k, go⟩ = .ok { l with attrs := a } := by rw [r1]; simp only [f1]
        have q2 : l'.run ptr' ⟨ρ.ty k, go'⟩ = .ok { l' with attrs := a' } := by rw [r2]; simp only [f2]
        rw [q1, q2]
        refine ⟨h ++ asgs.map (recOf k), h' ++ asgs'.map (recOf (ρ.ty k)), .run l h ptr _ asgs false _ hreach hne g1 q1,
          .run l' h' ptr' _ asgs' false _ hreach' hne' g2 q2, ht, hh.append (hasg.map ?_)⟩
        intro x y hxy
        obtain ⟨s, e, v⟩ := x
        obtain ⟨s', e', v'⟩ := y
        obtain ⟨h1, h2, h3⟩ := hxy
        cases h1; cases h2
        exact .mk k _ h3

/-! ### creation -/

set_option smartUnfolding false in
theorem textPieces_retype (s : Str) : textPieces (W.retype T) s = textPieces W s := rfl

theorem tokensOf_rel {t : InputToken W} {t' : InputToken (W.retype T)} (h : InputRel ρ t t') (size : Str → Nat) :
    tokensOf (W.retype T) size t' = tokensOf W size t := by
  cases h with
  | text s _ => simp only [tokensOf, textPieces_retype]
  | custom n _ => rfl

set_option smartUnfolding false in
theorem createTokens_retype (s : Str) (size : Str → Nat) :
    createTokensForString (W.retype T) s size = createTokensForString W s size := rfl

theorem InputRel.attrs {t : InputToken W} {t' : InputToken (W.retype T)} (h : InputRel ρ t t') :
    AllRel (AttrRel ρ) t.attrList t'.attrList := by
  cases h <;> assumption

theorem AllRel.mem_left {α β : Type _} {S : α → β → Prop} {as : List α} {bs : List β} (h : AllRel S as bs) {a : α}
    (ha : a ∈ as) : ∃ b ∈ bs, S a b := by
  induction h with
  | nil => cases ha
  | cons h _ ih =>
    rcases List.mem_cons.1 ha with rfl | ha
    · exact ⟨_, by simp, h⟩
    · obtain ⟨b, hb, h⟩ := ih ha; exact ⟨b, by simp [hb], h⟩

theorem AllRel.mem_right {α β : Type _} {S : α → β → Prop} {as : List α} {bs : List β} (h : AllRel S as bs) {b : β}
    (hb : b ∈ bs) : ∃ a ∈ as, S a b := by
  induction h with
  | nil => cases hb
  | cons h _ ih =>
    rcases List.mem_cons.1 hb with rfl | hb
    · exact ⟨_, by simp, h⟩
    · obtain ⟨a, ha, h⟩ := ih hb; exact ⟨a, by simp [ha], h⟩

theorem input_wf {input : List (InputToken W)} {input' : List (InputToken (W.retype T))}
    (hi : AllRel (InputRel ρ) input input') : (∀ t ∈ input, t.WF) ∧ ∀ t ∈ input', t.WF := by
  constructor
  · intro t ht a ha
    obtain ⟨t', _, h⟩ := hi.mem_left ht
    obtain ⟨a', _, h⟩ := h.attrs.mem_left ha
    cases h
    exact ⟨_, _, rfl⟩
  · intro t ht a ha
    obtain ⟨t', _, h⟩ := hi.mem_right ht
    obtain ⟨a', _, h⟩ := h.attrs.mem_right ha
    cases h
    exact ⟨_, _, rfl⟩

theorem builtinOf_rel (t : LToken) (i : Nat) :
    AllRel (RecRel ρ) (builtinOf W t i) (builtinOf (W.retype T) t i) := by
  have c : ∀ c : Char, RecRel ρ ⟨.char, (i, i), c⟩ ⟨.char, (i, i), c⟩ := fun c =>
    RecRel.mk (ρ := ρ) (v := (c : Val (W := W) Ty.char)) (v' := c) .char (i, i) rfl
  have t : ∀ t : TextTag, RecRel ρ ⟨.textTag, (i, i), t⟩ ⟨.textTag, (i, i), t⟩ := fun t =>
    RecRel.mk (ρ := ρ) (v := (t : Val (W := W) Ty.textTag)) (v' := t) .textTag (i, i) rfl
  rename_i tok
  match tok with
  | .Text [x] tag => exact .cons (c x) (.cons (t tag) .nil)
  | .Text [] tag => exact .cons (t tag) .nil
  | .Text (_ :: _ :: _) tag => exact .cons (t tag) .nil
  | .Value => exact .nil

theorem builtinHistory_rel (toks : List LToken) :
    AllRel (RecRel ρ) (builtinHistory W toks) (builtinHistory (W.retype T) toks) := by
  refine AllRel.flatMap (AllRel.rfl' _) (fun p _ e => ?_)
  subst e
  exact builtinOf_rel p.1 p.2

theorem inputHistory_rel {input : List (InputToken W)} {input' : List (InputToken (W.retype T))} (size : Str → Nat)
    (hi : AllRel (InputRel ρ) input input') : ∀ i,
    AllRel (RecRel ρ) (inputHistory W size i input) (inputHistory (W.retype T) size i input') := by
  induction hi with
  | nil => intro i; exact .nil
  | cons h _ ih =>
    intro i
    simp only [inputHistory, tokensOf_rel h]
    refine (h.attrs.map ?_).append (ih _)
    intro a a' ha
    cases ha with
    | new k hv => exact .mk k _ hv

theorem creation_rel {input : List (InputToken W)} {input' : List (InputToken (W.retype T))} (size : Str → Nat)
    (hi : AllRel (InputRel ρ) input input') :
    AllRel (RecRel ρ) (creationHistory W size input) (creationHistory (W.retype T) size input') := by
  have ht : input'.flatMap (tokensOf (W.retype T) size) = input.flatMap (tokensOf W size) := by
    induction hi with
    | nil => rfl
    | cons h _ ih => simp only [List.flatMap_cons, ih, tokensOf_rel h]
  unfold creationHistory
  rw [ht]
  exact (builtinHistory_rel _).append (inputHistory_rel size hi 0)

/-- states of the creation loop with the same tokens -/
def StRel (st : CreateSt W) (st' : CreateSt (W.retype T)) : Prop :=
  st'.lltokens = st.lltokens ∧ st'.current_size = st.current_size

theorem createStep_rel {t : InputToken W} {t' : InputToken (W.retype T)} (h : InputRel ρ t t') (size : Str → Nat)
    {st : CreateSt W} {st' : CreateSt (W.retype T)} (hs : StRel st st') :
    SameOutcome StRel (createStep W size st t) (createStep (W.retype T) size st' t') := by
  have push : ∀ (lt : List (LToken × Nat)) (as : List (AnyAttribute W)) (as' : List (AnyAttribute (W.retype T))),
      SameOutcome StRel
        (if lt.isEmpty then .error .emptyText else
          match foldR (pushTokens W) (st.lltokens, st.current_size) lt with
          | .error e => .error e
          | .ok (lltokens, current_size) =>
            .ok { spans := st.spans ++ [(st.lltokens.length, lltokens.length - 1, as)], lltokens, current_size })
        (if lt.isEmpty then .error .emptyText else
          match foldR (pushTokens (W.retype T)) (st'.lltokens, st'.current_size) lt with
          | .error e => .error e
          | .ok (lltokens, current_size) =>
            .ok { spans := st'.spans ++ [(st'.lltokens.length, lltokens.length - 1, as')], lltokens, current_size }) := by
    intro lt as as'
    rw [hs.1, hs.2]
    by_cases he : lt.isEmpty = true
    · rw [if_pos he, if_pos he]; exact rfl
    · rw [if_neg he, if_neg he]
      have : foldR (pushTokens (W.retype T)) (st.lltokens, st.current_size) lt =
        foldR (pushTokens W) (st.lltokens, st.current_size) lt := rfl
      rw [this]
      cases foldR (pushTokens W) (st.lltokens, st.current_size) lt with
      | error e => exact rfl
      | ok x => exact ⟨rfl, rfl⟩
  cases h with
  | text s has =>
    simp only [createStep, inputTokens]
    rw [createTokens_retype]
    cases createTokensForString W s size with
    | error e => exact rfl
    | ok lt => exact push lt _ _
  | custom n has =>
    simp only [createStep, inputTokens]
    exact push _ _ _

theorem createLoop_rel {input : List (InputToken W)} {input' : List (InputToken (W.retype T))} (size : Str → Nat)
    (hi : AllRel (InputRel ρ) input input') : ∀ {st : CreateSt W} {st' : CreateSt (W.retype T)}, StRel st st' →
    SameOutcome StRel (foldR (createStep W size) st input) (foldR (createStep (W.retype T) size) st' input') := by
  induction hi with
  | nil => intro st st' hs; exact hs
  | cons h _ ih =>
    intro st st' hs
    simp only [foldR]
    rcases (createStep_rel h size hs).either with ⟨e, h1, h2⟩ | ⟨a, b, h1, h2, h⟩
    · simp only [h1, h2]; exact rfl
    · simp only [h1, h2]; exact ih h

/-- creation succeeds once the loop over the inputs has -/
theorem create_of_loop {size : Str → Nat} {input : List (InputToken W)} (wf : ∀ t ∈ input, t.WF) {st : CreateSt W}
    (hf : foldR (createStep W size) { spans := [], lltokens := [], current_size := 0 } input = .ok st) :
    ∃ l, createLineFromInputTokens W input size = .ok l ∧ l.ll_tokens = st.lltokens := by
  obtain ⟨hg, est⟩ := createLoop_inv input hf
  obtain ⟨l1, e1, t1, r1⟩ := new_rep (W := W) st.lltokens
  simp only [List.length_nil, List.nil_append] at est
  have htl : st.lltokens = layoutM W.usizeBound 0 0 (input.flatMap (tokensOf W size)) := by
    rw [est]
  have hsp : st.spans = spansFrom W size 0 input := by rw [est]
  obtain ⟨l2, e2, t2, r2⟩ := spans_fold (size := size) input 0 r1 wf
    (fun t ht => (inputTokens_ok size (hg t ht)).2) (by rw [t1, htl]; simp)
  exact ⟨l2, by simp only [createLineFromInputTokens, hf, e1, hsp]; exact e2, by rw [t2, t1]⟩

theorem create_rel {input : List (InputToken W)} {input' : List (InputToken (W.retype T))} (size : Str → Nat)
    (hi : AllRel (InputRel ρ) input input') :
    SameOutcome (Recoded ρ) (createLineFromInputTokens W input size) (createLineFromInputTokens (W.retype T) input' size) := by
  obtain ⟨wf, wf'⟩ := input_wf hi
  have loop := createLoop_rel size hi (st := { spans := [], lltokens := [], current_size := 0 })
    (st' := { spans := [], lltokens := [], current_size := 0 }) ⟨rfl, rfl⟩
  rcases loop.either with ⟨e, h1, h2⟩ | ⟨a, b, h1, h2, h⟩
  · have e1 : createLineFromInputTokens W input size = .error e := by simp only [createLineFromInputTokens, h1]
    have e2 : createLineFromInputTokens (W.retype T) input' size = .error e := by
      simp only [createLineFromInputTokens, h2]
    rw [e1, e2]; exact rfl
  · obtain ⟨l, e1, t1⟩ := create_of_loop wf h1
    obtain ⟨l', e2, t2⟩ := create_of_loop wf' h2
    rw [e1, e2]
    exact ⟨_, _, .create input size l wf e1, .create input' size l' wf' e2, by rw [t1, t2]; exact h.1, creation_rel size hi⟩

end LNlp
