import Verif.Lemmas.Stateful
/- Helper lemmas: the searches over a selection with code of the user that counts, remembers or panics. -/
namespace LNlp
variable {W : World}
open Dialog
section
variable {U : Type} {Own : U → Type} {Out : Type} {own : (u : U) → Own u} {md : XMatchD W Own Out} {m : XMatch W Out}

/-! ### user code that is a function -/

theorem findBy_eval {s : LLSelection W} (h : ∀ d, (md.go d s.ll_line.val).eval (answers W own) = m.go d s.ll_line.val) :
    (s.findByD md).eval (answers W own) = s.findBy m := by
  simp only [LLSelection.findByD, LLSelection.findBy]
  refine flatMapD_eval _ (fun i => ?_) _
  simp only [bind_eq, pure_eq, eval_bind, h]
  cases m.go (.fwd i) s.ll_line.val <;> rfl

theorem findFirstBy_eval {s : LLSelection W} (h : ∀ d, (md.go d s.ll_line.val).eval (answers W own) = m.go d s.ll_line.val) :
    (s.findFirstByD md).eval (answers W own) = s.findFirstBy m := by
  simp only [LLSelection.findFirstByD, LLSelection.findFirstBy, bind_eq, pure_eq, eval_bind, findBy_eval h]
  cases s.findBy m <;> rfl

theorem splitBy_eval {s : LLSelection W} (h : ∀ d, (md.go d s.ll_line.val).eval (answers W own) = m.go d s.ll_line.val) :
    (s.splitByD md).eval (answers W own) = s.splitBy m := by
  simp only [LLSelection.splitByD, LLSelection.splitBy, bind_eq, pure_eq, eval_bind, findBy_eval h]
  cases s.findBy m with
  | error e => rfl
  | ok ms =>
    match ms with
    | [] => rfl
    | [m0] => rfl
    | m0 :: m1 :: ms => rfl

theorem findByFB_eval {s : LLSelection W} (h : ∀ d, (md.go d s.ll_line.val).eval (answers W own) = m.go d s.ll_line.val) :
    (s.findByForwardsAndBackwardsD md).eval (answers W own) = s.findByForwardsAndBackwards m := by
  simp only [LLSelection.findByForwardsAndBackwardsD, LLSelection.findByForwardsAndBackwards]
  refine flatMapD_eval _ (fun i => ?_) _
  simp only [bind_eq, pure_eq, eval_bind, h]
  cases m.go (.fwd i) s.ll_line.val with
  | error e => rfl
  | ok fs => cases hb : m.go (.bwd i) s.ll_line.val <;> simp [Except.bind, hb, eval]

theorem matchForwards_eval {s : LLSelection W} (h : ∀ d, (md.go d s.ll_line.val).eval (answers W own) = m.go d s.ll_line.val) :
    (s.matchForwardsD md).eval (answers W own) = s.matchForwards m := by
  simp only [LLSelection.matchForwardsD, LLSelection.matchForwards]
  split
  · rfl
  · simp only [bind_eq, pure_eq, eval_bind, h]
    cases m.go (.fwd (s.end_idx + 1)) s.ll_line.val <;> rfl

theorem matchFirstForwards_eval {s : LLSelection W}
    (h : ∀ d, (md.go d s.ll_line.val).eval (answers W own) = m.go d s.ll_line.val) :
    (s.matchFirstForwardsD md).eval (answers W own) = s.matchFirstForwards m := by
  simp only [LLSelection.matchFirstForwardsD, LLSelection.matchFirstForwards, bind_eq, pure_eq, eval_bind, matchForwards_eval h]
  cases s.matchForwards m <;> rfl

theorem matchBackwards_eval {s : LLSelection W} (h : ∀ d, (md.go d s.ll_line.val).eval (answers W own) = m.go d s.ll_line.val) :
    (s.matchBackwardsD md).eval (answers W own) = s.matchBackwards m := by
  simp only [LLSelection.matchBackwardsD, LLSelection.matchBackwards]
  split
  · rfl
  · simp only [bind_eq, pure_eq, eval_bind, h]
    cases m.go (.bwd (s.start_idx - 1)) s.ll_line.val <;> rfl

theorem matchFirstBackwards_eval {s : LLSelection W}
    (h : ∀ d, (md.go d s.ll_line.val).eval (answers W own) = m.go d s.ll_line.val) :
    (s.matchFirstBackwardsD md).eval (answers W own) = s.matchFirstBackwards m := by
  simp only [LLSelection.matchFirstBackwardsD, LLSelection.matchFirstBackwards, bind_eq, pure_eq, eval_bind, matchBackwards_eval h]
  cases s.matchBackwards m <;> rfl

theorem trimSelection_eval {s : LLSelection W} (h : ∀ d, (md.go d s.ll_line.val).eval (answers W own) = m.go d s.ll_line.val)
    (a b : Bool) : (s.trimSelectionD md a b).eval (answers W own) = s.trimSelection m a b := by
  have end_ : ∀ (x y : Nat), ((if y ≥ s.start_idx ∧ x ≤ y then
      .done (some { ll_line := s.ll_line, start_idx := x, end_idx := y }) else .done none : Talk W Own (Option (LLSelection W)))).eval
        (answers W own) = (if y ≥ s.start_idx ∧ x ≤ y then
        .ok (some { ll_line := s.ll_line, start_idx := x, end_idx := y }) else .ok none : R (Option (LLSelection W))) := by
    intro x y
    split <;> rfl
  simp only [LLSelection.trimSelectionD, LLSelection.trimSelection, bind_eq, pure_eq, eval_bind]
  cases a <;> cases b <;> simp only [Bool.false_eq_true, if_false, if_true, eval, eval_bind, h, Except.bind, end_]
  · cases m.go (.bwd s.end_idx) s.ll_line.val with
    | error e => rfl
    | ok rs => cases rs <;> rfl
  · cases m.go (.fwd s.start_idx) s.ll_line.val with
    | error e => rfl
    | ok rs => cases rs <;> rfl
  · cases m.go (.fwd s.start_idx) s.ll_line.val with
    | error e => rfl
    | ok rs =>
      cases m.go (.bwd s.end_idx) s.ll_line.val with
      | error e => cases rs <;> rfl
      | ok rs' => cases rs <;> cases rs' <;> rfl

theorem find_eval {l : LLLine W} (h : ∀ d, (md.go d l).eval (answers W own) = m.go d l) :
    (l.findD md).eval (answers W own) = l.find m := by
  simp only [LLLine.findD, LLLine.find]
  refine flatMapD_eval _ (fun i => ?_) _
  simp only [bind_eq, pure_eq, eval_bind, h]
  cases m.go (.fwd i) l with
  | error e => rfl
  | ok rs =>
    refine mapD_eval _ (fun r => ?_) rs
    simp only [bind_eq, pure_eq, eval_bind, eval_lift]
    cases l.posStartAt i with
    | error e => rfl
    | ok s => cases he : l.posEndAt r.2 <;> simp [Except.bind, he, eval]

theorem getDebug_eval (b : TypeBucket W) (k : Ty W) :
    (b.getDebugD (Own := Own) k).eval (answers W own) = b.getDebug k := by
  simp only [TypeBucket.getDebugD, TypeBucket.getDebug]
  cases b.map.get? k with
  | none => rfl
  | some d =>
    simp only
    cases hd : d.downcast k with
    | none => rfl
    | some items =>
      simp only
      have : ∀ items : List (Val k), (mapD (askDbg (Own := Own) k) items).eval (answers W own) = .ok (items.map (valDbg k)) := by
        intro items
        induction items with
        | nil => rfl
        | cons x xs ih =>
          simp only [mapD, bind_eq, pure_eq, eval_bind, ih]
          rfl
      exact this items

theorem include_eval (d : LLLineDisplay W) (k : Ty W) :
    (d.includeD (Own := Own) k).eval (answers W own) = d.include k := by
  simp only [LLLineDisplay.includeD, LLLineDisplay.include, bind_eq, pure_eq, eval_bind]
  rw [flatMapD_eval (f' := fun ll_range =>
      match d.ll_line.attrs.values.get? ll_range with
      | none => .ok []
      | some b =>
        match b.getDebug k with
        | .error e => .error e
        | .ok ds => .ok (ds.reverse.map (fun debug_value => (ll_range, debug_value))))]
  · cases (flatMapR _ _ : R (List (LRange × Str))) <;> rfl
  · intro r
    cases d.ll_line.attrs.values.get? r with
    | none => rfl
    | some b =>
      simp only [eval_bind, getDebug_eval]
      cases b.getDebug k <;> rfl

end
end LNlp

namespace LNlp
variable {W : World}
open Dialog
section
variable {U : Type} {Own : U → Type} {Out : Type}

/-! ### whatever is answered -/

/-- a result of a matcher inside the line, on the right side of its position -/
def Inside (l : LLLine W) (d : Dir) (j : Nat) : Prop := j < l.ll_tokens.length ∧ d.RightWay j

theorem goAfter_always {l : LLLine W} {h : History W} {md : XMatchD W Own Out} (ih : ∀ d : Dir, d.at < l.ll_tokens.length →
      (md.go d l).Always (fun out => ∀ r ∈ out, Inside l d r.2) (BareValue l h)) {d : Dir} {j : Nat} (hj : Inside l d j) :
    (XD.goAfter md d j l).Always (fun out => ∀ r ∈ out, Inside l d r.2) (BareValue l h) := by
  simp only [XD.goAfter]
  cases ha : d.after j l with
  | none => exact fun r hr => by cases hr
  | some d' =>
    have hn := after_iff.1 ha
    exact always_mono (fun out ho r hr => ⟨(ho r hr).1, next_rightWay hn hj.2 (ho r hr).2⟩) (fun _ hp => hp)
      (ih d' (next_at hn hj.1))

theorem always_done {α : Type} {P : α → Prop} {E : Panic → Prop} {a : α} (h : P a) : (Dialog.done a : Talk W Own α).Always P E := h

theorem builtD_always {l : LLLine W} {h : History W} (hr : Reachable l h) (ho : Ordered h) {md : XMatchD W Own Out}
    (hm : BuiltD l md) : ∀ d : Dir, d.at < l.ll_tokens.length →
      (md.go d l).Always (fun out => ∀ r ∈ out, Inside l d r.2) (BareValue l h) := by
  have plain : ∀ {Out : Type} {m : XMatch W Out} (_ : Built (fun _ => True) false m) (d : Dir), d.at < l.ll_tokens.length →
      ∃ out, m.go d l = .ok out ∧ ∀ r ∈ out, Inside l d r.2 := by
    intro Out m hb d hd
    obtain ⟨out, hg⟩ := built_false_ok hb hr.rep d hd
    exact ⟨out, hg, fun r hm => ⟨(built_results hb hr.rep True (fun _ => ho) d out hg r hm).1,
      (built_results hb hr.rep True (fun _ => ho) d out hg r hm).2 trivial⟩⟩
  have heq : ∀ {k : Ty W} (a b : Val k), (askEq (Own := Own) k a b).Always (fun _ => True) (BareValue l h) := by
    intro k a b
    intro x
    exact trivial
  induction hm with
  | attr k =>
    intro d hd
    obtain ⟨out, hg, hi⟩ := plain (.attr k trivial) d hd
    exact always_lift (fun a e => by rw [hg] at e; cases e; exact hi) (fun p e => by rw [hg] at e; cases e)
  | tokenText =>
    intro d hd
    obtain ⟨out, hg, hi⟩ := plain .tokenText d hd
    exact always_lift (fun a e => by rw [hg] at e; cases e; exact hi) (fun p e => by rw [hg] at e; cases e)
  | attrEq k v =>
    intro d hd
    obtain ⟨out, hg, hi⟩ := plain (.attr k trivial) d hd
    show (d.attrEqD k v l).Always _ _
    rw [attrEqD_eq hg]
    exact always_filterD (P := fun r : Unit × Nat => Inside l d r.2) (fun x hx => hi x hx) (fun x => heq x.1 v)
  | tokenHasAny k set =>
    intro d hd
    have hset : ∀ x, (setContainsD (Own := Own) k set x).Always (fun _ => True) (BareValue l h) :=
      fun x => always_anyD (fun y => heq y x)
    cases d with
    | bwd i =>
      obtain ⟨out, hg, hi⟩ := plain (.attr k trivial) (.bwd i) hd
      show ((Dir.bwd i).tokenAttrOneOfD k set l).Always _ _
      rw [oneOfD_bwd hg]
      exact always_filterD (P := fun r : Val k × Nat => Inside l (.bwd i) r.2) (fun x hx => hi x hx) (fun x => hset x.1)
    | fwd i =>
      have hb : Builtin (X.tokenHasAny k set) := .tokenHasAny k trivial rfl set
      show ((Dir.fwd i).tokenAttrOneOfD k set l).Always _ _
      have key : ∀ e, (X.tokenHasAny k set).go (.fwd i) l = .error e → BareValue l h e := by
        intro e he
        obtain ⟨h1, _, _, h4⟩ := C36_panics hb hr (.fwd i) hd e he
        exact ⟨h1, h4⟩
      simp only [X.tokenHasAny, Dir.tokenAttrOneOf] at key
      simp only [Dir.tokenAttrOneOfD]
      cases hv : l.attrs.values.get? (i, i) with
      | none => rw [hv] at key; exact key _ rfl
      | some b =>
        rw [hv] at key
        simp only at key
        simp only [bind_eq]
        cases hg : b.get k with
        | error e => rw [hg] at key; exact key _ rfl
        | ok vs =>
          simp only [lift, Dialog.bind]
          exact always_filterD (P := fun r : Val k × Nat => Inside l (.fwd i) r.2) (fun x hx => ⟨hd, by simp [Dir.RightWay]⟩) hset
  | all2 _ _ iha ihb =>
    intro d hd
    simp only [XD.all2, bind_eq, pure_eq]
    refine always_bind (ihb d hd) (fun bs hbs => always_bind (iha d hd) (fun as has => always_done ?_))
    intro r hr'
    simp only [List.mem_flatMap, List.mem_filterMap] at hr'
    obtain ⟨pa, hpa, pb, hpb, e⟩ := hr'
    split at e
    · cases e; exact has pa hpa
    · cases e
  | all3 _ _ _ iha ihb ihc =>
    intro d hd
    simp only [XD.all3, bind_eq, pure_eq]
    refine always_bind (ihb d hd) (fun bs hbs => always_bind (ihc d hd) (fun cs hcs =>
      always_bind (iha d hd) (fun as has => always_done ?_)))
    intro r hr'
    simp only [List.mem_flatMap, List.mem_filterMap] at hr'
    obtain ⟨pa, hpa, pb, hpb, pc, hpc, e⟩ := hr'
    split at e
    · cases e; exact has pa hpa
    · cases e
  | anyOf2 _ _ iha ihb =>
    intro d hd
    simp only [XD.anyOf2, bind_eq, pure_eq]
    refine always_bind (iha d hd) (fun as has => ?_)
    split
    · refine always_done (fun r hr' => ?_)
      obtain ⟨p, hp, rfl⟩ := List.mem_map.1 hr'
      exact has p hp
    · refine always_bind (ihb d hd) (fun bs hbs => always_done (fun r hr' => ?_))
      obtain ⟨p, hp, rfl⟩ := List.mem_map.1 hr'
      exact hbs p hp
  | anyOf3 _ _ _ iha ihb ihc =>
    intro d hd
    simp only [XD.anyOf3, bind_eq, pure_eq]
    refine always_bind (iha d hd) (fun as has => ?_)
    split
    · refine always_done (fun r hr' => ?_)
      obtain ⟨p, hp, rfl⟩ := List.mem_map.1 hr'
      exact has p hp
    · refine always_bind (ihb d hd) (fun bs hbs => ?_)
      split
      · refine always_done (fun r hr' => ?_)
        obtain ⟨p, hp, rfl⟩ := List.mem_map.1 hr'
        exact hbs p hp
      · refine always_bind (ihc d hd) (fun cs hcs => always_done (fun r hr' => ?_))
        obtain ⟨p, hp, rfl⟩ := List.mem_map.1 hr'
        exact hcs p hp
  | seq2 _ _ iha ihb =>
    intro d hd
    simp only [XD.seq2, bind_eq, pure_eq]
    refine always_bind (iha d hd) (fun as has => always_flatMapD (P := fun r : _ × Nat => Inside l d r.2) (fun pa hpa => ?_))
    refine always_bind (goAfter_always ihb (has pa hpa)) (fun bs hbs => always_done (fun r hr' => ?_))
    obtain ⟨p, hp, rfl⟩ := List.mem_map.1 hr'
    exact hbs p hp
  | seq3 _ _ _ iha ihb ihc =>
    intro d hd
    simp only [XD.seq3, bind_eq, pure_eq]
    refine always_bind (iha d hd) (fun as has => always_flatMapD (P := fun r : _ × Nat => Inside l d r.2) (fun pa hpa => ?_))
    refine always_bind (goAfter_always ihb (has pa hpa)) (fun bs hbs =>
      always_flatMapD (P := fun r : _ × Nat => Inside l d r.2) (fun pb hpb => ?_))
    refine always_bind (goAfter_always ihc (hbs pb hpb)) (fun cs hcs => always_done (fun r hr' => ?_))
    obtain ⟨p, hp, rfl⟩ := List.mem_map.1 hr'
    exact hcs p hp
  | user md hu =>
    intro d hd
    cases d with
    | fwd i =>
      refine always_mono (fun out ho' => ?_) (fun _ hp => hp.elim) (hu i hd).1
      exact fun r hr' => ⟨(ho' r hr').2, (ho' r hr').1⟩
    | bwd i =>
      refine always_mono (fun out ho' => ?_) (fun _ hp => hp.elim) (hu i hd).2
      exact fun r hr' => ⟨Nat.lt_of_le_of_lt (ho' r hr') hd, ho' r hr'⟩

end
end LNlp
