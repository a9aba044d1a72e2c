import Verif.Lemmas.Layers
import Verif.Lemmas.UserMatch
import Verif.Lemmas.Plain
import Verif.Spec.Pipeline
import Verif.Spec.Direction
/- Helper lemmas about directions that users write. -/
namespace LNlp
variable {W : World} {α β γ : Type}

/-! ### the library's directions -/

theorem answers_run {I : Type} {A : I → Type} {Out : Type} (part : (i : I) → XMatch W (A i)) (d : Dir) (l : LLLine W)
    (t : UserTree A Out) : ∀ seen, t.answers (fun i => (part i).go d l) seen = t.run part d l seen := by
  induction t with
  | answer out => intro seen; rfl
  | ask i next ih =>
    intro seen
    simp only [UserTree.answers, UserTree.run]
    cases (part i).go d l with
    | error e => rfl
    | ok rs => exact ih _ _ _

theorem generic_matcher {I : Type} {A : I → Type} {Out : Type} (part : (i : I) → GMatch W (A i)) (t : UserTree A Out) :
    (t.generic part).matcher = t.matcher (fun i => (part i).matcher) := by
  simp only [GMatch.matcher, UserTree.generic, UserTree.matcher]
  congr 1
  funext d l
  exact answers_run (fun i => (part i).matcher) d l t []

theorem goAfter_lib (m : GMatch W α) (d : Dir) (i : Nat) (l : LLLine W) :
    GX.goAfter m Direction.lib d i l = X.goAfter m.matcher d i l := by
  simp only [GX.goAfter, X.goAfter, Direction.lib]
  cases d.after i l <;> rfl

theorem seq2_matcher (a : GMatch W α) (b : GMatch W β) : (GX.seq2 a b).matcher = X.seq2 a.matcher b.matcher := by
  simp only [GMatch.matcher, GX.seq2, X.seq2, goAfter_lib]
  rfl

theorem seq3_matcher (a : GMatch W α) (b : GMatch W β) (c : GMatch W γ) :
    (GX.seq3 a b c).matcher = X.seq3 a.matcher b.matcher c.matcher := by
  simp only [GMatch.matcher, GX.seq3, X.seq3, goAfter_lib]
  rfl

theorem generic_of {T : Ty W → Prop} {has : Bool} {Out : Type} {m : XMatch W Out} (hm : Built T has m) :
    ∃ g : GMatch W Out, GBuilt T has g ∧ g.matcher = m := by
  induction hm with
  | attr k t => exact ⟨_, .attr k t, rfl⟩
  | attrEq k t v => exact ⟨_, .attrEq k t v, rfl⟩
  | tokenHasAny k t hh set => exact ⟨_, .tokenHasAny k t hh set, rfl⟩
  | tokenText => exact ⟨_, .tokenText, rfl⟩
  | all2 _ _ ia ib => obtain ⟨a, ha, rfl⟩ := ia; obtain ⟨b, hb, rfl⟩ := ib; exact ⟨_, .all2 ha hb, rfl⟩
  | all3 _ _ _ ia ib ic =>
    obtain ⟨a, ha, rfl⟩ := ia; obtain ⟨b, hb, rfl⟩ := ib; obtain ⟨c, hc, rfl⟩ := ic; exact ⟨_, .all3 ha hb hc, rfl⟩
  | anyOf2 _ _ ia ib => obtain ⟨a, ha, rfl⟩ := ia; obtain ⟨b, hb, rfl⟩ := ib; exact ⟨_, .anyOf2 ha hb, rfl⟩
  | anyOf3 _ _ _ ia ib ic =>
    obtain ⟨a, ha, rfl⟩ := ia; obtain ⟨b, hb, rfl⟩ := ib; obtain ⟨c, hc, rfl⟩ := ic; exact ⟨_, .anyOf3 ha hb hc, rfl⟩
  | seq2 _ _ ia ib =>
    obtain ⟨a, ha, rfl⟩ := ia; obtain ⟨b, hb, rfl⟩ := ib; exact ⟨_, .seq2 ha hb, seq2_matcher a b⟩
  | seq3 _ _ _ ia ib ic =>
    obtain ⟨a, ha, rfl⟩ := ia; obtain ⟨b, hb, rfl⟩ := ib; obtain ⟨c, hc, rfl⟩ := ic
    exact ⟨_, .seq3 ha hb hc, seq3_matcher a b c⟩
  | user part t _ ih =>
    obtain ⟨g, hg⟩ := Classical.axiomOfChoice ih
    refine ⟨t.generic g, .user g t (fun i => (hg i).1), ?_⟩
    rw [generic_matcher]
    exact congrArg _ (funext fun i => (hg i).2)
  | recursive f _ _ ih =>
    obtain ⟨g, hg⟩ := Classical.axiomOfChoice ih
    refine ⟨GX.limit g, .limit g (fun n => (hg n).1), ?_⟩
    simp only [GMatch.matcher, GX.limit, X.limit]
    congr 1
    funext d l
    rw [← (hg (l.ll_tokens.length + 2)).2]
    rfl

/-! ### directions that answer alike -/

theorem AnswersOut.of {inn : Nat → Prop} {safe : Prop} {x : R (List (α × Nat))}
    (h1 : ∀ out, x = .ok out → ∀ p ∈ out, inn p.2) (h2 : safe → ∃ out, x = .ok out) : AnswersOut inn safe x x :=
  ⟨rfl, h1, h2⟩

/-- whatever is computed from the answers alike, panics if one of them does, and keeps their indexes, is alike -/
theorem AnswersOut.andThen {inn : Nat → Prop} {safe : Prop} {x y : R (List (α × Nat))} (h : AnswersOut inn safe x y)
    {f g : List (α × Nat) → R (List (β × Nat))}
    (hf : ∀ out, (∀ p ∈ out, inn p.2) → AnswersOut inn safe (f out) (g out)) :
    AnswersOut inn safe (match (generalizing := false) x with | .error e => .error e | .ok out => f out : R (List (β × Nat)))
      (match (generalizing := false) y with | .error e => .error e | .ok out => g out : R (List (β × Nat))) := by
  obtain ⟨rfl, h2, h3⟩ := h
  cases x with
  | error e =>
    refine ⟨rfl, fun out ho => by simp at ho, fun hs => ?_⟩
    obtain ⟨out, ho⟩ := h3 hs
    simp at ho
  | ok out => exact hf out (h2 out rfl)

theorem AnswersOut.ok {inn : Nat → Prop} {safe : Prop} {out : List (α × Nat)} (h : ∀ p ∈ out, inn p.2) :
    AnswersOut inn safe (.ok out) (.ok out) :=
  ⟨rfl, fun out' ho p hp => by cases ho; exact h p hp, fun _ => ⟨_, rfl⟩⟩

theorem AnswersOut.flatMap {inn : Nat → Prop} {safe : Prop} {as : List α} {f g : α → R (List (β × Nat))}
    (h : ∀ a ∈ as, AnswersOut inn safe (f a) (g a)) : AnswersOut inn safe (flatMapR f as) (flatMapR g as) := by
  induction as with
  | nil => exact .ok (by simp)
  | cons a as ih =>
    simp only [flatMapR]
    have ha := h a (by simp)
    have has := ih (fun b hb => h b (by simp [hb]))
    generalize f a = x at ha
    generalize g a = y at ha
    generalize flatMapR f as = u at has
    generalize flatMapR g as = v at has
    obtain ⟨rfl, h2, h3⟩ := ha
    obtain ⟨rfl, h4, h5⟩ := has
    cases x with
    | error e => exact ⟨rfl, fun out ho => by simp at ho, fun hs => by obtain ⟨out, ho⟩ := h3 hs; cases ho⟩
    | ok ys => ?_
    cases u with
    | error e => exact ⟨rfl, fun out ho => by simp at ho, fun hs => by obtain ⟨out, ho⟩ := h5 hs; cases ho⟩
    | ok zs => ?_
    have hys := h2 ys rfl
    have hzs := h4 zs rfl
    refine .ok (fun p hp => ?_)
    rcases List.mem_append.1 hp with hp | hp
    · exact hys p hp
    · exact hzs p hp

section
variable {T : Ty W → Prop} {has : Bool} {S S' : Type} {D : Direction W S} {D' : Direction W S'} {l l' : LLLine W}
  {on : S → S' → Prop} {inn : Nat → Prop} {safe : Prop}

theorem AnswerAlike.goAfter (A : AnswerAlike T has D D' l l' on inn safe) {m : GMatch W α}
    (hm : ∀ s s', on s s' → AnswersOut inn safe (m.go D s l) (m.go D' s' l')) {s : S} {s' : S'} (hs : on s s') {i : Nat}
    (hi : inn i) : AnswersOut inn safe (GX.goAfter m D s i l) (GX.goAfter m D' s' i l') := by
  have := A.next s s' hs i hi
  simp only [GX.goAfter]
  generalize D.after s i l = x at this
  generalize D'.after s' i l' = y at this
  match x, y, this with
  | .ok none, .ok none, _ => exact .ok (by simp)
  | .ok (some t), .ok (some t'), h => exact hm t t' h
  | .error e, .error e', ⟨h1, h2⟩ =>
    subst h1
    exact ⟨rfl, fun out ho => by simp at ho, fun hs => absurd hs h2⟩

theorem answers_alike {I : Type} {A : I → Type} {Out : Type} {ask ask' : (i : I) → R (List (A i × Nat))}
    (h : ∀ i, AnswersOut inn safe (ask i) (ask' i)) (t : UserTree A Out) :
    ∀ seen : List Nat, (∀ x ∈ seen, inn x) → AnswersOut inn safe (t.answers ask seen) (t.answers ask' seen) := by
  induction t with
  | answer out =>
    intro seen hseen
    refine .ok (fun p hp => ?_)
    obtain ⟨x, _, hx⟩ := List.mem_filterMap.1 hp
    obtain ⟨e, he, rfl⟩ := Option.map_eq_some_iff.1 hx
    exact hseen _ (List.mem_of_getElem? he)
  | ask i next ih =>
    intro seen hseen
    simp only [UserTree.answers]
    have hi := h i
    generalize ask i = x at hi
    generalize ask' i = y at hi
    obtain ⟨rfl, h2, h3⟩ := hi
    cases x with
    | error e => exact ⟨rfl, fun out ho => by simp at ho, fun hs => by obtain ⟨out, ho⟩ := h3 hs; cases ho⟩
    | ok rs => ?_
    have hrs := h2 rs rfl
    refine ih _ _ _ (fun x hx => ?_)
    rcases List.mem_append.1 hx with hx | hx
    · exact hseen x hx
    · obtain ⟨p, hp, rfl⟩ := List.mem_map.1 hx
      exact hrs p hp

theorem mapOut_in {f : α → β} {as : List (α × Nat)} (h : ∀ p ∈ as, inn p.2) :
    ∀ p ∈ as.map (fun p => (f p.1, p.2)), inn p.2 := by
  intro p hp
  obtain ⟨q, hq, rfl⟩ := List.mem_map.1 hp
  exact h q hq

end

theorem gbuilt_alike {T : Ty W → Prop} {has : Bool} {Out : Type} {m : GMatch W Out} (hm : GBuilt T has m) :
    ∀ {S S' : Type} (D : Direction W S) (D' : Direction W S') (l l' : LLLine W) (on : S → S' → Prop) (inn : Nat → Prop)
      (safe : Prop), l.ll_tokens.length = l'.ll_tokens.length → AnswerAlike T has D D' l l' on inn safe →
      ∀ s s', on s s' → AnswersOut inn safe (m.go D s l) (m.go D' s' l') := by
  induction hm with
  | attr k t => intro S S' D D' l l' on inn safe _ A s s' hs; exact A.attr s s' hs k t
  | attrEq k t v => intro S S' D D' l l' on inn safe _ A s s' hs; exact A.attrEq s s' hs k t v
  | tokenHasAny k t hh set => intro S S' D D' l l' on inn safe _ A s s' hs; exact A.oneOf hh s s' hs k t set
  | tokenText =>
    intro S S' D D' l l' on inn safe _ A s s' hs
    obtain ⟨h1, h2, h3⟩ := A.text s s' hs
    simp only [GX.tokenText, ← h1]
    cases hx : D.textToken s l with
    | error e =>
      refine ⟨rfl, fun out ho => by simp at ho, fun hs => ?_⟩
      obtain ⟨o, ho⟩ := h3 hs
      rw [hx] at ho; cases ho
    | ok o =>
      refine .ok (fun p hp => h2 p ?_)
      rw [hx, Option.mem_toList.1 hp]
  | all2 _ _ ia ib =>
    intro S S' D D' l l' on inn safe hl A s s' hs
    simp only [GX.all2]
    refine (ib D D' l l' on inn safe hl A s s' hs).andThen (fun bs _ => ?_)
    refine (ia D D' l l' on inn safe hl A s s' hs).andThen (fun as has => .ok (fun p hp => ?_))
    obtain ⟨pa, hpa, h⟩ := List.mem_flatMap.1 hp
    obtain ⟨pb, _, h⟩ := List.mem_filterMap.1 h
    split at h
    · cases h; exact has pa hpa
    · cases h
  | all3 _ _ _ ia ib ic =>
    intro S S' D D' l l' on inn safe hl A s s' hs
    simp only [GX.all3]
    refine (ib D D' l l' on inn safe hl A s s' hs).andThen (fun bs _ => ?_)
    refine (ic D D' l l' on inn safe hl A s s' hs).andThen (fun cs _ => ?_)
    refine (ia D D' l l' on inn safe hl A s s' hs).andThen (fun as has => .ok (fun p hp => ?_))
    obtain ⟨pa, hpa, h⟩ := List.mem_flatMap.1 hp
    obtain ⟨pb, _, h⟩ := List.mem_flatMap.1 h
    obtain ⟨pc, _, h⟩ := List.mem_filterMap.1 h
    split at h
    · cases h; exact has pa hpa
    · cases h
  | anyOf2 _ _ ia ib =>
    intro S S' D D' l l' on inn safe hl A s s' hs
    simp only [GX.anyOf2]
    refine (ia D D' l l' on inn safe hl A s s' hs).andThen (fun as has => ?_)
    split
    · exact .ok (mapOut_in has)
    · exact (ib D D' l l' on inn safe hl A s s' hs).andThen (fun bs hbs => .ok (mapOut_in hbs))
  | anyOf3 _ _ _ ia ib ic =>
    intro S S' D D' l l' on inn safe hl A s s' hs
    simp only [GX.anyOf3]
    refine (ia D D' l l' on inn safe hl A s s' hs).andThen (fun as has => ?_)
    split
    · exact .ok (mapOut_in has)
    · refine (ib D D' l l' on inn safe hl A s s' hs).andThen (fun bs hbs => ?_)
      split
      · exact .ok (mapOut_in hbs)
      · exact (ic D D' l l' on inn safe hl A s s' hs).andThen (fun cs hcs => .ok (mapOut_in hcs))
  | seq2 _ _ ia ib =>
    intro S S' D D' l l' on inn safe hl A s s' hs
    simp only [GX.seq2]
    refine (ia D D' l l' on inn safe hl A s s' hs).andThen (fun as has => .flatMap (fun pa hpa => ?_))
    exact (A.goAfter (ib D D' l l' on inn safe hl A) hs (has pa hpa)).andThen (fun bs hbs => .ok (mapOut_in hbs))
  | seq3 _ _ _ ia ib ic =>
    intro S S' D D' l l' on inn safe hl A s s' hs
    simp only [GX.seq3]
    refine (ia D D' l l' on inn safe hl A s s' hs).andThen (fun as has => .flatMap (fun pa hpa => ?_))
    refine (A.goAfter (ib D D' l l' on inn safe hl A) hs (has pa hpa)).andThen (fun bs hbs => .flatMap (fun pb hpb => ?_))
    exact (A.goAfter (ic D D' l l' on inn safe hl A) hs (hbs pb hpb)).andThen (fun cs hcs => .ok (mapOut_in (f := fun z => (pa.1, pb.1, z)) hcs))
  | user part t _ ih =>
    intro S S' D D' l l' on inn safe hl A s s' hs
    exact answers_alike (fun i => ih i D D' l l' on inn safe hl A s s' hs) t [] (by simp)
  | limit f _ ih =>
    intro S S' D D' l l' on inn safe hl A s s' hs
    simp only [GX.limit, ← hl]
    exact ih _ D D' l l' on inn safe hl A s s' hs
  | under w hw _ ih =>
    intro S S' D D' l l' on inn safe hl A s s' hs
    obtain ⟨on', A', hon⟩ := hw D D' l l' on inn safe hl A
    exact ih _ _ l l' on' inn safe hl A' _ _ (hon s s' hs)

/-! ### the wrappers -/

theorem hide_generic (hidden : Ty W → Bool) (T : Ty W → Prop) (has : Bool) :
    (Wrapper.hide hidden).Generic T has (fun k => T k ∨ hidden k = true) has := by
  intro S S' D D' l l' on inn safe _ A
  refine ⟨on, ⟨?_, ?_, ?_, A.text, A.next⟩, fun s s' h => h⟩
  · intro s s' hs k hk
    cases hh : hidden k with
    | true => simp only [Wrapper.hide, hh, if_true]; exact .ok (by simp)
    | false =>
      simp only [Wrapper.hide, hh, Bool.false_eq_true, if_false]
      exact A.attr s s' hs k (hk.resolve_right (by simp [hh]))
  · intro s s' hs k hk v
    cases hh : hidden k with
    | true => simp only [Wrapper.hide, hh, if_true]; exact .ok (by simp)
    | false =>
      simp only [Wrapper.hide, hh, Bool.false_eq_true, if_false]
      exact A.attrEq s s' hs k (hk.resolve_right (by simp [hh])) v
  · intro h1 s s' hs k hk set
    cases hh : hidden k with
    | true => simp only [Wrapper.hide, hh, if_true]; exact .ok (by simp)
    | false =>
      simp only [Wrapper.hide, hh, Bool.false_eq_true, if_false]
      exact A.oneOf h1 s s' hs k (hk.resolve_right (by simp [hh])) set

theorem steps_generic (n : Nat) (T : Ty W → Prop) (has : Bool) : (Wrapper.steps n).Generic T has T has := by
  intro S S' D D' l l' on inn safe _ A
  refine ⟨fun s s' => on s.1 s'.1 ∧ s.2 = s'.2, ⟨?_, ?_, ?_, ?_, ?_⟩, fun s s' h => ⟨h, rfl⟩⟩
  · exact fun s s' hs k hk => A.attr s.1 s'.1 hs.1 k hk
  · exact fun s s' hs k hk v => A.attrEq s.1 s'.1 hs.1 k hk v
  · exact fun h1 s s' hs k hk set => A.oneOf h1 s.1 s'.1 hs.1 k hk set
  · exact fun s s' hs => A.text s.1 s'.1 hs.1
  · rintro ⟨s, c⟩ ⟨s', c'⟩ ⟨hs, hc⟩ i hi
    simp only at hs hc
    subst hc
    have := A.next s s' hs i hi
    simp only [Wrapper.steps]
    cases c with
    | zero => trivial
    | succ c =>
      simp only
      generalize D.after s i l = x at this
      generalize D'.after s' i l' = y at this
      match x, y, this with
      | .ok none, .ok none, _ => trivial
      | .ok (some t), .ok (some t'), h => exact ⟨h, rfl⟩
      | .error e, .error e', h => exact h

/-! ### the library's directions stay in the line and on their side -/

/-- a direction of the same kind -/
def Dir.SameKind : Dir → Dir → Prop
  | .fwd _, .fwd _ => True
  | .bwd _, .bwd _ => True
  | _, _ => False

/-- a token of the line on the side of `d` (if `ord`) -/
def Dir.Sees (d : Dir) (l : LLLine W) (ord : Prop) (j : Nat) : Prop := j < l.ll_tokens.length ∧ (ord → d.RightWay j)

/-- a state that `d` can go on to -/
def Dir.Stays (d : Dir) (l : LLLine W) (ord : Prop) (s : Dir) : Prop := d.SameKind s ∧ d.Sees l ord s.at

theorem sees_trans {d s : Dir} {l : LLLine W} {ord : Prop} (h : d.Stays l ord s) {j : Nat} (hj : s.Sees l ord j) :
    d.Sees l ord j := by
  refine ⟨hj.1, fun o => ?_⟩
  have h1 := h.2.2 o
  have h2 := hj.2 o
  have hk := h.1
  cases d <;> cases s <;> simp only [Dir.SameKind, Dir.RightWay, Dir.at] at * <;> omega

theorem stays_after {d s : Dir} {l : LLLine W} {ord : Prop} (h : d.Stays l ord s) {j : Nat} (hj : d.Sees l ord j) :
    ∀ s', s.after j l = some s' → d.Stays l ord s' := by
  intro s' hs'
  have hk := h.1
  have h1 := hj.1
  have h2 := hj.2
  cases d with
  | fwd i =>
    cases s with
    | bwd _ => exact absurd hk (by simp [Dir.SameKind])
    | fwd m =>
      obtain ⟨rfl, hl⟩ := after_iff.1 hs'
      refine ⟨trivial, hl, fun o => ?_⟩
      have := h2 o
      simp only [Dir.RightWay, Dir.at] at *
      omega
  | bwd i =>
    cases s with
    | fwd _ => exact absurd hk (by simp [Dir.SameKind])
    | bwd m =>
      obtain ⟨n, hn, rfl⟩ := after_iff.1 hs'
      refine ⟨trivial, ?_, fun o => ?_⟩
      · simp only [Dir.at]; omega
      · have := h2 o
        simp only [Dir.RightWay, Dir.at] at *
        omega

theorem stays_self {d : Dir} {l : LLLine W} (ord : Prop) (hd : d.at < l.ll_tokens.length) : d.Stays l ord d := by
  cases d <;> exact ⟨trivial, hd, fun _ => Nat.le_refl _⟩

/-- every matcher expression at a direction that `d` can go on to -/
theorem built_answers {T : Ty W → Prop} {has : Bool} {Out : Type} {m : XMatch W Out} (hm : Built T has m) {l : LLLine W}
    {h : History W} (hr : Reachable l h) {ord safe : Prop} (ho : ord → Ordered h)
    (hs : safe → has = true → ∀ p, p < l.ll_tokens.length → ∃ x ∈ h, x.range = (p, p)) {d s : Dir} (st : d.Stays l ord s) :
    AnswersOut (d.Sees l ord) safe (m.go s l) (m.go s l) := by
  refine .of (fun out hg r hr' => sees_trans st (built_results hm hr.rep ord ho s out hg r hr')) (fun hsafe => ?_)
  cases hg : m.go s l with
  | ok out => exact ⟨out, rfl⟩
  | error e =>
    obtain ⟨_, h1, _, p, hp, hx⟩ := built_error hm hr.rep s e st.2.1 hg
    obtain ⟨x, hx1, hx2⟩ := hs hsafe h1 p hp
    exact absurd hx2 (hx x hx1)

theorem textToken_in (s : Dir) (l : LLLine W) {ord : Prop} {d : Dir} (st : d.Stays l ord s) :
    (∃ o, s.textToken l = .ok o) ∧ ∀ p, s.textToken l = .ok (some p) → d.Sees l ord p.2 := by
  have hl := st.2.1
  have hs : d.Sees l ord s.at := st.2
  cases s with
  | fwd i =>
    simp only [Dir.at] at hl hs
    simp only [Dir.textToken, List.getElem?_eq_getElem hl]
    cases (l.ll_tokens[i]'hl).token with
    | Text t tag => exact ⟨⟨_, rfl⟩, fun p hp => by cases hp; exact hs⟩
    | Value => exact ⟨⟨_, rfl⟩, fun p hp => by cases hp⟩
  | bwd i =>
    simp only [Dir.at] at hl hs
    simp only [Dir.textToken, List.getElem?_eq_getElem hl]
    cases (l.ll_tokens[i]'hl).token with
    | Text t tag => exact ⟨⟨_, rfl⟩, fun p hp => by cases hp; exact hs⟩
    | Value => exact ⟨⟨_, rfl⟩, fun p hp => by cases hp⟩

theorem lib_alike {T : Ty W → Prop} {has : Bool} {l : LLLine W} {h : History W} (hr : Reachable l h) {ord safe : Prop}
    (ho : ord → Ordered h) (hs : safe → has = true → ∀ p, p < l.ll_tokens.length → ∃ x ∈ h, x.range = (p, p)) (d : Dir) :
    AnswerAlike T has Direction.lib Direction.lib l l (fun s s' => s = s' ∧ d.Stays l ord s) (d.Sees l ord) safe where
  attr := by
    rintro s _ ⟨rfl, st⟩ k _
    exact built_answers (T := fun _ => True) (has := has) (.attr k trivial) hr ho hs st
  attrEq := by
    rintro s _ ⟨rfl, st⟩ k _ v
    exact built_answers (T := fun _ => True) (has := has) (.attrEq k trivial v) hr ho hs st
  oneOf := by
    rintro hh s _ ⟨rfl, st⟩ k _ set
    exact built_answers (T := fun _ => True) (has := has) (.tokenHasAny k trivial hh set) hr ho hs st
  text := by
    rintro s _ ⟨rfl, st⟩
    exact ⟨rfl, (textToken_in s l st).2, fun _ => (textToken_in s l st).1⟩
  next := by
    rintro s _ ⟨rfl, st⟩ i hi
    simp only [Direction.lib]
    cases ha : s.after i l with
    | none => trivial
    | some s' => exact ⟨rfl, stays_after st hi s' ha⟩

/-! ### hiding types -/

theorem hide_alike {hidden : Ty W → Bool} {T : Ty W → Prop} {has : Bool} {l l' : LLLine W} {h h' : History W}
    (hr : Reachable l h) (hr' : Reachable l' h') (ht : l'.ll_tokens = l.ll_tokens)
    (hT : ∀ k, hidden k = false → ofType k h = ofType k h') (hn : ∀ x ∈ h', hidden x.ty = false)
    (hs : has = true → ∀ p, p < l.ll_tokens.length → (∃ x ∈ h, x.range = (p, p)) ∧ ∃ x ∈ h', x.range = (p, p)) (d : Dir) :
    AnswerAlike T has ((Wrapper.hide hidden).dir Direction.lib) Direction.lib l l' (fun s s' => s = s' ∧ d.Stays l False s)
      (d.Sees l False) True where
  attr := by
    rintro s _ ⟨rfl, st⟩ k _
    have hs' : True → has = true → ∀ p, p < l.ll_tokens.length → ∃ x ∈ h, x.range = (p, p) := fun _ a p b => (hs a p b).1
    simp only [Wrapper.hide, Direction.lib]
    cases hh : hidden k with
    | false =>
      have e : s.attr k l' = s.attr k l := (rep_attr_congr hr.rep hr'.rep k ht (by rw [rangesOf_ofType, rangesOf_ofType, hT k hh])
        (fun r => by rw [valuesOf_ofType, ← hT k hh, ← valuesOf_ofType]) s).1
      simp only [Bool.false_eq_true, if_false, e]
      exact built_answers (T := fun _ => True) (has := has) (.attr k trivial) hr (fun h => h.elim) hs' st
    | true =>
      have hk : rangesOf k h' = [] := by
        rw [rangesOf, List.filter_eq_nil_iff.2]
        · rfl
        · intro x hx; simp only [decide_eq_true_eq]; rintro rfl; rw [hn x hx] at hh; cases hh
      have e : s.attr k l' = .ok [] := by
        have hl : s.at < l'.ll_tokens.length := by rw [ht]; exact st.2.1
        cases s with
        | fwd i => rw [rep_attr_fwd (i := i) hr'.rep k hl, hk]; rfl
        | bwd i => rw [rep_attr_bwd (i := i) hr'.rep k hl, hk]; rfl
      simp only [if_true, e]
      exact .ok (by simp)
  attrEq := by
    rintro s _ ⟨rfl, st⟩ k _ v
    have hs' : True → has = true → ∀ p, p < l.ll_tokens.length → ∃ x ∈ h, x.range = (p, p) := fun _ a p b => (hs a p b).1
    simp only [Wrapper.hide, Direction.lib]
    cases hh : hidden k with
    | false =>
      have e : s.attrEq k v l' = s.attrEq k v l :=
        (rep_attr_congr hr.rep hr'.rep k ht (by rw [rangesOf_ofType, rangesOf_ofType, hT k hh])
        (fun r => by rw [valuesOf_ofType, ← hT k hh, ← valuesOf_ofType]) s).2 v
      simp only [Bool.false_eq_true, if_false, e]
      exact built_answers (T := fun _ => True) (has := has) (.attrEq k trivial v) hr (fun h => h.elim) hs' st
    | true =>
      have hk : rangesOf k h' = [] := by
        rw [rangesOf, List.filter_eq_nil_iff.2]
        · rfl
        · intro x hx; simp only [decide_eq_true_eq]; rintro rfl; rw [hn x hx] at hh; cases hh
      have e : s.attrEq k v l' = .ok [] := by
        have hl : s.at < l'.ll_tokens.length := by rw [ht]; exact st.2.1
        cases s with
        | fwd i => rw [rep_attrEq_fwd (i := i) hr'.rep k v hl, hk]; rfl
        | bwd i => rw [rep_attrEq_bwd (i := i) hr'.rep k v hl, hk]; rfl
      simp only [if_true, e]
      exact .ok (by simp)
  oneOf := by
    rintro h1 s _ ⟨rfl, st⟩ k _ set
    have hs' : True → has = true → ∀ p, p < l.ll_tokens.length → ∃ x ∈ h, x.range = (p, p) := fun _ a p b => (hs a p b).1
    have hl : s.at < l'.ll_tokens.length := by rw [ht]; exact st.2.1
    simp only [Wrapper.hide, Direction.lib]
    cases hh : hidden k with
    | false =>
      have hv : ∀ r, valuesOf k r h' = valuesOf k r h := fun r => by rw [valuesOf_ofType, ← hT k hh, ← valuesOf_ofType]
      have e : s.tokenAttrOneOf k set l' = s.tokenAttrOneOf k set l := by
        cases s with
        | fwd i =>
          obtain ⟨x1, x2⟩ := hs h1 i st.2.1
          rw [rep_oneOf_fwd hr.rep, rep_oneOf_fwd hr'.rep, if_pos x1, if_pos x2, hv]
        | bwd i =>
          rw [rep_oneOf_bwd (i := i) hr.rep k set st.2.1, rep_oneOf_bwd (i := i) hr'.rep k set hl,
            show rangesOf k h' = rangesOf k h by rw [rangesOf_ofType, rangesOf_ofType, hT k hh]]
          simp only [hv]
      simp only [Bool.false_eq_true, if_false, e]
      exact built_answers (T := fun _ => True) (has := has) (.tokenHasAny k trivial h1 set) hr (fun h => h.elim) hs' st
    | true =>
      have hk' : ∀ x ∈ h', x.ty ≠ k := by rintro x hx rfl; rw [hn x hx] at hh; cases hh
      have hk : rangesOf k h' = [] := by
        rw [rangesOf, List.filter_eq_nil_iff.2]
        · rfl
        · intro x hx; simp only [decide_eq_true_eq]; exact hk' x hx
      have e : s.tokenAttrOneOf k set l' = .ok [] := by
        cases s with
        | fwd i => rw [rep_oneOf_fwd hr'.rep, if_pos (hs h1 i st.2.1).2, valuesOf_none k _ h' hk']; rfl
        | bwd i => rw [rep_oneOf_bwd (i := i) hr'.rep k set hl, hk]; rfl
      simp only [if_true, e]
      exact .ok (by simp)
  text := by
    rintro s _ ⟨rfl, st⟩
    have e : s.textToken l' = s.textToken l := by cases s <;> simp only [Dir.textToken, ht]
    simp only [Wrapper.hide, Direction.lib, e]
    exact ⟨rfl, (textToken_in s l st).2, fun _ => (textToken_in s l st).1⟩
  next := by
    rintro s _ ⟨rfl, st⟩ i hi
    have e : s.after i l' = s.after i l := by cases s <;> simp only [Dir.after, ht]
    simp only [Wrapper.hide, Direction.lib, e]
    cases ha : s.after i l with
    | none => trivial
    | some s' => exact ⟨rfl, stays_after st hi s' ha⟩

theorem hidden_layers {hidden : Ty W → Bool} : ∀ {rs : List (Nat × Resolver W)} {l l' : LLLine W} {h : History W},
    Reachable l h → (∀ p ∈ rs, hidden p.2.attr = true) → runAll l rs = .ok l' →
    ∃ h', Reachable l' (h ++ h') ∧ l'.ll_tokens = l.ll_tokens ∧ ∀ x ∈ h', hidden x.ty = true
  | [], l, l', h, hr, _, ok => by
    simp only [runAll, Except.ok.injEq] at ok
    subst ok
    exact ⟨[], by simpa using hr, rfl, by simp⟩
  | (ptr, r) :: rs, l, l', h, hr, hh, ok => by
    simp only [runAll] at ok
    cases h1 : l.run ptr r with
    | error e => rw [h1] at ok; cases ok
    | ok l1 =>
      rw [h1] at ok
      simp only at ok
      by_cases ne : l.ll_tokens = []
      · obtain ⟨h', q1, q2, q3⟩ := hidden_layers (.runEmpty l h ptr r l1 hr ne h1) (fun p hp => hh p (by simp [hp])) ok
        exact ⟨h', q1, by rw [q2]; exact run_tokens h1, q3⟩
      · obtain ⟨asgs, hg, ht, _, _⟩ := run_rep hr.rep ne h1
        obtain ⟨h', q1, q2, q3⟩ := hidden_layers (.run l h ptr r asgs false l1 hr ne hg h1) (fun p hp => hh p (by simp [hp])) ok
        refine ⟨asgs.map (recOf r.attr) ++ h', by rw [← List.append_assoc]; exact q1, by rw [q2, ht], fun x hx => ?_⟩
        rcases List.mem_append.1 hx with hx | hx
        · rw [recOf_ty _ _ x hx]; exact hh (ptr, r) (by simp)
        · exact q3 x hx

/-! ### skipping spaces -/

/-- `x::whitespace()` at a token, forwards -/
theorem whitespace_fwd {l : LLLine W} {h : History W} (rep : Rep l h) {i : Nat} (hi : i < l.ll_tokens.length) :
    ∃ out, Dir.attrEq (.fwd i) (Ty.textTag (W := W)) TextTag.SPACE l = .ok out ∧ (out ≠ [] ↔ SpaceAt h i) := by
  refine ⟨_, rep_attrEq_fwd rep Ty.textTag TextTag.SPACE hi, ?_⟩
  constructor
  · intro hne
    obtain ⟨p, hp⟩ := List.exists_mem_of_ne_nil _ hne
    obtain ⟨r, hr, hp⟩ := List.mem_flatMap.1 hp
    obtain ⟨v, hv, _⟩ := List.mem_map.1 hp
    obtain ⟨h1, h2⟩ := List.mem_filter.1 hv
    obtain ⟨_, hr⟩ := List.mem_filter.1 hr
    have h3 := mem_valuesOf.1 h1
    have h4 : v = TextTag.SPACE := eq_of_beq (α := TextTag) h2
    subst h4
    have : r.1 = i := by simpa using hr
    refine ⟨r.2, ?_⟩
    rw [← this]
    exact h3
  · rintro ⟨e, he⟩ hnil
    have : ((), e) ∈ ((rangesOf (Ty.textTag (W := W)) h).filter (fun r => decide (r.1 = i))).flatMap
        (fun r => ((valuesOf Ty.textTag r h).filter (fun x => valEq Ty.textTag x TextTag.SPACE)).map (fun _ => ((), r.2))) := by
      refine List.mem_flatMap.2 ⟨(i, e), List.mem_filter.2 ⟨mem_rangesOf.2 ⟨_, he⟩, by simp⟩, ?_⟩
      refine List.mem_map.2 ⟨TextTag.SPACE, List.mem_filter.2 ⟨mem_valuesOf.2 he, by simp [valEq]⟩, rfl⟩
    rw [hnil] at this
    cases this

theorem skipSpaces_spec {l : LLLine W} {h : History W} (rep : Rep l h) (m : Nat) : ∀ (fuel i : Nat),
    l.ll_tokens.length < i + 1 + fuel →
    (∃ j, skipSpaces Direction.lib l (.fwd m) fuel i = .ok (some (.fwd j)) ∧ NextWord l h i j) ∨
    (skipSpaces Direction.lib l (.fwd m) fuel i = .ok none ∧ ∀ j, ¬ NextWord l h i j)
  | 0, i, hf => by
    refine Or.inr ⟨rfl, fun j hj => ?_⟩
    have := hj.inside; have := hj.behind
    omega
  | fuel + 1, i, hf => by
    by_cases hl : i + 1 < l.ll_tokens.length
    · have e1 : Direction.lib.after (W := W) (.fwd m) i l = .ok (some (.fwd (i + 1))) := by
        simp only [Direction.lib, Dir.after, hl, if_true]
      obtain ⟨out, ho, hsp⟩ := whitespace_fwd rep hl
      have e2 : Direction.lib.attrEq (W := W) (.fwd (i + 1)) Ty.textTag TextTag.SPACE l = .ok out := ho
      simp only [skipSpaces, e1, e2]
      cases out with
      | nil =>
        refine Or.inl ⟨i + 1, rfl, Nat.lt_succ_self _, hl, fun k h1 h2 => by omega, fun hc => ?_⟩
        exact hsp.2 hc rfl
      | cons p ps =>
        have hi : SpaceAt h (i + 1) := hsp.1 (by simp)
        simp only
        rcases skipSpaces_spec rep m fuel (i + 1) (by omega) with ⟨j, hj, nw⟩ | ⟨hj, nw⟩
        · refine Or.inl ⟨j, hj, by have := nw.behind; omega, nw.inside, fun k h1 h2 => ?_, nw.word⟩
          by_cases hk : k = i + 1
          · rw [hk]; exact hi
          · exact nw.spaces k (by omega) h2
        · refine Or.inr ⟨hj, fun j nj => ?_⟩
          by_cases hk : j = i + 1
          · exact nj.word (hk ▸ hi)
          · exact nw j ⟨by have := nj.behind; omega, nj.inside, fun k h1 h2 => nj.spaces k (by omega) h2, nj.word⟩
    · have e1 : Direction.lib.after (W := W) (.fwd m) i l = .ok none := by
        simp only [Direction.lib, Dir.after, hl, if_false]
      simp only [skipSpaces, e1]
      refine Or.inr ⟨trivial, fun j hj => ?_⟩
      have := hj.inside; have := hj.behind
      omega

theorem skip_goAfter {l : LLLine W} {i e : Nat} (b : GMatch W β) {o : Option Dir}
    (hj : skipSpaces Direction.lib l (.fwd i) (l.ll_tokens.length + 1) e = .ok o) :
    GX.goAfter b (Wrapper.skip.dir Direction.lib) (Dir.fwd i) e l = match o with
      | some s => b.go (Wrapper.skip.dir Direction.lib) s l
      | none => .ok [] := by
  have : (Wrapper.skip.dir Direction.lib).after (Dir.fwd i) e l = .ok o := hj
  simp only [GX.goAfter, this]
  cases o <;> rfl

theorem nextWord_unique {l : LLLine W} {h : History W} {i j j' : Nat} (h1 : NextWord l h i j) (h2 : NextWord l h i j') : j = j' := by
  rcases Nat.lt_trichotomy j j' with h | h | h
  · exact absurd (h2.spaces j h1.behind h) h1.word
  · exact h
  · exact absurd (h1.spaces j' h2.behind h) h2.word

theorem skip_alike {T : Ty W → Prop} {has : Bool} {l : LLLine W} {h : History W} (hr : Reachable l h) {ord safe : Prop}
    (ho : ord → Ordered h) (hs : safe → has = true → ∀ p, p < l.ll_tokens.length → ∃ x ∈ h, x.range = (p, p)) (i0 : Nat) :
    AnswerAlike T has (Wrapper.skip.dir Direction.lib) (Wrapper.skip.dir Direction.lib) l l
      (fun s s' => s = s' ∧ (Dir.fwd i0).Stays l ord s) ((Dir.fwd i0).Sees l ord) safe := by
  have A := lib_alike (T := T) (has := has) hr ho hs (.fwd i0)
  refine ⟨A.attr, A.attrEq, A.oneOf, A.text, ?_⟩
  rintro s _ ⟨rfl, st⟩ i hi
  cases s with
  | bwd _ => exact absurd st.1 (by simp [Dir.SameKind])
  | fwd m =>
    have := skipSpaces_spec hr.rep m (l.ll_tokens.length + 1) i (by omega)
    simp only [Wrapper.skip]
    rcases this with ⟨j, hj, nw⟩ | ⟨hj, _⟩
    · rw [hj]
      refine ⟨rfl, trivial, nw.inside, fun o => ?_⟩
      have h1 := hi.2 o
      have h2 := nw.behind
      simp only [Dir.RightWay, Dir.at] at *
      omega
    · rw [hj]; trivial

end LNlp
