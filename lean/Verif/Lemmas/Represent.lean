import Verif.Spec.Represent
import Verif.Lemmas.ProgramStages
/- Helper lemmas about recoded attribute values. -/
namespace LNlp

/-! ### lists and outcomes -/

section
variable {α α' β β' : Type _} {S : α → α' → Prop} {Q : β → β' → Prop}

theorem AllRel.append {as bs as' bs'} (h : AllRel S as as') (h' : AllRel S bs bs') : AllRel S (as ++ bs) (as' ++ bs') := by
  induction h with
  | nil => exact h'
  | cons a _ ih => exact .cons a ih

theorem AllRel.length {as as'} (h : AllRel S as as') : as.length = as'.length := by
  induction h with
  | nil => rfl
  | cons _ _ ih => simp [ih]

theorem AllRel.map {as as'} (h : AllRel S as as') {f : α → β} {g : α' → β'} (hf : ∀ a a', S a a' → Q (f a) (g a')) :
    AllRel Q (as.map f) (as'.map g) := by
  induction h with
  | nil => exact .nil
  | cons a _ ih => exact .cons (hf _ _ a) ih

theorem AllRel.flatMap {as as'} (h : AllRel S as as') {f : α → List β} {g : α' → List β'}
    (hf : ∀ a a', S a a' → AllRel Q (f a) (g a')) : AllRel Q (as.flatMap f) (as'.flatMap g) := by
  induction h with
  | nil => exact .nil
  | cons a _ ih => simp only [List.flatMap_cons]; exact (hf _ _ a).append ih

theorem AllRel.filter {as as'} (h : AllRel S as as') {f : α → Bool} {g : α' → Bool}
    (hf : ∀ a a', S a a' → f a = g a') : AllRel S (as.filter f) (as'.filter g) := by
  induction h with
  | nil => exact .nil
  | @cons a b _ _ hab _ ih =>
    simp only [List.filter_cons, hf _ _ hab]
    cases g b
    · simpa using ih
    · simpa using AllRel.cons hab ih

theorem AllRel.filterMap {as as'} (h : AllRel S as as') {f : α → Option β} {g : α' → Option β'}
    (hf : ∀ a a', S a a' → AllRel Q (f a).toList (g a').toList) : AllRel Q (as.filterMap f) (as'.filterMap g) := by
  induction h with
  | nil => exact .nil
  | @cons a b _ _ hab _ ih =>
    have := hf _ _ hab
    simp only [List.filterMap_cons]
    cases hfa : f a <;> cases hgb : g b <;> rw [hfa, hgb] at this <;> cases this
    · exact ih
    · rename_i h _; exact .cons h ih

theorem AllRel.imp {S' : α → α' → Prop} (hS : ∀ a a', S a a' → S' a a') {as as'} (h : AllRel S as as') : AllRel S' as as' := by
  induction h with
  | nil => exact .nil
  | cons a _ ih => exact .cons (hS _ _ a) ih

theorem AllRel.get {as as'} (h : AllRel S as as') (i : Nat) : AllRel S as[i]?.toList as'[i]?.toList := by
  induction h generalizing i with
  | nil => exact .nil
  | cons a _ ih =>
    cases i with
    | zero => exact .cons a .nil
    | succ i => simpa using ih i
end

theorem AllRel.eq {α : Type _} {as bs : List α} (h : AllRel Eq as bs) : as = bs := by
  induction h with
  | nil => rfl
  | cons a _ ih => rw [a, ih]

theorem AllRel.refl {α : Type _} {S : α → α → Prop} (hS : ∀ a, S a a) (as : List α) : AllRel S as as := by
  induction as with
  | nil => exact .nil
  | cons a as ih => exact .cons (hS a) ih

theorem AllRel.rfl' {α : Type _} (as : List α) : AllRel Eq as as := .refl (fun _ => rfl) as

/-- a function of the members that does not see the recoding -/
theorem AllRel.map_eq {α α' β : Type _} {S : α → α' → Prop} {as as'} (h : AllRel S as as') {f : α → β} {g : α' → β}
    (hf : ∀ a a', S a a' → f a = g a') : as.map f = as'.map g := (h.map (Q := Eq) hf).eq

section
variable {α α' β β' : Type _} {S : α → α' → Prop} {Q : β → β' → Prop}

theorem SameOutcome.imp {S' : α → α' → Prop} (hS : ∀ a a', S a a' → S' a a') {x : R α} {y : R α'}
    (h : SameOutcome S x y) : SameOutcome S' x y := by
  cases x <;> cases y <;> first | exact hS _ _ h | exact h

theorem SameOutcome.either {x : R α} {y : R α'} (h : SameOutcome S x y) :
    (∃ e, x = .error e ∧ y = .error e) ∨ ∃ a b, x = .ok a ∧ y = .ok b ∧ S a b := by
  cases x <;> cases y
  · exact .inl ⟨_, rfl, congrArg _ (Eq.symm h)⟩
  · exact h.elim
  · exact h.elim
  · exact .inr ⟨_, _, rfl, rfl, h⟩

/-- going on after related results -/
theorem SameOutcome.bind {x : R α} {y : R α'} (h : SameOutcome S x y) {f : R α → R β} {g : R α' → R β'}
    (hf : ∀ e, f (.error e) = .error e) (hg : ∀ e, g (.error e) = .error e)
    (ho : ∀ a a', S a a' → SameOutcome Q (f (.ok a)) (g (.ok a'))) : SameOutcome Q (f x) (g y) := by
  cases x <;> cases y
  · rw [hf, hg]; exact h
  · exact h.elim
  · exact h.elim
  · exact ho _ _ h

theorem flatMapR_rel {f : α → R (List β)} {g : α' → R (List β')}
    (hf : ∀ a a', S a a' → SameOutcome (AllRel Q) (f a) (g a')) {as as'} (h : AllRel S as as') :
    SameOutcome (AllRel Q) (flatMapR f as) (flatMapR g as') := by
  induction h with
  | nil => exact AllRel.nil
  | @cons a b _ _ hab _ ih =>
    simp only [flatMapR]
    have h1 := hf _ _ hab
    cases hx : f a <;> cases hy : g b <;> rw [hx, hy] at h1
    · exact h1
    · exact h1.elim
    · exact h1.elim
    · rename_i as bs
      generalize flatMapR f _ = X at ih ⊢
      generalize flatMapR g _ = Y at ih ⊢
      cases X <;> cases Y
      · exact ih
      · exact ih.elim
      · exact ih.elim
      · exact AllRel.append (S := Q) h1 ih

theorem mapR_rel {f : α → R β} {g : α' → R β'} (hf : ∀ a a', S a a' → SameOutcome Q (f a) (g a')) {as as'}
    (h : AllRel S as as') : SameOutcome (AllRel Q) (mapR f as) (mapR g as') := by
  induction h with
  | nil => exact AllRel.nil
  | @cons a b _ _ hab _ ih =>
    simp only [mapR]
    have h1 := hf _ _ hab
    cases hx : f a <;> cases hy : g b <;> rw [hx, hy] at h1
    · exact h1
    · exact h1.elim
    · exact h1.elim
    · generalize mapR f _ = X at ih ⊢
      generalize mapR g _ = Y at ih ⊢
      cases X <;> cases Y
      · exact ih
      · exact ih.elim
      · exact ih.elim
      · exact AllRel.cons h1 ih
end

variable {W : World} {T : Types} {ρ : Recoding W T}

/-! ### types and histories -/

theorem Recoding.ty_inj (ρ : Recoding W T) {a b : Ty W} (h : ρ.ty a = ρ.ty b) : a = b := by
  cases a <;> cases b <;> first | rfl | (simp only [Recoding.ty] at h; cases h; done) | skip
  rename_i x y
  exact congrArg Ty.user (ρ.inj x y (Ty.user.inj h))

theorem Recoding.ty_eq (ρ : Recoding W T) {a b : Ty W} : ρ.ty a = ρ.ty b ↔ a = b :=
  ⟨ρ.ty_inj, fun h => h ▸ rfl⟩

theorem valAs_rel {x : Rec W} {x' : Rec (W.retype T)} (h : RecRel ρ x x') (k : Ty W) :
    AllRel (ρ.val k) (x.valAs k).toList (x'.valAs (ρ.ty k)).toList := by
  obtain ⟨k₀, r, hv⟩ := h
  unfold Rec.valAs
  by_cases hk : k₀ = k
  · subst hk
    simpa using AllRel.cons hv .nil
  · have : ¬ ρ.ty k₀ = ρ.ty k := fun e => hk (ρ.ty_inj e)
    simp only [hk, this, dif_neg, not_false_eq_true]
    exact .nil

theorem RecRel.range {x : Rec W} {x' : Rec (W.retype T)} (h : RecRel ρ x x') : x.range = x'.range := by
  cases h; rfl

theorem valuesOf_rel {h : History W} {h' : History (W.retype T)} (hr : AllRel (RecRel ρ) h h') (k : Ty W) (r : LRange) :
    AllRel (ρ.val k) (valuesOf k r h) (valuesOf (ρ.ty k) r h') := by
  refine hr.filterMap (fun x x' hx => ?_)
  rw [← hx.range]
  by_cases hr : x.range = r
  · simp only [hr, if_true]; exact valAs_rel hx k
  · simp only [hr, if_false]; exact .nil

theorem rangesOf_rel {h : History W} {h' : History (W.retype T)} (hr : AllRel (RecRel ρ) h h') (k : Ty W) :
    rangesOf (ρ.ty k) h' = rangesOf k h := by
  unfold rangesOf
  refine congrArg firsts (((hr.filter ?_).map_eq ?_).symm)
  · intro x x' hx
    obtain ⟨k₀, r, hv⟩ := hx
    simp only [ρ.ty_eq]
  · intro x x' hx; exact hx.range

theorem ranges_rel {h : History W} {h' : History (W.retype T)} (hr : AllRel (RecRel ρ) h h') (r : LRange) :
    (∃ x ∈ h', x.range = r) ↔ ∃ x ∈ h, x.range = r := by
  induction hr with
  | nil => simp
  | cons hx _ ih => simp only [List.mem_cons, exists_eq_or_imp, ih, hx.range]

/-- what the proofs use of two alike lines -/
structure Twins (ρ : Recoding W T) (l : LLLine W) (l' : LLLine (W.retype T)) : Prop where
  toks : l'.ll_tokens = l.ll_tokens
  attr : ∀ d k, SameOutcome (AllRel (AtSame (ρ.val k))) (Dir.attr d k l) (Dir.attr d (ρ.ty k) l')
  attrEq : ∀ d k v v', EqAlike ρ k v v' →
    SameOutcome (AllRel (AtSame Eq)) (Dir.attrEq d k v l) (Dir.attrEq d (ρ.ty k) v' l')
  oneOf : ∀ d k set set', AllRel (EqAlike' ρ k) set set' →
    SameOutcome (AllRel (AtSame (ρ.val k))) (Dir.tokenAttrOneOf d k set l) (Dir.tokenAttrOneOf d (ρ.ty k) set' l')

theorem setContains_rel {k : Ty W} {set : List (Val k)} {set' : List (Val (ρ.ty k))} (hs : AllRel (EqAlike' ρ k) set set')
    {a : Val k} {a' : Val (ρ.ty k)} (ha : ρ.val k a a') : setContains k set a = setContains (ρ.ty k) set' a' := by
  unfold setContains
  induction hs with
  | nil => rfl
  | cons h _ ih => simp only [List.any_cons, h a a' ha, ih]

theorem rep_twins {l : LLLine W} {l' : LLLine (W.retype T)} {h : History W} {h' : History (W.retype T)} (rep : Rep l h)
    (rep' : Rep l' h') (ht : l'.ll_tokens = l.ll_tokens) (hr : AllRel (RecRel ρ) h h') : Twins ρ l l' := by
  refine ⟨ht, ?_, ?_, ?_⟩
  · intro d k
    cases d with
    | fwd i =>
      by_cases hi : i < l.ll_tokens.length
      · rw [rep_attr_fwd rep k hi, rep_attr_fwd rep' _ (ht ▸ hi), rangesOf_rel hr]
        refine AllRel.flatMap (AllRel.rfl' _) (fun r _ e => ?_)
        subst e
        exact (valuesOf_rel hr k r).map (fun _ _ h => ⟨h, rfl⟩)
      · rw [(rep_attr_oob rep k hi).1, (rep_attr_oob rep' _ (ht ▸ hi)).1]; rfl
    | bwd i =>
      by_cases hi : i < l.ll_tokens.length
      · rw [rep_attr_bwd rep k hi, rep_attr_bwd rep' _ (ht ▸ hi), rangesOf_rel hr]
        refine AllRel.flatMap (AllRel.rfl' _) (fun r _ e => ?_)
        subst e
        exact (valuesOf_rel hr k r).map (fun _ _ h => ⟨h, rfl⟩)
      · rw [(rep_attr_oob rep k hi).2, (rep_attr_oob rep' _ (ht ▸ hi)).2]; rfl
  · intro d k v v' hv
    cases d with
    | fwd i =>
      by_cases hi : i < l.ll_tokens.length
      · rw [rep_attrEq_fwd rep k v hi, rep_attrEq_fwd rep' _ v' (ht ▸ hi), rangesOf_rel hr]
        refine AllRel.flatMap (AllRel.rfl' _) (fun r _ e => ?_)
        subst e
        exact ((valuesOf_rel hr k r).filter hv).map (fun _ _ _ => ⟨rfl, rfl⟩)
      · rw [(rep_attrEq_oob rep k v hi).1, (rep_attrEq_oob rep' _ v' (ht ▸ hi)).1]; rfl
    | bwd i =>
      by_cases hi : i < l.ll_tokens.length
      · rw [rep_attrEq_bwd rep k v hi, rep_attrEq_bwd rep' _ v' (ht ▸ hi), rangesOf_rel hr]
        refine AllRel.flatMap (AllRel.rfl' _) (fun r _ e => ?_)
        subst e
        exact ((valuesOf_rel hr k r).filter hv).map (fun _ _ _ => ⟨rfl, rfl⟩)
      · rw [(rep_attrEq_oob rep k v hi).2, (rep_attrEq_oob rep' _ v' (ht ▸ hi)).2]; rfl
  · intro d k set set' hs
    cases d with
    | fwd i =>
      rw [rep_oneOf_fwd rep, rep_oneOf_fwd rep']
      by_cases hx : ∃ x ∈ h, x.range = (i, i)
      · rw [if_pos hx, if_pos ((ranges_rel hr _).2 hx)]
        exact ((valuesOf_rel hr k (i, i)).filter (fun _ _ => setContains_rel hs)).map (fun _ _ h => ⟨h, rfl⟩)
      · rw [if_neg hx, if_neg (fun h => hx ((ranges_rel hr _).1 h))]; rfl
    | bwd i =>
      by_cases hi : i < l.ll_tokens.length
      · rw [rep_oneOf_bwd rep k set hi, rep_oneOf_bwd rep' _ set' (ht ▸ hi), rangesOf_rel hr]
        refine AllRel.flatMap (AllRel.rfl' _) (fun r _ e => ?_)
        subst e
        exact ((valuesOf_rel hr k r).filter (fun _ _ => setContains_rel hs)).map (fun _ _ h => ⟨h, rfl⟩)
      · rw [rep_oneOf_bwd_oob rep k set hi, rep_oneOf_bwd_oob rep' _ set' (ht ▸ hi)]; rfl

/-! ### matchers -/

theorem after_rel {l : LLLine W} {l' : LLLine (W.retype T)} (ht : l'.ll_tokens = l.ll_tokens) (d : Dir) (i : Nat) :
    d.after i l' = d.after i l := by
  cases d <;> simp only [Dir.after, ht]

theorem textToken_rel {l : LLLine W} {l' : LLLine (W.retype T)} (ht : l'.ll_tokens = l.ll_tokens) (d : Dir) :
    d.textToken l' = d.textToken l := by
  cases d <;> simp only [Dir.textToken, ht]

/-- the two matchers find the same on alike lines -/
def AnswersAlike (l : LLLine W) (l' : LLLine (W.retype T)) {Out Out' : Type} (S : Out → Out' → Prop) (m : XMatch W Out)
    (m' : XMatch (W.retype T) Out') : Prop :=
  ∀ d, SameOutcome (AllRel (AtSame S)) (m.go d l) (m'.go d l')

theorem goAfter_rel {l : LLLine W} {l' : LLLine (W.retype T)} (ht : l'.ll_tokens = l.ll_tokens) {Out Out' : Type}
    {S : Out → Out' → Prop} {m : XMatch W Out} {m' : XMatch (W.retype T) Out'} (hm : AnswersAlike l l' S m m') (d : Dir) (i : Nat) :
    SameOutcome (AllRel (AtSame S)) (X.goAfter m d i l) (X.goAfter m' d i l') := by
  unfold X.goAfter
  rw [after_rel ht]
  cases d.after i l with
  | none => exact AllRel.nil
  | some d' => exact hm d'

theorem tree_rel {l : LLLine W} {l' : LLLine (W.retype T)} {I : Type} {A A' : I → Type} {Out Out' : Type}
    {SA : (i : I) → A i → A' i → Prop} {S : Out → Out' → Prop}
    {part : (i : I) → XMatch W (A i)} {part' : (i : I) → XMatch (W.retype T) (A' i)} {t : UserTree A Out}
    {t' : UserTree A' Out'} (hp : ∀ i, AnswersAlike l l' (SA i) (part i) (part' i)) (ht : TreeRel SA S t t') (d : Dir) :
    ∀ seen, SameOutcome (AllRel (AtSame S)) (t.run part d l seen) (t'.run part' d l' seen) := by
  induction ht with
  | answer h =>
    intro seen
    refine AllRel.filterMap h (fun a a' ha => ?_)
    rw [ha.2]
    cases seen[a'.2]? with
    | none => exact .nil
    | some e => exact .cons ⟨ha.1, rfl⟩ .nil
  | @ask i next next' _ ih =>
    intro seen
    simp only [UserTree.run]
    have := hp i d
    rcases this.either with ⟨e, hx, hy⟩ | ⟨as, bs, hx, hy, this⟩
    · simp only [hx, hy]; exact rfl
    · simp only [hx, hy]
      have he : as.map (·.2) = bs.map (·.2) := AllRel.map_eq this (fun _ _ h => h.2)
      have hv : AllRel (SA i) (as.map (·.1)) (bs.map (·.1)) := AllRel.map this (fun _ _ h => h.1)
      rw [← he]
      exact ih _ _ _ hv _

theorem paired_answers {l : LLLine W} {l' : LLLine (W.retype T)} (tw : Twins ρ l l') {Out Out' : Type}
    {S : Out → Out' → Prop} {m : XMatch W Out} {m' : XMatch (W.retype T) Out'} (hm : Paired ρ S m m') : AnswersAlike l l' S m m' := by
  induction hm with
  | attr k => intro d; exact tw.attr d k
  | attrEq k h => intro d; exact tw.attrEq d k _ _ h
  | tokenHasAny k h => intro d; exact tw.oneOf d k _ _ h
  | tokenText =>
    intro d
    simp only [X.tokenText, textToken_rel tw.toks]
    cases d.textToken l with
    | error e => rfl
    | ok o => exact AllRel.refl (fun _ => ⟨rfl, rfl⟩) _
  | @all2 _ _ _ _ S Q a a' b b' _ _ iha ihb =>
    intro d
    have h1 := ihb d; have h3 := iha d
    simp only [X.all2]
    rcases h1.either with ⟨e, hb, hb'⟩ | ⟨_, _, hb, hb', h1⟩
    · simp only [hb, hb']; exact rfl
    simp only [hb, hb']
    rcases h3.either with ⟨e, ha, ha'⟩ | ⟨_, _, ha, ha', h3⟩
    · simp only [ha, ha']; exact rfl
    simp only [ha, ha']
    refine AllRel.flatMap h3 (fun p p' hp => AllRel.filterMap h1 (fun q q' hq => ?_))
    rw [← hp.2, ← hq.2]
    by_cases he : p.2 = q.2
    · simp only [he, if_true]
      exact .cons ⟨⟨hp.1, hq.1⟩, rfl⟩ .nil
    · simp only [he, if_false]; exact .nil
  | @all3 _ _ _ _ _ _ S Q P a a' b b' c c' _ _ _ iha ihb ihc =>
    intro d
    have h1 := ihb d; have h2 := ihc d; have h3 := iha d
    simp only [X.all3]
    rcases h1.either with ⟨e, hb, hb'⟩ | ⟨_, _, hb, hb', h1⟩
    · simp only [hb, hb']; exact rfl
    simp only [hb, hb']
    rcases h2.either with ⟨e, hc, hc'⟩ | ⟨_, _, hc, hc', h2⟩
    · simp only [hc, hc']; exact rfl
    simp only [hc, hc']
    rcases h3.either with ⟨e, ha, ha'⟩ | ⟨_, _, ha, ha', h3⟩
    · simp only [ha, ha']; exact rfl
    simp only [ha, ha']
    refine AllRel.flatMap h3 (fun p p' hp => AllRel.flatMap h1 (fun q q' hq => AllRel.filterMap h2 (fun r r' hr => ?_)))
    rw [← hp.2, ← hq.2, ← hr.2]
    by_cases he : p.2 = q.2 ∧ p.2 = r.2
    · rw [if_pos he, if_pos he]
      exact .cons ⟨⟨hp.1, hq.1, hr.1⟩, rfl⟩ .nil
    · simp only [he, if_false]; exact .nil
  | @anyOf2 _ _ _ _ S Q a a' b b' _ _ iha ihb =>
    intro d
    have h1 := ihb d; have h3 := iha d
    simp only [X.anyOf2]
    rcases h3.either with ⟨e, ha, ha'⟩ | ⟨_, _, ha, ha', h3⟩
    · simp only [ha, ha']; exact rfl
    simp only [ha, ha']
    cases h3 with
    | nil =>
      simp only [List.isEmpty_nil, Bool.not_true, Bool.false_eq_true, if_false]
      rcases h1.either with ⟨e, hb, hb'⟩ | ⟨_, _, hb, hb', h1⟩
      · simp only [hb, hb']; exact rfl
      simp only [hb, hb']
      exact AllRel.map h1 (fun _ _ h => ⟨.B h.1, h.2⟩)
    | cons x xs =>
      simp only [List.isEmpty_cons, Bool.not_false, if_true]
      exact AllRel.map (AllRel.cons x xs) (fun _ _ h => ⟨.A h.1, h.2⟩)
  | @anyOf3 _ _ _ _ _ _ S Q P a a' b b' c c' _ _ _ iha ihb ihc =>
    intro d
    have h1 := ihb d; have h2 := ihc d; have h3 := iha d
    simp only [X.anyOf3]
    rcases h3.either with ⟨e, ha, ha'⟩ | ⟨_, _, ha, ha', h3⟩
    · simp only [ha, ha']; exact rfl
    simp only [ha, ha']
    cases h3 with
    | nil =>
      simp only [List.isEmpty_nil, Bool.not_true, Bool.false_eq_true, if_false]
      rcases h1.either with ⟨e, hb, hb'⟩ | ⟨_, _, hb, hb', h1⟩
      · simp only [hb, hb']; exact rfl
      simp only [hb, hb']
      cases h1 with
      | nil =>
        simp only [List.isEmpty_nil, Bool.not_true, Bool.false_eq_true, if_false]
        rcases h2.either with ⟨e, hc, hc'⟩ | ⟨_, _, hc, hc', h2⟩
        · simp only [hc, hc']; exact rfl
        simp only [hc, hc']
        exact AllRel.map h2 (fun _ _ h => ⟨.C h.1, h.2⟩)
      | cons x xs =>
        simp only [List.isEmpty_cons, Bool.not_false, if_true]
        exact AllRel.map (AllRel.cons x xs) (fun _ _ h => ⟨.B h.1, h.2⟩)
    | cons x xs =>
      simp only [List.isEmpty_cons, Bool.not_false, if_true]
      exact AllRel.map (AllRel.cons x xs) (fun _ _ h => ⟨.A h.1, h.2⟩)
  | @seq2 _ _ _ _ S Q a a' b b' _ _ iha ihb =>
    intro d
    have h3 := iha d
    simp only [X.seq2]
    rcases h3.either with ⟨e, ha, ha'⟩ | ⟨_, _, ha, ha', h3⟩
    · simp only [ha, ha']; exact rfl
    simp only [ha, ha']
    refine flatMapR_rel (fun p p' hp => ?_) h3
    have h1 := goAfter_rel tw.toks ihb d p.2
    rw [← hp.2]
    rcases h1.either with ⟨e, hb, hb'⟩ | ⟨_, _, hb, hb', h1⟩
    · simp only [hb, hb']; exact rfl
    simp only [hb, hb']
    exact AllRel.map h1 (fun _ _ h => ⟨⟨hp.1, h.1⟩, h.2⟩)
  | @seq3 _ _ _ _ _ _ S Q P a a' b b' c c' _ _ _ iha ihb ihc =>
    intro d
    have h3 := iha d
    simp only [X.seq3]
    rcases h3.either with ⟨e, ha, ha'⟩ | ⟨_, _, ha, ha', h3⟩
    · simp only [ha, ha']; exact rfl
    simp only [ha, ha']
    refine flatMapR_rel (fun p p' hp => ?_) h3
    have h1 := goAfter_rel tw.toks ihb d p.2
    rw [← hp.2]
    rcases h1.either with ⟨e, hb, hb'⟩ | ⟨_, _, hb, hb', h1⟩
    · simp only [hb, hb']; exact rfl
    simp only [hb, hb']
    refine flatMapR_rel (fun q q' hq => ?_) h1
    have h2 := goAfter_rel tw.toks ihc d q.2
    rw [← hq.2]
    rcases h2.either with ⟨e, hc, hc'⟩ | ⟨_, _, hc, hc', h2⟩
    · simp only [hc, hc']; exact rfl
    simp only [hc, hc']
    exact AllRel.map h2 (fun _ _ h => ⟨⟨hp.1, hq.1, h.1⟩, h.2⟩)
  | user _ ht ih => intro d; exact tree_rel ih ht d []
  | recursive _ ih =>
    intro d
    simp only [X.limit, tw.toks]
    exact ih _ d

end LNlp
