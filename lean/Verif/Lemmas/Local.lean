import Verif.Spec.Local
import Verif.Lemmas.Compose
import Verif.Lemmas.Match
/- Matchers depend only on a part of the line. -/
namespace LNlp
variable {W : World}

/-! ### results up to a shift of the indexes -/

def shiftL {α : Type} (n : Nat) (rs : List (α × Nat)) : List (α × Nat) := rs.map (fun r => (r.1, r.2 + n))

theorem shiftResults_ok {α : Type} {n : Nat} {rs : List (α × Nat)} : shiftResults n (.ok rs) = .ok (shiftL n rs) := rfl
theorem shiftResults_error {α : Type} {n : Nat} {e : Panic} :
    shiftResults n (.error e : R (List (α × Nat))) = .error e := rfl

/-- the two results are the same up to the shifts -/
inductive SameOut {α : Type} (n n' : Nat) : R (List (α × Nat)) → R (List (α × Nat)) → Prop
  | error (e : Panic) : SameOut n n' (.error e) (.error e)
  | ok (rs rs' : List (α × Nat)) (h : shiftL n' rs = shiftL n rs') : SameOut n n' (.ok rs) (.ok rs')

theorem sameOut_iff {α : Type} {n n' : Nat} {x y : R (List (α × Nat))} :
    SameOut n n' x y ↔ shiftResults n' x = shiftResults n y := by
  constructor
  · rintro (_ | ⟨_, _, h⟩)
    · rfl
    · rw [shiftResults_ok, shiftResults_ok, h]
  · cases x <;> cases y <;> intro h
    · cases h; exact .error _
    · cases h
    · cases h
    · rw [shiftResults_ok, shiftResults_ok] at h; exact .ok _ _ (Except.ok.inj h)

theorem shiftL_cons {α : Type} {n n' : Nat} {p : α × Nat} {rs rs' : List (α × Nat)} (h : shiftL n' (p :: rs) = shiftL n rs') :
    ∃ p' ps, rs' = p' :: ps ∧ p'.1 = p.1 ∧ p.2 + n' = p'.2 + n ∧ shiftL n' rs = shiftL n ps := by
  cases rs' with
  | nil => cases h
  | cons p' ps =>
    simp only [shiftL, List.map_cons, List.cons.injEq, Prod.mk.injEq] at h
    exact ⟨p', ps, rfl, h.1.1.symm, h.1.2, h.2⟩

theorem shiftL_nil {α : Type} {n n' : Nat} {rs' : List (α × Nat)} (h : shiftL n' ([] : List (α × Nat)) = shiftL n rs') : rs' = [] := by
  cases rs' with
  | nil => rfl
  | cons p' ps => cases h

theorem shiftL_append {α : Type} (n : Nat) (a b : List (α × Nat)) : shiftL n (a ++ b) = shiftL n a ++ shiftL n b := List.map_append

/-- map over the values -/
theorem shiftL_mapOut {α β : Type} (f : α → β) {n n' : Nat} {rs rs' : List (α × Nat)} (h : shiftL n' rs = shiftL n rs') :
    shiftL n' (rs.map (fun p => (f p.1, p.2))) = shiftL n (rs'.map (fun p => (f p.1, p.2))) := by
  induction rs generalizing rs' with
  | nil => rw [shiftL_nil h]; rfl
  | cons p rs ih =>
    obtain ⟨p', ps, rfl, h1, h2, h3⟩ := shiftL_cons h
    have := ih h3
    simp only [shiftL, List.map_cons, h1, h2] at this ⊢
    rw [this]

/-- filter by a property of the values and map them -/
theorem shiftL_filterMap {α β : Type} (f : α → Option β) {n n' : Nat} {rs rs' : List (α × Nat)} (h : shiftL n' rs = shiftL n rs') :
    shiftL n' (rs.filterMap (fun p => (f p.1).map (fun b => (b, p.2)))) =
      shiftL n (rs'.filterMap (fun p => (f p.1).map (fun b => (b, p.2)))) := by
  induction rs generalizing rs' with
  | nil => rw [shiftL_nil h]; rfl
  | cons p rs ih =>
    obtain ⟨p', ps, rfl, h1, h2, h3⟩ := shiftL_cons h
    have := ih h3
    simp only [List.filterMap_cons, h1]
    cases f p.1 with
    | none => exact this
    | some b =>
      simp only [Option.map_some, shiftL, List.map_cons, h2] at this ⊢
      rw [this]

theorem shiftL_flatMap {α β : Type} {n n' : Nat} {f g : α × Nat → List (β × Nat)} {rs rs' : List (α × Nat)}
    (h : shiftL n' rs = shiftL n rs')
    (hf : ∀ p ∈ rs, ∀ p' ∈ rs', p'.1 = p.1 → p.2 + n' = p'.2 + n → shiftL n' (f p) = shiftL n (g p')) :
    shiftL n' (rs.flatMap f) = shiftL n (rs'.flatMap g) := by
  induction rs generalizing rs' with
  | nil => rw [shiftL_nil h]; rfl
  | cons p rs ih =>
    obtain ⟨p', ps, rfl, h1, h2, h3⟩ := shiftL_cons h
    rw [List.flatMap_cons, List.flatMap_cons, shiftL_append, shiftL_append, hf p (by simp) p' (by simp) h1 h2,
      ih h3 (fun a ha b hb => hf a (by simp [ha]) b (by simp [hb]))]

theorem same_flatMapR {α β : Type} {n n' : Nat} {f g : α × Nat → R (List (β × Nat))} {rs rs' : List (α × Nat)}
    (h : shiftL n' rs = shiftL n rs')
    (hf : ∀ p ∈ rs, ∀ p' ∈ rs', p'.1 = p.1 → p.2 + n' = p'.2 + n → SameOut n n' (f p) (g p')) :
    SameOut n n' (flatMapR f rs) (flatMapR g rs') := by
  induction rs generalizing rs' with
  | nil => rw [shiftL_nil h]; exact .ok _ _ rfl
  | cons p rs ih =>
    obtain ⟨p', ps, rfl, h1, h2, h3⟩ := shiftL_cons h
    have hp := hf p (by simp) p' (by simp) h1 h2
    have hi := ih h3 (fun a ha b hb => hf a (by simp [ha]) b (by simp [hb]))
    simp only [flatMapR]
    generalize f p = x at hp
    generalize g p' = y at hp
    generalize flatMapR f rs = u at hi
    generalize flatMapR g ps = v at hi
    cases hp with
    | error e => exact .error e
    | ok a b hab =>
      cases hi with
      | error e => exact .error e
      | ok c d hcd => exact .ok _ _ (by rw [shiftL_append, shiftL_append, hab, hcd])

/-! ### the combinators -/

theorem same_all2 {α β : Type} {n n' : Nat} {l l' : LLLine W} {d d' : Dir} {a : XMatch W α} {b : XMatch W β}
    (ha : SameOut n n' (a.go d l) (a.go d' l')) (hb : SameOut n n' (b.go d l) (b.go d' l')) :
    SameOut n n' ((X.all2 a b).go d l) ((X.all2 a b).go d' l') := by
  simp only [X.all2]
  generalize a.go d l = x at ha
  generalize a.go d' l' = x' at ha
  generalize b.go d l = y at hb
  generalize b.go d' l' = y' at hb
  cases hb with
  | error e => exact .error e
  | ok bs bs' hbs =>
    cases ha with
    | error e => exact .error e
    | ok as as' has =>
      refine .ok _ _ (shiftL_flatMap has ?_)
      intro p _ p' _ h1 h2
      clear has
      induction bs generalizing bs' with
      | nil => rw [shiftL_nil hbs]; rfl
      | cons q bs ih =>
        obtain ⟨q', qs, rfl, h3, h4, h5⟩ := shiftL_cons hbs
        have := ih _ h5
        simp only [List.filterMap_cons]
        by_cases hc : p.2 = q.2
        · rw [if_pos hc, if_pos (show p'.2 = q'.2 by omega)]
          simp only [shiftL, List.map_cons, h1, h2, h3] at this ⊢
          rw [this]
        · rw [if_neg hc, if_neg (show ¬ p'.2 = q'.2 by omega)]
          exact this

theorem same_all3 {α β γ : Type} {n n' : Nat} {l l' : LLLine W} {d d' : Dir} {a : XMatch W α} {b : XMatch W β} {c : XMatch W γ}
    (ha : SameOut n n' (a.go d l) (a.go d' l')) (hb : SameOut n n' (b.go d l) (b.go d' l'))
    (hc : SameOut n n' (c.go d l) (c.go d' l')) :
    SameOut n n' ((X.all3 a b c).go d l) ((X.all3 a b c).go d' l') := by
  simp only [X.all3]
  generalize a.go d l = x at ha
  generalize a.go d' l' = x' at ha
  generalize b.go d l = y at hb
  generalize b.go d' l' = y' at hb
  generalize c.go d l = z at hc
  generalize c.go d' l' = z' at hc
  cases hb with
  | error e => exact .error e
  | ok bs bs' hbs =>
    cases hc with
    | error e => exact .error e
    | ok cs cs' hcs =>
      cases ha with
      | error e => exact .error e
      | ok as as' has =>
        refine .ok _ _ (shiftL_flatMap has ?_)
        intro p _ p' _ h1 h2
        refine shiftL_flatMap hbs ?_
        intro q _ q' _ h3 h4
        clear has hbs
        induction cs generalizing cs' with
        | nil => rw [shiftL_nil hcs]; rfl
        | cons r cs ih =>
          obtain ⟨r', rs, rfl, h5, h6, h7⟩ := shiftL_cons hcs
          have := ih _ h7
          simp only [List.filterMap_cons]
          by_cases hc : p.2 = q.2 ∧ p.2 = r.2
          · rw [if_pos hc, if_pos (show p'.2 = q'.2 ∧ p'.2 = r'.2 by omega)]
            simp only [shiftL, List.map_cons, h1, h2, h3, h5] at this ⊢
            rw [this]
          · rw [if_neg hc, if_neg (show ¬ (p'.2 = q'.2 ∧ p'.2 = r'.2) by omega)]
            exact this

theorem shiftL_isEmpty {α : Type} {n n' : Nat} {rs rs' : List (α × Nat)} (h : shiftL n' rs = shiftL n rs') :
    rs.isEmpty = rs'.isEmpty := by
  cases rs with
  | nil => rw [shiftL_nil h]
  | cons p rs => obtain ⟨_, _, rfl, _⟩ := shiftL_cons h; rfl

theorem same_anyOf2 {α β : Type} {n n' : Nat} {l l' : LLLine W} {d d' : Dir} {a : XMatch W α} {b : XMatch W β}
    (ha : SameOut n n' (a.go d l) (a.go d' l')) (hb : SameOut n n' (b.go d l) (b.go d' l')) :
    SameOut n n' ((X.anyOf2 a b).go d l) ((X.anyOf2 a b).go d' l') := by
  simp only [X.anyOf2]
  generalize a.go d l = x at ha
  generalize a.go d' l' = x' at ha
  generalize b.go d l = y at hb
  generalize b.go d' l' = y' at hb
  cases ha with
  | error e => exact .error e
  | ok as as' has =>
    simp only [shiftL_isEmpty has]
    split
    · exact .ok _ _ (shiftL_mapOut _ has)
    · cases hb with
      | error e => exact .error e
      | ok bs bs' hbs => exact .ok _ _ (shiftL_mapOut _ hbs)

theorem same_anyOf3 {α β γ : Type} {n n' : Nat} {l l' : LLLine W} {d d' : Dir} {a : XMatch W α} {b : XMatch W β} {c : XMatch W γ}
    (ha : SameOut n n' (a.go d l) (a.go d' l')) (hb : SameOut n n' (b.go d l) (b.go d' l'))
    (hc : SameOut n n' (c.go d l) (c.go d' l')) :
    SameOut n n' ((X.anyOf3 a b c).go d l) ((X.anyOf3 a b c).go d' l') := by
  simp only [X.anyOf3]
  generalize a.go d l = x at ha
  generalize a.go d' l' = x' at ha
  generalize b.go d l = y at hb
  generalize b.go d' l' = y' at hb
  generalize c.go d l = z at hc
  generalize c.go d' l' = z' at hc
  cases ha with
  | error e => exact .error e
  | ok as as' has =>
    simp only [shiftL_isEmpty has]
    split
    · exact .ok _ _ (shiftL_mapOut _ has)
    · cases hb with
      | error e => exact .error e
      | ok bs bs' hbs =>
        simp only [shiftL_isEmpty hbs]
        split
        · exact .ok _ _ (shiftL_mapOut _ hbs)
        · cases hc with
          | error e => exact .error e
          | ok cs cs' hcs => exact .ok _ _ (shiftL_mapOut _ hcs)

theorem shift_eq_iff {n n' : Nat} {s s' : List Nat} (h : s.map (· + n') = s'.map (· + n)) (a b : Nat) :
    s[a]? = s[b]? ↔ s'[a]? = s'[b]? := by
  have q : ∀ a : Nat, (s[a]?).map (· + n') = (s'[a]?).map (· + n) := by
    intro a
    rw [← List.getElem?_map, ← List.getElem?_map, h]
  have inj : ∀ (m : Nat) (x y : Option Nat), x.map (· + m) = y.map (· + m) ↔ x = y := by
    intro m x y
    cases x <;> cases y <;> simp
  rw [← inj n', q a, q b, inj n]

theorem same_user {I : Type} {A : I → Type} {Out : Type} {n n' : Nat} {l l' : LLLine W} {d d' : Dir}
    (part : (i : I) → XMatch W (A i)) (t : UserTree A Out) (hp : ∀ i, SameOut n n' ((part i).go d l) ((part i).go d' l')) :
    ∀ s s' : List Nat, s.map (· + n') = s'.map (· + n) → SameOut n n' (t.run part d l s) (t.run part d' l' s') := by
  induction t with
  | answer o =>
    intro s s' hs
    refine .ok _ _ ?_
    simp only [shiftL, List.map_filterMap]
    congr 1
    funext x
    have q : (s[x.2]?).map (· + n') = (s'[x.2]?).map (· + n) := by
      rw [← List.getElem?_map, ← List.getElem?_map, hs]
    cases h1 : s[x.2]? <;> cases h2 : s'[x.2]? <;> rw [h1, h2] at q <;> simp at q ⊢
    exact q
  | ask i next ih =>
    intro s s' hs
    have := hp i
    simp only [UserTree.run]
    generalize (part i).go d l = x at this
    generalize (part i).go d' l' = y at this
    cases this with
    | error e => exact .error e
    | ok rs rs' h =>
      have h1 : rs.map (·.1) = rs'.map (·.1) := by
        have := congrArg (List.map (·.1)) h
        simpa [shiftL, List.map_map, Function.comp_def] using this
      have h2 : (rs.map (·.2)).map (· + n') = (rs'.map (·.2)).map (· + n) := by
        have := congrArg (List.map (·.2)) h
        simpa [shiftL, List.map_map, Function.comp_def] using this
      have h3 : (s ++ rs.map (·.2)).map (· + n') = (s' ++ rs'.map (·.2)).map (· + n) := by
        rw [List.map_append, List.map_append, hs, h2]
      have h4 : (fun a b : Nat => decide ((s ++ rs.map (·.2))[a]? = (s ++ rs.map (·.2))[b]?)) =
          (fun a b : Nat => decide ((s' ++ rs'.map (·.2))[a]? = (s' ++ rs'.map (·.2))[b]?)) := by
        funext a b
        exact decide_eq_decide.2 (shift_eq_iff h3 a b)
      simp only [h1, h4]
      exact ih _ _ _ _ h3

/-- two lines look the same to matchers along the related directions -/
structure Alike (l l' : LLLine W) (h h' : History W) (n n' : Nat) (D : Dir → Dir → Prop) : Prop where
  reach : Reachable l h
  reach' : Reachable l' h'
  ord : Ordered h
  ord' : Ordered h'
  attr : ∀ k d d', D d d' → SameOut n n' ((X.attr k).go d l) ((X.attr k).go d' l')
  attrEq : ∀ k v d d', D d d' → SameOut n n' ((X.attrEq k v).go d l) ((X.attrEq k v).go d' l')
  has : ∀ k set d d', D d d' → SameOut n n' ((X.tokenHasAny k set).go d l) ((X.tokenHasAny k set).go d' l')
  text : ∀ d d', D d d' → SameOut n n' (X.tokenText.go d l) (X.tokenText.go d' l')
  next : ∀ d d' i j, D d d' → d.RightWay i → d'.RightWay j → i < l.ll_tokens.length → j < l'.ll_tokens.length →
    i + n' = j + n → (d.after i l = none ∧ d'.after j l' = none) ∨
      ∃ e e', d.after i l = some e ∧ d'.after j l' = some e' ∧ D e e'

theorem Alike.goAfter {l l' : LLLine W} {h h' : History W} {n n' : Nat} {D : Dir → Dir → Prop} (A : Alike l l' h h' n n' D)
    {β : Type} {b : XMatch W β} (hb : ∀ d d', D d d' → SameOut n n' (b.go d l) (b.go d' l')) {d d' : Dir} (hd : D d d')
    {i j : Nat} (h1 : d.RightWay i) (h2 : d'.RightWay j) (h3 : i < l.ll_tokens.length) (h4 : j < l'.ll_tokens.length)
    (h5 : i + n' = j + n) : SameOut n n' (X.goAfter b d i l) (X.goAfter b d' j l') := by
  unfold X.goAfter
  rcases A.next d d' i j hd h1 h2 h3 h4 h5 with ⟨e1, e2⟩ | ⟨e, e', e1, e2, he⟩
  · rw [e1, e2]; exact .ok _ _ rfl
  · rw [e1, e2]; exact hb _ _ he

theorem Alike.built {l l' : LLLine W} {h h' : History W} {n n' : Nat} {D : Dir → Dir → Prop} (A : Alike l l' h h' n n' D)
    {T : Ty W → Prop} {has : Bool} {Out : Type} {m : XMatch W Out} (hb : Built T has m) :
    ∀ d d', D d d' → SameOut n n' (m.go d l) (m.go d' l') := by
  induction hb with
  | attr k _ => exact A.attr k
  | attrEq k _ v => exact A.attrEq k v
  | tokenHasAny k _ _ set => exact A.has k set
  | tokenText => exact A.text
  | all2 _ _ ia ib => exact fun d d' hd => same_all2 (ia d d' hd) (ib d d' hd)
  | all3 _ _ _ ia ib ic => exact fun d d' hd => same_all3 (ia d d' hd) (ib d d' hd) (ic d d' hd)
  | anyOf2 _ _ ia ib => exact fun d d' hd => same_anyOf2 (ia d d' hd) (ib d d' hd)
  | anyOf3 _ _ _ ia ib ic => exact fun d d' hd => same_anyOf3 (ia d d' hd) (ib d d' hd) (ic d d' hd)
  | @seq2 α β a b ha hb ia ib =>
    intro d d' hd
    have h1 := ia d d' hd
    have r1 := built_results ha A.reach.rep True (fun _ => A.ord) d
    have r2 := built_results ha A.reach'.rep True (fun _ => A.ord') d'
    simp only [X.seq2]
    generalize a.go d l = x at h1 r1
    generalize a.go d' l' = y at h1 r2
    cases h1 with
    | error e => exact .error e
    | ok as as' has =>
      refine same_flatMapR has ?_
      intro p hp p' hp' e1 e2
      have q1 := r1 _ rfl p hp
      have q2 := r2 _ rfl p' hp'
      have := A.goAfter ib hd (q1.2 trivial) (q2.2 trivial) q1.1 q2.1 e2
      generalize X.goAfter b d p.2 l = u at this
      generalize X.goAfter b d' p'.2 l' = v at this
      cases this with
      | error e => exact .error e
      | ok bs bs' hbs =>
        refine .ok _ _ ?_
        simp only [e1]
        exact shiftL_mapOut _ hbs
  | @seq3 α β γ a b c ha hb hc ia ib ic =>
    intro d d' hd
    have h1 := ia d d' hd
    have r1 := built_results ha A.reach.rep True (fun _ => A.ord) d
    have r2 := built_results ha A.reach'.rep True (fun _ => A.ord') d'
    simp only [X.seq3]
    generalize a.go d l = x at h1 r1
    generalize a.go d' l' = y at h1 r2
    cases h1 with
    | error e => exact .error e
    | ok as as' has =>
      refine same_flatMapR has ?_
      intro p hp p' hp' e1 e2
      have q1 := r1 _ rfl p hp
      have q2 := r2 _ rfl p' hp'
      rcases A.next d d' p.2 p'.2 hd (q1.2 trivial) (q2.2 trivial) q1.1 q2.1 e2 with ⟨n1, n2⟩ | ⟨e, e', n1, n2, he⟩
      · simp only [X.goAfter, n1, n2]; exact .ok _ _ rfl
      · have hbb := ib e e' he
        have s1 := built_results hb A.reach.rep True (fun _ => A.ord) e
        have s2 := built_results hb A.reach'.rep True (fun _ => A.ord') e'
        rw [show X.goAfter b d p.2 l = b.go e l by unfold X.goAfter; rw [n1],
          show X.goAfter b d' p'.2 l' = b.go e' l' by unfold X.goAfter; rw [n2]]
        generalize b.go e l = u at hbb s1
        generalize b.go e' l' = v at hbb s2
        cases hbb with
        | error e => exact .error e
        | ok bs bs' hbs =>
          refine same_flatMapR hbs ?_
          intro q hq q' hq' e3 e4
          have t1 := s1 _ rfl q hq
          have t2 := s2 _ rfl q' hq'
          have w1 : d.RightWay q.2 := next_rightWay (after_iff.1 n1) (q1.2 trivial) (t1.2 trivial)
          have w2 : d'.RightWay q'.2 := next_rightWay (after_iff.1 n2) (q2.2 trivial) (t2.2 trivial)
          have := A.goAfter ic hd w1 w2 t1.1 t2.1 e4
          generalize X.goAfter c d q.2 l = u at this
          generalize X.goAfter c d' q'.2 l' = v at this
          cases this with
          | error e => exact .error e
          | ok cs cs' hcs =>
            refine .ok _ _ ?_
            simp only [e1, e3]
            exact shiftL_mapOut (fun z => (p.1, q.1, z)) hcs
  | user part t _ ih => exact fun d d' hd => same_user part t (fun i => ih i d d' hd) [] [] rfl
  | recursive f _ hs ih =>
    intro d d' hd
    simp only [X.limit]
    rw [← hs l h A.reach A.ord d (l.ll_tokens.length + 2 + l'.ll_tokens.length) (by omega),
      ← hs l' h' A.reach' A.ord' d' (l.ll_tokens.length + 2 + l'.ll_tokens.length) (by omega)]
    exact ih _ d d' hd

/-! ### what the lookups read -/

theorem attrF_ge (k : Ty W) (h : History W) {n i : Nat} (hi : n ≤ i) :
    attrF k h i = attrF k (h.filter (fun x => decide (n ≤ x.range.1))) i := by
  refine (attrF_local k h i).trans (Eq.trans ?_ (attrF_local k _ i).symm)
  rw [List.filter_filter]
  congr 1
  apply List.filter_congr
  intro x _
  by_cases hx : x.range.1 = i
  · simp [hx, hi]
  · simp only [decide_eq_false hx, Bool.false_and]

theorem attrB_le (k : Ty W) (h : History W) {n i : Nat} (hi : i ≤ n) :
    attrB k h i = attrB k (recordsUpTo n h) i := by
  unfold recordsUpTo
  refine (attrB_local k h i).trans (Eq.trans ?_ (attrB_local k _ i).symm)
  rw [List.filter_filter]
  congr 1
  apply List.filter_congr
  intro x _
  by_cases hx : x.range.2 = i
  · simp [hx, hi]
  · simp only [decide_eq_false hx, Bool.false_and]

theorem recordsFrom_shift {h : History W} (ord : Ordered h) (n : Nat) :
    (recordsFrom n h).map (Rec.shift n) = h.filter (fun x => decide (n ≤ x.range.1)) := by
  unfold recordsFrom
  rw [List.map_map]
  conv => rhs; rw [← List.map_id (h.filter _)]
  apply List.map_congr_left
  intro x hx
  have h1 := of_decide_eq_true (List.mem_filter.1 hx).2
  have h2 := ord x (List.mem_filter.1 hx).1
  obtain ⟨ty, ⟨a, b⟩, v⟩ := x
  have e : shiftR n ((a - n, b - n) : LRange) = (a, b) := by
    unfold shiftR; exact Prod.ext (Nat.sub_add_cancel h1) (Nat.sub_add_cancel (Nat.le_trans h1 h2))
  simp only [Function.comp, Rec.from, Rec.shift, id, e]

theorem attrF_from (k : Ty W) {h : History W} (ord : Ordered h) (n i : Nat) :
    attrF k h (n + i) = shiftL n (attrF k (recordsFrom n h) i) := by
  rw [attrF_ge k h (Nat.le_add_right n i), ← recordsFrom_shift ord, attrF_shift]; rfl

theorem valuesOf_from (k : Ty W) {h : History W} (ord : Ordered h) (n i : Nat) :
    valuesOf k (n + i, n + i) h = valuesOf k (i, i) (recordsFrom n h) := by
  rw [← valuesOf_shift k (recordsFrom n h) n, recordsFrom_shift ord,
    valuesOf_filter k h (fun r => decide (n ≤ r.1)) (by simp [shiftR])]
  simp only [shiftR, Nat.add_comm]

theorem present_from {h : History W} (ord : Ordered h) (n i : Nat) :
    (∃ x ∈ h, x.range = (n + i, n + i)) ↔ ∃ x ∈ recordsFrom n h, x.range = (i, i) := by
  constructor
  · rintro ⟨x, hx, hr⟩
    refine ⟨x.from n, List.mem_map.2 ⟨x, List.mem_filter.2 ⟨hx, by simp [hr]⟩, rfl⟩, ?_⟩
    simp [Rec.from, hr]
  · rintro ⟨y, hy, hr⟩
    obtain ⟨x, hx, rfl⟩ := List.mem_map.1 hy
    have h1 := of_decide_eq_true (List.mem_filter.1 hx).2
    have hx := (List.mem_filter.1 hx).1
    have h2 := ord x hx
    simp only [Rec.from, Prod.mk.injEq] at hr
    exact ⟨x, hx, Prod.ext (by simp only; omega) (by simp only; omega)⟩

theorem shiftL_comm {α : Type} (n n' : Nat) (rs : List (α × Nat)) : shiftL n' (shiftL n rs) = shiftL n (shiftL n' rs) := by
  simp only [shiftL, List.map_map]
  apply List.map_congr_left
  intro r _
  simp only [Function.comp, Prod.mk.injEq, true_and]; omega

theorem attrEq_eq {k : Ty W} {v : Val k} (L : List LRange) (f : LRange → Nat) (h : History W) :
    L.flatMap (fun r => ((valuesOf k r h).filter (fun x => valEq k x v)).map (fun _ => ((), f r))) =
      (L.flatMap (fun r => (valuesOf k r h).map (fun w => (w, f r)))).filterMap
        (fun p => (if valEq k p.1 v then some () else none).map (fun b => (b, p.2))) := by
  induction L with
  | nil => rfl
  | cons r L ih =>
    rw [List.flatMap_cons, List.flatMap_cons, List.filterMap_append, ih]
    congr 1
    generalize valuesOf k r h = vs
    induction vs with
    | nil => rfl
    | cons w vs ih =>
      simp only [List.filter_cons, List.map_cons, List.filterMap_cons]
      by_cases hw : valEq k w v = true
      · simp only [hw, if_true, List.map_cons, Option.map_some, ih]
      · simp only [hw, if_false, Option.map_none, ih, Bool.false_eq_true]

theorem oneOf_eq {k : Ty W} {set : List (Val k)} (L : List LRange) (f : LRange → Nat) (h : History W) :
    L.flatMap (fun r => ((valuesOf k r h).filter (fun x => setContains k set x)).map (fun w => (w, f r))) =
      (L.flatMap (fun r => (valuesOf k r h).map (fun w => (w, f r)))).filterMap
        (fun p => (if setContains k set p.1 then some p.1 else none).map (fun b => (b, p.2))) := by
  induction L with
  | nil => rfl
  | cons r L ih =>
    rw [List.flatMap_cons, List.flatMap_cons, List.filterMap_append, ih]
    congr 1
    generalize valuesOf k r h = vs
    induction vs with
    | nil => rfl
    | cons w vs ih =>
      simp only [List.filter_cons, List.map_cons, List.filterMap_cons]
      by_cases hw : setContains k set w = true
      · simp only [hw, if_true, List.map_cons, Option.map_some, ih]
      · simp only [hw, if_false, Option.map_none, ih, Bool.false_eq_true]

/-! ### the two directions -/

theorem alike_forwards {l l' : LLLine W} {h h' : History W} (hr : Reachable l h) (hr' : Reachable l' h') (ord : Ordered h)
    (ord' : Ordered h') {n n' : Nat} (ht : tokensFrom n l = tokensFrom n' l') (hh : recordsFrom n h = recordsFrom n' h') :
    Alike l l' h h' n n' (fun d d' => ∃ i, d = .fwd (n + i) ∧ d' = .fwd (n' + i)) := by
  have hlen : l.ll_tokens.length - n = l'.ll_tokens.length - n' := by
    have := congrArg List.length ht
    simpa [tokensFrom] using this
  have hF : ∀ (k : Ty W) i, shiftL n' (attrF k h (n + i)) = shiftL n (attrF k h' (n' + i)) := by
    intro k i
    rw [attrF_from k ord, attrF_from k ord', hh, shiftL_comm]
  have rep := hr.rep
  have rep' := hr'.rep
  refine ⟨hr, hr', ord, ord', ?_, ?_, ?_, ?_, ?_⟩
  · rintro k _ _ ⟨i, rfl, rfl⟩
    by_cases hi : n + i < l.ll_tokens.length
    · rw [show (X.attr k).go (.fwd (n + i)) l = _ from rep_attr_fwd rep k hi,
        show (X.attr k).go (.fwd (n' + i)) l' = _ from rep_attr_fwd rep' k (by omega)]
      exact .ok _ _ (hF k i)
    · rw [show (X.attr k).go (.fwd (n + i)) l = _ from (rep_attr_oob rep k hi).1,
        show (X.attr k).go (.fwd (n' + i)) l' = _ from (rep_attr_oob rep' k (by omega)).1]
      exact .error _
  · rintro k v _ _ ⟨i, rfl, rfl⟩
    by_cases hi : n + i < l.ll_tokens.length
    · rw [show (X.attrEq k v).go (.fwd (n + i)) l = _ from rep_attrEq_fwd rep k v hi,
        show (X.attrEq k v).go (.fwd (n' + i)) l' = _ from rep_attrEq_fwd rep' k v (by omega),
        attrEq_eq _ (·.2), attrEq_eq _ (·.2)]
      exact .ok _ _ (shiftL_filterMap (fun w => if valEq k w v then some () else none) (hF k i))
    · rw [show (X.attrEq k v).go (.fwd (n + i)) l = _ from (rep_attrEq_oob rep k v hi).1,
        show (X.attrEq k v).go (.fwd (n' + i)) l' = _ from (rep_attrEq_oob rep' k v (by omega)).1]
      exact .error _
  · rintro k set _ _ ⟨i, rfl, rfl⟩
    rw [show (X.tokenHasAny k set).go (.fwd (n + i)) l = _ from rep_oneOf_fwd rep k set (n + i),
      show (X.tokenHasAny k set).go (.fwd (n' + i)) l' = _ from rep_oneOf_fwd rep' k set (n' + i),
      valuesOf_from k ord, valuesOf_from k ord', hh]
    by_cases hx : ∃ x ∈ h, x.range = (n + i, n + i)
    · rw [if_pos hx, if_pos ((present_from ord' n' i).2 (hh ▸ (present_from ord n i).1 hx))]
      refine .ok _ _ ?_
      simp only [shiftL, List.map_map]
      apply List.map_congr_left
      intro w _
      simp only [Function.comp, Prod.mk.injEq, true_and]; omega
    · rw [if_neg hx, if_neg (fun hy => hx ((present_from ord n i).2 (hh ▸ (present_from ord' n' i).1 hy)))]
      exact .error _
  · rintro _ _ ⟨i, rfl, rfl⟩
    have hg : (l.ll_tokens[n + i]?).map (·.token) = (l'.ll_tokens[n' + i]?).map (·.token) := by
      have := congrArg (fun L => L[i]?) ht
      simpa [tokensFrom] using this
    simp only [X.tokenText, Dir.textToken]
    generalize l.ll_tokens[n + i]? = o at hg
    generalize l'.ll_tokens[n' + i]? = o' at hg
    cases o with
    | none =>
      cases o' with
      | none => exact .error _
      | some t' => simp at hg
    | some t =>
      cases o' with
      | none => simp at hg
      | some t' =>
        simp only [Option.map_some, Option.some.injEq] at hg
        simp only [hg]
        cases t'.token with
        | Text s g =>
          refine .ok _ _ ?_
          simp only [Option.toList, shiftL, List.map_cons, List.map_nil, List.cons.injEq, Prod.mk.injEq, true_and, and_true]
          omega
        | Value => exact .ok _ _ rfl
  · rintro _ _ i j ⟨m, rfl, rfl⟩ h1 h2 h3 h4 h5
    simp only [Dir.RightWay] at h1 h2
    simp only [Dir.after]
    by_cases hc : i + 1 < l.ll_tokens.length
    · exact .inr ⟨_, _, if_pos hc, if_pos (by omega), i + 1 - n, by congr 1; omega, by congr 1; omega⟩
    · exact .inl ⟨if_neg hc, if_neg (by omega)⟩

theorem alike_backwards {l l' : LLLine W} {h h' : History W} (hr : Reachable l h) (hr' : Reachable l' h') (ord : Ordered h)
    (ord' : Ordered h') {n : Nat} (ht : tokensUpTo n l = tokensUpTo n l') (hh : recordsUpTo n h = recordsUpTo n h') :
    Alike l l' h h' 0 0 (fun d d' => ∃ i, i ≤ n ∧ d = .bwd i ∧ d' = .bwd i) := by
  have hlen : min (n + 1) l.ll_tokens.length = min (n + 1) l'.ll_tokens.length := by
    have := congrArg List.length ht
    simpa [tokensUpTo] using this
  have hB : ∀ (k : Ty W) i, i ≤ n → attrB k h i = attrB k h' i := by
    intro k i hi
    rw [attrB_le k h hi, attrB_le k h' hi, hh]
  have rep := hr.rep
  have rep' := hr'.rep
  refine ⟨hr, hr', ord, ord', ?_, ?_, ?_, ?_, ?_⟩
  · rintro k _ _ ⟨i, hn, rfl, rfl⟩
    by_cases hi : i < l.ll_tokens.length
    · rw [show (X.attr k).go (.bwd i) l = _ from rep_attr_bwd rep k hi,
        show (X.attr k).go (.bwd i) l' = _ from rep_attr_bwd rep' k (by omega)]
      exact .ok _ _ (congrArg (shiftL 0) (hB k i hn))
    · rw [show (X.attr k).go (.bwd i) l = _ from (rep_attr_oob rep k hi).2,
        show (X.attr k).go (.bwd i) l' = _ from (rep_attr_oob rep' k (by omega)).2]
      exact .error _
  · rintro k v _ _ ⟨i, hn, rfl, rfl⟩
    by_cases hi : i < l.ll_tokens.length
    · rw [show (X.attrEq k v).go (.bwd i) l = _ from rep_attrEq_bwd rep k v hi,
        show (X.attrEq k v).go (.bwd i) l' = _ from rep_attrEq_bwd rep' k v (by omega),
        attrEq_eq _ (·.1), attrEq_eq _ (·.1)]
      exact .ok _ _ (shiftL_filterMap (fun w => if valEq k w v then some () else none) (congrArg (shiftL 0) (hB k i hn)))
    · rw [show (X.attrEq k v).go (.bwd i) l = _ from (rep_attrEq_oob rep k v hi).2,
        show (X.attrEq k v).go (.bwd i) l' = _ from (rep_attrEq_oob rep' k v (by omega)).2]
      exact .error _
  · rintro k set _ _ ⟨i, hn, rfl, rfl⟩
    by_cases hi : i < l.ll_tokens.length
    · rw [show (X.tokenHasAny k set).go (.bwd i) l = _ from rep_oneOf_bwd rep k set hi,
        show (X.tokenHasAny k set).go (.bwd i) l' = _ from rep_oneOf_bwd rep' k set (by omega),
        oneOf_eq _ (·.1), oneOf_eq _ (·.1)]
      exact .ok _ _ (shiftL_filterMap (fun w => if setContains k set w then some w else none)
        (congrArg (shiftL 0) (hB k i hn)))
    · rw [show (X.tokenHasAny k set).go (.bwd i) l = _ from rep_oneOf_bwd_oob rep k set hi,
        show (X.tokenHasAny k set).go (.bwd i) l' = _ from rep_oneOf_bwd_oob rep' k set (by omega)]
      exact .error _
  · rintro _ _ ⟨i, hn, rfl, rfl⟩
    have hg : (l.ll_tokens[i]?).map (·.token) = (l'.ll_tokens[i]?).map (·.token) := by
      have := congrArg (fun L => L[i]?) ht
      simpa [tokensUpTo, List.getElem?_take, show i < n + 1 by omega] using this
    simp only [X.tokenText, Dir.textToken]
    generalize l.ll_tokens[i]? = o at hg
    generalize l'.ll_tokens[i]? = o' at hg
    cases o with
    | none =>
      cases o' with
      | none => exact .ok _ _ rfl
      | some t' => simp at hg
    | some t =>
      cases o' with
      | none => simp at hg
      | some t' =>
        simp only [Option.map_some, Option.some.injEq] at hg
        simp only [hg]
        cases t'.token with
        | Text s g => exact .ok _ _ rfl
        | Value => exact .ok _ _ rfl
  · rintro _ _ i j ⟨m, hn, rfl, rfl⟩ h1 h2 h3 h4 h5
    simp only [Dir.RightWay] at h1 h2
    simp only [Dir.after]
    have : i = j := by omega
    subst this
    by_cases hc : i > 0
    · exact .inr ⟨_, _, if_pos hc, if_pos hc, i - 1, by omega, rfl, rfl⟩
    · exact .inl ⟨if_neg hc, if_neg hc⟩

theorem shiftResults_zero {α : Type} (x : R (List (α × Nat))) : shiftResults 0 x = x := by
  cases x with
  | error e => rfl
  | ok rs => simp [shiftResults]

end LNlp
