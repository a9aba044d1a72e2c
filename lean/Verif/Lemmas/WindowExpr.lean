import Verif.Lemmas.Window
/- Helper lemmas for Props/Window.lean: expressions without `x::any_of`, in both directions. -/
namespace LNlp
variable {W : World}

theorem ChoiceFree.builtin {has : Bool} {Out : Type} {m : XMatch W Out} (hm : ChoiceFree has m) : Builtin m := by
  induction hm with
  | attr k => exact .attr k trivial
  | attrEq k v => exact .attrEq k trivial v
  | tokenHasAny k _ set => exact .tokenHasAny k trivial rfl set
  | tokenText => exact .tokenText
  | all2 _ _ iha ihb => exact .all2 iha ihb
  | all3 _ _ _ iha ihb ihc => exact .all3 iha ihb ihc
  | seq2 _ _ iha ihb => exact .seq2 iha ihb
  | seq3 _ _ _ iha ihb ihc => exact .seq3 iha ihb ihc

/-! ### results in a stretch -/

theorem foundIn_append {α : Type} (n w : Nat) (a b : List (α × Nat)) : foundIn n w (a ++ b) = foundIn n w a ++ foundIn n w b := by
  rw [foundIn, List.filter_append, List.map_append]
  rfl

theorem foundIn_nil {α : Type} {n w : Nat} {rs : List (α × Nat)} (h : ∀ r ∈ rs, ¬ (n ≤ r.2 ∧ r.2 < n + w)) : foundIn n w rs = [] := by
  rw [foundIn, List.filter_eq_nil_iff.2 (fun r hr => by simpa using h r hr)]
  rfl

theorem foundIn_map {α β : Type} {n w : Nat} (f : α → β) (rs : List (α × Nat)) :
    foundIn n w (rs.map (fun q => (f q.1, q.2))) = (foundIn n w rs).map (fun q => (f q.1, q.2)) := by
  simp only [foundIn, List.filter_map, List.map_map, Function.comp_def]

theorem foundIn_pos {α : Type} {n w : Nat} {p : α × Nat} {rs : List (α × Nat)} (hp : n ≤ p.2 ∧ p.2 < n + w) :
    foundIn n w (p :: rs) = (p.1, p.2 - n) :: foundIn n w rs := by
  rw [foundIn, List.filter_cons_of_pos (by simpa using hp), List.map_cons]
  rfl

theorem foundIn_neg {α : Type} {n w : Nat} {p : α × Nat} {rs : List (α × Nat)} (hp : ¬ (n ≤ p.2 ∧ p.2 < n + w)) :
    foundIn n w (p :: rs) = foundIn n w rs := by
  rw [foundIn, List.filter_cons_of_neg (by simpa using hp)]
  rfl

/-- only what is found in the stretch leads to results in it -/
theorem foundIn_flatMap {α β : Type} {n w : Nat} {f : α × Nat → List (β × Nat)} {g : α × Nat → List (β × Nat)} :
    ∀ {rs : List (α × Nat)}, (∀ p ∈ rs, n ≤ p.2 ∧ p.2 < n + w → foundIn n w (f p) = g (p.1, p.2 - n)) →
      (∀ p ∈ rs, ¬ (n ≤ p.2 ∧ p.2 < n + w) → foundIn n w (f p) = []) →
      foundIn n w (rs.flatMap f) = (foundIn n w rs).flatMap g
  | [], _, _ => rfl
  | p :: rs, h1, h2 => by
    have ih := foundIn_flatMap (rs := rs) (fun q hq => h1 q (by simp [hq])) (fun q hq => h2 q (by simp [hq]))
    rw [List.flatMap_cons, foundIn_append, ih]
    by_cases hp : n ≤ p.2 ∧ p.2 < n + w
    · rw [h1 p (by simp) hp]
      rw [foundIn_pos hp, List.flatMap_cons]
    · rw [h2 p (by simp) hp]
      rw [foundIn_neg hp, List.nil_append]

/-- the results of two lists of found matches, if what is found in the two stretches is the same -/
theorem foundIn_flatMap₂ {α β : Type} {n n' w : Nat} {f f' : α × Nat → List (β × Nat)} {rs rs' : List (α × Nat)}
    (h : foundIn n w rs = foundIn n' w rs')
    (h1 : ∀ p ∈ rs, ∀ p' ∈ rs', n ≤ p.2 ∧ p.2 < n + w → n' ≤ p'.2 → p'.2 - n' = p.2 - n → p'.1 = p.1 →
      foundIn n w (f p) = foundIn n' w (f' p'))
    (h2 : ∀ p ∈ rs, ¬ (n ≤ p.2 ∧ p.2 < n + w) → foundIn n w (f p) = [])
    (h3 : ∀ p ∈ rs', ¬ (n' ≤ p.2 ∧ p.2 < n' + w) → foundIn n' w (f' p) = []) :
    foundIn n w (rs.flatMap f) = foundIn n' w (rs'.flatMap f') := by
  rw [foundIn_flatMap (g := fun q => foundIn n w (f (q.1, q.2 + n))) (fun p hp hin => by
      simp only [Nat.sub_add_cancel hin.1]) h2,
    foundIn_flatMap (g := fun q => foundIn n' w (f' (q.1, q.2 + n'))) (fun p hp hin => by
      simp only [Nat.sub_add_cancel hin.1]) h3, ← h]
  rw [List.flatMap_def, List.flatMap_def]
  refine congrArg List.flatten (List.map_congr_left (fun q hq => ?_))
  have hq' := h ▸ hq
  obtain ⟨p, hp, rfl⟩ := List.mem_map.1 hq
  obtain ⟨p', hp', e⟩ := List.mem_map.1 hq'
  obtain ⟨hp, hin⟩ := List.mem_filter.1 hp
  obtain ⟨hp', hin'⟩ := List.mem_filter.1 hp'
  have hin := of_decide_eq_true hin
  have hin' := of_decide_eq_true hin'
  simp only [Prod.mk.injEq] at e
  have := h1 p hp p' hp' hin hin'.1 e.2 e.1
  have e3 : p.2 - n + n' = p'.2 := by omega
  simp only [Nat.sub_add_cancel hin.1, e3]
  rw [show ((p.1, p'.2) : α × Nat) = p' by rw [← e.1]]
  exact this

/-! ### lookups -/

/-- what lookups of the type yield at token `i`: the ranges with `i` at one end, and their other end -/
def lookD {β : Type} (near far : LRange → Nat) (k : Ty W) (g : List (Val k) → List β) (h : History W) (i : Nat) : List (β × Nat) :=
  ((rangesOf k h).filter (fun r => decide (near r = i))).flatMap (fun r => (g (valuesOf k r h)).map (fun b => (b, far r)))

theorem lookD_shift {β : Type} {near far : LRange → Nat} (hn : ∀ n r, near (shiftR n r) = near r + n)
    (hf : ∀ n r, far (shiftR n r) = far r + n) (k : Ty W) (g : List (Val k) → List β) (h : History W) (n i : Nat) :
    lookD near far k g (h.map (Rec.shift n)) (n + i) = shiftL n (lookD near far k g h i) := by
  unfold lookD shiftL
  rw [rangesOf_shift, List.filter_map, List.flatMap_map, List.map_flatMap]
  have : (fun r : LRange => decide (near r = n + i)) ∘ shiftR n = fun r => decide (near r = i) := by
    funext r; simp only [Function.comp, hn]; congr 1; apply propext; omega
  rw [this]
  congr 1
  funext r
  rw [valuesOf_shift, List.map_map, hf]
  rfl

theorem lookD_filter {β : Type} {near far : LRange → Nat} (k : Ty W) (g : List (Val k) → List β) (h : History W) {n w i : Nat}
    (hw : ∀ r ∈ rangesOf k h, near r = n + i → (inWindow n w r = true ↔ n ≤ far r ∧ far r < n + w)) :
    (lookD near far k g h (n + i)).filter (fun r => decide (n ≤ r.2 ∧ r.2 < n + w)) =
      lookD near far k g (h.filter (fun x => inWindow n w x.range)) (n + i) := by
  unfold lookD
  rw [rangesOf_filter]
  revert hw
  generalize rangesOf k h = L
  intro hw
  induction L with
  | nil => rfl
  | cons r L ih =>
    have ih := ih (fun r hr => hw r (by simp [hr]))
    have hwr := hw r (by simp)
    by_cases h1 : near r = n + i
    · by_cases h2 : n ≤ far r ∧ far r < n + w
      · have hin : inWindow n w r = true := (hwr h1).2 h2
        rw [List.filter_cons_of_pos (by simpa using h1), List.filter_cons_of_pos hin, List.filter_cons_of_pos (by simpa using h1),
          List.flatMap_cons, List.flatMap_cons, List.filter_append, ih, valuesOf_filter k h _ hin]
        congr 1
        exact List.filter_eq_self.2 (fun p hp => by
          obtain ⟨_, _, rfl⟩ := List.mem_map.1 hp
          simpa using h2)
      · have hin : ¬ inWindow n w r = true := fun c => h2 ((hwr h1).1 c)
        rw [List.filter_cons_of_pos (by simpa using h1), List.filter_cons_of_neg hin, List.flatMap_cons, List.filter_append, ih]
        have : ((g (valuesOf k r h)).map (fun b => (b, far r))).filter (fun r => decide (n ≤ r.2 ∧ r.2 < n + w)) = [] :=
          List.filter_eq_nil_iff.2 (fun p hp => by
            obtain ⟨_, _, rfl⟩ := List.mem_map.1 hp
            simpa using h2)
        rw [this, List.nil_append]
    · rw [List.filter_cons_of_neg (by simpa using h1), ih]
      by_cases hin : inWindow n w r = true
      · rw [List.filter_cons_of_pos hin, List.filter_cons_of_neg (by simpa using h1)]
      · rw [List.filter_cons_of_neg hin]

theorem lookD_in {β : Type} {near far : LRange → Nat} (hn : ∀ n r, near (shiftR n r) = near r + n)
    (hf : ∀ n r, far (shiftR n r) = far r + n) (k : Ty W) (g : List (Val k) → List β) {h : History W} (ord : Ordered h)
    {n w i : Nat} (hw : ∀ r ∈ rangesOf k h, near r = n + i → (inWindow n w r = true ↔ n ≤ far r ∧ far r < n + w)) :
    foundIn n w (lookD near far k g h (n + i)) = lookD near far k g (recordsIn n w h) i := by
  unfold foundIn
  rw [lookD_filter k g h hw, ← recordsIn_shift ord, lookD_shift hn hf, shiftL, List.map_map]
  conv => rhs; rw [← List.map_id (lookD near far k g (recordsIn n w h) i)]
  exact List.map_congr_left (fun r _ => by simp)

theorem lookD_fwd {β : Type} (k : Ty W) (g : List (Val k) → List β) {h : History W} (ord : Ordered h) {n w i : Nat} :
    foundIn n w (lookD (·.1) (·.2) k g h (n + i)) = lookD (·.1) (·.2) k g (recordsIn n w h) i := by
  refine lookD_in (fun _ _ => rfl) (fun _ _ => rfl) k g ord (fun r hr e => ?_)
  obtain ⟨v, hv⟩ := mem_rangesOf.1 hr
  have := ord _ hv
  rw [inWindow_iff]
  simp only at e this
  omega

theorem lookD_bwd {β : Type} (k : Ty W) (g : List (Val k) → List β) {h : History W} (ord : Ordered h) {n w i : Nat} (hi : i < w) :
    foundIn n w (lookD (·.2) (·.1) k g h (n + i)) = lookD (·.2) (·.1) k g (recordsIn n w h) i := by
  refine lookD_in (fun _ _ => rfl) (fun _ _ => rfl) k g ord (fun r hr e => ?_)
  obtain ⟨v, hv⟩ := mem_rangesOf.1 hr
  have := ord _ hv
  rw [inWindow_iff]
  simp only at e this
  omega

/-! ### expressions -/

/-- what comes next beyond the end of the stretch that the search runs to is not in it -/
theorem after_beyond {Out : Type} {m : XMatch W Out} (hm : Builtin m) {l : LLLine W} {h : History W} (hr : Reachable l h)
    (ho : Ordered h) {n w x : Nat} {d : Dir} (hx : match d with | .fwd _ => n + w ≤ x + 1 | .bwd _ => x ≤ n) :
    foundIn n w (okD (X.goAfter m d x l)) = [] := by
  refine foundIn_nil (fun r hmem => ?_)
  cases hg : X.goAfter m d x l with
  | error e => rw [hg] at hmem; cases hmem
  | ok rs =>
    rw [okD_of hg] at hmem
    simp only [X.goAfter] at hg
    cases d with
    | fwd i =>
      simp only [Dir.after] at hg
      split at hg
      · next d' hd =>
        split at hd
        · cases hd
          have := (built_results hm hr.rep True (fun _ => ho) _ _ hg r hmem).2 trivial
          simp only [Dir.RightWay] at this hx
          omega
        · cases hd
      · cases hg; cases hmem
    | bwd i =>
      simp only [Dir.after] at hg
      split at hg
      · next d' hd =>
        split at hd
        · cases hd
          have := (built_results hm hr.rep True (fun _ => ho) _ _ hg r hmem).2 trivial
          simp only [Dir.RightWay] at this hx
          omega
        · cases hd
      · cases hg; cases hmem

/-- the claim of `expr_in`, for one matcher -/
def KeepsWindow (l : LLLine W) (n : Nat) (l' : LLLine W) (n' w : Nat) {Out : Type} (m : XMatch W Out) : Prop :=
  ∀ (d : Dir), d.at < w → ∀ rs rs', m.go (d.from n) l = .ok rs → m.go (d.from n') l' = .ok rs' → foundIn n w rs = foundIn n' w rs'

theorem keeps_all2 {l l' : LLLine W} {n n' w : Nat} {α β : Type} {a : XMatch W α} {b : XMatch W β}
    (ha : KeepsWindow l n l' n' w a) (hb : KeepsWindow l n l' n' w b) : KeepsWindow l n l' n' w (X.all2 a b) := by
  intro d hd rs rs' h1 h2
  obtain ⟨as, bs, ga, gb, rfl⟩ := all2_ok_iff.1 h1
  obtain ⟨as', bs', ga', gb', rfl⟩ := all2_ok_iff.1 h2
  have ea := ha d hd _ _ ga ga'
  have eb := hb d hd _ _ gb gb'
  have key : ∀ (n : Nat) (bs : List (β × Nat)) (p : α × Nat), n ≤ p.2 ∧ p.2 < n + w →
      foundIn n w (bs.filterMap (fun pb => if p.2 = pb.2 then some ((p.1, pb.1), p.2) else none)) =
        (foundIn n w bs).filterMap (fun pb => if p.2 - n = pb.2 then some ((p.1, pb.1), p.2 - n) else none) := by
    intro n bs p hp
    induction bs with
    | nil => rfl
    | cons q bs ih =>
      rw [List.filterMap_cons]
      by_cases hpq : p.2 = q.2
      · rw [if_pos hpq]
        simp only
        rw [foundIn_pos (p := ((p.1, q.1), p.2)) hp, foundIn_pos (p := q) (hpq ▸ hp), List.filterMap_cons, ih]
        simp only [hpq, if_true]
      · rw [if_neg hpq]
        simp only at ih ⊢
        rw [ih]
        by_cases hq : n ≤ q.2 ∧ q.2 < n + w
        · rw [foundIn_pos hq, List.filterMap_cons, if_neg (by simp only; omega)]
        · rw [foundIn_neg hq]
  have out : ∀ (n : Nat) (bs : List (β × Nat)) (p : α × Nat), ¬ (n ≤ p.2 ∧ p.2 < n + w) →
      foundIn n w (bs.filterMap (fun pb => if p.2 = pb.2 then some ((p.1, pb.1), p.2) else none)) = [] := by
    intro n bs p hp
    refine foundIn_nil (fun q hq => ?_)
    obtain ⟨q', _, hq'⟩ := List.mem_filterMap.1 hq
    split at hq'
    · cases hq'; exact hp
    · cases hq'
  refine foundIn_flatMap₂ ea (fun p _ p' _ hp hp' e1 e2 => ?_) (fun p _ hp => out n bs p hp) (fun p _ hp => out n' bs' p hp)
  rw [key n bs p hp, key n' bs' p' ⟨hp', by omega⟩, eb, e1, e2]

theorem keeps_seq2 {l l' : LLLine W} {h h' : History W} (hr : Reachable l h) (ho : Ordered h) (hr' : Reachable l' h')
    (ho' : Ordered h') {n n' w : Nat} (fits : n + w ≤ l.ll_tokens.length) (fits' : n' + w ≤ l'.ll_tokens.length)
    {α β : Type} {a : XMatch W α} {b : XMatch W β} (ba : Builtin a) (bb : Builtin b)
    (ha : KeepsWindow l n l' n' w a) (hb : KeepsWindow l n l' n' w b) : KeepsWindow l n l' n' w (X.seq2 a b) := by
  intro d hd rs rs' h1 h2
  obtain ⟨as, ga, oka, rfl⟩ := seq2_ok_iff.1 h1
  obtain ⟨as', ga', oka', rfl⟩ := seq2_ok_iff.1 h2
  have ea := ha d hd _ _ ga ga'
  have beyond : ∀ {l : LLLine W} {h : History W} (hr : Reachable l h) (ho : Ordered h) {n : Nat} {as : List (α × Nat)},
      a.go (d.from n) l = .ok as → ∀ p ∈ as, ¬ (n ≤ p.2 ∧ p.2 < n + w) →
      foundIn n w ((okD (X.goAfter b (d.from n) p.2 l)).map (fun pb => ((p.1, pb.1), pb.2))) = [] := by
    intro l h hr ho n as ga p hp hout
    have hway := (built_results ba hr.rep True (fun _ => ho) _ _ ga p hp).2 trivial
    rw [foundIn_map (fun y => (p.1, y)), after_beyond bb hr ho, List.map_nil]
    cases d with
    | fwd i => simp only [Dir.from, Dir.RightWay, Dir.at] at hway hd ⊢; omega
    | bwd i => simp only [Dir.from, Dir.RightWay, Dir.at] at hway hd ⊢; omega
  refine foundIn_flatMap₂ ea (fun p hp p' hp' hin hin' e1 e2 => ?_) (beyond hr ho ga) (beyond hr' ho' ga')
  rw [foundIn_map (fun y => (p.1, y)), foundIn_map (fun y => (p'.1, y)), e2]
  congr 1
  obtain ⟨bs, gb⟩ := oka p hp
  obtain ⟨bs', gb'⟩ := oka' p' hp'
  cases d with
  | fwd i =>
    by_cases hc : p.2 - n + 1 < w
    · rw [okD_of gb, okD_of gb']
      refine hb (.fwd (p.2 - n + 1)) hc _ _ ?_ ?_
      · simp only [X.goAfter, Dir.from, Dir.after, show p.2 + 1 < l.ll_tokens.length by omega, if_true] at gb
        rw [Dir.from, show n + (p.2 - n + 1) = p.2 + 1 by omega]
        exact gb
      · simp only [X.goAfter, Dir.from, Dir.after, show p'.2 + 1 < l'.ll_tokens.length by omega, if_true] at gb'
        rw [Dir.from, show n' + (p.2 - n + 1) = p'.2 + 1 by omega]
        exact gb'
    · rw [after_beyond bb hr ho (by simp only [Dir.from]; omega), after_beyond bb hr' ho' (by simp only [Dir.from]; omega)]
  | bwd i =>
    by_cases hc : 0 < p.2 - n
    · rw [okD_of gb, okD_of gb']
      refine hb (.bwd (p.2 - n - 1)) (by simp only [Dir.at]; omega) _ _ ?_ ?_
      · simp only [X.goAfter, Dir.from, Dir.after, show p.2 > 0 by omega, if_true] at gb
        rw [Dir.from, show n + (p.2 - n - 1) = p.2 - 1 by omega]
        exact gb
      · simp only [X.goAfter, Dir.from, Dir.after, show p'.2 > 0 by omega, if_true] at gb'
        rw [Dir.from, show n' + (p.2 - n - 1) = p'.2 - 1 by omega]
        exact gb'
    · rw [after_beyond bb hr ho (by simp only [Dir.from]; omega), after_beyond bb hr' ho' (by simp only [Dir.from]; omega)]

/-- an expression without `x::any_of` finds the same in the same stretches -/
theorem expr_in {l l' : LLLine W} {h h' : History W} (hr : Reachable l h) (ho : Ordered h) (hr' : Reachable l' h')
    (ho' : Ordered h') {n n' w : Nat} (s : SameWindow l h n l' h' n' w) {has : Bool} {Out : Type} {m : XMatch W Out}
    (hm : ChoiceFree has m) : KeepsWindow l n l' n' w m := by
  have f1 : ∀ {i}, i < w → n + i < l.ll_tokens.length := fun hi => by have := s.fits; omega
  have f2 : ∀ {i}, i < w → n' + i < l'.ll_tokens.length := fun hi => by have := s.fits'; omega
  have look : ∀ {β : Type} (k : Ty W) (g : List (Val k) → List β) (i : Nat), i < w →
      foundIn n w (lookD (·.1) (·.2) k g h (n + i)) = foundIn n' w (lookD (·.1) (·.2) k g h' (n' + i)) ∧
      foundIn n w (lookD (·.2) (·.1) k g h (n + i)) = foundIn n' w (lookD (·.2) (·.1) k g h' (n' + i)) := by
    intro β k g i hi
    exact ⟨by rw [lookD_fwd k g ho, lookD_fwd k g ho', s.records], by rw [lookD_bwd k g ho hi, lookD_bwd k g ho' hi, s.records]⟩
  induction hm with
  | attr k =>
    intro d hd rs rs' h1 h2
    cases d with
    | fwd i =>
      rw [show (X.attr k).go ((Dir.fwd i).from n) l = _ from rep_attr_fwd hr.rep k (f1 hd)] at h1
      rw [show (X.attr k).go ((Dir.fwd i).from n') l' = _ from rep_attr_fwd hr'.rep k (f2 hd)] at h2
      cases h1; cases h2
      exact (look k id i hd).1
    | bwd i =>
      rw [show (X.attr k).go ((Dir.bwd i).from n) l = _ from rep_attr_bwd hr.rep k (f1 hd)] at h1
      rw [show (X.attr k).go ((Dir.bwd i).from n') l' = _ from rep_attr_bwd hr'.rep k (f2 hd)] at h2
      cases h1; cases h2
      exact (look k id i hd).2
  | attrEq k v =>
    intro d hd rs rs' h1 h2
    cases d with
    | fwd i =>
      rw [show (X.attrEq k v).go ((Dir.fwd i).from n) l = _ from rep_attrEq_fwd hr.rep k v (f1 hd)] at h1
      rw [show (X.attrEq k v).go ((Dir.fwd i).from n') l' = _ from rep_attrEq_fwd hr'.rep k v (f2 hd)] at h2
      cases h1; cases h2
      have := (look k (fun vs => (vs.filter (fun x => valEq k x v)).map (fun _ => ())) i hd).1
      simpa only [lookD, List.map_map, Function.comp_def] using this
    | bwd i =>
      rw [show (X.attrEq k v).go ((Dir.bwd i).from n) l = _ from rep_attrEq_bwd hr.rep k v (f1 hd)] at h1
      rw [show (X.attrEq k v).go ((Dir.bwd i).from n') l' = _ from rep_attrEq_bwd hr'.rep k v (f2 hd)] at h2
      cases h1; cases h2
      have := (look k (fun vs => (vs.filter (fun x => valEq k x v)).map (fun _ => ())) i hd).2
      simpa only [lookD, List.map_map, Function.comp_def] using this
  | tokenHasAny k _ set =>
    intro d hd rs rs' h1 h2
    cases d with
    | fwd i =>
      have hd : i < w := hd
      rw [show (X.tokenHasAny k set).go ((Dir.fwd i).from n) l = _ from rep_oneOf_fwd hr.rep k set (n + i)] at h1
      rw [show (X.tokenHasAny k set).go ((Dir.fwd i).from n') l' = _ from rep_oneOf_fwd hr'.rep k set (n' + i)] at h2
      split at h1
      · split at h2
        · cases h1; cases h2
          have val : ∀ {n : Nat} {h : History W}, Ordered h → valuesOf k (n + i, n + i) h = valuesOf k (i, i) (recordsIn n w h) := by
            intro n h ho
            have e : ((n + i, n + i) : LRange) = shiftR n (i, i) := by simp [shiftR, Nat.add_comm]
            have hin : inWindow n w (n + i, n + i) = true := inWindow_iff.2 ⟨by simp, by simp only; omega⟩
            rw [← valuesOf_filter k h (inWindow n w) hin, ← recordsIn_shift ho, e, valuesOf_shift]
          rw [val ho, val ho', s.records]
          generalize (valuesOf k (i, i) (recordsIn n' w h')).filter _ = vs
          have one : ∀ n : Nat, foundIn n w (vs.map (fun v => (v, n + i))) = vs.map (fun v => (v, i)) := by
            intro n
            rw [foundIn, List.filter_eq_self.2 (fun p hp => ?_), List.map_map]
            · exact List.map_congr_left (fun v _ => by simp)
            · obtain ⟨_, _, rfl⟩ := List.mem_map.1 hp
              simp [hd]
          rw [one, one]
        · cases h2
      · cases h1
    | bwd i =>
      rw [show (X.tokenHasAny k set).go ((Dir.bwd i).from n) l = _ from rep_oneOf_bwd hr.rep k set (f1 hd)] at h1
      rw [show (X.tokenHasAny k set).go ((Dir.bwd i).from n') l' = _ from rep_oneOf_bwd hr'.rep k set (f2 hd)] at h2
      cases h1; cases h2
      exact (look k (fun vs => vs.filter (fun x => setContains k set x)) i hd).2
  | tokenText =>
    intro d hd rs rs' h1 h2
    have hd' : d.at < w := hd
    have tok : (l.ll_tokens[n + d.at]?).map (·.token) = (l'.ll_tokens[n' + d.at]?).map (·.token) := by
      have := congrArg (fun ts => ts[d.at]?) s.tokens
      simpa [tokensIn, List.getElem?_take, hd'] using this
    have g1 : ∃ t, l.ll_tokens[n + d.at]? = some t := ⟨_, List.getElem?_eq_getElem (f1 hd)⟩
    have g2 : ∃ t, l'.ll_tokens[n' + d.at]? = some t := ⟨_, List.getElem?_eq_getElem (f2 hd)⟩
    obtain ⟨t, g1⟩ := g1
    obtain ⟨t', g2⟩ := g2
    rw [g1, g2] at tok
    simp only [Option.map_some, Option.some.injEq] at tok
    have go : ∀ {l : LLLine W} {n : Nat} {t : LLToken} {rs : List (Str × Nat)}, l.ll_tokens[n + d.at]? = some t →
        X.tokenText.go (d.from n) l = .ok rs →
        foundIn n w rs = match t.token with | .Text s _ => [(s, d.at)] | .Value => [] := by
      intro l n t rs g hg
      cases d with
      | fwd i =>
        simp only [Dir.from, Dir.at] at hg g hd' ⊢
        rw [textToken_fwd, g] at hg
        cases ht : t.token <;> simp only [ht] at hg <;> cases hg <;> simp [foundIn, hd']
      | bwd i =>
        simp only [Dir.from, Dir.at] at hg g hd' ⊢
        rw [textToken_bwd, g] at hg
        cases ht : t.token <;> simp only [ht] at hg <;> cases hg <;> simp [foundIn, hd']
    rw [go g1 h1, go g2 h2, tok]
  | all2 _ _ iha ihb => exact keeps_all2 iha ihb
  | all3 _ _ _ iha ihb ihc =>
    intro d hd rs rs' h1 h2
    exact keeps_all2 iha (keeps_all2 ihb ihc) d hd rs rs' ((all3_ok_eq _ _ _ _ _ _).1 h1) ((all3_ok_eq _ _ _ _ _ _).1 h2)
  | seq2 ha hb iha ihb => exact keeps_seq2 hr ho hr' ho' s.fits s.fits' ha.builtin hb.builtin iha ihb
  | seq3 ha hb hc iha ihb ihc =>
    rw [seq3_eq]
    exact keeps_seq2 hr ho hr' ho' s.fits s.fits' ha.builtin (.seq2 hb.builtin hc.builtin) iha
      (keeps_seq2 hr ho hr' ho' s.fits s.fits' hb.builtin hc.builtin ihb ihc)

/-! ### runs -/

theorem recordsIn_foundIn {α : Type} {n w a : Nat} {k : Ty W} {f : α → List (Val k)} (ha : n ≤ a) : ∀ rs : List (α × Nat),
    (∀ p ∈ rs, a ≤ p.2) →
    recordsIn n w (rs.flatMap (fun p => (f p.1).map (fun v => ⟨k, (a, p.2), v⟩))) =
      (foundIn n w rs).flatMap (fun p => (f p.1).map (fun v => ⟨k, (a - n, p.2), v⟩))
  | [], _ => rfl
  | p :: rs, hge => by
    have hp1 : n ≤ p.2 := Nat.le_trans ha (hge p (by simp))
    rw [recordsIn_found ha]
    have ih := recordsIn_foundIn (f := f) (w := w) ha rs (fun q hq => hge q (by simp [hq]))
    rw [recordsIn_found ha] at ih
    by_cases hp : p.2 < n + w
    · rw [resultsIn_pos hp, foundIn_pos ⟨hp1, hp⟩, List.flatMap_cons, List.flatMap_cons, ih]
    · rw [resultsIn_neg hp, foundIn_neg (fun c => hp c.2), ih]

/-- one run of a finder -/
theorem finder_run_in {l l' : LLLine W} {h : History W} (hh : Honest l h) (ne : l.ll_tokens ≠ []) {ptr : Nat} {r : Finder W}
    (hb : Builtin r.expr) (ok : l.run ptr r.resolver = .ok l') :
    ∃ new, Honest l' (h ++ new) ∧ l'.ll_tokens = l.ll_tokens ∧ (∀ i, i < l.ll_tokens.length → ∃ rs, r.expr.go (.fwd i) l = .ok rs) ∧
      ∀ n w, n + w ≤ l.ll_tokens.length → recordsIn n w new = (List.range w).flatMap (fun i =>
        (foundIn n w (okD (r.expr.go (.fwd (n + i)) l))).flatMap (fun p => (r.values p.1).map (fun v => ⟨r.attr, (i, p.2), v⟩))) := by
  obtain ⟨hr, ho⟩ := hh.spec
  have hlen : 0 < l.ll_tokens.length := List.length_pos_iff.2 ne
  cases hf : (wholeLine l ptr).findBy r.expr with
  | error e =>
    obtain ⟨_, _, hgo, _, _⟩ := run_inv ne ok
    simp only [Finder.resolver, hf] at hgo
    cases hgo
  | ok found =>
    have hrun : HonestRun l ptr r.resolver
        (found.flatMap (fun st => (r.values st.2).map (fun v => st.1.finishWithAttr v))) := by
      refine ⟨by simp only [Finder.resolver, hf], fun a ha => ?_⟩
      exact honest_findBy hb hf ha
    obtain ⟨hok, rfl⟩ := findBy_ok_iff.1 hf
    have hgo : ∀ i, i < l.ll_tokens.length → ∃ rs, r.expr.go (.fwd i) l = .ok rs := fun i hi =>
      hok i ⟨Nat.zero_le _, by simp only [wholeLine]; omega⟩
    refine ⟨_, .run l h ptr r.resolver _ l' hh ne hrun ok, run_tokens ok, hgo, fun n w hw => ?_⟩
    have e : rangeIncl (wholeLine l ptr).start_idx (wholeLine l ptr).end_idx = List.range l.ll_tokens.length := by
      simp only [wholeLine, rangeIncl, List.range_eq_range']
      rw [show l.ll_tokens.length - 1 + 1 - 0 = l.ll_tokens.length by omega]
    rw [List.flatMap_assoc, List.map_flatMap, e, recordsIn_flatMap]
    have e2 : List.range l.ll_tokens.length =
        List.range n ++ ((List.range w).map (n + ·) ++ (List.range (l.ll_tokens.length - (n + w))).map (n + w + ·)) := by
      rw [← List.append_assoc, ← List.range_add, ← List.range_add]
      congr 1
      omega
    have step : ∀ i, i < l.ll_tokens.length → ∃ rs, r.expr.go (.fwd i) l = .ok rs ∧ (∀ p ∈ rs, i ≤ p.2) ∧
        (((okD (r.expr.go (.fwd i) (wholeLine l ptr).ll_line.val)).map (fun q =>
          ((⟨(wholeLine l ptr).ll_line, i, q.2⟩ : LLSelection W), q.1))).flatMap
            (fun st => (r.values st.2).map (fun v => st.1.finishWithAttr v))).map (recOf r.attr) =
          rs.flatMap (fun p => (r.values p.1).map (fun v => ⟨r.attr, (i, p.2), v⟩)) := by
      intro i hi
      obtain ⟨rs, hrs⟩ := hgo i hi
      refine ⟨rs, hrs, fun p hp => (built_results hb hr.rep True (fun _ => ho) _ _ hrs p hp).2 trivial, ?_⟩
      have hrs' : r.expr.go (.fwd i) (wholeLine l ptr).ll_line.val = .ok rs := hrs
      rw [hrs', List.flatMap_map, List.map_flatMap]
      refine congrArg (List.flatMap · _) (funext (fun f => ?_))
      rw [List.map_map]
      rfl
    rw [e2, List.flatMap_append, List.flatMap_append, List.flatMap_map, List.flatMap_map]
    refine middle_part (List.flatMap_eq_nil_iff.2 (fun i hi => ?_)) ?_ (List.flatMap_eq_nil_iff.2 (fun i hi => ?_))
    · have hi := List.mem_range.1 hi
      obtain ⟨rs, hrs, _, h2⟩ := step i (by omega)
      refine (congrArg (recordsIn n w) h2).trans (recordsIn_outside (fun x hx => ?_))
      simp only [List.mem_flatMap, List.mem_map] at hx
      obtain ⟨p, hp, v, _, rfl⟩ := hx
      exact .inl hi
    · rw [List.flatMap_def, List.flatMap_def]
      refine congrArg List.flatten (List.map_congr_left (fun i hi => ?_))
      have hi := List.mem_range.1 hi
      obtain ⟨rs, hrs, hge, h2⟩ := step (n + i) (by omega)
      rw [okD_of hrs]
      refine (congrArg (recordsIn n w) h2).trans ?_
      rw [recordsIn_foundIn (Nat.le_add_right n i) rs hge, Nat.add_sub_cancel_left]
    · have hi := List.mem_range.1 hi
      obtain ⟨rs, hrs, hge, h2⟩ := step (n + w + i) (by omega)
      refine (congrArg (recordsIn n w) h2).trans (recordsIn_outside (fun x hx => ?_))
      simp only [List.mem_flatMap, List.mem_map] at hx
      obtain ⟨p, hp, v, _, rfl⟩ := hx
      have := hge p hp
      refine .inr ?_
      show n + w ≤ p.2
      omega

/-- any runs of finders without `x::any_of` keep stretches the same -/
theorem finders_run_in {n n' w : Nat} : ∀ (prog : List (Nat × Nat × Finder W)) {l l' m m' : LLLine W} {h h' : History W},
    Honest l h → Honest l' h' → l.ll_tokens ≠ [] → l'.ll_tokens ≠ [] → SameWindow l h n l' h' n' w →
    (∀ p ∈ prog, ChoiceFree true p.2.2.expr) →
    runAll l (finderRuns (prog.map (fun p => (p.1, p.2.2)))) = .ok m →
    runAll l' (finderRuns (prog.map (fun p => (p.2.1, p.2.2)))) = .ok m' →
    ∃ g g', Honest m g ∧ Honest m' g' ∧ m.ll_tokens = l.ll_tokens ∧ m'.ll_tokens = l'.ll_tokens ∧ SameWindow m g n m' g' n' w
  | [], l, l', m, m', h, h', hh, hh', _, _, s, _, h1, h2 => by
    cases h1; cases h2
    exact ⟨h, h', hh, hh', rfl, rfl, s⟩
  | (ptr, ptr', r) :: prog, l, l', m, m', h, h', hh, hh', ne, ne', s, hc, h1, h2 => by
    have hcr : ChoiceFree true r.expr := hc (ptr, ptr', r) (by simp)
    simp only [finderRuns, List.map_cons, runAll] at h1 h2
    cases hl1 : l.run ptr r.resolver with
    | error e => rw [hl1] at h1; cases h1
    | ok l1 =>
      cases hl2 : l'.run ptr' r.resolver with
      | error e => rw [hl2] at h2; cases h2
      | ok l2 =>
        rw [hl1] at h1
        rw [hl2] at h2
        obtain ⟨new, hh1, ht1, hgo1, hn1⟩ := finder_run_in hh ne hcr.builtin hl1
        obtain ⟨new', hh2, ht2, hgo2, hn2⟩ := finder_run_in hh' ne' hcr.builtin hl2
        have s1 : SameWindow l1 (h ++ new) n l2 (h' ++ new') n' w := by
          refine ⟨by rw [ht1]; exact s.fits, by rw [ht2]; exact s.fits', ?_, ?_⟩
          · rw [tokensIn_eq ht1, tokensIn_eq ht2]; exact s.tokens
          · rw [recordsIn_append, recordsIn_append, hn1 n w s.fits, hn2 n' w s.fits', s.records]
            congr 1
            rw [List.flatMap_def, List.flatMap_def]
            refine congrArg List.flatten (List.map_congr_left (fun i hi => ?_))
            have hi := List.mem_range.1 hi
            have f1 := s.fits
            have f2 := s.fits'
            obtain ⟨rs, hrs⟩ := hgo1 (n + i) (by omega)
            obtain ⟨rs', hrs'⟩ := hgo2 (n' + i) (by omega)
            rw [okD_of hrs, okD_of hrs', expr_in hh.spec.1 hh.spec.2 hh'.spec.1 hh'.spec.2 s hcr (.fwd i) hi rs rs' hrs hrs']
        obtain ⟨g, g', k1, k2, k3, k4, k5⟩ := finders_run_in prog hh1 hh2 (by rw [ht1]; exact ne) (by rw [ht2]; exact ne') s1
          (fun p hp => hc p (by simp [hp])) h1 h2
        exact ⟨g, g', k1, k2, k3.trans ht1, k4.trans ht2, k5⟩

end LNlp
