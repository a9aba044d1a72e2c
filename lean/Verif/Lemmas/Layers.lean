import Verif.Spec.Layers
import Verif.Lemmas.ProgramLines
/- Helper lemmas about resolvers in layers. -/
namespace LNlp
variable {W : World}

theorem ofType_append (k : Ty W) (h h' : History W) : ofType k (h ++ h') = ofType k h ++ ofType k h' := by
  simp [ofType]

theorem rangesOf_ofType (k : Ty W) (h : History W) : rangesOf k h = firsts ((ofType k h).map (·.range)) := rfl

theorem valuesOf_ofType (k : Ty W) (r : LRange) (h : History W) : valuesOf k r h = valuesOf k r (ofType k h) := by
  unfold valuesOf ofType
  rw [List.filterMap_filter]
  refine congrArg (fun f => List.filterMap f h) (funext fun x => ?_)
  by_cases hk : x.ty = k
  · simp [hk]
  · simp [hk, Rec.valAs]

theorem ofType_recs_same (k : Ty W) (asgs : List (LLCursorAssignment (Val k))) :
    ofType k (asgs.map (recOf k)) = asgs.map (recOf k) := by
  unfold ofType
  rw [List.filter_eq_self]
  intro x hx
  obtain ⟨a, _, rfl⟩ := List.mem_map.1 hx
  simp [recOf]

theorem ofType_recs_other {k k' : Ty W} (hk : k ≠ k') (asgs : List (LLCursorAssignment (Val k))) :
    ofType k' (asgs.map (recOf k)) = [] := by
  unfold ofType
  rw [List.filter_eq_nil_iff]
  intro x hx
  obtain ⟨a, _, rfl⟩ := List.mem_map.1 hx
  simp [recOf, hk]

/-- lines whose histories agree on the types `T`; the second has something wherever the first has -/
theorem rep_agree {T : Ty W → Prop} {l l' : LLLine W} {h h' : History W} (rep : Rep l h) (rep' : Rep l' h')
    (ht : l'.ll_tokens = l.ll_tokens) (hT : ∀ k, T k → ofType k h = ofType k h')
    (hx : ∀ x ∈ h, ∃ y ∈ h', y.range = x.range) : LineAgree false T l l' := by
  have hrg : ∀ k, T k → rangesOf k h = rangesOf k h' := by
    intro k hk
    rw [rangesOf_ofType, rangesOf_ofType, hT k hk]
  have hvs : ∀ k, T k → ∀ r, valuesOf k r h = valuesOf k r h' := by
    intro k hk r
    rw [valuesOf_ofType, hT k hk, ← valuesOf_ofType]
  refine ⟨by rw [ht], fun k hk i => ?_, fun k hk i => ?_, fun k hk r => ?_⟩
  · have e1 := rep.lenS
    have e2 := rep'.lenS
    rw [ht] at e2
    cases h1 : l.attrs.starts_at[i]? with
    | none =>
      have : l'.attrs.starts_at[i]? = none := by
        rw [List.getElem?_eq_none_iff] at h1 ⊢
        omega
      rw [this]
    | some m =>
      have hi := (List.getElem?_eq_some_iff.1 h1).1
      have h2 : l'.attrs.starts_at[i]? = some (l'.attrs.starts_at[i]'(by omega)) := List.getElem?_eq_getElem _
      rw [h2]
      simp only [Option.map_some]
      rw [rep.starts i _ h1, rep'.starts i _ h2, hrg k hk]
  · have e1 := rep.lenE
    have e2 := rep'.lenE
    rw [ht] at e2
    cases h1 : l.attrs.ends_at[i]? with
    | none =>
      have : l'.attrs.ends_at[i]? = none := by
        rw [List.getElem?_eq_none_iff] at h1 ⊢
        omega
      rw [this]
    | some m =>
      have hi := (List.getElem?_eq_some_iff.1 h1).1
      have h2 : l'.attrs.ends_at[i]? = some (l'.attrs.ends_at[i]'(by omega)) := List.getElem?_eq_getElem _
      rw [h2]
      simp only [Option.map_some]
      rw [rep.ends i _ h1, rep'.ends i _ h2, hrg k hk]
  · cases h1 : l.attrs.values.get? r with
    | none => exact .inl ⟨rfl, .inl rfl⟩
    | some bk =>
      right
      cases h2 : l'.attrs.values.get? r with
      | none =>
        exfalso
        have hn := (rep'.absent r).1 h2
        have : l.attrs.values.get? r = none := (rep.absent r).2 (fun x hxh e => by
          obtain ⟨y, hy, he⟩ := hx x hxh
          exact hn y hy (he.trans e))
        rw [this] at h1; cases h1
      | some bk' =>
        refine ⟨bk, bk', rfl, rfl, ?_⟩
        have b1 := rep.buckets r bk h1 k
        have b2 := rep'.buckets r bk' h2 k
        rw [← hvs k hk r] at b2
        simp only [TypeBucket.get, b1, b2]

/-- any records can be added to a line -/
theorem add_records {l : LLLine W} {h : History W} (hr : Reachable l h) (ne : l.ll_tokens ≠ []) (xs : History W)
    (hb : ∀ x ∈ xs, x.range.1 < l.ll_tokens.length ∧ x.range.2 < l.ll_tokens.length) :
    ∃ l', Reachable l' (h ++ xs) ∧ l'.ll_tokens = l.ll_tokens := by
  induction xs generalizing l h with
  | nil => exact ⟨l, by simpa using hr, rfl⟩
  | cons x xs ih =>
    obtain ⟨k, r, v⟩ := x
    obtain ⟨l1, ok, hr1⟩ := run_reachable (ptr := 0) (k := k) (f := fun _ => .ok ([⟨r.1, r.2, v⟩], false)) hr ne rfl
      (by intro a ha; rw [List.mem_singleton.1 ha]; exact hb ⟨k, r, v⟩ (by simp))
    have ht := run_tokens ok
    obtain ⟨l2, hr2, ht2⟩ := ih hr1 (by rw [ht]; exact ne) (by intro y hy; rw [ht]; exact hb y (by simp [hy]))
    refine ⟨l2, ?_, by rw [ht2, ht]⟩
    simpa [recOf] using hr2

open Classical in
/-- two lines that agree on the types `T` are both parts of a third -/
theorem common_line {T : Ty W → Prop} {l1 l2 : LLLine W} {h1 h2 : History W} (hr1 : Reachable l1 h1)
    (hr2 : Reachable l2 h2) (ne : l1.ll_tokens ≠ []) (ht : l2.ll_tokens = l1.ll_tokens)
    (hT : ∀ k, T k → ofType k h1 = ofType k h2) :
    ∃ l3, LineAgree false T l1 l3 ∧ LineAgree false T l2 l3 := by
  have hb : ∀ x ∈ h2.filter (fun x => decide (¬ T x.ty)),
      x.range.1 < l1.ll_tokens.length ∧ x.range.2 < l1.ll_tokens.length := by
    intro x hx
    have := hr2.rep.bounds x (List.mem_filter.1 hx).1
    rw [ht] at this
    exact this
  obtain ⟨l3, hr3, ht3⟩ := add_records hr1 ne _ hb
  have hnone : ∀ k, T k → ofType k (h2.filter (fun x => decide (¬ T x.ty))) = [] := by
    intro k hk
    unfold ofType
    rw [List.filter_eq_nil_iff]
    intro x hx hc
    have := (List.mem_filter.1 hx).2
    simp only [decide_eq_true_eq] at this hc
    rw [hc] at this
    exact this hk
  refine ⟨l3, rep_agree hr1.rep hr3.rep ht3 (fun k hk => ?_) (fun x hx => ⟨x, by simp [hx], rfl⟩),
    rep_agree hr2.rep hr3.rep (by rw [ht3, ht]) (fun k hk => ?_) (fun x hx => ?_)⟩
  · rw [ofType_append, hnone k hk, List.append_nil]
  · rw [ofType_append, hnone k hk, List.append_nil, hT k hk]
  · by_cases hk : T x.ty
    · have : x ∈ ofType x.ty h2 := by simp [ofType, hx]
      rw [← hT _ hk] at this
      exact ⟨x, List.mem_append.2 (.inl (List.mem_filter.1 this).1), rfl⟩
    · exact ⟨x, List.mem_append.2 (.inr (List.mem_filter.2 ⟨hx, by simpa using hk⟩)), rfl⟩

/-- a resolver that answers on both of two lines that agree on the types it looks at answers the same -/
theorem answers_agree {T : Ty W → Prop} {l1 l2 : LLLine W} {h1 h2 : History W} (hr1 : Reachable l1 h1)
    (hr2 : Reachable l2 h2) (ne : l1.ll_tokens ≠ []) (ht : l2.ll_tokens = l1.ll_tokens)
    (hT : ∀ k, T k → ofType k h1 = ofType k h2) {r : Resolver W} (hb : ByApi (fun m => Built T true m) r) {p1 p2 : Nat}
    {a1 a2 : List (LLCursorAssignment (Val r.attr))} (g1 : r.go (wholeLine l1 p1) = .ok (a1, false))
    (g2 : r.go (wholeLine l2 p2) = .ok (a2, false)) : a1 = a2 := by
  obtain ⟨l3, s1, s2⟩ := common_line hr1 hr2 ne ht hT
  have e1 := (byApi_sim (b := false) s1.len ne (fun _ hm => s1.built hm) hb p1 0).ok g1
  have e2 := (byApi_sim (b := false) s2.len (by rw [ht]; exact ne) (fun _ hm => s2.built hm) hb p2 0).ok g2
  rw [e1] at e2
  injection e2 with e2
  exact (Prod.mk.inj e2).1

/-- the answer does not depend on where the line is stored -/
theorem answers_ptr {T : Ty W → Prop} {l : LLLine W} (ne : l.ll_tokens ≠ []) {r : Resolver W}
    (hb : ByApi (fun m => Built T true m) r) {p : Nat} {a : List (LLCursorAssignment (Val r.attr))}
    (g : r.go (wholeLine l p) = .ok (a, false)) (p' : Nat) : r.go (wholeLine l p') = .ok (a, false) :=
  (byApi_sim (b := false) rfl ne (fun _ hm => (LineAgree.refl (T := T) l).built hm) hb p p').ok g

/-- what a resolver answered at its turn it also answers at the end -/
theorem layers_consistent {looks : Ty W → Ty W → Prop} {l : LLLine W} {h : History W} (hr : Reachable l h)
    (ne : l.ll_tokens ≠ []) : ∀ (rs : List (Nat × Resolver W)) {l' : LLLine W},
    (∀ p ∈ rs, ByApi (fun m => Built (looks p.2.attr) true m) p.2) → InLayers looks (rs.map (·.2)) →
    runAll l rs = .ok l' → ∃ h', Consistent l h (rs.map (·.2)) l' h' ∧
      ∀ T : Ty W → Prop, (∀ p ∈ rs, ¬ T p.2.attr) → LineAgree false T l l' := by
  intro rs
  induction rs generalizing l h with
  | nil =>
    intro l' _ _ ok
    cases ok
    exact ⟨h, ⟨hr, rfl, by simp, fun _ _ => rfl⟩, fun T _ => .refl l⟩
  | cons p rs ih =>
    intro l' hb hl ok
    obtain ⟨ptr, r⟩ := p
    simp only [runAll] at ok
    cases h1 : l.run ptr r with
    | error e => rw [h1] at ok; cases ok
    | ok l1 =>
      rw [h1] at ok
      obtain ⟨asgs, _, g1, _, _⟩ := run_inv ne h1
      have hr1 : Reachable l1 (h ++ asgs.map (recOf r.attr)) := .run l h ptr r asgs false l1 hr ne g1 h1
      have ht1 := run_tokens h1
      simp only [List.map_cons, InLayers] at hl
      obtain ⟨h', c, ag⟩ := ih hr1 (by rw [ht1]; exact ne) (fun q hq => hb q (by simp [hq])) hl.2.2 ok
      have all : ∀ T : Ty W → Prop, (∀ q ∈ (ptr, r) :: rs, ¬ T q.2.attr) → LineAgree false T l l' := by
        intro T hT
        exact (run_agree (hT (ptr, r) (by simp)) h1).trans (ag T (fun q hq => hT q (by simp [hq])))
      refine ⟨h', ⟨c.reachable, by rw [c.tokens, ht1], ?_, ?_⟩, all⟩
      · intro q hq
        rcases List.mem_cons.1 hq with rfl | hq
        · have hbr := hb (ptr, q) (by simp)
          refine ⟨asgs, fun p' => ?_, ?_⟩
          · have ha := all (looks q.attr) (fun p hp => hl.1 p.2 (by
              rcases List.mem_cons.1 hp with rfl | hp
              · simp
              · exact List.mem_cons_of_mem _ (List.mem_map.2 ⟨p, hp, rfl⟩)))
            exact (byApi_sim (b := false) ha.len ne (fun _ hm => ha.built hm) hbr ptr p').ok g1
          · rw [c.others q.attr (fun r' hr' => hl.2.1 r' hr'), ofType_append, ofType_recs_same]
        · obtain ⟨as, g, e⟩ := c.answered q hq
          refine ⟨as, g, ?_⟩
          rw [e, ofType_append, ofType_recs_other (fun e => hl.2.1 q hq e.symm), List.append_nil]
      · intro k hk
        rw [c.others k (fun q hq => hk q (by simp [hq])), ofType_append,
          ofType_recs_other (hk r (by simp)), List.append_nil]

/-- two consistent lines have the same assignments of every type -/
theorem layers_unique {looks : Ty W → Ty W → Prop} {l l1 l2 : LLLine W} {h h1 h2 : History W} (ne : l.ll_tokens ≠ [])
    (rs : List (Resolver W)) (hb : ∀ r ∈ rs, ByApi (fun m => Built (looks r.attr) true m) r) (hl : InLayers looks rs)
    (c1 : Consistent l h rs l1 h1) (c2 : Consistent l h rs l2 h2) : ∀ k, ofType k h1 = ofType k h2 := by
  have key : ∀ (post pre : List (Resolver W)), rs = pre ++ post → (∀ r ∈ pre, ofType r.attr h1 = ofType r.attr h2) →
      ∀ r ∈ post, ofType r.attr h1 = ofType r.attr h2 := by
    intro post
    induction post with
    | nil => simp
    | cons r post ih =>
      intro pre e' hpre
      have hmem : r ∈ rs := by rw [e']; simp
      have hlr : ∀ r' ∈ r :: post, ¬ looks r.attr r'.attr := by
        rw [e'] at hl
        clear ih e' hmem c1 c2 hb hpre
        induction pre with
        | nil => exact hl.1
        | cons x xs ihx => exact ihx hl.2.2
      have hT : ∀ k, looks r.attr k → ofType k h1 = ofType k h2 := by
        intro k hk
        by_cases hx : ∃ q ∈ rs, q.attr = k
        · obtain ⟨q, hq, rfl⟩ := hx
          rw [e'] at hq
          rcases List.mem_append.1 hq with hq | hq
          · exact hpre q hq
          · exact absurd hk (hlr q hq)
        · have hx' : ∀ q ∈ rs, q.attr ≠ k := fun q hq e => hx ⟨q, hq, e⟩
          rw [c1.others k hx', c2.others k hx']
      obtain ⟨a1, g1, t1⟩ := c1.answered r hmem
      obtain ⟨a2, g2, t2⟩ := c2.answered r hmem
      have := answers_agree c1.reachable c2.reachable (by rw [c1.tokens]; exact ne) (by rw [c1.tokens, c2.tokens]) hT
        (hb r hmem) (g1 0) (g2 0)
      have here : ofType r.attr h1 = ofType r.attr h2 := by rw [t1, t2, this]
      intro q hq
      rcases List.mem_cons.1 hq with rfl | hq
      · exact here
      · refine ih (pre ++ [r]) (by rw [e']; simp) (fun q hq => ?_) q hq
        rcases List.mem_append.1 hq with hq | hq
        · exact hpre q hq
        · rw [List.mem_singleton.1 hq]; exact here
  intro k
  by_cases hx : ∃ q ∈ rs, q.attr = k
  · obtain ⟨q, hq, rfl⟩ := hx
    exact key rs [] (by simp) (by simp) q hq
  · have hx' : ∀ q ∈ rs, q.attr ≠ k := fun q hq e => hx ⟨q, hq, e⟩
    rw [c1.others k hx', c2.others k hx']

/-- lines with the same tokens and the same assignments of every type are the same -/
theorem line_ofType {l1 l2 : LLLine W} {h1 h2 : History W} (hr1 : Reachable l1 h1) (hr2 : Reachable l2 h2)
    (ht : l1.ll_tokens = l2.ll_tokens) (hk : ∀ k, ofType k h1 = ofType k h2) : l1 = l2 := by
  refine rep_ext hr1.rep hr2.rep ht (fun k => ?_) (fun k r => ?_)
  · rw [rangesOf_ofType, rangesOf_ofType, hk]
  · rw [valuesOf_ofType, hk, ← valuesOf_ofType]

theorem built_more {T T' : Ty W → Prop} (hT : ∀ k, T k → T' k) {has has' : Bool} (hh : has = true → has' = true) {Out : Type}
    {m : XMatch W Out} (hm : Built T has m) : Built T' has' m := by
  induction hm with
  | attr k t => exact .attr k (hT k t)
  | attrEq k t v => exact .attrEq k (hT k t) v
  | tokenHasAny k t h set => exact .tokenHasAny k (hT k t) (hh h) set
  | tokenText => exact .tokenText
  | all2 _ _ h1 h2 => exact .all2 h1 h2
  | all3 _ _ _ h1 h2 h3 => exact .all3 h1 h2 h3
  | anyOf2 _ _ h1 h2 => exact .anyOf2 h1 h2
  | anyOf3 _ _ _ h1 h2 h3 => exact .anyOf3 h1 h2 h3
  | seq2 _ _ h1 h2 => exact .seq2 h1 h2
  | seq3 _ _ _ h1 h2 h3 => exact .seq3 h1 h2 h3
  | user part t _ h => exact .user part t h
  | recursive f _ hs h => exact .recursive f h hs

theorem byApi_mono {T T' : Ty W → Prop} (hT : ∀ k, T k → T' k) {r : Resolver W} (hb : ByApi (fun m => Built T true m) r) :
    ByApi (fun m => Built T' true m) r := by
  obtain ⟨p, hp, he⟩ := hb
  exact ⟨p, fun x => (hp x).mono (fun _ hm => built_more hT id hm), he⟩

end LNlp
