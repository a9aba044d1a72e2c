import Verif.Spec.Given
import Verif.Lemmas.Layers
import Verif.Props.Observe
import Verif.Props.Compose
/- Attributes given with the input against attributes assigned by resolvers. -/
namespace LNlp
variable {W : World}

theorem attrsOfInputs_eq (size : Str → Nat) : ∀ (input : List (InputToken W)) (i : Nat),
    attrsOfInputs W size i input = inputHistory W size i input
  | [], _ => rfl
  | t :: ts, i => by rw [attrsOfInputs, inputHistory, attrsOfInputs_eq size ts]

theorem bare_history (size : Str → Nat) : ∀ (input : List (InputToken W)) (i : Nat),
    inputHistory W size i (input.map InputToken.bare) = []
  | [], _ => rfl
  | t :: ts, i => by
    rw [List.map_cons, inputHistory, bare_history size ts]
    cases t <;> rfl

theorem bare_wf {input : List (InputToken W)} : ∀ t ∈ input.map InputToken.bare, t.WF := by
  intro t ht a ha
  obtain ⟨u, _, rfl⟩ := List.mem_map.1 ht
  cases u <;> simp [InputToken.bare, InputToken.attrList] at ha

theorem bare_bare (input : List (InputToken W)) : (input.map InputToken.bare).map InputToken.bare = input.map InputToken.bare := by
  rw [List.map_map]
  refine List.map_congr_left fun t _ => ?_
  cases t <;> rfl

/-- running resolvers for given attributes -/
theorem assignEach_reachable : ∀ (xs : List (Rec W)) {l : LLLine W} {h : History W}, Reachable l h → l.ll_tokens ≠ [] →
    (∀ x ∈ xs, x.range.1 < l.ll_tokens.length ∧ x.range.2 < l.ll_tokens.length) →
    ∃ l', assignEach l xs = .ok l' ∧ l'.ll_tokens = l.ll_tokens ∧ Reachable l' (h ++ xs)
  | [], l, h, hr, _, _ => ⟨l, rfl, rfl, by simpa using hr⟩
  | x :: xs, l, h, hr, ne, hb => by
    obtain ⟨l1, h1, r1⟩ := run_reachable (ptr := 0) (k := x.ty) (f := (assigning x.ty [⟨x.range.1, x.range.2, x.val⟩]).go)
      (asgs := [⟨x.range.1, x.range.2, x.val⟩]) hr ne rfl (by
        intro a ha
        rw [List.mem_singleton.1 ha]
        exact hb x (by simp))
    have ht := run_tokens h1
    obtain ⟨l2, h2, t2, r2⟩ := assignEach_reachable xs r1 (by rw [ht]; exact ne) (by
      intro y hy
      rw [ht]
      exact hb y (by simp [hy]))
    refine ⟨l2, ?_, by rw [t2, ht], ?_⟩
    · rw [assignEach]
      have h1' : l.run 0 (assigning x.ty [⟨x.range.1, x.range.2, x.val⟩]) = .ok l1 := h1
      rw [h1']
      exact h2
    · simpa [recOf] using r2

theorem assignmentsOf_recs (k : Ty W) : ∀ h : History W, (assignmentsOf k h).map (recOf k) = ofType k h
  | [] => rfl
  | x :: xs => by
    have ih := assignmentsOf_recs k xs
    unfold assignmentsOf ofType at *
    by_cases hx : x.ty = k
    · subst hx
      simp only [List.filterMap_cons, Rec.valAs, dite_true, Option.map_some, List.map_cons, List.filter_cons, decide_true, if_true]
      exact congrArg (x :: ·) ih
    · simp only [List.filterMap_cons, Rec.valAs, hx, dite_false, Option.map_none, List.filter_cons, decide_false,
        Bool.false_eq_true, if_false]
      exact ih

theorem assignTypes_reachable (hs : History W) : ∀ (ks : List (Ty W)) {l : LLLine W} {h : History W}, Reachable l h →
    l.ll_tokens ≠ [] → (∀ x ∈ hs, x.range.1 < l.ll_tokens.length ∧ x.range.2 < l.ll_tokens.length) →
    ∃ l', assignTypes l hs ks = .ok l' ∧ l'.ll_tokens = l.ll_tokens ∧ Reachable l' (h ++ ks.flatMap (fun k => ofType k hs))
  | [], l, h, hr, _, _ => ⟨l, rfl, rfl, by simpa using hr⟩
  | k :: ks, l, h, hr, ne, hb => by
    obtain ⟨l1, h1, r1⟩ := run_reachable (ptr := 0) (k := k) (f := (assigning k (assignmentsOf k hs)).go)
      (asgs := assignmentsOf k hs) hr ne rfl (by
        intro a ha
        obtain ⟨x, hx, e⟩ := List.mem_filterMap.1 ha
        obtain ⟨v, _, rfl⟩ := Option.map_eq_some_iff.1 e
        exact hb x hx)
    have ht := run_tokens h1
    obtain ⟨l2, h2, t2, r2⟩ := assignTypes_reachable hs ks r1 (by rw [ht]; exact ne) (by
      intro y hy
      rw [ht]
      exact hb y hy)
    refine ⟨l2, ?_, by rw [t2, ht], ?_⟩
    · rw [assignTypes]
      have h1' : l.run 0 (assigning k (assignmentsOf k hs)) = .ok l1 := h1
      rw [h1']
      exact h2
    · rw [assignmentsOf_recs] at r2
      simpa using r2

theorem ofType_flat (hs : History W) (k : Ty W) : ∀ ks : List (Ty W), ks.Nodup →
    ofType k (ks.flatMap (fun j => ofType j hs)) = if k ∈ ks then ofType k hs else []
  | [], _ => rfl
  | j :: ks, nd => by
    obtain ⟨h1, h2⟩ := List.nodup_cons.1 nd
    rw [List.flatMap_cons, ofType_append, ofType_flat hs k ks h2]
    have e : ofType k (ofType j hs) = if k = j then ofType k hs else [] := by
      unfold ofType
      rw [List.filter_filter]
      by_cases hk : k = j
      · subst hk
        simp
      · rw [if_neg hk, List.filter_eq_nil_iff]
        intro x _
        simp only [Bool.and_eq_true, decide_eq_true_eq]
        rintro ⟨rfl, h⟩
        exact hk h
    rw [e]
    by_cases hk : k = j
    · subst hk
      rw [if_pos rfl, if_neg h1, if_pos (by simp), List.append_nil]
    · rw [if_neg hk, List.nil_append]
      by_cases hm : k ∈ ks
      · rw [if_pos hm, if_pos (by simp [hm])]
      · rw [if_neg hm, if_neg (by simp [hm, hk])]

/-! ### giving what a resolver assigns -/

theorem with_tokens (size : Str → Nat) (t : InputToken W) (k : Ty W) (vs : List (Val k)) :
    tokensOf W size (t.with k vs) = tokensOf W size t := by cases t <;> rfl

theorem with_bare (t : InputToken W) (k : Ty W) (vs : List (Val k)) : (t.with k vs).bare = t.bare := by cases t <;> rfl

theorem with_attrs (t : InputToken W) (k : Ty W) (vs : List (Val k)) :
    (t.with k vs).attrList = t.attrList ++ vs.map (AnyAttribute.new k) := by cases t <;> rfl

theorem with_wf {t : InputToken W} (wf : t.WF) (k : Ty W) (vs : List (Val k)) : (t.with k vs).WF := by
  intro a ha
  rw [with_attrs] at ha
  rcases List.mem_append.1 ha with h | h
  · exact wf a h
  · obtain ⟨v, _, rfl⟩ := List.mem_map.1 h
    exact ⟨k, v, rfl⟩

theorem with_history (size : Str → Nat) {k : Ty W} (k' : Ty W) : ∀ (ps : List (InputToken W × List (Val k))) (i : Nat),
    NoCustom k (ps.map (·.1)) →
    ofType k' (inputHistory W size i (ps.map (fun p => p.1.with k p.2))) =
      ofType k' (inputHistory W size i (ps.map (·.1))) ++ ofType k' ((onInputs W size k i ps).map (recOf k))
  | [], _, _ => rfl
  | p :: ps, i, nc => by
    have ih := with_history size k' ps (i + (tokensOf W size p.1).length) (fun t ht => nc t (by simp at ht ⊢; exact .inr ht))
    simp only [List.map_cons, inputHistory, with_tokens, with_attrs, List.map_append, ofType_append, onInputs, List.map_map, ih]
    by_cases hk : k' = k
    · subst hk
      have none : ∀ (f : AnyAttribute W → Rec W), (∀ a, (f a).ty = a.value.ty) → ofType k' (p.1.attrList.map f) = [] := by
        intro f hf
        unfold ofType
        rw [List.filter_eq_nil_iff]
        intro x hx
        obtain ⟨a, ha, rfl⟩ := List.mem_map.1 hx
        rw [hf]
        simpa using nc p.1 (by simp) a ha
      rw [none _ (fun _ => rfl)]
      have none' : ofType k' (inputHistory W size (i + (tokensOf W size p.1).length) (ps.map (·.1))) = [] := by
        unfold ofType
        rw [List.filter_eq_nil_iff]
        intro x hx
        simpa using noCustom_history (fun t ht => nc t (by simp at ht ⊢; exact .inr ht)) _ x hx
      rw [none', List.nil_append, List.nil_append, List.nil_append]
      rfl
    · have other : ∀ xs : List (Rec W), (∀ x ∈ xs, x.ty = k) → ofType k' xs = [] := by
        intro xs h
        unfold ofType
        rw [List.filter_eq_nil_iff]
        intro x hx
        simpa using fun e : x.ty = k' => hk (e.symm.trans (h x hx))
      rw [other (p.2.map _) (by intro x hx; obtain ⟨v, _, rfl⟩ := List.mem_map.1 hx; rfl),
        other ((onInputs W size k _ ps).map (recOf k)) (by intro x hx; obtain ⟨v, _, rfl⟩ := List.mem_map.1 hx; rfl),
        other (p.2.map _) (by intro x hx; obtain ⟨v, _, rfl⟩ := List.mem_map.1 hx; rfl)]
      simp

end LNlp
