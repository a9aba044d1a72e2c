import Verif.Lemmas.StatefulSel
import Verif.Lemmas.DisplayProps
import Verif.Props.Positions
/- Helper lemmas: dialogs whose questions do not depend on the answers. -/
namespace LNlp
variable {W : World}

namespace Dialog
variable {Q : Type} {A : Q → Type} {α β γ : Type}

theorem asks_bind {f : α → Dialog Q A β} {qs' : List Q} : ∀ {m : Dialog Q A α} {qs : List Q}, m.Asks qs →
    (∀ a, (f a).Asks qs') → (m.bind f).Asks (qs ++ qs')
  | .done a, qs, h, hf => by cases h; exact hf a
  | .panic _, _, h, _ => h.elim
  | .ask q next, qs, ⟨t, e, ht⟩, hf => ⟨t ++ qs', by rw [e]; rfl, fun a => asks_bind (ht a) hf⟩

theorem asks_done (a : α) : (.done a : Dialog Q A α).Asks [] := rfl

theorem asks_question (q : Q) : (question q : Dialog Q A (A q)).Asks [q] := ⟨[], rfl, fun _ => rfl⟩

theorem asks_filterD {test : α → Dialog Q A Bool} {f : α → β} {qs : α → Q} : ∀ {xs : List α},
    (∀ x ∈ xs, (test x).Asks [qs x]) → (filterD test f xs).Asks (xs.map qs)
  | [], _ => rfl
  | x :: xs, h => by
    have ih := asks_filterD (f := f) (fun y hy => h y (List.mem_cons_of_mem _ hy))
    have := asks_bind (h x (by simp)) (fun b => asks_bind ih (fun zs => asks_done (if b then f x :: zs else zs)))
    rw [List.append_nil] at this
    exact this

theorem asks_mapD {test : α → Dialog Q A β} {qs : α → Q} : ∀ {xs : List α},
    (∀ x ∈ xs, (test x).Asks [qs x]) → (mapD test xs).Asks (xs.map qs)
  | [], _ => rfl
  | x :: xs, h => by
    have ih := asks_mapD (fun y hy => h y (List.mem_cons_of_mem _ hy))
    have := asks_bind (h x (by simp)) (fun b => asks_bind ih (fun zs => asks_done (b :: zs)))
    rw [List.append_nil] at this
    exact this

theorem asks_flatMapD {f : α → Dialog Q A (List β)} {qs : α → List Q} : ∀ {xs : List α},
    (∀ x ∈ xs, (f x).Asks (qs x)) → (flatMapD f xs).Asks (xs.flatMap qs)
  | [], _ => rfl
  | x :: xs, h => by
    have ih := asks_flatMapD (fun y hy => h y (List.mem_cons_of_mem _ hy))
    have := asks_bind (h x (by simp)) (fun b => asks_bind ih (fun zs => asks_done (b ++ zs)))
    rw [List.append_nil] at this
    exact this

/-- what is asked, whoever answers: all of it, or up to the first panic -/
theorem asks_run (o : Oracle Q A) : ∀ {d : Dialog Q A α} {qs : List Q} (asked : List Q), d.Asks qs →
    (AnswersAll o asked qs ∧ (d.run o asked).1 = asked ++ qs ∧ ∃ a, (d.run o asked).2 = .ok a) ∨
    ∃ a q, PanicsAt o asked qs a q ∧ d.run o asked = (asked ++ a ++ [q], .error .callback)
  | .done a, qs, asked, h => by
    cases h
    exact .inl ⟨answersAll_nil _ _, by simp [run], a, rfl⟩
  | .panic _, _, _, h => h.elim
  | .ask q next, qs, asked, ⟨t, e, ht⟩ => by
    subst e
    simp only [run]
    cases ho : o asked q with
    | none => exact .inr ⟨[], q, ⟨answersAll_nil _ _, by simpa using ho, by simp⟩, by simp⟩
    | some x =>
      simp only
      rcases asks_run o (asked ++ [q]) (ht x) with ⟨h1, h2, h3⟩ | ⟨a, q', ⟨h1, h2, h3⟩, h4⟩
      · exact .inl ⟨answersAll_cons.2 ⟨⟨x, ho⟩, h1⟩, by rw [h2]; simp, h3⟩
      · refine .inr ⟨q :: a, q', ⟨answersAll_cons.2 ⟨⟨x, ho⟩, h1⟩, by simpa using h2, ?_⟩, by rw [h4]; simp⟩
        obtain ⟨c, hc⟩ := h3
        exact ⟨c, by rw [← hc]; simp⟩

end Dialog

open Dialog

/-! ### every value of a type, once -/

theorem mem_firsts_iff {α : Type} [DecidableEq α] (x : α) : ∀ xs : List α, x ∈ firsts xs ↔ x ∈ xs
  | [] => Iff.rfl
  | y :: ys => by
    simp only [firsts, List.mem_cons, List.mem_filter, mem_firsts_iff x ys, decide_eq_true_eq]
    by_cases h : x = y <;> simp [h]

theorem firsts_filter_eq {α : Type} [DecidableEq α] (x : α) : ∀ xs : List α,
    (firsts xs).filter (fun y => decide (y = x)) = if x ∈ xs then [x] else []
  | [] => rfl
  | y :: ys => by
    have ih := firsts_filter_eq x ys
    simp only [firsts, List.filter_cons]
    by_cases h : y = x
    · subst h
      simp only [decide_true, if_true, List.mem_cons, true_or]
      congr 1
      rw [List.filter_filter]
      rw [List.filter_eq_nil_iff]
      intro a _
      simp
    · simp only [h, decide_false, Bool.false_eq_true, if_false, List.mem_cons, Ne.symm h, false_or]
      rw [List.filter_filter, ← ih]
      apply List.filter_congr
      intro a _
      by_cases ha : a = x
      · subst ha; simp [Ne.symm h]
      · simp [ha]

theorem flatMap_split_perm {α β : Type} (p : α → Bool) (f : α → List β) : ∀ xs : List α,
    (xs.flatMap f).Perm ((xs.filter p).flatMap f ++ (xs.filter (fun x => !p x)).flatMap f)
  | [] => by simp
  | x :: xs => by
    have ih := flatMap_split_perm p f xs
    cases hp : p x
    · simp only [List.filter_cons, hp, Bool.false_eq_true, if_false, Bool.not_false, if_true, List.flatMap_cons]
      refine (List.Perm.append_left _ ih).trans ?_
      rw [← List.append_assoc, ← List.append_assoc]
      exact List.Perm.append_right _ List.perm_append_comm
    · simp only [List.filter_cons, hp, if_true, Bool.not_true, Bool.false_eq_true, if_false, List.flatMap_cons, List.append_assoc]
      exact List.Perm.append_left _ ih

theorem firsts_groups {α β : Type} [DecidableEq α] : ∀ xs : List (α × β),
    ((firsts (xs.map (·.1))).flatMap (fun r => xs.filterMap (fun x => if x.1 = r then some x.2 else none))).Perm (xs.map (·.2))
  | [] => by simp [firsts]
  | (r, v) :: xs => by
    have ih := firsts_groups xs
    let F : α → List β := fun r => xs.filterMap (fun x => if x.1 = r then some x.2 else none)
    have hF : ∀ r', r' ∉ xs.map (·.1) → F r' = [] := by
      intro r' h
      refine List.filterMap_eq_nil_iff.2 (fun x hx => ?_)
      rw [if_neg]
      intro e
      exact h (List.mem_map.2 ⟨x, hx, e⟩)
    have h1 : ((firsts (xs.map (·.1))).filter (fun y => decide (y = r))).flatMap F = F r := by
      rw [firsts_filter_eq]
      by_cases h : r ∈ xs.map (·.1)
      · rw [if_pos h]; simp
      · rw [if_neg h, hF r h]; rfl
    have h2 := flatMap_split_perm (fun y => decide (y = r)) F (firsts (xs.map (·.1)))
    rw [h1] at h2
    simp only [List.map_cons, firsts, List.flatMap_cons, List.filterMap_cons, if_true]
    refine List.Perm.cons v ?_
    refine List.Perm.trans ?_ (h2.symm.trans ih)
    refine List.Perm.append_left _ ?_
    have h3 : (firsts (xs.map (·.1))).filter (fun y => decide (y ≠ r)) =
        (firsts (xs.map (·.1))).filter (fun x => !decide (x = r)) := by
      apply List.filter_congr; intro a _; simp
    rw [h3]
    have h4 : ∀ (G : α → List β) (ys : List α), (∀ y ∈ ys, G y = F y) → ys.flatMap G = ys.flatMap F := by
      intro G ys hy
      induction ys with
      | nil => rfl
      | cons y ys ih =>
        rw [List.flatMap_cons, List.flatMap_cons, ih (fun z hz => hy z (List.mem_cons_of_mem _ hz)), hy y (by simp)]
    rw [h4]
    · intro y hy
      have : ¬ r = y := fun e => by simpa [e] using (List.mem_filter.1 hy).2
      rw [if_neg this]

theorem ranges_values_perm (k : Ty W) (h : History W) :
    ((rangesOf k h).flatMap (fun r => valuesOf k r h)).Perm (h.filterMap (fun x => x.valAs k)) := by
  let xs : List (LRange × Val k) := h.filterMap (fun x => (x.valAs k).map (fun v => (x.range, v)))
  have e1 : xs.map (·.1) = (h.filter (fun x => decide (x.ty = k))).map (·.range) := by
    simp only [xs]
    induction h with
    | nil => rfl
    | cons x h ih =>
      by_cases hx : x.ty = k
      · have : (x.valAs k).map (fun v => (x.range, v)) = some (x.range, hx ▸ x.val) := by simp [Rec.valAs, hx]
        rw [List.filterMap_cons_some (f := fun x : Rec W => (x.valAs k).map (fun v => (x.range, v))) this, List.filter_cons_of_pos (by simpa using hx), List.map_cons, List.map_cons, ih]
      · have : (x.valAs k).map (fun v => (x.range, v)) = none := by simp [Rec.valAs, hx]
        rw [List.filterMap_cons_none (f := fun x : Rec W => (x.valAs k).map (fun v => (x.range, v))) this, List.filter_cons_of_neg (by simpa using hx), ih]
  have e2 : ∀ r, xs.filterMap (fun x => if x.1 = r then some x.2 else none) = valuesOf k r h := by
    intro r
    simp only [xs, valuesOf, List.filterMap_filterMap]
    congr 1
    funext x
    cases x.valAs k with
    | none => simp
    | some v => by_cases e : x.range = r <;> simp [e]
  have e3 : xs.map (·.2) = h.filterMap (fun x => x.valAs k) := by
    simp only [xs, List.map_filterMap]
    congr 1
    funext x
    cases x.valAs k <;> rfl
  have := firsts_groups xs
  rw [e1, e3] at this
  simp only [e2] at this
  exact this

section
variable {U : Type} {Own : U → Type} {Out : Type}

theorem attrEq_asks {l : LLLine W} {h : History W} (hr : Reachable l h) (k : Ty W) (v : Val k) {i : Nat}
    (hi : i < l.ll_tokens.length) : ((Dir.fwd i).attrEqD (Own := Own) k v l).Asks (comparisonsAt h k v i) := by
  rw [attrEqD_eq (rep_attr_fwd hr.rep k hi)]
  have := asks_filterD (Q := Quest W U) (A := Quest.Answer Own) (test := fun p : Val k × Nat => askEq (Own := Own) k p.1 v)
    (f := fun p => ((), p.2)) (qs := fun p => Quest.eq k p.1 v)
    (xs := ((rangesOf k h).filter (fun r => decide (r.1 = i))).flatMap (fun r => (valuesOf k r h).map (fun v => (v, r.2))))
    (fun x _ => asks_question _)
  rw [List.map_flatMap] at this
  simpa [comparisonsAt, Function.comp_def] using this

theorem findBy_attrEq_asks {s : LLSelection W} {h : History W} (hr : Reachable s.ll_line.val h) (k : Ty W) (v : Val k)
    (hs : s.end_idx < s.ll_line.val.ll_tokens.length) :
    (s.findByD (XD.attrEq (Own := Own) k v)).Asks ((rangeIncl s.start_idx s.end_idx).flatMap (comparisonsAt h k v)) := by
  simp only [LLSelection.findByD]
  refine asks_flatMapD (fun i hi => ?_)
  have : i < s.ll_line.val.ll_tokens.length := by
    simp only [rangeIncl, List.mem_range'_1] at hi
    omega
  have h2 := asks_bind (attrEq_asks (Own := Own) hr k v this) (fun rs : List (Unit × Nat) => asks_done (rs.map (fun r =>
    ((⟨s.ll_line, i, r.2⟩ : LLSelection W), r.1))))
  rw [List.append_nil] at h2
  exact h2

theorem getDebug_asks {l : LLLine W} {h : History W} (rep : Rep l h) (k : Ty W) {r : LRange} {b : TypeBucket W}
    (hb : l.attrs.values.get? r = some b) :
    (b.getDebugD (Own := Own) k).Asks ((valuesOf k r h).map (Quest.dbg k)) ∧
    (b.getDebugD (Own := Own) k).Always (fun ds => ds.length = (valuesOf k r h).length) (fun _ => False) := by
  have := rep.buckets r b hb k
  simp only [TypeBucket.getDebugD]
  by_cases hv : valuesOf k r h = []
  · rw [if_pos hv] at this
    rw [this, hv]
    exact ⟨rfl, rfl⟩
  · rw [if_neg hv] at this
    rw [this]
    have hd : (⟨k, valuesOf k r h⟩ : DynBucket W).downcast k = some (valuesOf k r h) := by simp [DynBucket.downcast]
    simp only [hd]
    refine ⟨asks_mapD (fun x _ => asks_question _), ?_⟩
    generalize valuesOf k r h = vs
    induction vs with
    | nil => exact rfl
    | cons v vs ih =>
      simp only [mapD, bind_eq, pure_eq]
      have hq : (askDbg (Own := Own) k v).Always (fun _ => True) (fun _ => False) := fun a => trivial
      refine always_bind hq (fun a _ => always_bind ih (fun ds hds => ?_))
      show (a :: ds).length = (v :: vs).length
      simp [hds]

end
end LNlp

namespace LNlp
variable {W : World}
open Dialog
section
variable {U : Type} {Own : U → Type} {Out : Type}

/-! ### whatever is answered: the searches -/

/-- a selection inside its line -/
def LLSelection.Fits (s : LLSelection W) : Prop := s.start_idx ≤ s.end_idx ∧ s.end_idx < s.ll_line.val.ll_tokens.length

variable {s : LLSelection W} {h : History W} {md : XMatchD W Own Out}

theorem findByD_always (hr : Reachable s.ll_line.val h) (ho : Ordered h) (hs : s.Fits) (hm : BuiltD s.ll_line.val md) :
    (s.findByD md).Always (fun out => ∀ x ∈ out, x.1.ll_line = s.ll_line ∧ s.start_idx ≤ x.1.start_idx ∧
      x.1.start_idx ≤ s.end_idx ∧ x.1.Fits) (BareValue s.ll_line.val h) := by
  simp only [LLSelection.findByD]
  refine always_flatMapD (P := fun x : LLSelection W × Out => x.1.ll_line = s.ll_line ∧ s.start_idx ≤ x.1.start_idx ∧
      x.1.start_idx ≤ s.end_idx ∧ x.1.Fits) (fun i hi => ?_)
  simp only [rangeIncl, List.mem_range'_1] at hi
  have hi' : (Dir.fwd i).at < s.ll_line.val.ll_tokens.length := by have := hs.2; simp only [Dir.at]; omega
  simp only [bind_eq, pure_eq]
  refine always_bind (builtD_always hr ho hm (.fwd i) hi') (fun rs hrs => always_done (fun x hx => ?_))
  obtain ⟨r, hr', rfl⟩ := List.mem_map.1 hx
  exact ⟨rfl, hi.1, by show i ≤ s.end_idx; omega, (hrs r hr').2, (hrs r hr').1⟩

theorem findByFBD_always (hr : Reachable s.ll_line.val h) (ho : Ordered h) (hs : s.Fits) (hm : BuiltD s.ll_line.val md) :
    (s.findByForwardsAndBackwardsD md).Always (fun out => ∀ x ∈ out, x.1.ll_line = s.ll_line ∧ x.1.Fits)
      (BareValue s.ll_line.val h) := by
  simp only [LLSelection.findByForwardsAndBackwardsD]
  refine always_flatMapD (P := fun x : LLSelection W × Out => x.1.ll_line = s.ll_line ∧ x.1.Fits) (fun i hi => ?_)
  simp only [rangeIncl, List.mem_range'_1] at hi
  have hi' : i < s.ll_line.val.ll_tokens.length := by have := hs.2; omega
  simp only [bind_eq, pure_eq]
  refine always_bind (builtD_always hr ho hm (.fwd i) hi') (fun fs hfs =>
    always_bind (builtD_always hr ho hm (.bwd i) hi') (fun bs hbs => always_done (fun x hx => ?_)))
  rcases List.mem_append.1 hx with hx | hx
  · obtain ⟨r, hr', rfl⟩ := List.mem_map.1 hx
    exact ⟨rfl, (hfs r hr').2, (hfs r hr').1⟩
  · obtain ⟨r, hr', rfl⟩ := List.mem_map.1 hx
    exact ⟨rfl, (hbs r hr').2, hi'⟩

theorem matchForwardsD_always (hr : Reachable s.ll_line.val h) (ho : Ordered h) (hs : s.Fits) (hm : BuiltD s.ll_line.val md) :
    (s.matchForwardsD md).Always (fun out => ∀ x ∈ out, x.1.ll_line = s.ll_line ∧ x.1.start_idx = s.start_idx ∧
      s.end_idx < x.1.end_idx ∧ x.1.Fits) (BareValue s.ll_line.val h) := by
  simp only [LLSelection.matchForwardsD]
  split
  · exact fun x hx => by cases hx
  · next hne =>
    have hi : (Dir.fwd (s.end_idx + 1)).at < s.ll_line.val.ll_tokens.length := by have := hs.2; simp only [Dir.at]; omega
    simp only [bind_eq, pure_eq]
    refine always_bind (builtD_always hr ho hm _ hi) (fun rs hrs => always_done (fun x hx => ?_))
    obtain ⟨r, hr', rfl⟩ := List.mem_map.1 hx
    have h1 : s.end_idx + 1 ≤ r.2 := (hrs r hr').2
    refine ⟨rfl, rfl, by simp only; omega, ?_, (hrs r hr').1⟩
    have := hs.1
    show s.start_idx ≤ r.2
    omega

theorem matchBackwardsD_always (hr : Reachable s.ll_line.val h) (ho : Ordered h) (hs : s.Fits) (hm : BuiltD s.ll_line.val md) :
    (s.matchBackwardsD md).Always (fun out => ∀ x ∈ out, x.1.ll_line = s.ll_line ∧ x.1.end_idx = s.end_idx ∧
      x.1.start_idx < s.start_idx ∧ x.1.Fits) (BareValue s.ll_line.val h) := by
  simp only [LLSelection.matchBackwardsD]
  split
  · exact fun x hx => by cases hx
  · next hne =>
    have hs1 := hs.1
    have hs2 := hs.2
    have hi : (Dir.bwd (s.start_idx - 1)).at < s.ll_line.val.ll_tokens.length := by simp only [Dir.at]; omega
    simp only [bind_eq, pure_eq]
    refine always_bind (builtD_always hr ho hm _ hi) (fun rs hrs => always_done (fun x hx => ?_))
    obtain ⟨r, hr', rfl⟩ := List.mem_map.1 hx
    have h1 : r.2 ≤ s.start_idx - 1 := (hrs r hr').2
    refine ⟨rfl, rfl, by simp only; omega, ?_, hs2⟩
    show r.2 ≤ s.end_idx
    omega

theorem selectionFrom_within {a b : Nat} {p : LLSelection W} (e : s.selectionFrom a b = some p) :
    p.ll_line = s.ll_line ∧ s.start_idx ≤ p.start_idx ∧ p.start_idx ≤ p.end_idx ∧ p.end_idx ≤ s.end_idx := by
  simp only [LLSelection.selectionFrom] at e
  split at e
  · cases e
    refine ⟨rfl, ?_, ?_, ?_⟩ <;> simp only <;> omega
  · cases e

theorem splitByD_always (hr : Reachable s.ll_line.val h) (ho : Ordered h) (hs : s.Fits) (hm : BuiltD s.ll_line.val md) :
    (s.splitByD md).Always (fun out => ∀ p ∈ out, p.ll_line = s.ll_line ∧ s.start_idx ≤ p.start_idx ∧
      p.start_idx ≤ p.end_idx ∧ p.end_idx ≤ s.end_idx) (BareValue s.ll_line.val h) := by
  simp only [LLSelection.splitByD, bind_eq]
  refine always_bind (findByD_always hr ho hs hm) (fun ms _ => ?_)
  match ms with
  | [] =>
    refine always_done (fun p hp => ?_)
    simp only [List.mem_singleton] at hp
    subst hp
    exact ⟨rfl, Nat.le_refl _, hs.1, Nat.le_refl _⟩
  | [m0] =>
    refine always_done (fun p hp => ?_)
    simp only [List.mem_append, Option.mem_toList, Option.bind_eq_some_iff] at hp
    rcases hp with ⟨_, _, e⟩ | e <;> exact selectionFrom_within e
  | m0 :: m1 :: ms =>
    refine always_done (fun p hp => ?_)
    simp only [List.mem_append, Option.mem_toList, Option.bind_eq_some_iff, List.mem_filterMap] at hp
    rcases hp with (⟨_, _, e⟩ | ⟨_, _, _, _, e⟩) | e <;> exact selectionFrom_within e

theorem trimD_always (hr : Reachable s.ll_line.val h) (ho : Ordered h) (hs : s.Fits) (hm : BuiltD s.ll_line.val md) (a b : Bool) :
    (s.trimSelectionD md a b).Always (fun out => ∀ p, out = some p → p.ll_line = s.ll_line ∧ s.start_idx ≤ p.start_idx ∧
      p.start_idx ≤ p.end_idx ∧ p.end_idx ≤ s.end_idx) (BareValue s.ll_line.val h) := by
  have hs1 := hs.1
  have hs2 := hs.2
  simp only [LLSelection.trimSelectionD, bind_eq, pure_eq]
  refine always_bind (P0 := fun n => s.start_idx ≤ n) ?_ (fun n hn => always_bind (P0 := fun n => n ≤ s.end_idx) ?_ (fun e he => ?_))
  · cases a
    · exact Nat.le_refl _
    · refine always_bind (builtD_always hr ho hm (.fwd s.start_idx) (by simp only [Dir.at]; omega)) (fun rs hrs => ?_)
      cases rs with
      | nil => exact Nat.le_refl _
      | cons r rs =>
        have : s.start_idx ≤ r.2 := (hrs r (by simp)).2
        show s.start_idx ≤ r.2 + 1
        omega
  · cases b
    · exact Nat.le_refl _
    · refine always_bind (builtD_always hr ho hm (.bwd s.end_idx) hs2) (fun rs hrs => ?_)
      cases rs with
      | nil => exact Nat.le_refl _
      | cons r rs =>
        have : r.2 ≤ s.end_idx := (hrs r (by simp)).2
        show (checkedSub r.2 1).getD r.2 ≤ s.end_idx
        simp only [checkedSub]
        split <;> simp <;> omega
  · split
    · next hc =>
      refine always_done (fun p hp => ?_)
      cases hp
      exact ⟨rfl, hn, hc.2, he⟩
    · exact always_done (fun p hp => by cases hp)

theorem always_mapD {α β : Type} {P : β → Prop} {E : Panic → Prop} {f : α → Talk W Own β} : ∀ {xs : List α},
    (∀ x ∈ xs, (f x).Always P E) → (mapD f xs).Always (fun ys => ∀ y ∈ ys, P y) E
  | [], _ => fun y hy => by cases hy
  | x :: xs, hx => by
    simp only [mapD, bind_eq, pure_eq]
    refine always_bind (hx x (by simp)) (fun y hy => always_bind (always_mapD (fun z hz => hx z (List.mem_cons_of_mem _ hz)))
      (fun ys hys => ?_))
    intro z hz
    rcases List.mem_cons.1 hz with rfl | hz
    · exact hy
    · exact hys z hz

theorem findD_always {l : LLLine W} (hr : Reachable l h) (ho : Ordered h) (hm : BuiltD l md) :
    (l.findD md).Always (fun out => ∀ f ∈ out, ∃ (i j : Nat) (t u : LLToken), i ≤ j ∧ l.ll_tokens[i]? = some t ∧ l.ll_tokens[j]? = some u ∧
      f.start_pos_at = t.pos_starts_at ∧ f.end_pos_at = u.pos_ends_at) (BareValue l h) := by
  simp only [LLLine.findD]
  refine always_flatMapD (P := fun f : LLLineFind Out => ∃ (i j : Nat) (t u : LLToken), i ≤ j ∧ l.ll_tokens[i]? = some t ∧
    l.ll_tokens[j]? = some u ∧ f.start_pos_at = t.pos_starts_at ∧ f.end_pos_at = u.pos_ends_at) (fun i hi => ?_)
  have hi' : (Dir.fwd i).at < l.ll_tokens.length := List.mem_range.1 hi
  simp only [bind_eq, pure_eq]
  refine always_bind (builtD_always hr ho hm _ hi') (fun rs hrs => always_mapD (fun r hr' => ?_))
  have hj := (hrs r hr').1
  have e1 := List.getElem?_eq_getElem (l := l.ll_tokens) (i := i) hi'
  have e2 := List.getElem?_eq_getElem (l := l.ll_tokens) (i := r.2) hj
  simp only [LLLine.posStartAt, LLLine.posEndAt, e1, e2, lift, Dialog.bind]
  exact ⟨i, r.2, _, _, (hrs r hr').2, e1, e2, rfl, rfl⟩

theorem includeD_always {d : LLLineDisplay W} (rep : Rep d.ll_line h) (k : Ty W) :
    (d.includeD (Own := Own) k).Asks ((rangesOf k h).flatMap (fun r => (valuesOf k r h).map (Quest.dbg k))) ∧
    (d.includeD (Own := Own) k).Always (fun d' => d'.ll_line = d.ll_line ∧ ∃ new, d'.include_attrs = d.include_attrs ++ new ∧
      new.map (·.1) = (rangesOf k h).flatMap (fun r => (valuesOf k r h).map (fun _ => r))) (fun _ => False) := by
  simp only [LLLineDisplay.includeD, bind_eq, pure_eq]
  have step : ∀ r, ((match d.ll_line.attrs.values.get? r with
      | none => .done []
      | some b => (b.getDebugD k).bind (fun ds => .done (ds.reverse.map (fun debug_value => (r, debug_value)))) :
        Talk W Own (List (LRange × Str)))).Asks ((valuesOf k r h).map (Quest.dbg k)) ∧
      ((match d.ll_line.attrs.values.get? r with
      | none => .done []
      | some b => (b.getDebugD k).bind (fun ds => .done (ds.reverse.map (fun debug_value => (r, debug_value)))) :
        Talk W Own (List (LRange × Str)))).Always (fun new => new.map (·.1) = (valuesOf k r h).map (fun _ => r)) (fun _ => False) := by
    intro r
    cases hb : d.ll_line.attrs.values.get? r with
    | none =>
      have hv : valuesOf k r h = [] := by
        refine List.filterMap_eq_nil_iff.2 (fun x hx => ?_)
        rw [if_neg ((rep.absent r).1 hb x hx)]
      rw [hv]
      exact ⟨rfl, rfl⟩
    | some b =>
      obtain ⟨h1, h2⟩ := getDebug_asks (Own := Own) rep k hb
      refine ⟨?_, always_bind h2 (fun ds hds => ?_)⟩
      · have := asks_bind h1 (fun ds : List Str => asks_done (ds.reverse.map (fun debug_value => (r, debug_value))))
        rw [List.append_nil] at this
        exact this
      · show (ds.reverse.map (fun debug_value => (r, debug_value))).map (·.1) = _
        rw [List.map_map]
        have : ((fun x : LRange × Str => x.1) ∘ fun debug_value => (r, debug_value)) = fun _ => r := rfl
        rw [this, List.map_const', List.map_const', List.length_reverse, hds]
  rw [rep.ranges k]
  constructor
  · have := asks_bind (asks_flatMapD (xs := rangesOf k h) (fun r _ => (step r).1))
      (fun new => asks_done { d with include_attrs := d.include_attrs ++ new })
    rw [List.append_nil] at this
    exact this
  · refine always_bind (P0 := fun new => new.map (·.1) = (rangesOf k h).flatMap (fun r => (valuesOf k r h).map (fun _ => r)))
      ?_ (fun new hn => ⟨rfl, new, rfl, hn⟩)
    generalize rangesOf k h = rs
    induction rs with
    | nil => exact rfl
    | cons r rs ih =>
      simp only [flatMapD, bind_eq, pure_eq]
      refine always_bind (step r).2 (fun a ha => always_bind ih (fun b hb => ?_))
      show (a ++ b).map (·.1) = _
      rw [List.map_append, ha, hb, List.flatMap_cons]

end
end LNlp
