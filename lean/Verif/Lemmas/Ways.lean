import Verif.Spec.Ways
import Verif.Lemmas.Grammar
/- Helper lemmas for Props/Ways.lean. -/
namespace LNlp
variable {W : World}

/-! lists up to order -/

theorem perm_flatMap_left {α : Type u} {β : Type} {f g : α → List β} : ∀ {xs : List α}, (∀ x ∈ xs, (f x).Perm (g x)) →
    (xs.flatMap f).Perm (xs.flatMap g)
  | [], _ => .refl _
  | x :: xs, h => by
    rw [List.flatMap_cons, List.flatMap_cons]
    exact (h x (List.mem_cons_self ..)).append (perm_flatMap_left (fun y hy => h y (List.mem_cons_of_mem _ hy)))

theorem perm_flatMap_append {α β : Type} (f g : α → List β) : ∀ xs : List α,
    (xs.flatMap (fun x => f x ++ g x)).Perm (xs.flatMap f ++ xs.flatMap g)
  | [] => .refl _
  | x :: xs => by
    rw [List.flatMap_cons, List.flatMap_cons, List.flatMap_cons, List.append_assoc, List.append_assoc]
    refine List.Perm.append_left _ ?_
    refine (List.Perm.append_left _ (perm_flatMap_append f g xs)).trans ?_
    exact List.perm_append_comm_assoc ..

theorem perm_flatMap_comm {α β γ : Type} (f : α → β → List γ) : ∀ (xs : List α) (ys : List β),
    (xs.flatMap (fun x => ys.flatMap (fun y => f x y))).Perm (ys.flatMap (fun y => xs.flatMap (fun x => f x y)))
  | [], ys => by
    have : ys.flatMap (fun y => ([] : List α).flatMap (fun x => f x y)) = [] := List.flatMap_eq_nil_iff.2 (fun _ _ => rfl)
    rw [this]
    exact .refl _
  | x :: xs, ys => by
    simp only [List.flatMap_cons]
    exact (List.Perm.append_left _ (perm_flatMap_comm f xs ys)).trans
      (perm_flatMap_append (fun y => f x y) (fun y => xs.flatMap (fun x => f x y)) ys).symm

/-- results by the index they end at -/
def spread {α : Type} (n : Nat) (f : Nat → List α) : List (α × Nat) :=
  (List.range n).flatMap (fun j => (f j).map (fun x => (x, j)))

theorem spread_flatMap {α β : Type} {n : Nat} {f : Nat → List α} {g : α × Nat → List β} :
    (spread n f).flatMap g = (List.range n).flatMap (fun j => (f j).flatMap (fun x => g (x, j))) := by
  rw [spread, List.flatMap_assoc]
  simp only [List.flatMap_map]

theorem range_none {β : Type} {i : Nat} {f : Nat → List β} : ∀ {n : Nat}, n ≤ i →
    (List.range n).flatMap (fun j => if i = j then f j else []) = []
  | 0, _ => rfl
  | n + 1, h => by
    rw [List.range_succ, List.flatMap_append, range_none (by omega)]
    simp only [List.flatMap_cons, List.flatMap_nil, if_neg (show i ≠ n by omega)]
    rfl

theorem range_single {β : Type} {i : Nat} {f : Nat → List β} : ∀ {n : Nat}, i < n →
    (List.range n).flatMap (fun j => if i = j then f j else []) = f i
  | n + 1, h => by
    rw [List.range_succ, List.flatMap_append]
    by_cases e : i = n
    · subst e
      rw [range_none (Nat.le_refl _)]
      simp
    · rw [range_single (by omega)]
      simp [e]

/-- what the sets of distinct ranges give, range by range -/
theorem perm_ranges {β : Type} {n i : Nat} {R : List LRange} {g : LRange → List β} (hR : R.Nodup)
    (hb : ∀ r ∈ R, r.1 = i → r.2 < n) (hg : ∀ r, r ∉ R → g r = []) :
    ((R.filter (fun r => decide (r.1 = i))).flatMap g).Perm ((List.range n).flatMap (fun j => g (i, j))) := by
  have h1 : (R.filter (fun r => decide (r.1 = i))).Perm
      (((List.range n).map (fun j => (i, j))).filter (fun r => decide (r ∈ R))) := by
    refine (List.perm_ext_iff_of_nodup (hR.filter _) ?_).2 ?_
    · refine List.Pairwise.filter _ ?_
      rw [List.pairwise_map]
      exact (show List.Pairwise _ _ from List.nodup_range (n := n)).imp (fun hne e => hne (Prod.mk.inj e).2)
    · rintro ⟨a, b⟩
      simp only [List.mem_filter, List.mem_map, List.mem_range, decide_eq_true_eq, Prod.mk.injEq]
      constructor
      · rintro ⟨h, rfl⟩
        exact ⟨⟨b, hb _ h rfl, rfl, rfl⟩, h⟩
      · rintro ⟨⟨_, _, rfl, rfl⟩, h⟩
        exact ⟨h, rfl⟩
  refine (h1.flatMap_right g).trans ?_
  have : ∀ xs : List LRange, (xs.filter (fun r => decide (r ∈ R))).flatMap g = xs.flatMap g := by
    intro xs
    induction xs with
    | nil => rfl
    | cons x xs ih =>
      by_cases hx : x ∈ R
      · rw [List.filter_cons_of_pos (by simpa using hx), List.flatMap_cons, List.flatMap_cons, ih]
      · rw [List.filter_cons_of_neg (by simpa using hx), List.flatMap_cons, hg x hx, ih, List.nil_append]
  rw [this, List.flatMap_map]

/-! matchers -/

theorem Pat.mem_ways {l : LLLine W} {h : History W} : ∀ {α : Type} {p : Pat W α} {i j : Nat} {x : α},
    x ∈ p.ways l h i j → p.Holds l (· ∈ h) i j x
  | _, .attr k, i, j, x, hx => mem_valuesOf.1 hx
  | _, .attrEq k v, i, j, x, hx => by
    obtain ⟨w, hw, _⟩ := List.mem_map.1 hx
    obtain ⟨h1, h2⟩ := List.mem_filter.1 hw
    exact ⟨w, h2, mem_valuesOf.1 h1⟩
  | _, .text, i, j, x, hx => by
    simp only [Pat.ways] at hx
    split at hx
    · exact ⟨by assumption, by simpa using hx⟩
    · cases hx
  | _, .seq a b, i, j, (x, y), hx => by
    simp only [Pat.ways, List.mem_flatMap, List.mem_map] at hx
    obtain ⟨m, _, x', h1, y', h2, e⟩ := hx
    cases e
    exact ⟨m, Pat.mem_ways h1, Pat.mem_ways h2⟩
  | _, .both a b, i, j, (x, y), hx => by
    simp only [Pat.ways, List.mem_flatMap, List.mem_map] at hx
    obtain ⟨x', h1, y', h2, e⟩ := hx
    cases e
    exact ⟨Pat.mem_ways h1, Pat.mem_ways h2⟩

theorem Pat.ways_nil {l : LLLine W} {h : History W}
    (hF : ∀ y, y ∈ h → y.range.1 ≤ y.range.2 ∧ y.range.2 < l.ll_tokens.length) {α : Type} {p : Pat W α} {i j : Nat}
    (hi : ¬ (i ≤ j ∧ j < l.ll_tokens.length)) : p.ways l h i j = [] :=
  List.eq_nil_iff_forall_not_mem.2 (fun _ hx => hi ((Pat.mem_ways hx).inside hF))

/-- a matcher finds everything as often as there are ways to find it -/
theorem Pat.matcher_ways {l : LLLine W} {h : History W} (hr : Reachable l h) (ho : Ordered h) :
    ∀ {α : Type} (p : Pat W α) {i : Nat}, i < l.ll_tokens.length →
      ∃ rs, p.matcher.go (.fwd i) l = .ok rs ∧ rs.Perm (spread l.ll_tokens.length (p.ways l h i)) := by
  have hF : ∀ y, y ∈ h → y.range.1 ≤ y.range.2 ∧ y.range.2 < l.ll_tokens.length :=
    fun y hy => ⟨ho y hy, (hr.rep.bounds y hy).2⟩
  have hbound : ∀ (k : Ty W) (i : Nat), ∀ r ∈ rangesOf k h, r.1 = i → r.2 < l.ll_tokens.length := by
    intro k i r hm _
    obtain ⟨v, hv⟩ := mem_rangesOf.1 hm
    exact (hF _ hv).2
  have hnone : ∀ (k : Ty W) (r : LRange), r ∉ rangesOf k h → valuesOf k r h = [] := by
    intro k r hn
    exact Classical.byContradiction (fun hne => hn (mem_rangesOf_iff_values.2 hne))
  intro α p
  induction p with
  | attr k =>
    intro i hi
    refine ⟨_, rep_attr_fwd hr.rep k hi, ?_⟩
    exact perm_ranges (g := fun r => (valuesOf k r h).map (fun v => (v, r.2))) (rangesOf_nodup k h) (hbound k i)
      (fun r hn => by rw [hnone k r hn]; rfl)
  | attrEq k v =>
    intro i hi
    refine ⟨_, rep_attrEq_fwd hr.rep k v hi, ?_⟩
    have := perm_ranges (g := fun r => ((valuesOf k r h).filter (fun x => valEq k x v)).map (fun _ => ((), r.2)))
      (rangesOf_nodup k h) (hbound k i) (fun r hn => by rw [hnone k r hn]; rfl)
    simpa only [spread, Pat.ways, List.map_map, Function.comp_def] using this
  | text =>
    intro i hi
    have hs : spread l.ll_tokens.length (Pat.text.ways l h i) = (textAt l i).toList.map (fun x => (x, i)) := by
      rw [spread, ← range_single (f := fun j => (textAt l i).toList.map (fun x => (x, j))) hi]
      refine congrArg (List.flatMap · _) (funext (fun j => ?_))
      simp only [Pat.ways]
      split <;> rfl
    rw [hs]
    have hg := textToken_fwd l i
    rw [List.getElem?_eq_getElem hi] at hg
    have ht : textAt l i = (match l.ll_tokens[i].token with
      | .Text s _ => some s
      | .Value => none) := by rw [textAt, List.getElem?_eq_getElem hi]; rfl
    cases hk : l.ll_tokens[i].token with
    | Text s tag =>
      rw [hk] at ht
      simp only [hk] at hg
      exact ⟨_, hg, by rw [ht]; exact .refl _⟩
    | Value =>
      rw [hk] at ht
      simp only [hk] at hg
      exact ⟨_, hg, by rw [ht]; exact .refl _⟩
  | seq a b iha ihb =>
    intro i hi
    obtain ⟨rs, hrs, _⟩ := built_totalOn (Pat.built (.seq a b)) hr (.fwd i) hi
    refine ⟨rs, hrs, ?_⟩
    obtain ⟨as, ha, _, rfl⟩ := seq2_ok_iff.1 hrs
    obtain ⟨as', ha', hpa⟩ := iha hi
    rw [ha] at ha'
    cases ha'
    refine (hpa.flatMap_right _).trans ?_
    rw [spread_flatMap]
    refine List.Perm.trans (perm_flatMap_left (g := fun m => (a.ways l h i m).flatMap (fun x =>
      (List.range l.ll_tokens.length).flatMap (fun j => (b.ways l h (m + 1) j).map (fun y => ((x, y), j))))) ?_) ?_
    · intro m hm
      refine perm_flatMap_left (fun x _ => ?_)
      by_cases hlt : m + 1 < l.ll_tokens.length
      · obtain ⟨bs, hb, hpb⟩ := ihb hlt
        have e : X.goAfter b.matcher (.fwd i) m l = .ok bs := by
          simp only [X.goAfter, Dir.after, hlt, if_true, hb]
        rw [e]
        refine (hpb.map _).trans ?_
        rw [spread, List.map_flatMap]
        simp only [List.map_map, Function.comp_def]
        exact .refl _
      · have e : X.goAfter b.matcher (.fwd i) m l = .ok [] := by
          simp only [X.goAfter, Dir.after, hlt, if_false]
        rw [e]
        have : (List.range l.ll_tokens.length).flatMap (fun j => (b.ways l h (m + 1) j).map (fun y => ((x, y), j))) = [] :=
          List.flatMap_eq_nil_iff.2 (fun j _ => by rw [Pat.ways_nil hF (by omega)]; rfl)
        rw [this]
        exact .refl _
    · refine List.Perm.trans (perm_flatMap_left (fun m _ => perm_flatMap_comm (fun x j =>
        (b.ways l h (m + 1) j).map (fun y => ((x, y), j))) (a.ways l h i m) (List.range l.ll_tokens.length))) ?_
      refine (perm_flatMap_comm _ _ _).trans ?_
      rw [spread]
      refine .of_eq (congrArg (List.flatMap · _) (funext (fun j => ?_)))
      simp only [Pat.ways, List.map_flatMap, List.map_map, Function.comp_def]
  | both a b iha ihb =>
    intro i hi
    obtain ⟨rs, hrs, _⟩ := built_totalOn (Pat.built (.both a b)) hr (.fwd i) hi
    refine ⟨rs, hrs, ?_⟩
    obtain ⟨as, bs, ha, hb, rfl⟩ := all2_ok_iff.1 hrs
    obtain ⟨as', ha', hpa⟩ := iha hi
    obtain ⟨bs', hb', hpb⟩ := ihb hi
    rw [ha] at ha'
    cases ha'
    rw [hb] at hb'
    cases hb'
    refine (hpa.flatMap_right _).trans ?_
    rw [spread_flatMap, spread]
    refine perm_flatMap_left (fun j hj => ?_)
    simp only [Pat.ways, List.map_flatMap, List.map_map, Function.comp_def]
    refine perm_flatMap_left (fun x _ => ?_)
    refine (hpb.filterMap _).trans (.of_eq ?_)
    rw [spread, List.filterMap_flatMap, ← range_single (f := fun j => (b.ways l h i j).map (fun y => ((x, y), j)))
      (List.mem_range.1 hj)]
    refine congrArg (List.flatMap · _) (funext (fun j' => ?_))
    rw [List.filterMap_map]
    by_cases e : j = j'
    · subst e
      simp [Function.comp_def]
    · simp [Function.comp_def, e]

/-- one run of a rule assigns everything as often as there are ways to conclude it -/
theorem rule_run_ways {l : LLLine W} {h : History W} (hh : Honest l h) (ne : l.ll_tokens ≠ []) (ptr : Nat) (r : Rule W) :
    ∃ l' new, l.run ptr r.resolver = .ok l' ∧ Honest l' (h ++ new) ∧ l'.ll_tokens = l.ll_tokens ∧
      new.Perm (r.ways l h) := by
  obtain ⟨hr, ho⟩ := hh.spec
  obtain ⟨found, hf⟩ := findBy_total (wholeLine_inside ne ptr)
    (show TotalOn (wholeLine l ptr).ll_line.val r.pat.matcher from built_totalOn r.pat.built hr)
  have hrun : HonestRun l ptr r.resolver
      (found.flatMap (fun st => (r.values st.2).map (fun v => st.1.finishWithAttr v))) := by
    refine ⟨by simp only [Rule.resolver, hf], fun a ha => ?_⟩
    exact honest_findBy r.pat.builtin hf ha
  obtain ⟨l', hl'⟩ := honest_run_ok hr.rep ho ne hrun
  refine ⟨l', _, hl', .run l h ptr r.resolver _ l' hh ne hrun hl', run_tokens hl', ?_⟩
  have hlen : 0 < l.ll_tokens.length := List.length_pos_iff.2 ne
  obtain ⟨_, rfl⟩ := findBy_ok_iff.1 hf
  rw [List.flatMap_assoc, List.map_flatMap, Rule.ways]
  have e : rangeIncl (wholeLine l ptr).start_idx (wholeLine l ptr).end_idx = List.range l.ll_tokens.length := by
    simp only [wholeLine, rangeIncl, List.range_eq_range']
    rw [show l.ll_tokens.length - 1 + 1 - 0 = l.ll_tokens.length by omega]
  rw [e]
  refine perm_flatMap_left (fun i hi => ?_)
  obtain ⟨rs, hrs, hp⟩ := r.pat.matcher_ways hr ho (List.mem_range.1 hi)
  have hrs' : r.pat.matcher.go (.fwd i) (wholeLine l ptr).ll_line.val = .ok rs := hrs
  rw [hrs', List.flatMap_map, List.map_flatMap]
  refine ((show (okD (Except.ok rs : R _)).Perm _ from hp).flatMap_right _).trans (.of_eq ?_)
  rw [spread_flatMap]
  refine congrArg (List.flatMap · _) (funext (fun j => ?_))
  rw [Rule.waysOn]
  refine congrArg (List.flatMap · _) (funext (fun f => ?_))
  rw [List.map_map]
  rfl

/-! what the ways depend on -/

theorem Pat.ways_perm {l : LLLine W} {h h' : History W} : ∀ {α : Type} (p : Pat W α) {i j : Nat},
    (∀ k, p.Mentions k → ∀ r, (valuesOf k r h).Perm (valuesOf k r h')) → (p.ways l h i j).Perm (p.ways l h' i j)
  | _, .attr k, i, j, H => H k rfl (i, j)
  | _, .attrEq k v, i, j, H => ((H k rfl (i, j)).filter _).map _
  | _, .text, i, j, _ => .refl _
  | _, .seq a b, i, j, H => by
    refine perm_flatMap_left (fun m _ => ?_)
    refine ((a.ways_perm (fun k hk => H k (.inl hk))).flatMap_right _).trans (perm_flatMap_left (fun x _ => ?_))
    exact (b.ways_perm (fun k hk => H k (.inr hk))).map _
  | _, .both a b, i, j, H => by
    refine ((a.ways_perm (fun k hk => H k (.inl hk))).flatMap_right _).trans (perm_flatMap_left (fun x _ => ?_))
    exact (b.ways_perm (fun k hk => H k (.inr hk))).map _

theorem Rule.ways_perm {l : LLLine W} {h h' : History W} (r : Rule W)
    (H : ∀ k, r.pat.Mentions k → ∀ x, (valuesOf k x h).Perm (valuesOf k x h')) : (r.ways l h).Perm (r.ways l h') :=
  perm_flatMap_left (fun _ _ => perm_flatMap_left (fun _ _ => (r.pat.ways_perm H).flatMap_right _))

theorem Pat.ways_line {l l' : LLLine W} (ht : l'.ll_tokens = l.ll_tokens) {h : History W} : ∀ {α : Type} (p : Pat W α) {i j : Nat},
    p.ways l' h i j = p.ways l h i j
  | _, .attr _, _, _ => rfl
  | _, .attrEq _ _, _, _ => rfl
  | _, .text, i, j => by simp only [Pat.ways, textAt, ht]
  | _, .seq a b, i, j => by simp only [Pat.ways, ht, a.ways_line ht, b.ways_line ht]
  | _, .both a b, i, j => by simp only [Pat.ways, a.ways_line ht, b.ways_line ht]

theorem Rule.ways_line {l l' : LLLine W} (ht : l'.ll_tokens = l.ll_tokens) {h : History W} (r : Rule W) :
    r.ways l' h = r.ways l h := by
  simp only [Rule.ways, Rule.waysOn, ht, Pat.ways_line ht]

theorem Rule.mem_ways_ty {l : LLLine W} {h : History W} {r : Rule W} {x : Rec W} (hx : x ∈ r.ways l h) : x.ty = r.attr := by
  simp only [Rule.ways, Rule.waysOn, List.mem_flatMap, List.mem_map] at hx
  obtain ⟨_, _, _, _, _, _, _, _, rfl⟩ := hx
  rfl

theorem valuesOf_other {k : Ty W} {r : LRange} {h : History W} (H : ∀ x ∈ h, x.ty ≠ k) : valuesOf k r h = [] :=
  List.eq_nil_iff_forall_not_mem.2 (fun _ hv => H _ (mem_valuesOf.1 hv) rfl)

theorem valuesOf_perm {k : Ty W} {r : LRange} {h h' : History W} (H : h.Perm h') : (valuesOf k r h).Perm (valuesOf k r h') :=
  H.filterMap _

/-- rules in layers: what has been assigned at the end is the start and all ways to conclude something from it -/
theorem layers_run_ways : ∀ (prog : List (Nat × Rule W)) {l : LLLine W} {h : History W}, Honest l h → l.ll_tokens ≠ [] →
    Layered (prog.map (·.2)) → ∃ l' new, runAll l (ruleRuns prog) = .ok l' ∧ Honest l' (h ++ new) ∧
      l'.ll_tokens = l.ll_tokens ∧ (∀ x ∈ new, ∃ p ∈ prog, x.ty = p.2.attr) ∧
      new.Perm (prog.flatMap (fun p => p.2.ways l (h ++ new)))
  | [], l, h, hh, _, _ => ⟨l, [], rfl, by simpa using hh, rfl, by simp, .refl _⟩
  | (ptr, r) :: prog, l, h, hh, ne, hl => by
    obtain ⟨l1, new, hl1, hh1, ht1, hn⟩ := rule_run_ways hh ne ptr r
    obtain ⟨l', new', hl', hh', ht', hty, hp⟩ := layers_run_ways prog hh1 (by rw [ht1]; exact ne) hl.2
    have hty' : ∀ x ∈ new ++ new', ∃ p ∈ (ptr, r) :: prog, x.ty = p.2.attr := by
      intro x hx
      rcases List.mem_append.1 hx with hx | hx
      · exact ⟨_, List.mem_cons_self .., Rule.mem_ways_ty (hn.mem_iff.1 hx)⟩
      · obtain ⟨p, hp, e⟩ := hty x hx
        exact ⟨p, List.mem_cons_of_mem _ hp, e⟩
    refine ⟨l', new ++ new', ?_, by rw [← List.append_assoc]; exact hh', ht'.trans ht1, hty', ?_⟩
    · simp only [ruleRuns, List.map_cons, runAll, hl1]
      exact hl'
    · rw [List.flatMap_cons]
      refine List.Perm.append (hn.trans (r.ways_perm (fun k hk x => ?_))) ?_
      · rw [valuesOf_append, valuesOf_other (h := new ++ new'), List.append_nil]
        intro y hy e
        obtain ⟨p, hp, e'⟩ := hty' y hy
        rw [← e, e'] at hk
        exact hl.1 p.2 (List.mem_map.2 ⟨p, hp, rfl⟩) hk
      · rw [← List.append_assoc]
        refine hp.trans (.of_eq (congrArg (List.flatMap · _) (funext (fun p => ?_))))
        exact p.2.ways_line ht1

/-- … which determines it, but for the order -/
theorem ways_unique {l : LLLine W} {h h1 h2 : History W} {rules : List (Rule W)}
    (e1 : h1.Perm (h ++ rules.flatMap (fun r => r.ways l h1))) (e2 : h2.Perm (h ++ rules.flatMap (fun r => r.ways l h2)))
    (hl : Layered rules) : h1.Perm h2 := by
  have key : ∀ (post pre : List (Rule W)), rules = pre ++ post → Layered post →
      (pre.flatMap (fun r => r.ways l h1)).Perm (pre.flatMap (fun r => r.ways l h2)) →
      (rules.flatMap (fun r => r.ways l h1)).Perm (rules.flatMap (fun r => r.ways l h2)) := by
    intro post
    induction post with
    | nil =>
      intro pre e _ hp
      rw [List.append_nil] at e
      rw [e]
      exact hp
    | cons r post ih =>
      intro pre e hlp hp
      refine ih (pre ++ [r]) (by rw [e, List.append_assoc]; rfl) hlp.2 ?_
      rw [List.flatMap_append, List.flatMap_append, List.flatMap_singleton, List.flatMap_singleton]
      refine hp.append (r.ways_perm (fun k hk x => ?_))
      have hno : ∀ g : History W, valuesOf k x ((r :: post).flatMap (fun r => r.ways l g)) = [] := by
        intro g
        refine valuesOf_other (fun y hy e => ?_)
        obtain ⟨r', hr', hy⟩ := List.mem_flatMap.1 hy
        rw [← e, Rule.mem_ways_ty hy] at hk
        exact hlp.1 r' hr' hk
      refine (valuesOf_perm e1).trans (List.Perm.trans ?_ (valuesOf_perm e2).symm)
      rw [e, List.flatMap_append, List.flatMap_append, valuesOf_append, valuesOf_append, valuesOf_append, valuesOf_append,
        hno, hno, List.append_nil, List.append_nil]
      exact List.Perm.append_left _ (valuesOf_perm hp)
  exact e1.trans ((List.Perm.append_left _ (key rules [] rfl hl (.refl _))).trans e2.symm)

theorem valuesOf_flatMap {α : Type u} {k : Ty W} {r : LRange} {f : α → History W} (xs : List α) :
    valuesOf k r (xs.flatMap f) = xs.flatMap (fun x => valuesOf k r (f x)) := by
  rw [valuesOf, List.filterMap_flatMap]
  rfl

theorem valuesOf_same {k : Ty W} {r r' : LRange} (vs : List (Val k)) :
    valuesOf k r (vs.map (fun v => (⟨k, r', v⟩ : Rec W))) = if r' = r then vs else [] := by
  rw [valuesOf, List.filterMap_map]
  by_cases e : r' = r
  · subst e
    simp [Function.comp_def]
  · simp [Function.comp_def, e]

/-- the values a rule concludes on one range -/
theorem valuesOf_ways {l : LLLine W} {h : History W} {r : Rule W} {a b : Nat} (ha : a < l.ll_tokens.length)
    (hb : b < l.ll_tokens.length) : valuesOf r.attr (a, b) (r.ways l h) = (r.pat.ways l h a b).flatMap r.values := by
  have h1 : ∀ i j, valuesOf r.attr (a, b) (r.waysOn l h i j) =
      if a = i then (if b = j then (r.pat.ways l h i j).flatMap r.values else []) else [] := by
    intro i j
    rw [Rule.waysOn, valuesOf_flatMap]
    simp only [valuesOf_same, Prod.mk.injEq]
    by_cases e1 : a = i
    · by_cases e2 : b = j
      · simp [e1, e2]
      · simp only [e1, e2, if_true, if_false]
        simp [show ¬ j = b from fun e => e2 e.symm]
    · simp only [e1, if_false]
      simp [show ¬ i = a from fun e => e1 e.symm]
  rw [Rule.ways, valuesOf_flatMap]
  simp only [valuesOf_flatMap, h1]
  have h2 : ∀ i, (List.range l.ll_tokens.length).flatMap (fun j =>
      if a = i then (if b = j then (r.pat.ways l h i j).flatMap r.values else []) else []) =
      if a = i then (r.pat.ways l h i b).flatMap r.values else [] := by
    intro i
    by_cases e : a = i
    · simp only [e, if_true]
      exact range_single (f := fun j => (r.pat.ways l h i j).flatMap r.values) hb
    · simp [e]
  simp only [h2]
  exact range_single (f := fun i => (r.pat.ways l h i b).flatMap r.values) ha

theorem valuesOf_flatMap_one {α : Type u} {k : Ty W} {r : LRange} {f : α → History W} {key : α → Ty W} {x : α} : ∀ {xs : List α},
    (xs.map key).Nodup → x ∈ xs → key x = k → (∀ y ∈ xs, ∀ z ∈ f y, z.ty = key y) →
    valuesOf k r (xs.flatMap f) = valuesOf k r (f x)
  | y :: xs, hn, hx, hk, hf => by
    rw [List.flatMap_cons, valuesOf_append]
    rw [List.map_cons, List.nodup_cons] at hn
    rcases List.mem_cons.1 hx with rfl | hx
    · rw [valuesOf_other (h := xs.flatMap f), List.append_nil]
      intro z hz e
      obtain ⟨y, hy, hz⟩ := List.mem_flatMap.1 hz
      rw [hf y (List.mem_cons_of_mem _ hy) z hz, ← hk] at e
      exact hn.1 (List.mem_map.2 ⟨y, hy, e⟩)
    · rw [valuesOf_other (h := f y), List.nil_append]
      · exact valuesOf_flatMap_one hn.2 hx hk (fun y hy => hf y (List.mem_cons_of_mem _ hy))
      · intro z hz e
        rw [hf y (List.mem_cons_self ..) z hz, ← hk] at e
        exact hn.1 (List.mem_map.2 ⟨x, hx, e.symm⟩)

/-- the values of a type assigned again and again -/
theorem again_runs (k : Ty W) : ∀ (ptrs : List Nat) {l : LLLine W} {h : History W}, Honest l h → l.ll_tokens ≠ [] →
    ∃ l' h', runAll l (ruleRuns (ptrs.map (fun ptr => (ptr, again k)))) = .ok l' ∧ Honest l' h' ∧
      l'.ll_tokens = l.ll_tokens ∧
      (∀ r, (valuesOf k r h').length = 2 ^ ptrs.length * (valuesOf k r h).length) ∧ ∀ r v, v ∈ valuesOf k r h' → v ∈ valuesOf k r h
  | [], l, h, hh, _ => ⟨l, h, rfl, hh, rfl, by simp, fun _ _ hv => hv⟩
  | ptr :: ptrs, l, h, hh, ne => by
    obtain ⟨l1, new, hl1, hh1, ht1, hn⟩ := rule_run_ways hh ne ptr (again k)
    obtain ⟨l', h', hl', hh', ht', hv, hm⟩ := again_runs k ptrs hh1 (by rw [ht1]; exact ne)
    have hnew : ∀ r, (valuesOf k r new).Perm (valuesOf k r h) := by
      rintro ⟨a, b⟩
      refine (valuesOf_perm hn).trans (.of_eq ?_)
      by_cases hab : a < l.ll_tokens.length ∧ b < l.ll_tokens.length
      · have := valuesOf_ways (h := h) (r := again k) hab.1 hab.2
        refine this.trans ?_
        simp [Pat.ways, again]
      · have e1 : valuesOf k (a, b) h = [] := List.eq_nil_iff_forall_not_mem.2 (fun v hv => by
          obtain ⟨hr, ho⟩ := hh.spec
          have h1 := ho _ (mem_valuesOf.1 hv)
          have h2 := (hr.rep.bounds _ (mem_valuesOf.1 hv)).2
          simp only at h1 h2
          omega)
        have e2 : valuesOf k (a, b) ((again k).ways l h) = [] := List.eq_nil_iff_forall_not_mem.2 (fun v hv => by
          have := mem_valuesOf.1 hv
          simp only [Rule.ways, Rule.waysOn, List.mem_flatMap, List.mem_map, List.mem_range] at this
          obtain ⟨i, hi, j, hj, _, _, _, _, e⟩ := this
          have e := congrArg Rec.range e
          simp only [Prod.mk.injEq] at e
          omega)
        rw [e1, e2]
    refine ⟨l', h', ?_, hh', ht'.trans ht1, fun r => ?_, fun r v hv' => ?_⟩
    · simp only [ruleRuns, List.map_cons, runAll, hl1]
      exact hl'
    · rw [hv r, valuesOf_append, List.length_append, (hnew r).length_eq, List.length_cons, Nat.pow_succ, Nat.mul_assoc,
        Nat.two_mul]
    · have := hm r v hv'
      rw [valuesOf_append] at this
      rcases List.mem_append.1 this with h | h
      · exact h
      · exact (hnew r).mem_iff.1 h

end LNlp
