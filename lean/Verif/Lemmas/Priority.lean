import Verif.Spec.Priority
import Verif.Lemmas.Strata
import Verif.Lemmas.OnceExcept
import Verif.Lemmas.View
/- Helper lemmas for Props/Priority.lean. -/
namespace LNlp
variable {W : World} {k : Ty W}

theorem EPat.built_looks : ∀ {α : Type} (p : EPat W α) (has : Bool) {T : Ty W → Prop},
    (∀ t, p.Mentions t ∨ p.Excepts t → T t) → Built T has p.matcher
  | _, .attr k, _, _, h => .attr k (h k (.inl rfl))
  | _, .attrEq k v, _, _, h => .attrEq k (h k (.inl rfl)) v
  | _, .text, _, _, _ => .tokenText
  | _, .seq a b, has, _, h => .seq2 (a.built_looks has (fun t ht => h t (ht.imp .inl .inl)))
      (b.built_looks has (fun t ht => h t (ht.imp .inr .inr)))
  | _, .both a b, has, _, h => .all2 (a.built_looks has (fun t ht => h t (ht.imp .inl .inl)))
      (b.built_looks has (fun t ht => h t (ht.imp .inr .inr)))
  | _, .anyOf a b, has, _, h => .anyOf2 (a.built_looks has (fun t ht => h t (ht.imp .inl (fun x => .inr (.inl x)))))
      (b.built_looks has (fun t ht => h t (ht.imp .inr (fun x => .inr (.inr x)))))
  | _, .unless a b, has, _, h => .user (parts a.matcher b.matcher) UserTree.unless (fun i => match i with
    | true => a.built_looks has (fun t ht => h t (ht.imp id .inl))
    | false => b.built_looks has (fun t ht => h t (.inr (.inr ht))))

/-- what a rule assigns at a token -/
def ERule.at (r : ERule W) (l : LLLine W) (i : Nat) : History W :=
  (okD (r.pat.matcher.go (.fwd i) l)).flatMap (fun p => (r.values p.1).map (fun v => ⟨r.attr, (i, p.2), v⟩))

theorem ERule.at_start {r : ERule W} {l : LLLine W} {i : Nat} {x : Rec W} (hx : x ∈ r.at l i) : x.range.1 = i ∧ x.ty = r.attr := by
  simp only [ERule.at, List.mem_flatMap, List.mem_map] at hx
  obtain ⟨p, _, v, _, rfl⟩ := hx
  exact ⟨rfl, rfl⟩

theorem ERule.mem_at {l : LLLine W} {h : History W} (hh : Honest l h) {r : ERule W} {i : Nat} (hi : i < l.ll_tokens.length)
    {x : Rec W} : x ∈ r.at l i ↔ r.Concludes l (· ∈ h) (· ∈ h) x ∧ x.range.1 = i := by
  obtain ⟨rs, hrs, hiff⟩ := r.pat.matcher_spec hh.spec.1 hh.spec.2 hi
  simp only [ERule.at, hrs, okD, List.mem_flatMap, List.mem_map]
  constructor
  · rintro ⟨p, hp, v, hv, rfl⟩
    exact ⟨⟨i, p.2, p.1, v, (hiff _ _).1 hp, hv, rfl⟩, rfl⟩
  · rintro ⟨⟨i', j, f, v, hp, hv, rfl⟩, rfl⟩
    exact ⟨(f, j), (hiff _ _).2 hp, v, hv, rfl⟩

/-- one run of a rule: what it assigns, in order -/
theorem erule_run_list {l : LLLine W} {h : History W} (hh : Honest l h) (ne : l.ll_tokens ≠ []) (ptr : Nat) (r : ERule W) :
    ∃ l', l.run ptr r.resolver = .ok l' ∧ Honest l' (h ++ (List.range l.ll_tokens.length).flatMap (r.at l)) ∧
      l'.ll_tokens = l.ll_tokens ∧ ((List.range l.ll_tokens.length).flatMap (r.at l) = [] → l' = l) := by
  obtain ⟨hr, ho⟩ := hh.spec
  have hlen : 0 < l.ll_tokens.length := List.length_pos_iff.2 ne
  obtain ⟨found, hf⟩ := findBy_total (wholeLine_inside ne ptr)
    (show TotalOn (wholeLine l ptr).ll_line.val r.pat.matcher from built_totalOn (r.pat.built false) hr)
  have hrun : HonestRun l ptr r.resolver
      (found.flatMap (fun st => (r.values st.2).map (fun v => st.1.finishWithAttr v))) := by
    refine ⟨by simp only [ERule.resolver, hf], fun a ha => ?_⟩
    exact honest_findBy (r.pat.built true) hf ha
  obtain ⟨l', hl'⟩ := honest_run_ok hr.rep ho ne hrun
  have e : (found.flatMap (fun st => (r.values st.2).map (fun v => st.1.finishWithAttr v))).map (recOf r.attr) =
      (List.range l.ll_tokens.length).flatMap (r.at l) := by
    obtain ⟨_, rfl⟩ := findBy_ok_iff.1 hf
    have e : rangeIncl (wholeLine l ptr).start_idx (wholeLine l ptr).end_idx = List.range l.ll_tokens.length := by
      simp only [wholeLine, rangeIncl, List.range_eq_range']
      rw [show l.ll_tokens.length - 1 + 1 - 0 = l.ll_tokens.length by omega]
    rw [List.flatMap_assoc, List.map_flatMap, e]
    refine congrArg (List.flatMap · _) (funext (fun i => ?_))
    rw [List.flatMap_map, List.map_flatMap]
    refine congrArg (List.flatMap · _) (funext (fun f => ?_))
    rw [List.map_map]
    rfl
  refine ⟨l', hl', e ▸ .run l h ptr r.resolver _ l' hh ne hrun hl', run_tokens hl', fun he => ?_⟩
  rw [he] at e
  have hn := List.map_eq_nil_iff.1 e
  have hgo : r.resolver.go (wholeLine l ptr) = .ok ([], false) := hn ▸ hrun.1
  rw [run_of_go ne hgo] at hl'
  simp only [foldR] at hl'
  cases hl'
  rfl

open Classical in
/-- where an attribute of the type begins, nothing is assigned; elsewhere what the reading assigns -/
theorem guarded_at {l : LLLine W} {h : History W} (hh : Honest l h) (r : Reading W k) {i : Nat} (hi : i < l.ll_tokens.length) :
    r.guarded.at l i = if FreeAt k h i then r.rule.at l i else [] := by
  obtain ⟨bs, hb, hib⟩ := (EPat.attr k).matcher_spec hh.spec.1 hh.spec.2 hi
  have hg : r.guarded.pat.matcher.go (.fwd i) l = if bs.isEmpty then r.pat.matcher.go (.fwd i) l else .ok [] := by
    show (X.unless r.pat.matcher (EPat.attr k).matcher).go (.fwd i) l = _
    rw [unless_go, hb]
  have hiff : bs.isEmpty = true ↔ FreeAt k h i := by
    rw [List.isEmpty_iff, List.eq_nil_iff_forall_not_mem]
    constructor
    · intro hn x hx hty hs
      obtain ⟨t, ⟨a, b⟩, v⟩ := x
      cases hty
      cases hs
      exact hn (v, b) ((hib v b).2 hx)
    · rintro hf ⟨v, b⟩ hm
      exact hf _ ((hib v b).1 hm) rfl rfl
  by_cases hf : FreeAt k h i
  · rw [if_pos hf]
    simp only [ERule.at, hg, if_pos (hiff.2 hf)]
    rfl
  · rw [if_neg hf]
    have : ¬ bs.isEmpty = true := fun h => hf (hiff.1 h)
    simp only [ERule.at, hg, if_neg this, okD]
    rfl

theorem Reading.reads_iff {l : LLLine W} {h : History W} {r : Reading W k} {x : Rec W} :
    r.Reads l h x ↔ r.rule.Concludes l (· ∈ h) (· ∈ h) x := Iff.rfl

theorem Reading.Reads.inside {l : LLLine W} {h : History W} (hh : Honest l h) {r : Reading W k} {x : Rec W} (hx : r.Reads l h x) :
    x.range.1 < l.ll_tokens.length ∧ x.ty = k := by
  obtain ⟨i, j, f, v, hp, _, rfl⟩ := hx
  have := hp.inside (F := (· ∈ h)) (fun y hy => ⟨hh.spec.2 y hy, (hh.spec.1.rep.bounds y hy).2⟩)
  exact ⟨by show i < _; omega, rfl⟩

/-- attributes of the type are not looked at -/
theorem Reading.Reads.blind {l l' : LLLine W} {h new : History W} (ht : l'.ll_tokens = l.ll_tokens)
    (hn : ∀ x ∈ new, x.ty = k) {r : Reading W k} (hb : r.Blind) {x : Rec W} : r.Reads l' (h ++ new) x ↔ r.Reads l h x := by
  have key : ∀ y : Rec W, y.ty ≠ k → (y ∈ h ++ new ↔ y ∈ h) := fun y hy => by
    rw [List.mem_append]
    exact ⟨fun hm => hm.resolve_right (fun hm => hy (hn y hm)), .inl⟩
  have km : ∀ y : Rec W, r.rule.pat.Mentions y.ty → y.ty ≠ k := fun y hm e => hb.1 (e ▸ hm)
  have ke : ∀ y : Rec W, r.rule.pat.Excepts y.ty → y.ty ≠ k := fun y hm e => hb.2 (e ▸ hm)
  rw [Reading.reads_iff, Reading.reads_iff]
  constructor
  · exact fun hx => (hx.line ht.symm).mono (fun y hm hy => (key y (km y hm)).1 hy) (fun y hm => key y (ke y hm))
  · exact fun hx => (hx.line ht).mono (fun y hm hy => (key y (km y hm)).2 hy) (fun y hm => (key y (ke y hm)).symm)

theorem Reading.at_blind {l l' : LLLine W} {h : History W} (hh : Honest l h) {ptr : Nat} {r : Reading W k} (hb : r.Blind)
    {s : Reading W k} (hrun : l.run ptr s.guarded.resolver = .ok l') {i : Nat} (hi : i < l.ll_tokens.length) :
    r.rule.at l' i = r.rule.at l i := by
  have ag : LineAgree false (fun t => r.pat.Mentions t ∨ r.pat.Excepts t) l l' :=
    run_agree (r := s.guarded.resolver) (fun h => h.elim hb.1 hb.2) hrun
  obtain ⟨rs, hrs, _⟩ := r.pat.matcher_spec hh.spec.1 hh.spec.2 hi
  have := (ag.built (r.pat.built_looks false (fun _ h => h)) (.fwd i)).ok hrs
  show (okD (r.pat.matcher.go (.fwd i) l')).flatMap _ = (okD (r.pat.matcher.go (.fwd i) l)).flatMap _
  rw [this, hrs]

/-- one run of a guarded reading -/
theorem guarded_run {l : LLLine W} {h : History W} (hh : Honest l h) (ne : l.ll_tokens ≠ []) (ptr : Nat) (r : Reading W k) :
    ∃ l' new, l.run ptr r.guarded.resolver = .ok l' ∧ Honest l' (h ++ new) ∧ l'.ll_tokens = l.ll_tokens ∧
      (new = [] → l' = l) ∧ ∀ x, x ∈ new ↔ FreeAt k h x.range.1 ∧ r.Reads l h x := by
  obtain ⟨l', h1, h2, h3, h4⟩ := erule_run_list hh ne ptr r.guarded
  refine ⟨l', _, h1, h2, h3, h4, fun x => ?_⟩
  simp only [List.mem_flatMap, List.mem_range]
  constructor
  · rintro ⟨i, hi, hx⟩
    rw [guarded_at hh r hi] at hx
    split at hx
    · rename_i hf
      obtain ⟨hc, rfl⟩ := (ERule.mem_at hh hi).1 hx
      exact ⟨hf, hc⟩
    · cases hx
  · rintro ⟨hf, hx⟩
    have hi := (hx.inside hh).1
    refine ⟨x.range.1, hi, ?_⟩
    rw [guarded_at hh r hi, if_pos hf]
    exact (ERule.mem_at hh hi).2 ⟨hx, rfl⟩

/-- runs in order of priority -/
theorem priority_run : ∀ (prog : List (Nat × Reading W k)) {l : LLLine W} {h : History W}, Honest l h → l.ll_tokens ≠ [] →
    (∀ p ∈ prog, p.2.Blind) →
    ∃ l' new, runAll l (priorityRuns prog) = .ok l' ∧ Honest l' (h ++ new) ∧ l'.ll_tokens = l.ll_tokens ∧
      ∀ x, x ∈ new ↔ FreeAt k h x.range.1 ∧ ∃ before p after, prog = before ++ p :: after ∧ p.2.Reads l h x ∧
        ∀ q ∈ before, ∀ y, q.2.Reads l h y → y.range.1 ≠ x.range.1
  | [], l, h, hh, _, _ => ⟨l, [], rfl, by simpa using hh, rfl, by simp⟩
  | (ptr, r) :: prog, l, h, hh, ne, hb => by
    obtain ⟨l1, n1, a1, a2, a3, _, a5⟩ := guarded_run hh ne ptr r
    obtain ⟨l2, n2, b1, b2, b3, b4⟩ := priority_run prog a2 (by rw [a3]; exact ne) (fun p hp => hb p (by simp [hp]))
    have hty : ∀ x ∈ n1, x.ty = k := fun x hx => (((a5 x).1 hx).2.inside hh).2
    refine ⟨l2, n1 ++ n2, by simp only [priorityRuns, List.map_cons, runAll, a1]; exact b1, by rw [← List.append_assoc]; exact b2,
      b3.trans a3, fun x => ?_⟩
    have free : ∀ i, FreeAt k (h ++ n1) i ↔ FreeAt k h i ∧ ∀ y, r.Reads l h y → y.range.1 ≠ i := by
      intro i
      constructor
      · intro hf
        have hf0 : FreeAt k h i := fun x hx => hf x (List.mem_append_left _ hx)
        refine ⟨hf0, fun y hy e => ?_⟩
        subst e
        exact hf y (List.mem_append_right _ ((a5 y).2 ⟨hf0, hy⟩)) (hy.inside hh).2 rfl
      · rintro ⟨h1, h2⟩ y hy hk
        rcases List.mem_append.1 hy with hy | hy
        · exact h1 y hy hk
        · exact h2 y ((a5 y).1 hy).2
    rw [List.mem_append, a5, b4, free]
    constructor
    · rintro (⟨hf, hx⟩ | ⟨⟨hf, hn⟩, before, p, after, rfl, hx, hq⟩)
      · exact ⟨hf, [], (ptr, r), prog, rfl, hx, by simp⟩
      · refine ⟨hf, (ptr, r) :: before, p, after, rfl, (Reading.Reads.blind a3 hty (hb p (by simp))).1 hx, fun q hq' y hy => ?_⟩
        rcases List.mem_cons.1 hq' with rfl | hq'
        · exact hn y hy
        · exact hq q hq' y ((Reading.Reads.blind a3 hty (hb q (by simp [hq']))).2 hy)
    · rintro ⟨hf, before, p, after, e, hx, hq⟩
      cases before with
      | nil =>
        simp only [List.nil_append, List.cons.injEq] at e
        obtain ⟨rfl, rfl⟩ := e
        exact .inl ⟨hf, hx⟩
      | cons q0 before =>
        simp only [List.cons_append, List.cons.injEq] at e
        obtain ⟨rfl, rfl⟩ := e
        refine .inr ⟨⟨hf, hq (ptr, r) (by simp)⟩, before, p, after, rfl, (Reading.Reads.blind a3 hty (hb p (by simp))).2 hx,
          fun q hq' y hy => hq q (by simp [hq']) y ((Reading.Reads.blind a3 hty (hb q (by simp [hq']))).1 hy)⟩

/-- the first with a property -/
theorem first_split {α : Type _} {P : α → Prop} : ∀ {xs : List α}, (∃ x ∈ xs, P x) →
    ∃ before x after, xs = before ++ x :: after ∧ P x ∧ ∀ y ∈ before, ¬ P y
  | [], ⟨_, h, _⟩ => by cases h
  | x :: xs, he => by
    by_cases hx : P x
    · exact ⟨[], x, xs, rfl, hx, by simp⟩
    · obtain ⟨y, hy, hp⟩ := he
      have : y ∈ xs := (List.mem_cons.1 hy).resolve_left (fun e => hx (e ▸ hp))
      obtain ⟨b, z, a, rfl, h1, h2⟩ := first_split ⟨y, this, hp⟩
      refine ⟨x :: b, z, a, rfl, h1, fun w hw => ?_⟩
      rcases List.mem_cons.1 hw with rfl | hw
      · exact hx
      · exact h2 w hw

/-- where every reading finds something only where something begins, runs change nothing -/
theorem priority_still {l : LLLine W} {h : History W} (hh : Honest l h) (ne : l.ll_tokens ≠ []) :
    ∀ (prog : List (Nat × Reading W k)), (∀ p ∈ prog, ∀ x, p.2.Reads l h x → ¬ FreeAt k h x.range.1) →
      runAll l (priorityRuns prog) = .ok l
  | [], _ => rfl
  | (ptr, r) :: prog, hc => by
    obtain ⟨l1, new, a1, _, _, a4, a5⟩ := guarded_run hh ne ptr r
    have e := a4 (List.eq_nil_iff_forall_not_mem.2 (fun x hx =>
      hc (ptr, r) (by simp) x ((a5 x).1 hx).2 ((a5 x).1 hx).1))
    subst e
    simp only [priorityRuns, List.map_cons, runAll, a1]
    exact priority_still hh ne prog (fun p hp => hc p (by simp [hp]))

/-! ### one `any_of` -/

/-- at every token, the same assignments to ranges that begin there, in the same order -/
def SameStarts (h h' : History W) : Prop :=
  ∀ i, h.filter (fun x => decide (x.range.1 = i)) = h'.filter (fun x => decide (x.range.1 = i))

theorem starts_flatMap {f : Nat → History W} (hf : ∀ i, ∀ x ∈ f i, x.range.1 = i) (n i : Nat) :
    ((List.range n).flatMap f).filter (fun x => decide (x.range.1 = i)) = if i < n then f i else [] := by
  induction n with
  | zero => simp
  | succ n ih =>
    rw [List.range_succ, List.flatMap_append, List.filter_append, ih]
    simp only [List.flatMap_cons, List.flatMap_nil, List.append_nil]
    by_cases h1 : i = n
    · subst h1
      rw [if_neg (Nat.lt_irrefl i), if_pos (Nat.lt_succ_self i), List.nil_append,
        List.filter_eq_self.2 (fun x hx => decide_eq_true (hf i x hx))]
    · have : (f n).filter (fun x => decide (x.range.1 = i)) = [] :=
        List.filter_eq_nil_iff.2 (fun x hx h => h1 ((of_decide_eq_true h).symm.trans (hf n x hx)))
      rw [this, List.append_nil]
      by_cases h2 : i < n
      · rw [if_pos h2, if_pos (by omega)]
      · rw [if_neg h2, if_neg (by omega)]

theorem SameStarts.values {h h' : History W} (s : SameStarts h h') (t : Ty W) (r : LRange) : valuesOf t r h = valuesOf t r h' := by
  have key : ∀ g : History W, valuesOf t r g = valuesOf t r (g.filter (fun x => decide (x.range.1 = r.1))) :=
    fun g => (valuesOf_filter t g (fun q => decide (q.1 = r.1)) (decide_eq_true rfl)).symm
  rw [key h, key h', s r.1]

theorem SameStarts.starts {h h' : History W} (s : SameStarts h h') (t : Ty W) (i : Nat) :
    (rangesOf t h).filter (fun r => decide (r.1 = i)) = (rangesOf t h').filter (fun r => decide (r.1 = i)) := by
  rw [← rangesOf_filter, ← rangesOf_filter]
  exact congrArg (rangesOf t) (s i)

theorem SameStarts.attr {l l' : LLLine W} {h h' : History W} (hr : Reachable l h) (hr' : Reachable l' h')
    (ht : l.ll_tokens = l'.ll_tokens) (s : SameStarts h h') (t : Ty W) (i : Nat) :
    (X.attr t).go (.fwd i) l = (X.attr t).go (.fwd i) l' := by
  show Dir.attr (.fwd i) t l = Dir.attr (.fwd i) t l'
  by_cases hi : i < l.ll_tokens.length
  · rw [rep_attr_fwd hr.rep t hi, rep_attr_fwd hr'.rep t (ht ▸ hi), s.starts]
    refine congrArg _ (congrArg (fun g => List.flatMap g _) (funext (fun r => ?_)))
    rw [s.values]
  · rw [(rep_attr_oob hr.rep t hi).1, (rep_attr_oob hr'.rep t (ht ▸ hi)).1]

theorem SameStarts.query {l l' : LLLine W} {h h' : History W} (hh : Honest l h) (hh' : Honest l' h')
    (ht : l.ll_tokens = l'.ll_tokens) (s : SameStarts h h') (t : Ty W) :
    ∃ q q', l.query t = .ok q ∧ l'.query t = .ok q' ∧ q.Perm q' := by
  have hd : ∀ {l : LLLine W} {h : History W}, Honest l h → ∀ r ∈ rangesOf t h, r.1 ≤ r.2 + 1 := fun hh r hm => by
    obtain ⟨v, hv⟩ := mem_rangesOf.1 hm
    have := hh.spec.2 _ hv
    simp only at this
    omega
  refine ⟨_, _, rep_query hh.spec.1.rep t (hd hh), rep_query hh'.spec.1.rep t (hd hh'), ?_⟩
  have p : (rangesOf t h).Perm (rangesOf t h') := by
    rw [List.perm_ext_iff_of_nodup (rangesOf_nodup t h) (rangesOf_nodup t h')]
    intro r
    rw [mem_rangesOf_iff_values, mem_rangesOf_iff_values, s.values]
  have e : (fun r => (r, coveredText l.ll_tokens r, valuesOf t r h)) = fun r => (r, coveredText l'.ll_tokens r, valuesOf t r h') :=
    funext (fun r => by rw [ht, s.values])
  rw [e]
  exact p.map _

theorem Reading.orElse_blind {a b : Reading W k} (ha : a.Blind) (hb : b.Blind) : (a.orElse b).Blind :=
  ⟨fun h => h.elim ha.1 hb.1, fun h => h.elim ha.1 (fun h => h.elim ha.2 hb.2)⟩

theorem Reading.firstOf_blind : ∀ {rest : List (Reading W k)} {a : Reading W k}, a.Blind → (∀ b ∈ rest, b.Blind) → (a.firstOf rest).Blind
  | [], _, ha, _ => ha
  | b :: rest, _, ha, hb => orElse_blind ha (firstOf_blind (hb b (by simp)) (fun c hc => hb c (by simp [hc])))

theorem orElse_at {l : LLLine W} {h : History W} (hh : Honest l h) {a : Reading W k} (b : Reading W k)
    (hv : ∀ f, a.values f ≠ []) {i : Nat} (hi : i < l.ll_tokens.length) :
    (a.orElse b).rule.at l i = if (a.rule.at l i).isEmpty then b.rule.at l i else a.rule.at l i := by
  obtain ⟨as, ha, _⟩ := a.pat.matcher_spec hh.spec.1 hh.spec.2 hi
  obtain ⟨bs, hb, _⟩ := b.pat.matcher_spec hh.spec.1 hh.spec.2 hi
  have e1 : a.rule.at l i = as.flatMap (fun p => (a.values p.1).map (fun v => ⟨k, (i, p.2), v⟩)) := by
    show (okD (a.pat.matcher.go (.fwd i) l)).flatMap _ = _
    rw [ha]
    rfl
  have e2 : b.rule.at l i = bs.flatMap (fun p => (b.values p.1).map (fun v => ⟨k, (i, p.2), v⟩)) := by
    show (okD (b.pat.matcher.go (.fwd i) l)).flatMap _ = _
    rw [hb]
    rfl
  by_cases hn : as = []
  · subst hn
    have hg : (X.anyOf2 a.pat.matcher b.pat.matcher).go (.fwd i) l = .ok (bs.map (fun p => (AnyOf2.B p.1, p.2))) :=
      anyOf2_ok_iff.2 ⟨[], ha, .inr ⟨rfl, bs, hb, rfl⟩⟩
    rw [e1, e2, if_pos (by simp)]
    show (okD ((X.anyOf2 a.pat.matcher b.pat.matcher).go (.fwd i) l)).flatMap _ = _
    rw [hg]
    exact List.flatMap_map ..
  · have hg : (X.anyOf2 a.pat.matcher b.pat.matcher).go (.fwd i) l = .ok (as.map (fun p => (AnyOf2.A p.1, p.2))) :=
      anyOf2_ok_iff.2 ⟨as, ha, .inl ⟨hn, rfl⟩⟩
    rw [e1, if_neg]
    · show (okD ((X.anyOf2 a.pat.matcher b.pat.matcher).go (.fwd i) l)).flatMap _ = _
      rw [hg]
      exact List.flatMap_map ..
    · obtain ⟨p, hp⟩ := List.exists_mem_of_ne_nil _ hn
      intro he
      rw [List.isEmpty_iff, List.flatMap_eq_nil_iff] at he
      exact hv p.1 (List.map_eq_nil_iff.1 (he p hp))

/-- two readings in order, or one with `any_of` -/
theorem either_run {l : LLLine W} {h : History W} (hh : Honest l h) (ne : l.ll_tokens ≠ []) {a b : Reading W k} (hb : b.Blind)
    (hv : ∀ f, a.values f ≠ []) (p1 p2 p3 : Nat) :
    ∃ l1 n1 l2 n2 l3 n3, l.run p1 a.guarded.resolver = .ok l1 ∧ Honest l1 (h ++ n1) ∧ l1.ll_tokens = l.ll_tokens ∧
      l1.run p2 b.guarded.resolver = .ok l2 ∧ Honest l2 (h ++ n1 ++ n2) ∧ l2.ll_tokens = l.ll_tokens ∧
      l.run p3 (a.orElse b).guarded.resolver = .ok l3 ∧ Honest l3 (h ++ n3) ∧ l3.ll_tokens = l.ll_tokens ∧
      SameStarts (h ++ n1 ++ n2) (h ++ n3) := by
  obtain ⟨l1, a1, a2, a3, _⟩ := erule_run_list hh ne p1 a.guarded
  obtain ⟨l2, b1, b2, b3, _⟩ := erule_run_list a2 (by rw [a3]; exact ne) p2 b.guarded
  obtain ⟨l3, c1, c2, c3, _⟩ := erule_run_list hh ne p3 (a.orElse b).guarded
  refine ⟨l1, _, l2, _, l3, _, a1, a2, a3, b1, b2, b3.trans a3, c1, c2, c3, fun i => ?_⟩
  rw [a3, List.filter_append, List.filter_append, List.filter_append, List.append_assoc]
  refine congrArg _ ?_
  rw [starts_flatMap (fun i x hx => (ERule.at_start hx).1), starts_flatMap (fun i x hx => (ERule.at_start hx).1),
    starts_flatMap (fun i x hx => (ERule.at_start hx).1)]
  by_cases hi : i < l.ll_tokens.length
  · rw [if_pos hi, if_pos hi, if_pos hi, guarded_at hh a hi, guarded_at hh _ hi, guarded_at a2 b (by rw [a3]; exact hi),
      orElse_at hh b hv hi, Reading.at_blind hh hb a1 hi]
    by_cases hf : FreeAt k h i
    · rw [if_pos hf, if_pos hf]
      by_cases he : a.rule.at l i = []
      · rw [he, if_pos (c := ([] : History W).isEmpty = true) rfl, if_pos, List.nil_append]
        intro x hx hk hs
        rcases List.mem_append.1 hx with hx | hx
        · exact hf x hx hk hs
        · obtain ⟨j, hj, hx⟩ := List.mem_flatMap.1 hx
          rw [(ERule.at_start hx).1] at hs
          subst hs
          rw [guarded_at hh a hi, if_pos hf, he] at hx
          cases hx
      · rw [if_neg (c := (a.rule.at l i).isEmpty = true) (by simpa using he), if_neg, List.append_nil]
        intro hf'
        obtain ⟨x, hx⟩ := List.exists_mem_of_ne_nil _ he
        refine hf' x (List.mem_append_right _ (List.mem_flatMap.2 ⟨i, List.mem_range.2 hi, ?_⟩)) (ERule.at_start hx).2
          (ERule.at_start hx).1
        rw [guarded_at hh a hi, if_pos hf]
        exact hx
    · rw [if_neg hf, if_neg hf, if_neg, List.nil_append]
      exact fun hf' => hf (fun x hx => hf' x (List.mem_append_left _ hx))
  · rw [if_neg hi, if_neg hi, if_neg hi, List.nil_append]

theorem SameStarts.forwards {l l' : LLLine W} {h h' : History W} (s : SameStarts h h') (hh : Honest l h) (hh' : Honest l' h')
    (ht : l.ll_tokens = l'.ll_tokens) : SameForwards l l' :=
  ⟨fun t i => s.attr hh.spec.1 hh'.spec.1 ht t i, fun t => s.query hh hh' ht t⟩

theorem SameForwards.trans {l1 l2 l3 : LLLine W} (s : SameForwards l1 l2) (s' : SameForwards l2 l3) : SameForwards l1 l3 := by
  refine ⟨fun t i => (s.1 t i).trans (s'.1 t i), fun t => ?_⟩
  obtain ⟨q, q', h1, h2, h3⟩ := s.2 t
  obtain ⟨r, r', g1, g2, g3⟩ := s'.2 t
  rw [h2] at g1
  cases g1
  exact ⟨q, r', h1, g2, h3.trans g3⟩

theorem firstOf_run : ∀ (rest : List (Nat × Reading W k)) (p : Nat × Reading W k) {l : LLLine W} {h : History W}, Honest l h →
    l.ll_tokens ≠ [] → (∀ q ∈ p :: rest, q.2.Blind) → (∀ q ∈ (p :: rest).dropLast, ∀ f, q.2.values f ≠ []) → ∀ ptr,
    ∃ l1 l2, runAll l (priorityRuns (p :: rest)) = .ok l1 ∧ l.run ptr (p.2.firstOf (rest.map (·.2))).guarded.resolver = .ok l2 ∧
      SameForwards l1 l2
  | [], p, l, h, hh, ne, _, _, ptr => by
    obtain ⟨l1, a1, a2, a3, _⟩ := erule_run_list hh ne p.1 p.2.guarded
    obtain ⟨l2, b1, b2, b3, _⟩ := erule_run_list hh ne ptr p.2.guarded
    exact ⟨l1, l2, by simp only [priorityRuns, List.map_cons, List.map_nil, runAll, a1], b1,
      SameStarts.forwards (fun _ => rfl) a2 b2 (a3.trans b3.symm)⟩
  | q :: rest, p, l, h, hh, ne, hb, hv, ptr => by
    have hbq : (q.2.firstOf (rest.map (·.2))).Blind := Reading.firstOf_blind (hb q (by simp)) (fun c hc => by
      obtain ⟨r, hr, rfl⟩ := List.mem_map.1 hc
      exact hb r (by simp [hr]))
    obtain ⟨l1, n1, l2, n2, l3, n3, a1, a2, a3, b1, b2, b3, c1, c2, c3, s⟩ := either_run hh ne hbq
      (a := p.2) (hv p (by simp)) p.1 0 ptr
    obtain ⟨m1, m2, d1, e1, s'⟩ := firstOf_run rest q a2 (by rw [a3]; exact ne)
      (fun r hr => hb r (List.mem_cons_of_mem _ hr)) (fun r hr => hv r (by simp only [List.dropLast_cons_cons]; exact List.mem_cons_of_mem _ hr)) 0
    rw [b1] at e1
    cases e1
    refine ⟨m1, l3, ?_, c1, s'.trans (s.forwards b2 c2 (b3.trans c3.symm))⟩
    simp only [priorityRuns, List.map_cons, runAll, a1]
    exact d1

end LNlp
