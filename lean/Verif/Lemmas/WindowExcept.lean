import Verif.Lemmas.WindowOnce
import Verif.Lemmas.WallExcept
import Verif.Lemmas.OnceExcept
/- What rules with exceptions and choices find in a stretch is a function of the stretch, if nothing that counts as an
exception, or hides an alternative, begins in the stretch and ends behind it. -/
namespace LNlp
variable {W : World}

/-- what hides something begins in the stretch only if it ends there -/
def EPat.Shut (l : LLLine W) (n w : Nat) {α : Type} : EPat W α → Prop
  | .attr _ => True
  | .attrEq _ _ => True
  | .text => True
  | .seq a b => a.Shut l n w ∧ b.Shut l n w
  | .both a b => a.Shut l n w ∧ b.Shut l n w
  | .anyOf a b => (∀ i, i < w → ∀ rs, a.matcher.go (.fwd (n + i)) l = .ok rs → ∀ r ∈ rs, r.2 < n + w) ∧ a.Shut l n w ∧ b.Shut l n w
  | .unless a b => (∀ i, i < w → ∀ rs, b.matcher.go (.fwd (n + i)) l = .ok rs → ∀ r ∈ rs, r.2 < n + w) ∧ a.Shut l n w ∧ b.Shut l n w

/-- what a right-hand side finds from token `i` of a stretch with the tokens `T` and the assignments `H` -/
def EPat.within (T : List LToken) (H : History W) : {α : Type} → EPat W α → Nat → List (α × Nat)
  | _, .attr k, i => lookF k id H i
  | _, .attrEq k v, i => lookF k (fun vs => (vs.filter (fun x => valEq k x v)).map (fun _ => ())) H i
  | _, .text, i => match T[i]? with
    | some (.Text s _) => [(s, i)]
    | _ => []
  | _, .seq a b, i => (a.within T H i).flatMap (fun p =>
      if p.2 + 1 < T.length then (b.within T H (p.2 + 1)).map (fun q => ((p.1, q.1), q.2)) else [])
  | _, .both a b, i => (a.within T H i).flatMap (fun p => (b.within T H i).filterMap (fun q =>
      if p.2 = q.2 then some ((p.1, q.1), p.2) else none))
  | _, .anyOf a b, i => if (a.within T H i).isEmpty then (b.within T H i).map (fun q => (.B q.1, q.2))
      else (a.within T H i).map (fun q => (.A q.1, q.2))
  | _, .unless a b, i => if (b.within T H i).isEmpty then a.within T H i else []

/-- if everything ends in the stretch, there is something exactly if there is something in the stretch -/
theorem resultsIn_isEmpty {α : Type} {n w : Nat} {rs : List (α × Nat)} (h : ∀ r ∈ rs, r.2 < n + w) :
    (resultsIn n w rs).isEmpty = rs.isEmpty := by
  cases rs with
  | nil => rfl
  | cons r rs => rw [resultsIn_pos (h r (by simp))]; rfl

theorem EPat.results_ge {l : LLLine W} {h : History W} (hr : Reachable l h) (ho : Ordered h) {α : Type} (p : EPat W α) {i : Nat}
    (hi : i < l.ll_tokens.length) {rs : List (α × Nat)} (hrs : p.matcher.go (.fwd i) l = .ok rs) :
    ∀ r ∈ rs, i ≤ r.2 ∧ r.2 < l.ll_tokens.length := by
  intro r hm
  obtain ⟨rs', hrs', hiff⟩ := p.matcher_spec hr ho hi
  rw [hrs] at hrs'
  cases hrs'
  exact ((hiff r.1 r.2).1 hm).inside (fun y hy => ⟨ho y hy, (hr.rep.bounds y hy).2⟩)

theorem EPat.within_eq {l : LLLine W} {h : History W} (hr : Reachable l h) (ho : Ordered h) {n w : Nat}
    (hw : n + w ≤ l.ll_tokens.length) : ∀ {α : Type} (p : EPat W α), p.Shut l n w → ∀ {i : Nat}, i < w →
      ∃ rs, p.matcher.go (.fwd (n + i)) l = .ok rs ∧ resultsIn n w rs = p.within (tokensIn n w l) (recordsIn n w h) i := by
  intro α p
  induction p with
  | attr k =>
    intro sh i hi
    refine ⟨_, rep_attr_fwd hr.rep k (show n + i < _ by omega), ?_⟩
    exact lookF_in k id ho n w i
  | attrEq k v =>
    intro sh i hi
    refine ⟨_, rep_attrEq_fwd hr.rep k v (show n + i < _ by omega), ?_⟩
    have := lookF_in k (fun vs => (vs.filter (fun x => valEq k x v)).map (fun _ => ())) ho n w i
    refine Eq.trans (congrArg (resultsIn n w) ?_) this
    simp only [lookF, List.map_map, Function.comp_def]
  | text =>
    intro sh i hi
    have hi' : n + i < l.ll_tokens.length := by omega
    have hg := textToken_fwd l (n + i)
    rw [List.getElem?_eq_getElem hi'] at hg
    have ht : (tokensIn n w l)[i]? = some l.ll_tokens[n + i].token := by
      simp [tokensIn, hi, List.getElem?_eq_getElem hi']
    cases hk : l.ll_tokens[n + i].token with
    | Text s tag =>
      rw [hk] at ht
      simp only [hk] at hg
      refine ⟨_, hg, ?_⟩
      simp only [EPat.within, ht]
      simp [resultsIn, hi]
    | Value =>
      rw [hk] at ht
      simp only [hk] at hg
      refine ⟨_, hg, ?_⟩
      simp only [EPat.within, ht]
      rfl
  | seq a b iha ihb =>
    intro sh i hi
    have hi' : n + i < l.ll_tokens.length := by omega
    obtain ⟨rs, hrs, _⟩ := built_totalOn (EPat.built (.seq a b) false) hr (.fwd (n + i)) hi'
    refine ⟨rs, hrs, ?_⟩
    obtain ⟨as, ha, _, rfl⟩ := seq2_ok_iff.1 hrs
    obtain ⟨as', ha', hia⟩ := iha sh.1 hi
    rw [ha] at ha'
    cases ha'
    have hge := a.results_ge hr ho hi' ha
    have hbge : ∀ m, m < l.ll_tokens.length → ∀ q ∈ okD (X.goAfter b.matcher (.fwd (n + i)) m l), m < q.2 := by
      intro m hm q hq
      by_cases hlt : m + 1 < l.ll_tokens.length
      · obtain ⟨bs, hb, _⟩ := b.matcher_spec hr ho hlt
        have e : X.goAfter b.matcher (.fwd (n + i)) m l = .ok bs := by
          simp only [X.goAfter, Dir.after, hlt, if_true, hb]
        rw [e] at hq
        have := (b.results_ge hr ho hlt hb q hq).1
        omega
      · have e : X.goAfter b.matcher (.fwd (n + i)) m l = .ok [] := by
          simp only [X.goAfter, Dir.after, hlt, if_false]
        rw [e] at hq
        cases hq
    simp only [EPat.within, tokensIn_length hw, ← hia]
    refine resultsIn_flatMap (fun p hp hlt => ?_) (fun p hp hlt => ?_)
    · have hp2 := hge p hp
      refine (resultsIn_map (fun y => (p.1, y)) _).trans ?_
      simp only
      by_cases hc : p.2 - n + 1 < w
      · obtain ⟨bs, hb, hib⟩ := ihb sh.2 hc
        rw [if_pos hc, ← hib]
        have e : X.goAfter b.matcher (.fwd (n + i)) p.2 l = .ok bs := by
          rw [show n + (p.2 - n + 1) = p.2 + 1 by omega] at hb
          simp only [X.goAfter, Dir.after, show p.2 + 1 < l.ll_tokens.length by omega, if_true, hb]
        rw [e]
        rfl
      · rw [if_neg hc, resultsIn_nil (fun q hq => by have := hbge p.2 hp2.2 q hq; omega)]
        rfl
    · have hp2 := hge p hp
      refine resultsIn_nil (fun q hq => ?_)
      obtain ⟨q', hq', rfl⟩ := List.mem_map.1 hq
      have := hbge p.2 hp2.2 q' hq'
      simp only
      omega
  | both a b iha ihb =>
    intro sh i hi
    have hi' : n + i < l.ll_tokens.length := by omega
    obtain ⟨rs, hrs, hall⟩ := built_totalOn (EPat.built (.both a b) false) hr (.fwd (n + i)) hi'
    refine ⟨rs, hrs, ?_⟩
    obtain ⟨as, bs, ha, hb, rfl⟩ := all2_ok_iff.1 hrs
    obtain ⟨as', ha', hia⟩ := iha sh.1 hi
    obtain ⟨bs', hb', hib⟩ := ihb sh.2 hi
    rw [ha] at ha'
    cases ha'
    rw [hb] at hb'
    cases hb'
    have hge := a.results_ge hr ho hi' ha
    have hgeb := b.results_ge hr ho hi' hb
    simp only [EPat.within, ← hia, ← hib]
    refine resultsIn_flatMap (fun p hp hlt => ?_) (fun p hp hlt => ?_)
    · have hp2 := hge p hp
      clear hb hib ha hia hrs hall
      induction bs with
      | nil => rfl
      | cons q bs ih =>
        have ih := ih (fun r hr => hgeb r (by simp [hr]))
        have hq := hgeb q (by simp)
        rw [List.filterMap_cons]
        by_cases hpq : p.2 = q.2
        · rw [if_pos hpq]
          simp only
          rw [resultsIn_pos (p := ((p.1, q.1), p.2)) hlt, resultsIn_pos (p := q) (hpq ▸ hlt), List.filterMap_cons, ih]
          simp only [hpq, if_true]
        · rw [if_neg hpq]
          simp only at ih ⊢
          rw [ih]
          by_cases h1 : q.2 < n + w
          · rw [resultsIn_pos h1, List.filterMap_cons, if_neg (by simp only; omega)]
          · rw [resultsIn_neg h1]
    · refine resultsIn_nil (fun q hq => ?_)
      obtain ⟨q', _, hq'⟩ := List.mem_filterMap.1 hq
      split at hq'
      · cases hq'
        simp only
        omega
      · cases hq'
  | anyOf a b iha ihb =>
    intro sh i hi
    obtain ⟨as, ha, hia⟩ := iha sh.2.1 hi
    obtain ⟨bs, hb, hib⟩ := ihb sh.2.2 hi
    have em := resultsIn_isEmpty (sh.1 i hi as ha)
    by_cases hn : as = []
    · refine ⟨_, anyOf2_ok_iff.2 ⟨as, ha, .inr ⟨hn, bs, hb, rfl⟩⟩, ?_⟩
      simp only [EPat.within, ← hia, ← hib, hn]
      exact resultsIn_map _ bs
    · refine ⟨_, anyOf2_ok_iff.2 ⟨as, ha, .inl ⟨hn, rfl⟩⟩, ?_⟩
      have hn' : as.isEmpty = false := by cases as <;> simp_all
      simp only [EPat.within, ← hia, em, hn', Bool.false_eq_true, if_false]
      exact resultsIn_map _ as
  | «unless» a b iha ihb =>
    intro sh i hi
    obtain ⟨as, ha, hia⟩ := iha sh.2.1 hi
    obtain ⟨bs, hb, hib⟩ := ihb sh.2.2 hi
    have em := resultsIn_isEmpty (sh.1 i hi bs hb)
    have hg : (X.unless a.matcher b.matcher).go (.fwd (n + i)) l = if bs.isEmpty then .ok as else .ok [] := by
      rw [unless_go, hb]
      simp only
      rw [ha]
    by_cases hn : bs.isEmpty = true
    · refine ⟨as, by rw [hn] at hg; exact hg, ?_⟩
      simp only [EPat.within, ← hib, em, hn, if_true]
      exact hia
    · refine ⟨[], by rw [if_neg hn] at hg; exact hg, ?_⟩
      simp only [EPat.within, ← hib, em, if_neg hn]
      rfl

theorem EPat.shut_end {l : LLLine W} {h : History W} (hr : Reachable l h) (ho : Ordered h) {n w : Nat}
    (hw : n + w = l.ll_tokens.length) : ∀ {α : Type} (p : EPat W α), p.Shut l n w := by
  have one : ∀ {β : Type} (b : EPat W β), ∀ i, i < w → ∀ rs, b.matcher.go (.fwd (n + i)) l = .ok rs → ∀ r ∈ rs, r.2 < n + w := by
    intro β b i hi rs hrs r hm
    have := (b.results_ge hr ho (show n + i < _ by omega) hrs r hm).2
    omega
  intro α p
  induction p with
  | attr _ => trivial
  | attrEq _ _ => trivial
  | text => trivial
  | seq a b iha ihb => exact ⟨iha, ihb⟩
  | both a b iha ihb => exact ⟨iha, ihb⟩
  | anyOf a b iha ihb => exact ⟨one a, iha, ihb⟩
  | «unless» a b iha ihb => exact ⟨one b, iha, ihb⟩

/-- nothing that hides something is over the last token of the stretch, or over the next -/
theorem EPat.shut_clear {l : LLLine W} {h : History W} (hr : Reachable l h) (ho : Ordered h) {n w t : Nat}
    (hw : n + w ≤ l.ll_tokens.length) (ht : t + 1 = n + w ∨ t = n + w) : ∀ {α : Type} (p : EPat W α), p.Clear l (· ∈ h) t →
    p.Shut l n w := by
  have one : ∀ {β : Type} (b : EPat W β), b.Stops l (· ∈ h) t (fun _ => False) → ∀ i, i < w → ∀ rs,
      b.matcher.go (.fwd (n + i)) l = .ok rs → ∀ r ∈ rs, r.2 < n + w := by
    intro β b hb i hi rs hrs r hm
    obtain ⟨rs', hrs', hiff⟩ := b.matcher_spec hr ho (show n + i < _ by omega)
    rw [hrs] at hrs'
    cases hrs'
    rcases Nat.lt_or_ge r.2 (n + w) with h1 | h1
    · exact h1
    · exact (EPat.Holds.stops hb ((hiff r.1 r.2).1 hm) ⟨by simp only; omega, by simp only; omega⟩).elim
  intro α p
  induction p with
  | attr _ => exact fun _ => trivial
  | attrEq _ _ => exact fun _ => trivial
  | text => exact fun _ => trivial
  | seq a b iha ihb => exact fun c => ⟨iha c.1, ihb c.2⟩
  | both a b iha ihb => exact fun c => ⟨iha c.1, ihb c.2⟩
  | anyOf a b iha ihb => exact fun c => ⟨one a c.1, iha c.2.1, ihb c.2.2⟩
  | «unless» a b iha ihb => exact fun c => ⟨one b c.1, iha c.2.1, ihb c.2.2⟩

/-! ### runs -/

/-- what a run of a rule assigns in a stretch with the tokens `T` and the assignments `H` -/
def ERule.within (T : List LToken) (H : History W) (r : ERule W) : History W :=
  (List.range T.length).flatMap (fun i => (r.pat.within T H i).flatMap (fun p =>
    (r.values p.1).map (fun v => ⟨r.attr, (i, p.2), v⟩)))

/-- what a rule's search finds in a stretch is a function of the stretch -/
theorem erule_found_in {l : LLLine W} {h : History W} (hr : Reachable l h) (ho : Ordered h) (ne : l.ll_tokens ≠ []) {ptr : Nat} (r : ERule W)
    {found : List (LLSelection W × r.Found)} (hf : (wholeLine l ptr).findBy r.pat.matcher = .ok found) {n w : Nat}
    (hw : n + w ≤ l.ll_tokens.length) (sh : r.pat.Shut l n w) :
    recordsIn n w ((found.flatMap (fun st => (r.values st.2).map (fun v => st.1.finishWithAttr v))).map (recOf r.attr)) =
      r.within (tokensIn n w l) (recordsIn n w h) := by
  have hlen : 0 < l.ll_tokens.length := List.length_pos_iff.2 ne
  obtain ⟨_, rfl⟩ := findBy_ok_iff.1 hf
  have e : rangeIncl (wholeLine l ptr).start_idx (wholeLine l ptr).end_idx = List.range l.ll_tokens.length := by
    simp only [wholeLine, rangeIncl, List.range_eq_range']
    rw [show l.ll_tokens.length - 1 + 1 - 0 = l.ll_tokens.length by omega]
  rw [List.flatMap_assoc, List.map_flatMap, e, recordsIn_flatMap]
  have e2 : List.range l.ll_tokens.length =
      List.range n ++ ((List.range w).map (n + ·) ++ (List.range (l.ll_tokens.length - (n + w))).map (n + w + ·)) := by
    rw [← List.append_assoc, ← List.range_add, ← List.range_add]
    congr 1
    omega
  have step : ∀ i, i < l.ll_tokens.length → ∃ rs, r.pat.matcher.go (.fwd i) l = .ok rs ∧
      (((okD (r.pat.matcher.go (.fwd i) (wholeLine l ptr).ll_line.val)).map (fun q =>
        ((⟨(wholeLine l ptr).ll_line, i, q.2⟩ : LLSelection W), q.1))).flatMap
          (fun st => (r.values st.2).map (fun v => st.1.finishWithAttr v))).map (recOf r.attr) =
        rs.flatMap (fun p => (r.values p.1).map (fun v => ⟨r.attr, (i, p.2), v⟩)) := by
    intro i hi
    obtain ⟨rs, hrs, _⟩ := r.pat.matcher_spec hr ho hi
    refine ⟨rs, hrs, ?_⟩
    have hrs' : r.pat.matcher.go (.fwd i) (wholeLine l ptr).ll_line.val = .ok rs := hrs
    rw [hrs', List.flatMap_map, List.map_flatMap]
    refine congrArg (List.flatMap · _) (funext (fun f => ?_))
    rw [List.map_map]
    rfl
  rw [e2, List.flatMap_append, List.flatMap_append, List.flatMap_map, List.flatMap_map]
  refine middle_part (List.flatMap_eq_nil_iff.2 (fun i hi => ?_)) ?_ (List.flatMap_eq_nil_iff.2 (fun i hi => ?_))
  · have hi := List.mem_range.1 hi
    obtain ⟨rs, hrs, h2⟩ := step i (by omega)
    refine (congrArg (recordsIn n w) h2).trans (recordsIn_outside (fun x hx => ?_))
    simp only [List.mem_flatMap, List.mem_map] at hx
    obtain ⟨p, hp, v, _, rfl⟩ := hx
    exact .inl hi
  · rw [ERule.within, tokensIn_length hw]
    rw [List.flatMap_def, List.flatMap_def]
    refine congrArg List.flatten (List.map_congr_left (fun i hi => ?_))
    have hi := List.mem_range.1 hi
    obtain ⟨rs, hrs, h2⟩ := step (n + i) (by omega)
    obtain ⟨rs', hrs', h3⟩ := r.pat.within_eq hr ho hw sh hi
    rw [hrs] at hrs'
    cases hrs'
    rw [← h3]
    refine (congrArg (recordsIn n w) h2).trans ?_
    rw [recordsIn_found (Nat.le_add_right n i), Nat.add_sub_cancel_left]
  · have hi := List.mem_range.1 hi
    obtain ⟨rs, hrs, h2⟩ := step (n + w + i) (by omega)
    have hge := r.pat.results_ge hr ho (by omega) hrs
    refine (congrArg (recordsIn n w) h2).trans (recordsIn_outside (fun x hx => ?_))
    simp only [List.mem_flatMap, List.mem_map] at hx
    obtain ⟨p, hp, v, _, rfl⟩ := hx
    have := hge p hp
    refine .inr ?_
    show n + w ≤ p.2
    omega

/-- one run of a rule: what it assigns in a stretch is a function of the stretch -/
theorem erule_run_in {l : LLLine W} {h : History W} (hh : Honest l h) (ne : l.ll_tokens ≠ []) (ptr : Nat) (r : ERule W) :
    ∃ l' new, l.run ptr r.resolver = .ok l' ∧ Honest l' (h ++ new) ∧ l'.ll_tokens = l.ll_tokens ∧
      ∀ n w, n + w ≤ l.ll_tokens.length → r.pat.Shut l n w → recordsIn n w new = r.within (tokensIn n w l) (recordsIn n w h) := by
  obtain ⟨hr, ho⟩ := hh.spec
  obtain ⟨found, hf⟩ := findBy_total (wholeLine_inside ne ptr)
    (show TotalOn (wholeLine l ptr).ll_line.val r.pat.matcher from built_totalOn (r.pat.built false) hr)
  have hrun : HonestRun l ptr r.resolver
      (found.flatMap (fun st => (r.values st.2).map (fun v => st.1.finishWithAttr v))) := by
    refine ⟨by simp only [ERule.resolver, hf], fun a ha => ?_⟩
    exact honest_findBy (r.pat.built true) hf ha
  obtain ⟨l', hl'⟩ := honest_run_ok hr.rep ho ne hrun
  exact ⟨l', _, hl', .run l h ptr r.resolver _ l' hh ne hrun hl', run_tokens hl', fun n w hw sh => erule_found_in hr ho ne r hf hw sh⟩

/-- one run of a rule that looks first -/
theorem eonce_run_in {l : LLLine W} {h : History W} (hh : Honest l h) (ne : l.ll_tokens ≠ []) (ptr : Nat) (r : ERule W) :
    ∃ l' new, l.run ptr r.once = .ok l' ∧ Honest l' (h ++ new) ∧ l'.ll_tokens = l.ll_tokens ∧
      ∀ n w, n + w ≤ l.ll_tokens.length → r.pat.Shut l n w → recordsIn n w new =
        freshOf (recordsIn n w h) (r.within (tokensIn n w l) (recordsIn n w h)) := by
  obtain ⟨hr, ho⟩ := hh.spec
  obtain ⟨found, hf, hm⟩ := whole_efind hr ho ne ptr r.pat
  have hcand : ∀ c ∈ found.flatMap (fun st => (r.values st.2).map (fun v => (st.1, v))), c.1.ll_line = ⟨ptr, l⟩ ∧
      c.1.start_idx ≤ c.1.end_idx := by
    intro c hc
    obtain ⟨⟨s, x⟩, hs, hc⟩ := List.mem_flatMap.1 hc
    obtain ⟨v, hv, rfl⟩ := List.mem_map.1 hc
    have := (hm s x).1 hs
    exact ⟨this.1, (this.2.inside (fun y hy => ⟨ho y hy, (hr.rep.bounds y hy).2⟩)).1⟩
  obtain ⟨out, h1, h2, h3⟩ := lookFirst_exact hr ho ne ptr r.attr
    (found.flatMap (fun st => (r.values st.2).map (fun v => (st.1, v)))) [] (fun c hc => (hcand c hc).1) (by simp)
  simp only [List.nil_append, List.map_nil, List.append_nil] at h1 h3
  have hrun : HonestRun l ptr r.once (out.map (fun s => s.1.finishWithAttr s.2)) := by
    refine ⟨by simp only [ERule.once, hf, h1], fun a ha => ?_⟩
    obtain ⟨c, hc, rfl⟩ := List.mem_map.1 ha
    obtain ⟨⟨s, x⟩, hs, hc'⟩ := List.mem_flatMap.1 (h2 c hc)
    obtain ⟨v, _, rfl⟩ := List.mem_map.1 hc'
    exact ⟨s, v, .findBy .self (r.pat.built true) hf hs, rfl⟩
  obtain ⟨l', hl'⟩ := honest_run_ok hr.rep ho ne hrun
  refine ⟨l', _, hl', .run l h ptr r.once _ l' hh ne hrun hl', run_tokens hl', fun n w hw sh => ?_⟩
  have e1 : (out.map (fun s => s.1.finishWithAttr s.2)).map (recOf r.once.attr) = out.map (candRec r.attr) := by
    rw [List.map_map]
    rfl
  rw [e1, h3, freshOf_in _ _ ho (fun x hx => ?_), ← erule_found_in hr ho ne r hf hw sh]
  · congr 2
    simp only [List.map_flatMap, List.map_map]
    rfl
  · obtain ⟨c, hc, rfl⟩ := List.mem_map.1 hx
    exact (hcand c hc).2

end LNlp
