import Verif.Lemmas.Scan
import Verif.Demo.Scan
/- C150: scanning a selection for matches that do not overlap. -/
namespace LNlp
variable {W : World} {Out : Type}

/-! ### C150 -/

/-- C150: with at least as many rounds as the selection has tokens the loop ends, always with the same result: the leftmost
choice of matches, and the pieces of the selection between them. -/
theorem C150_scan {m : XMatch W Out} {s : LLSelection W} (hs : s.Inside) (hw : WellBehaved s.ll_line.val m)
    (hok : ∀ i, s.Has i → ∃ rs, m.go (.fwd i) s.ll_line.val = .ok rs) :
    ∃ out pieces, (∀ n, s.count ≤ n → scan m n s = .ok (some (out, pieces))) ∧ Leftmost m s out ∧ Between s out pieces := by
  obtain ⟨out, ps, _, hL, hB⟩ := scan_spec s.count hs hw hok (Nat.le_refl _)
  refine ⟨out, ps, fun n hn => ?_, hL, hB⟩
  obtain ⟨out', ps', he, hL', hB'⟩ := scan_spec n hs hw hok hn
  have e := hL'.unique hs hw hL
  subst e
  have key : ∀ {ps : List (LLSelection W)}, Between s out' ps → ∀ p ∈ ps, p.ll_line = s.ll_line ∧ p.start_idx ≤ p.end_idx :=
    fun hB p hp => ⟨(hB.parts p hp).1, (hB.parts p hp).2.2.1⟩
  have tok : ∀ {ps : List (LLSelection W)}, Between s out' ps → ∀ i, (∃ p ∈ ps, p.Has i) ↔ s.Has i ∧ ∀ q ∈ out', ¬ q.1.Has i := by
    intro ps hB i
    constructor
    · rintro ⟨p, hp, hi⟩
      obtain ⟨_, h1, h2, h3⟩ := hB.parts p hp
      have hsi : s.Has i := ⟨by have := hi.1; omega, by have := hi.2; omega⟩
      exact ⟨hsi, (hB.rest i hsi).1 ⟨p, hp, hi⟩⟩
    · rintro ⟨hsi, hn⟩
      exact (hB.rest i hsi).2 hn
  rw [he, pieces_ext (key hB') (key hB) hB'.longest hB.longest (fun i => (tok hB' i).trans (tok hB i).symm)]

example := C150_scan Demo.chainSel_inside Demo.couple_well
  (fun i hi => (built_totalOn Demo.couple_built Demo.chainHonest.spec.1 (.fwd i) (Nat.lt_of_le_of_lt hi.2 (by decide))).imp fun _ h => h.1)

/-- C150: no other choice of matches fulfils the conditions. -/
theorem C150_unique {m : XMatch W Out} {s : LLSelection W} (hs : s.Inside) (hw : WellBehaved s.ll_line.val m)
    {out out' : List (LLSelection W × Out)} (h : Leftmost m s out) (h' : Leftmost m s out') : out = out' :=
  h.unique hs hw h'

example : ∀ {out out'}, Leftmost Demo.couple Demo.chainSel out → Leftmost Demo.couple Demo.chainSel out' → out = out' :=
  C150_unique Demo.chainSel_inside Demo.couple_well

/-- C150: the loop panics exactly if the matcher panics at some token of the selection, also at one inside a match. -/
theorem C150_panics {m : XMatch W Out} (n : Nat) {s : LLSelection W} (hs : s.Inside) (hw : WellBehaved s.ll_line.val m) :
    (∃ e, scan m (n + 1) s = .error e) ↔ ∃ i e, s.Has i ∧ m.go (.fwd i) s.ll_line.val = .error e :=
  scan_panics n hs hw

example := C150_panics 3 Demo.chainSel_inside Demo.couple_well

/-- C150: what is kept are some of the results of `find_by`, in their order; and all of them exactly if no two overlap. -/
theorem C150_find_by {m : XMatch W Out} {s : LLSelection W} (hs : s.Inside) (hw : WellBehaved s.ll_line.val m)
    {found : List (LLSelection W × Out)} (hf : s.findBy m = .ok found) {n : Nat} (hn : s.count ≤ n) :
    ∃ out pieces, scan m n s = .ok (some (out, pieces)) ∧ out.Sublist found ∧ (out = found ↔ found.Pairwise Apart) := by
  obtain ⟨out, ps, he, hL, _⟩ := scan_spec n hs hw (findBy_ok_iff.1 hf).1 hn
  have hsub : ∀ p ∈ out, p ∈ found := by
    intro p hp
    obtain ⟨rs, hg⟩ := hL.first p hp
    exact (mem_findBy hf).2 ⟨hL.line p hp, hL.starts p hp, _, hg, List.mem_cons_self⟩
  refine ⟨out, ps, he, sublist_of_keys (fun p : LLSelection W × Out => p.1.start_idx) ?_ (findBy_sorted hf) hsub, ?_⟩
  · exact hL.apart.imp_of_mem (fun {p q} hp _ hpq => by
      have h1 := (hL.ends hs hw hp).1
      have : p.1.end_idx < q.1.start_idx := hpq
      omega)
  · constructor
    · rintro rfl
      exact hL.apart
    · intro hap
      refine hL.unique hs hw ⟨fun p hp => ((mem_findBy hf).1 hp).1, fun p hp => ((mem_findBy hf).1 hp).2.1, ?_, hap, ?_⟩
      · intro p hp
        obtain ⟨h1, h2, rs, h3, h4⟩ := (mem_findBy hf).1 hp
        cases rs with
        | nil => cases h4
        | cons r rs =>
          have hr : ((⟨s.ll_line, p.1.start_idx, r.2⟩ : LLSelection W), r.1) ∈ found :=
            (mem_findBy hf).2 ⟨rfl, h2, _, h3, List.mem_cons_self⟩
          have hlt : p.1.start_idx < s.ll_line.val.ll_tokens.length := by have := h2.2; have := hs.2; omega
          rcases pairwise_either hap hp hr with e | e | e
          · rw [h3]
            exact ⟨rs, by rw [e]⟩
          · have h5 : p.1.end_idx < p.1.start_idx := e
            have h6 : p.1.start_idx ≤ p.1.end_idx := (hw.1 _ _ hlt h3 _ h4).1
            omega
          · have h5 : r.2 < p.1.start_idx := e
            have h6 : p.1.start_idx ≤ r.2 := (hw.1 _ _ hlt h3 _ List.mem_cons_self).1
            omega
      · intro i r rs hi hg
        refine ⟨(⟨s.ll_line, i, r.2⟩, r.1), (mem_findBy hf).2 ⟨rfl, hi, _, hg, List.mem_cons_self⟩, Nat.le_refl _, ?_⟩
        exact (hw.1 _ _ (by have := hi.2; have := hs.2; omega) hg _ List.mem_cons_self).1

example := C150_find_by Demo.chainSel_inside Demo.couple_well rfl (n := 3) (by decide)

/-- C150: the pieces are those of `split_by`, if no two results of `find_by` overlap. -/
theorem C150_split_by {m : XMatch W Out} {s : LLSelection W} (hs : s.Inside) (hw : WellBehaved s.ll_line.val m)
    {found : List (LLSelection W × Out)} (hf : s.findBy m = .ok found) (hap : found.Pairwise Apart) {n : Nat} (hn : s.count ≤ n) :
    ∃ pieces, scan m n s = .ok (some (found, pieces)) ∧ s.splitBy m = .ok pieces := by
  obtain ⟨out, ps, he, _, hiff⟩ := C150_find_by hs hw hf hn
  have e := hiff.2 hap
  subst e
  obtain ⟨out', ps', he', _, hB⟩ := scan_spec n hs hw (findBy_ok_iff.1 hf).1 hn
  rw [he] at he'
  cases he'
  have hin : ∀ p ∈ out, p.1.start_idx ≤ p.1.end_idx := fun p hp => (findBy_inside hw hs hf (s' := p.1) (x := p.2) hp).2.1
  cases hsb : s.splitBy m with
  | error e =>
    obtain ⟨i, e', hi, hg⟩ := (C47_panics_iff s m).1 ⟨e, hsb⟩
    obtain ⟨rs, hrs⟩ := (findBy_ok_iff.1 hf).1 i hi
    rw [hrs] at hg
    cases hg
  | ok qs =>
    obtain ⟨q1, q2, q3, _⟩ := C47_split_by s m hs hw qs hsb
    have q4 := (C48_partial s m hs hw qs hsb).2 (fun ms hms => by
      rw [hf] at hms
      cases hms
      exact hap.imp_of_mem (fun {p q} hp hq hpq => by
        have h1 := hin q hq
        have : p.1.end_idx < q.1.start_idx := hpq
        omega))
    refine ⟨ps, he, congrArg Except.ok (pieces_ext (rc := s.ll_line) (fun p hp => ⟨(q1 p hp).1, (q1 p hp).2.2.1⟩)
      (fun p hp => ⟨(hB.parts p hp).1, (hB.parts p hp).2.2.1⟩) q2 hB.longest (fun i => ?_))⟩
    constructor
    · rintro ⟨p, hp, hi⟩
      obtain ⟨_, h1, h2, h3⟩ := q1 p hp
      have hsi : s.Has i := ⟨by have := hi.1; omega, by have := hi.2; omega⟩
      refine (hB.rest i hsi).2 (fun q hq hqi => ?_)
      obtain ⟨_, h5, rs, h6, h7⟩ := (mem_findBy hf).1 hq
      exact q4 p hp q.1.start_idx q.1.end_idx ⟨h5, rs, q.2, h6, h7⟩ i hqi.1 hqi.2 hi
    · rintro ⟨p, hp, hi⟩
      obtain ⟨_, h1, h2, h3⟩ := hB.parts p hp
      have hsi : s.Has i := ⟨by have := hi.1; omega, by have := hi.2; omega⟩
      have hno := (hB.rest i hsi).1 ⟨p, hp, hi⟩
      obtain ⟨p', hp', hi', _⟩ := q3 i hsi (fun a b ⟨ha, rs, x, hg, hm⟩ hc =>
        hno (⟨s.ll_line, a, b⟩, x) ((mem_findBy hf).2 ⟨rfl, ha, rs, hg, hm⟩) hc)
      exact ⟨p', hp', hi'⟩

example := C150_split_by Demo.chainSel_inside Demo.lone_well Demo.ones_found Demo.ones_apart (n := 3) (by decide)

/-- without that condition -/
def C150_split_by_claim : Prop := ∀ (W : World) (l : LLLine W) (h : History W) (Out : Type) (m : XMatch W Out) (s : LLSelection W)
  (out : List (LLSelection W × Out)) (pieces : List (LLSelection W)), Honest l h → Built (fun _ => True) false m → s.Inside → s.ll_line.val = l →
  scan m s.count s = .ok (some (out, pieces)) → s.splitBy m = .ok pieces

/-- C150: where matches overlap, `split_by` also removes the tokens of matches that begin inside a match kept. -/
theorem C150_split_by_false : ¬ C150_split_by_claim := fun c => by
  have h := c Demo.W Demo.chainLine _ _ Demo.couple Demo.chainSel _ _ Demo.chainHonest Demo.couple_built Demo.chainSel_inside rfl rfl
  cases h

/-- C150: a selection can be scanned in two parts, if no match kept in the left part reaches into the right part. -/
theorem C150_cut {m : XMatch W Out} {s : LLSelection W} (hs : s.Inside) (hw : WellBehaved s.ll_line.val m)
    (hok : ∀ i, s.Has i → ∃ rs, m.go (.fwd i) s.ll_line.val = .ok rs) {c n : Nat} (hc : s.start_idx ≤ c) (hc' : c < s.end_idx)
    (hn : s.count ≤ n) :
    ∃ out1 pieces1 out2 pieces2, scan m n { s with end_idx := c } = .ok (some (out1, pieces1)) ∧
      scan m n { s with start_idx := c + 1 } = .ok (some (out2, pieces2)) ∧
      ((∀ p ∈ out1, p.1.end_idx ≤ c) → ∃ pieces, scan m n s = .ok (some (out1 ++ out2, pieces))) := by
  have hs2 := hs.2
  unfold LLSelection.count at hn
  obtain ⟨o1, p1, e1, L1, _⟩ := scan_spec n (s := { s with end_idx := c }) ⟨hc, by simp only; omega⟩ hw
    (fun i hi => hok i ⟨hi.1, by have := hi.2; simp only at this; omega⟩) (by unfold LLSelection.count; simp only; omega)
  obtain ⟨o2, p2, e2, L2, _⟩ := scan_spec n (s := { s with start_idx := c + 1 }) ⟨hc', hs2⟩ hw
    (fun i hi => hok i ⟨by have := hi.1; simp only at this; omega, hi.2⟩) (by unfold LLSelection.count; simp only; omega)
  refine ⟨o1, p1, o2, p2, e1, e2, fun hr => ?_⟩
  obtain ⟨o, p, e, L, _⟩ := scan_spec n hs hw hok hn
  have : Leftmost m s (o1 ++ o2) := by
    refine ⟨?_, ?_, ?_, ?_, ?_⟩
    · intro p hp
      rcases List.mem_append.1 hp with hp | hp
      · exact L1.line p hp
      · exact L2.line p hp
    · intro p hp
      rcases List.mem_append.1 hp with hp | hp
      · have h1 := L1.starts p hp
        exact ⟨h1.1, by have := h1.2; simp only at this; omega⟩
      · have h1 := L2.starts p hp
        exact ⟨by have := h1.1; simp only at this; omega, h1.2⟩
    · intro p hp
      rcases List.mem_append.1 hp with hp | hp
      · exact L1.first p hp
      · exact L2.first p hp
    · refine List.pairwise_append.2 ⟨L1.apart, L2.apart, fun p hp q hq => ?_⟩
      have h1 := hr p hp
      have h2 := (L2.starts q hq).1
      simp only at h2
      show p.1.end_idx < q.1.start_idx
      omega
    · intro i r rs hi hg
      by_cases hic : i ≤ c
      · obtain ⟨p, hp, h⟩ := L1.covers i r rs ⟨hi.1, hic⟩ hg
        exact ⟨p, List.mem_append_left _ hp, h⟩
      · obtain ⟨p, hp, h⟩ := L2.covers i r rs ⟨by simp only; omega, hi.2⟩ hg
        exact ⟨p, List.mem_append_right _ hp, h⟩
  exact ⟨p, by rw [e, L.unique hs hw this]⟩

example := C150_cut Demo.chainSel_inside Demo.couple_well
  (fun i hi => (built_totalOn Demo.couple_built Demo.chainHonest.spec.1 (.fwd i) (Nat.lt_of_le_of_lt hi.2 (by decide))).imp fun _ h => h.1)
  (c := 1) (n := 3) (by decide) (by decide) (by decide)

/-- without that condition -/
def C150_cut_claim : Prop := ∀ (W : World) (l : LLLine W) (h : History W) (Out : Type) (m : XMatch W Out) (s : LLSelection W) (c : Nat)
  (o o1 o2 : List (LLSelection W × Out)) (p p1 p2 : List (LLSelection W)), Honest l h → Built (fun _ => True) false m → s.Inside →
  s.ll_line.val = l → s.start_idx ≤ c → c < s.end_idx → scan m s.count s = .ok (some (o, p)) →
  scan m s.count { s with end_idx := c } = .ok (some (o1, p1)) → scan m s.count { s with start_idx := c + 1 } = .ok (some (o2, p2)) →
  o = o1 ++ o2

/-- C150: a match kept in the left part may end in the right part, where another is then kept. -/
theorem C150_cut_false : ¬ C150_cut_claim := fun c => by
  have h := c Demo.W Demo.chainLine _ _ Demo.couple Demo.chainSel 0 _ _ _ _ _ _ Demo.chainHonest Demo.couple_built
    Demo.chainSel_inside rfl (by decide) (by decide) rfl rfl rfl
  have := congrArg List.length h
  cases this

/-- there are not more results that do not overlap -/
def C150_most_claim : Prop := ∀ (W : World) (l : LLLine W) (h : History W) (Out : Type) (m : XMatch W Out) (s : LLSelection W)
  (out found other : List (LLSelection W × Out)) (pieces : List (LLSelection W)), Honest l h → Built (fun _ => True) false m → s.Inside →
  s.ll_line.val = l → scan m s.count s = .ok (some (out, pieces)) → s.findBy m = .ok found → other.Sublist found →
  other.Pairwise Apart → other.length ≤ out.length

/-- C150: a long match at the left can take the place of several later ones. -/
theorem C150_most_false : ¬ C150_most_claim := fun c => by
  have h := c Demo.W Demo.chainLine _ _ Demo.tripleOrOne Demo.chainSel _ _ _ _ Demo.chainHonest Demo.tripleOrOne_built
    Demo.chainSel_inside rfl rfl rfl (List.Sublist.cons _ (List.Sublist.refl _))
    (List.pairwise_cons.2 ⟨fun q hq => by cases List.mem_singleton.1 hq; exact (by decide : 1 < 2), List.pairwise_singleton ..⟩)
  exact absurd h (by decide)

/-- C150: a resolver that scans never panics, and gives one value to each match of the leftmost choice; if there were no
attributes of this type, a query lists just these, from left to right, and no two of them overlap. -/
theorem C150_resolver {l : LLLine W} {h : History W} (hh : Honest l h) (ne : l.ll_tokens ≠ []) (ptr : Nat) (k : Ty W)
    {T : Ty W → Prop} {m : XMatch W Out} (hm : Built T false m) (value : Out → Val k) :
    ∃ l' out, l.run ptr (scanning k m value) = .ok l' ∧ Leftmost m (wholeLine l ptr) out ∧ out.Pairwise Apart ∧
      Honest l' (h ++ out.map (fun p => ⟨k, (p.1.start_idx, p.1.end_idx), value p.2⟩)) ∧
      ((∀ x ∈ h, x.ty ≠ k) → l'.query k = .ok (out.map (fun p =>
        ((p.1.start_idx, p.1.end_idx), coveredText l.ll_tokens (p.1.start_idx, p.1.end_idx), [value p.2])))) := by
  obtain ⟨hr, ho⟩ := hh.spec
  have hb : Builtin m := built_more (fun _ _ => trivial) (fun h => by cases h) hm
  have hw := builtin_wellBehaved hb hr.rep ho
  have hin := wholeLine_inside ne ptr
  obtain ⟨out, ps, he, hL, _⟩ := scan_spec (wholeLine l ptr).count hin hw
    (fun i hi => (built_totalOn hm hr (.fwd i) (Nat.lt_of_le_of_lt hi.2 hin.2)).imp fun _ h => h.1) (Nat.le_refl _)
  have hrun : HonestRun l ptr (scanning k m value) (finishWith out value) := by
    refine ⟨by simp only [scanning, he], fun a ha => ?_⟩
    obtain ⟨p, hp, rfl⟩ := List.mem_map.1 ha
    exact ⟨p.1, value p.2, scan_api hb _ .self he p hp, rfl⟩
  obtain ⟨l', hl'⟩ := honest_run_ok hr.rep ho ne hrun
  have hh' : Honest l' (h ++ (finishWith out value).map (recOf k)) := Honest.run l h ptr _ _ l' hh ne hrun hl'
  have e : (finishWith out value).map (recOf k) =
      (out.map (fun p => ((p.1.start_idx, p.1.end_idx), value p.2))).map (fun q : LRange × Val k => (⟨k, q.1, q.2⟩ : Rec W)) := by
    rw [finishWith, List.map_map, List.map_map]
    rfl
  rw [e] at hh'
  refine ⟨l', out, hl', hL, hL.apart, by rw [List.map_map] at hh'; exact hh', fun hn => ?_⟩
  have hd : ((out.map (fun p => ((p.1.start_idx, p.1.end_idx), value p.2))).map (·.1)).Nodup := by
    rw [List.map_map, List.Nodup, List.pairwise_map]
    exact hL.apart.imp_of_mem (fun {p q} hp _ hpq heq => by
      have h1 := (hL.ends hin hw hp).1
      have h2 : p.1.end_idx < q.1.start_idx := hpq
      have h3 : p.1.start_idx = q.1.start_idx := congrArg Prod.fst heq
      omega)
  obtain ⟨f1, f2⟩ := fresh_lists hn hd
  rw [rep_query hh'.spec.1.rep k, f1, run_tokens hl', List.map_map, List.map_map]
  · refine congrArg Except.ok (List.map_congr_left (fun p hp => ?_))
    have := f2 ((p.1.start_idx, p.1.end_idx), value p.2) (List.mem_map.2 ⟨p, hp, rfl⟩)
    simp only [Function.comp, this]
  · rw [f1]
    intro r hr
    obtain ⟨_, hq, rfl⟩ := List.mem_map.1 hr
    obtain ⟨p, hp, rfl⟩ := List.mem_map.1 hq
    exact Nat.le_succ_of_le (hL.ends hin hw hp).1

example := C150_resolver Demo.chainHonest Demo.chain_ne 1 (Ty.user 2) Demo.couple_built Demo.coupleValue

end LNlp
