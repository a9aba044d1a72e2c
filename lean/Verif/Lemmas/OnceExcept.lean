import Verif.Spec.OnceExcept
import Verif.Lemmas.Once
import Verif.Lemmas.Strata
/- Helper lemmas for Props/OnceExcept.lean. -/
namespace LNlp
variable {W : World}

/-- searching a whole line finds exactly the places where the right-hand side holds -/
theorem whole_efind {l : LLLine W} {h : History W} (hr : Reachable l h) (ho : Ordered h) (ne : l.ll_tokens ≠ []) (ptr : Nat)
    {α : Type} (p : EPat W α) : ∃ found, (wholeLine l ptr).findBy p.matcher = .ok found ∧
      ∀ s x, (s, x) ∈ found ↔ s.ll_line = ⟨ptr, l⟩ ∧ p.Holds l (· ∈ h) (· ∈ h) s.start_idx s.end_idx x := by
  obtain ⟨found, hf⟩ := findBy_total (wholeLine_inside ne ptr)
    (show TotalOn (wholeLine l ptr).ll_line.val p.matcher from built_totalOn (p.built false) hr)
  refine ⟨found, hf, fun s x => ?_⟩
  have hlen : 0 < l.ll_tokens.length := List.length_pos_iff.2 ne
  rw [mem_findBy hf]
  constructor
  · rintro ⟨h1, hi, rs, hrs, hm⟩
    have hi' : s.start_idx < l.ll_tokens.length := by
      have := hi.2
      simp only [wholeLine] at this
      omega
    obtain ⟨rs', hrs', hiff⟩ := p.matcher_spec hr ho hi'
    have hrs : p.matcher.go (.fwd s.start_idx) l = .ok rs := hrs
    rw [hrs] at hrs'; cases hrs'
    exact ⟨h1, (hiff _ _).1 hm⟩
  · rintro ⟨h1, hp⟩
    have hin := hp.inside (F := (· ∈ h)) (fun y hy => ⟨ho y hy, (hr.rep.bounds y hy).2⟩)
    obtain ⟨rs, hrs, hiff⟩ := p.matcher_spec hr ho (i := s.start_idx) (by omega)
    refine ⟨h1, ⟨Nat.zero_le _, ?_⟩, rs, hrs, (hiff _ _).2 hp⟩
    simp only [wholeLine]
    omega

/-- one run of a rule with exceptions that looks first adds its conclusions that are not there, each once -/
theorem eonce_run {l : LLLine W} {h : History W} (hh : Honest l h) (ne : l.ll_tokens ≠ []) (ptr : Nat) (r : ERule W)
    (hx : Exact r.attr) :
    ∃ l' new, l.run ptr r.once = .ok l' ∧ Honest l' (h ++ new) ∧ l'.ll_tokens = l.ll_tokens ∧ new.Nodup ∧
      (∀ x, x ∈ new ↔ r.Concludes l (· ∈ h) (· ∈ h) x ∧ x ∉ h) ∧ (new = [] → l' = l) := by
  obtain ⟨hr, ho⟩ := hh.spec
  obtain ⟨found, hf, hm⟩ := whole_efind hr ho ne ptr r.pat
  have hcand : ∀ c ∈ found.flatMap (fun st => (r.values st.2).map (fun v => (st.1, v))), c.1.ll_line = ⟨ptr, l⟩ ∧
      ∃ x, r.pat.Holds l (· ∈ h) (· ∈ h) c.1.start_idx c.1.end_idx x ∧ c.2 ∈ r.values x := by
    intro c hc
    obtain ⟨⟨s, x⟩, hs, hc⟩ := List.mem_flatMap.1 hc
    obtain ⟨v, hv, rfl⟩ := List.mem_map.1 hc
    exact ⟨((hm s x).1 hs).1, x, ((hm s x).1 hs).2, hv⟩
  obtain ⟨out, h1, h2, h3, h4⟩ := lookFirst_fold (sel := wholeLine l ptr) (k := r.attr)
    (there := fun c => (valuesOf r.attr (c.1.start_idx, c.1.end_idx) h).any (fun w => valEq r.attr w c.2))
    (found.flatMap (fun st => (r.values st.2).map (fun v => (st.1, v)))) [] (fun c hc => by
      obtain ⟨hits, hf', hm'⟩ := whole_find hr ho ne ptr (.attrEq r.attr c.2)
      refine ⟨hits, hf', ?_⟩
      rw [Bool.eq_iff_iff, List.any_eq_true, List.any_eq_true]
      have hl := (hcand c hc).1
      constructor
      · rintro ⟨⟨s, u⟩, hs, he⟩
        obtain ⟨hsl, w, hw, hin⟩ := (hm' s u).1 hs
        have := (eq_same_line hsl hl).1 he
        subst this
        exact ⟨w, mem_valuesOf.2 hin, hw⟩
      · rintro ⟨w, hw, he⟩
        exact ⟨(c.1, ()), (hm' c.1 ()).2 ⟨hl, w, he, mem_valuesOf.1 hw⟩, (eq_same_line hl hl).2 rfl⟩)
    List.Pairwise.nil
  simp only [List.nil_append] at h1 h3 h4
  have hrun : HonestRun l ptr r.once (out.map (fun s => s.1.finishWithAttr s.2)) := by
    refine ⟨by simp only [ERule.once, hf, h1], fun a ha => ?_⟩
    obtain ⟨c, hc, rfl⟩ := List.mem_map.1 ha
    obtain ⟨⟨s, x⟩, hs, hc'⟩ := List.mem_flatMap.1 (h2 c hc).1
    obtain ⟨v, _, rfl⟩ := List.mem_map.1 hc'
    exact ⟨s, v, .findBy .self (r.pat.built true) hf hs, rfl⟩
  obtain ⟨l', hl'⟩ := honest_run_ok hr.rep ho ne hrun
  refine ⟨l', _, hl', .run l h ptr r.once _ l' hh ne hrun hl', run_tokens hl', ?_, fun x => ?_, fun he => ?_⟩
  · rw [List.map_map]
    refine List.pairwise_map.2 (h3.imp_of_mem (fun {a b} ha hb hab he => ?_))
    have e1 := (Rec.mk.inj he).2.1
    have e2 := eq_of_heq (Rec.mk.inj he).2.2
    have ea : a.1 = b.1 := by
      have := (hcand a (h2 a ha).1).1
      have := (hcand b (h2 b hb).1).1
      obtain ⟨⟨_, _, _⟩, _⟩ := a
      obtain ⟨⟨_, _, _⟩, _⟩ := b
      simp only [LLSelection.finishWithAttr, Prod.mk.injEq] at *
      simp_all
    have ev : a.2 = b.2 := e2
    have := (hcand b (h2 b hb).1).1
    rw [ea, ev, (eq_same_line this this).2 rfl, (hx b.2 b.2).2 rfl] at hab
    cases hab
  · simp only [List.map_map, List.mem_map, Function.comp]
    constructor
    · rintro ⟨c, hc, rfl⟩
      obtain ⟨hl, x, hp, hv⟩ := hcand c (h2 c hc).1
      refine ⟨⟨_, _, x, c.2, hp, hv, rfl⟩, fun hin => ?_⟩
      have := (h2 c hc).2
      exact List.any_eq_false.1 this _ (mem_valuesOf.2 hin) ((hx _ _).2 rfl)
    · rintro ⟨⟨i, j, f, v, hp, hv, rfl⟩, hn⟩
      have hc : ((⟨⟨ptr, l⟩, i, j⟩, v) : LLSelection W × Val r.attr) ∈
          found.flatMap (fun st => (r.values st.2).map (fun v => (st.1, v))) :=
        List.mem_flatMap.2 ⟨(⟨⟨ptr, l⟩, i, j⟩, f), (hm _ _).2 ⟨rfl, hp⟩, List.mem_map.2 ⟨v, hv, rfl⟩⟩
      rcases h4 _ hc with ht | ho | ⟨s, hs, he⟩
      · obtain ⟨w, hw, he⟩ := List.any_eq_true.1 ht
        rw [(hx _ _).1 he] at hw
        exact absurd (mem_valuesOf.1 hw) hn
      · exact ⟨_, ho, rfl⟩
      · refine ⟨s, hs, ?_⟩
        obtain ⟨e1, e2⟩ := Bool.and_eq_true_iff.1 he
        have e1 := (eq_same_line (hcand s (h2 s hs).1).1 rfl).1 e1
        have e2 := (hx _ _).1 e2
        rw [e1, e2]
        rfl
  · have : out = [] := by simpa using he
    subst this
    have hgo := hrun.1
    rw [run_of_go ne hgo] at hl'
    simp only [List.map_nil, foldR] at hl'
    cases hl'
    rfl

/-- runs of rules that look first in a layer that starts with the facts `h0` -/
theorem eonces_run {l0 : LLLine W} {h0 : History W} {rules : List (ERule W)}
    (hx : ∀ r ∈ rules, ∀ r' ∈ rules, ¬ r.pat.Excepts r'.attr) (he : ∀ r ∈ rules, Exact r.attr) :
    ∀ (prog : List (Nat × ERule W)) {l : LLLine W} {h : History W}, Honest l h → l.ll_tokens ≠ [] →
      (∀ p ∈ prog, p.2 ∈ rules) → l.ll_tokens = l0.ll_tokens → (∀ x ∈ h0, x ∈ h) →
      (∀ x ∈ h, Entailed l0 h0 rules (· ∈ h0) x) →
      ∃ l' new, runAll l (eonceRuns prog) = .ok l' ∧ Honest l' (h ++ new) ∧ l'.ll_tokens = l0.ll_tokens ∧ new.Nodup ∧
        (∀ x ∈ new, x ∉ h) ∧ (∀ x ∈ new, ∃ p ∈ prog, x.ty = p.2.attr) ∧
        (∀ x ∈ h ++ new, Entailed l0 h0 rules (· ∈ h0) x) ∧
        (∀ p ∈ prog, ∀ x, p.2.Concludes l0 (· ∈ h) (· ∈ h0) x → x ∈ h ++ new) ∧ (new = [] → l' = l)
  | [], l, h, hh, _, _, ht, _, hd =>
    ⟨l, [], rfl, by simpa using hh, ht, .nil, by simp, by simp, by simpa using hd, by simp, fun _ => rfl⟩
  | (ptr, r) :: prog, l, h, hh, ne, hm, ht, hs, hd => by
    have hr : r ∈ rules := hm (ptr, r) (by simp)
    obtain ⟨l1, new, hl1, hh1, ht1, hnd, hn, hnil⟩ := eonce_run hh ne ptr r (he r hr)
    have agree : ∀ y, r.pat.Excepts y.ty → (y ∈ h ↔ y ∈ h0) := fun y hy => ⟨fun hyh => by
      rcases (hd y hyh).base with hy0 | ⟨r', hr', e⟩
      · exact hy0
      · rw [e] at hy
        exact absurd hy (hx r hr r' hr'), hs y⟩
    have hd1 : ∀ x ∈ h ++ new, Entailed l0 h0 rules (· ∈ h0) x := by
      intro x hxm
      rcases List.mem_append.1 hxm with hxm | hxm
      · exact hd x hxm
      · exact Entailed.closed hr ((((hn x).1 hxm).1.line ht.symm).mono (fun y _ hy => hd y hy) agree)
    obtain ⟨l', new', hl', hh', ht', hnd', hdj', hty', hd', hc', hnil'⟩ := eonces_run hx he prog hh1 (by rw [ht1]; exact ne)
      (fun p hp => hm p (by simp [hp])) (ht1.trans ht) (fun x hx => List.mem_append_left _ (hs x hx)) hd1
    refine ⟨l', new ++ new', ?_, by rw [← List.append_assoc]; exact hh', ht', ?_, ?_, ?_,
      by rw [← List.append_assoc]; exact hd', ?_, ?_⟩
    · simp only [eonceRuns, List.map_cons, runAll, hl1]
      exact hl'
    · rw [List.nodup_append]
      refine ⟨hnd, hnd', fun a ha b hb e => hdj' b hb ?_⟩
      rw [← e]
      exact List.mem_append_right _ ha
    · intro x hx
      rcases List.mem_append.1 hx with hx | hx
      · exact ((hn x).1 hx).2
      · exact fun hm => hdj' x hx (List.mem_append_left _ hm)
    · intro x hx
      rcases List.mem_append.1 hx with hx | hx
      · obtain ⟨⟨i, j, f, v, _, _, rfl⟩, _⟩ := (hn x).1 hx
        exact ⟨(ptr, r), by simp, rfl⟩
      · obtain ⟨p, hp, e⟩ := hty' x hx
        exact ⟨p, by simp [hp], e⟩
    · rw [← List.append_assoc]
      intro p hp x hxc
      rcases List.mem_cons.1 hp with rfl | hp
      · refine List.mem_append_left _ ?_
        by_cases hxh : x ∈ h
        · exact List.mem_append_left _ hxh
        · exact List.mem_append_right _ ((hn x).2
            ⟨(hxc.line ht).mono (fun y _ hy => hy) (fun y hy => (agree y hy).symm), hxh⟩)
      · exact hc' p hp x (hxc.mono (fun y _ hy => List.mem_append_left _ hy) (fun _ _ => Iff.rfl))
    · intro e
      obtain ⟨e1, e2⟩ := List.append_eq_nil_iff.1 e
      exact (hnil' e2).trans (hnil e1)

/-- looking first changes nothing but the repetitions -/
theorem eonces_same : ∀ (prog : List (Nat × ERule W)) {l1 l2 : LLLine W} {h1 h2 : History W}, Honest l1 h1 → Honest l2 h2 →
    l1.ll_tokens ≠ [] → l1.ll_tokens = l2.ll_tokens → (∀ x, x ∈ h1 ↔ x ∈ h2) → (∀ p ∈ prog, Exact p.2.attr) →
    ∃ l1' new1 l2' new2, runAll l1 (eonceRuns prog) = .ok l1' ∧ Honest l1' (h1 ++ new1) ∧
      runAll l2 (eruleRuns prog) = .ok l2' ∧ Honest l2' (h2 ++ new2) ∧ (∀ x, x ∈ h1 ++ new1 ↔ x ∈ h2 ++ new2) ∧
      new1.Nodup ∧ ∀ x ∈ new1, x ∉ h1
  | [], l1, l2, h1, h2, hh1, hh2, _, _, hs, _ =>
    ⟨l1, [], l2, [], rfl, by simpa using hh1, rfl, by simpa using hh2, by simpa using hs, .nil, by simp⟩
  | (ptr, r) :: prog, l1, l2, h1, h2, hh1, hh2, ne, ht, hs, hx => by
    obtain ⟨m1, n1, a1, a2, a3, a4, a5, _⟩ := eonce_run hh1 ne ptr r (hx (ptr, r) (by simp))
    obtain ⟨m2, n2, b1, b2, b3, b4⟩ := erule_run hh2 (by rw [← ht]; exact ne) ptr r
    obtain ⟨l1', n1', l2', n2', c1, c2, c3, c4, c5, c6, c7⟩ := eonces_same prog a2 b2 (by rw [a3]; exact ne)
      (by rw [a3, b3, ht]) (fun x => by
        rw [List.mem_append, List.mem_append, a5, b4, hs]
        constructor
        · rintro (h | ⟨h, _⟩)
          · exact .inl h
          · exact .inr ((h.line ht.symm).mono (fun y _ hy => (hs y).1 hy) (fun y _ => hs y))
        · rintro (h | h)
          · exact .inl h
          · by_cases hm : x ∈ h2
            · exact .inl hm
            · exact .inr ⟨(h.line ht).mono (fun y _ hy => (hs y).2 hy) (fun y _ => (hs y).symm), hm⟩)
      (fun p hp => hx p (by simp [hp]))
    refine ⟨l1', n1 ++ n1', l2', n2 ++ n2', ?_, by rw [← List.append_assoc]; exact c2, ?_, by rw [← List.append_assoc]; exact c4,
      by rw [← List.append_assoc, ← List.append_assoc]; exact c5, ?_, ?_⟩
    · simp only [eonceRuns, List.map_cons, runAll, a1]
      exact c1
    · simp only [eruleRuns, List.map_cons, runAll, b1]
      exact c3
    · rw [List.nodup_append]
      refine ⟨a4, c6, fun a ha b hb e => c7 b hb ?_⟩
      rw [← e]
      exact List.mem_append_right _ ha
    · intro x hx
      rcases List.mem_append.1 hx with hx | hx
      · exact ((a5 x).1 hx).2
      · exact fun hm => c7 x hx (List.mem_append_left _ hm)

/-- a layer that is done, and later layers that are, make a stable set -/
theorem stable_cons {l l1 : LLLine W} {h new1 new2 : History W} {rules later : List (ERule W)}
    (hs1 : ∀ r ∈ rules, ∀ r' ∈ rules, ¬ r.pat.Excepts r'.attr)
    (hs2 : ∀ r ∈ rules, ∀ r' ∈ later, ¬ r.pat.Mentions r'.attr ∧ ¬ r.pat.Excepts r'.attr)
    (a3 : l1.ll_tokens = l.ll_tokens) (a4 : ∀ x, x ∈ h ++ new1 ↔ Entailed l h rules (· ∈ h) x)
    (b4 : Stable l1 (h ++ new1) later (· ∈ h ++ new1 ++ new2)) : Stable l h (rules ++ later) (· ∈ h ++ new1 ++ new2) := by
  have late : ∀ y, y ∈ h ++ new1 ++ new2 → y ∈ h ++ new1 ∨ ∃ r ∈ later, y.ty = r.attr :=
    fun y hy => ((b4 y).1 hy).base
  have early : ∀ y, y ∈ h ++ new1 → y ∈ h ∨ ∃ r ∈ rules, y.ty = r.attr := fun y hy => ((a4 y).1 hy).base
  have agree : ∀ r ∈ rules, ∀ y, r.pat.Excepts y.ty → (y ∈ h ↔ y ∈ h ++ new1 ++ new2) := by
    intro r hr y hy
    refine ⟨fun hm => List.mem_append_left _ (List.mem_append_left _ hm), fun hm => ?_⟩
    rcases late y hm with hm | ⟨r', hr', e⟩
    · rcases early y hm with hm | ⟨r', hr', e⟩
      · exact hm
      · rw [e] at hy
        exact absurd hy (hs1 r hr r' hr')
    · rw [e] at hy
      exact absurd hy (hs2 r hr r' hr').2
  intro x
  constructor
  · intro hx F hF hc
    refine entailed_line (l' := l) a3.symm ((b4 x).1 hx) F (fun y hy => ?_) (fun r hr => hc r (List.mem_append_right _ hr))
    refine (a4 y).1 hy F hF (fun r hr z hz => hc r (List.mem_append_left _ hr) z ?_)
    exact hz.mono (fun _ _ hy => hy) (agree r hr)
  · intro hx
    refine hx (· ∈ h ++ new1 ++ new2) (fun y hy => List.mem_append_left _ (List.mem_append_left _ hy)) (fun r hr z hz => ?_)
    rcases List.mem_append.1 hr with hr | hr
    · refine List.mem_append_left _ ((a4 z).2 (Entailed.closed hr (hz.mono (fun y hm hy => ?_) (fun y hy => (agree r hr y hy).symm))))
      rcases late y hy with hy | ⟨r', hr', e⟩
      · exact (a4 y).1 hy
      · rw [e] at hm
        exact absurd hm (hs2 r hr r' hr').1
    · exact (b4 z).2 (Entailed.closed hr ((hz.line a3).mono (fun y _ hy => (b4 y).1 hy) (fun _ _ => Iff.rfl)))

/-- the number of values `query` lists is the number of records of the type -/
theorem listed_query {l : LLLine W} {h : History W} (hh : Honest l h) (k : Ty W) {q : List (LRange × Str × List (Val k))}
    (hq : l.query k = .ok q) : listed q = (h.filter (fun x => decide (x.ty = k))).length := by
  obtain ⟨hr, ho⟩ := hh.spec
  rw [C13_query_is_history hr k (fun r hm => by
    obtain ⟨v, hv⟩ := mem_rangesOf.1 hm
    have := ho _ hv
    simp only at this
    omega)] at hq
  cases hq
  rw [← valuesOf_total k h (rangesOf k h) (rangesOf_nodup k h) (fun x hx e => by
    obtain ⟨t, r, v⟩ := x
    simp only at e
    subst e
    exact mem_rangesOf.2 ⟨v, hx⟩)]
  simp only [listed, List.map_map, Function.comp_def]

theorem nothing_new {l l' : LLLine W} {h new : History W} (hh : Honest l h) (hh' : Honest l' (h ++ new))
    {rules : List (ERule W)} (hty : ∀ x ∈ new, ∃ r ∈ rules, x.ty = r.attr) (still : SameCounts rules l l') : new = [] := by
  refine List.eq_nil_iff_forall_not_mem.2 (fun x hxn => ?_)
  obtain ⟨r, hr, hty⟩ := hty x hxn
  obtain ⟨q1, q2, c1, c2, c3⟩ := still r hr
  rw [listed_query hh _ c1, listed_query hh' _ c2] at c3
  simp only [List.filter_append, List.length_append] at c3
  have : 0 < (new.filter (fun x => decide (x.ty = r.attr))).length :=
    List.length_pos_of_mem (List.mem_filter.2 ⟨hxn, by simpa using hty⟩)
  omega

/-- a layer of a loop ends with exactly what follows, each value once -/
theorem loop_layer {l : LLLine W} {h : History W} (hh : Honest l h) (ne : l.ll_tokens ≠ []) {rules : List (ERule W)}
    (hx : ∀ r ∈ rules, ∀ r' ∈ rules, ¬ r.pat.Excepts r'.attr) (he : ∀ r ∈ rules, Exact r.attr)
    {before pass : List (Nat × ERule W)} (hb : ∀ p ∈ before, p.2 ∈ rules) (hp : ∀ r, r ∈ rules ↔ ∃ p ∈ pass, p.2 = r)
    {l1 l2 : LLLine W} (h1 : runAll l (eonceRuns before) = .ok l1) (h2 : runAll l1 (eonceRuns pass) = .ok l2)
    (still : SameCounts rules l1 l2) :
    l2 = l1 ∧ ∃ new, Honest l1 (h ++ new) ∧ l1.ll_tokens = l.ll_tokens ∧ new.Nodup ∧ (∀ x ∈ new, x ∉ h) ∧
      ∀ x, x ∈ h ++ new ↔ Entailed l h rules (· ∈ h) x := by
  obtain ⟨l1', new1, a1, a2, a3, a4, a5, _, a7, _, _⟩ := eonces_run hx he before hh ne hb rfl (fun _ hx => hx)
    (fun x hx => Entailed.of_mem hx)
  rw [h1] at a1; cases a1
  obtain ⟨l2', new2, b1, b2, b3, _, _, b6, b7, b8, b9⟩ := eonces_run hx he pass a2 (by rw [a3]; exact ne)
    (fun p hp' => (hp _).2 ⟨p, hp', rfl⟩) a3 (fun x hx => List.mem_append_left _ hx) a7
  rw [h2] at b1; cases b1
  have hnil : new2 = [] := nothing_new a2 b2 (fun x hx => by
    obtain ⟨p, hpp, e⟩ := b6 x hx
    exact ⟨p.2, (hp _).2 ⟨p, hpp, rfl⟩, e⟩) still
  subst hnil
  refine ⟨b9 rfl, new1, a2, a3, a4, a5, fun x => ⟨a7 x, fun hxe => ?_⟩⟩
  refine hxe (· ∈ h ++ new1) (fun y hy => List.mem_append_left _ hy) (fun r hr z hz => ?_)
  obtain ⟨p, hpp, rfl⟩ := (hp r).1 hr
  simpa using b8 p hpp z hz

/-- a loop over layers ends with the stable set, each value once -/
theorem loop_stable {l l' : LLLine W} {layers : List (List (ERule W))} (hl : LayerLoop l layers l') :
    ∀ {h : History W}, Honest l h → l.ll_tokens ≠ [] → InStrata layers → (∀ r ∈ layers.flatten, Exact r.attr) →
      ∃ new, Honest l' (h ++ new) ∧ l'.ll_tokens = l.ll_tokens ∧ new.Nodup ∧ (∀ x ∈ new, x ∉ h) ∧
        Stable l h layers.flatten (· ∈ h ++ new) := by
  induction hl with
  | done l =>
    intro h hh _ _ _
    refine ⟨[], by simpa using hh, rfl, .nil, by simp, fun x => ⟨fun hx => Entailed.of_mem (by simpa using hx), fun hx => ?_⟩⟩
    rcases hx.base with hx | ⟨r, hr, _⟩
    · simpa using hx
    · cases hr
  | layer before pass hb hp h1 h2 still _ ih =>
    intro h hh ne hs he
    obtain ⟨hs1, hs2, hs3⟩ := hs
    obtain ⟨e, new1, a1, a2, a3, a4, a5⟩ := loop_layer hh ne hs1 (fun r hr => he r (by simp [hr])) hb hp h1 h2 still
    subst e
    obtain ⟨new2, b1, b2, b3, b4, b5⟩ := ih a1 (by rw [a2]; exact ne) hs3 (fun r hr => he r (by
      rw [List.flatten_cons]
      exact List.mem_append_right _ hr))
    refine ⟨new1 ++ new2, by rw [← List.append_assoc]; exact b1, b2.trans a2, ?_, ?_, ?_⟩
    · rw [List.nodup_append]
      refine ⟨a3, b3, fun a ha b hb e => b4 b hb ?_⟩
      rw [← e]
      exact List.mem_append_right _ ha
    · intro x hx
      rcases List.mem_append.1 hx with hx | hx
      · exact a4 x hx
      · exact fun hm => b4 x hx (List.mem_append_left _ hm)
    · rw [← List.append_assoc, List.flatten_cons]
      exact stable_cons hs1 hs2 a2 a5 b5

/-- where every conclusion is there already, rules that look first change nothing -/
theorem eonces_still {l : LLLine W} {h : History W} (hh : Honest l h) (ne : l.ll_tokens ≠ []) :
    ∀ (prog : List (Nat × ERule W)), (∀ p ∈ prog, Exact p.2.attr) →
      (∀ p ∈ prog, ∀ x, p.2.Concludes l (· ∈ h) (· ∈ h) x → x ∈ h) → runAll l (eonceRuns prog) = .ok l
  | [], _, _ => rfl
  | (ptr, r) :: prog, he, hc => by
    obtain ⟨l1, new, a1, _, _, _, a5, a6⟩ := eonce_run hh ne ptr r (he (ptr, r) (by simp))
    have : new = [] := List.eq_nil_iff_forall_not_mem.2 (fun x hx =>
      ((a5 x).1 hx).2 (hc (ptr, r) (by simp) x ((a5 x).1 hx).1))
    have e := a6 this
    subst e
    simp only [eonceRuns, List.map_cons, runAll, a1]
    exact eonces_still hh ne prog (fun p hp => he p (by simp [hp])) (fun p hp => hc p (by simp [hp]))

/-- after enough passes over a layer another pass changes nothing -/
theorem enough_still {l : LLLine W} {h : History W} (hh : Honest l h) (ne : l.ll_tokens ≠ []) (s : Stratum W)
    (hx : ∀ r ∈ s.rules, ∀ r' ∈ s.rules, ¬ r.pat.Excepts r'.attr) (he : ∀ r ∈ s.rules, Exact r.attr)
    (enough : s.Enough l.ll_tokens.length) :
    ∃ l' new, runAll l (eonceRuns s.passes.flatten) = .ok l' ∧ Honest l' (h ++ new) ∧ l'.ll_tokens = l.ll_tokens ∧
      ∀ prog : List (Nat × ERule W), (∀ p ∈ prog, p.2 ∈ s.rules) → runAll l' (eonceRuns prog) = .ok l' := by
  have hb : ∀ p ∈ s.passes.flatten, p.2 ∈ s.rules := fun p hm => by
    obtain ⟨pass, h1, h2⟩ := List.mem_flatten.1 hm
    exact (enough.1 pass h1 _).2 ⟨p, h2, rfl⟩
  obtain ⟨l1, new1, l2, new2, a1, a2, a3, a4, a5, _⟩ := eonces_same s.passes.flatten hh hh ne rfl (fun _ => Iff.rfl)
    (fun p hm => he _ (hb p hm))
  obtain ⟨l3, new3, b1, b2, b3, b4⟩ := stratum_run hh ne s hx enough
  rw [a3] at b1; cases b1
  have ht : l1.ll_tokens = l.ll_tokens := runs_tokens a1
  have key : ∀ x, x ∈ h ++ new1 ↔ Entailed l h s.rules (· ∈ h) x := fun x => (a5 x).trans ((honest_mem a4 b2 x).trans (b4 x))
  refine ⟨l1, new1, a1, a2, ht, fun prog hp => eonces_still a2 (by rw [ht]; exact ne) prog (fun p hm => he _ (hp p hm)) ?_⟩
  intro p hpp x hc
  refine (key x).2 (Entailed.closed (hp p hpp) ((hc.line ht.symm).mono (fun y _ hy => (key y).1 hy) (fun y hy => ?_)))
  refine ⟨fun hm => ?_, fun hm => List.mem_append_left _ hm⟩
  rcases ((key y).1 hm).base with hm | ⟨r', hr', e⟩
  · exact hm
  · rw [e] at hy
    exact absurd hy (hx _ (hp p hpp) r' hr')

theorem sameCounts_refl {l : LLLine W} {h : History W} (hh : Honest l h) (rules : List (ERule W)) : SameCounts rules l l := by
  obtain ⟨hr, ho⟩ := hh.spec
  intro r _
  have := C13_query_is_history hr r.attr (fun r hm => by
    obtain ⟨v, hv⟩ := mem_rangesOf.1 hm
    have := ho _ hv
    simp only at this
    omega)
  exact ⟨_, _, this, this, rfl⟩

/-- layers with enough passes are such a loop -/
theorem enough_loop : ∀ (layers : List (Stratum W)) {l : LLLine W} {h : History W}, Honest l h → l.ll_tokens ≠ [] →
    InStrata (layers.map (·.rules)) → (∀ r ∈ (layers.map (·.rules)).flatten, Exact r.attr) →
    (∀ s ∈ layers, s.Enough l.ll_tokens.length) →
    ∃ l', runAll l (onceStrataRuns layers) = .ok l' ∧ LayerLoop l (layers.map (·.rules)) l'
  | [], l, _, _, _, _, _, _ => ⟨l, rfl, .done l⟩
  | s :: layers, l, h, hh, ne, hst, he, en => by
    simp only [List.map_cons, InStrata] at hst
    obtain ⟨hs1, _, hs3⟩ := hst
    have he1 : ∀ r ∈ s.rules, Exact r.attr := fun r hr => he r (by
      rw [List.map_cons, List.flatten_cons]
      exact List.mem_append_left _ hr)
    obtain ⟨l1, new1, a1, a2, a3, a4⟩ := enough_still hh ne s hs1 he1 (en s (by simp))
    obtain ⟨l2, b1, b2⟩ := enough_loop layers a2 (by rw [a3]; exact ne) hs3 (fun r hr => he r (by
        rw [List.map_cons, List.flatten_cons]
        exact List.mem_append_right _ hr))
      (fun t ht => by rw [a3]; exact en t (by simp [ht]))
    refine ⟨l2, ?_, ?_⟩
    · simp only [onceStrataRuns, List.flatMap_cons] at b1 ⊢
      rw [runAll_append, a1]
      exact b1
    · refine .layer s.passes.flatten (s.rules.map (fun r => (0, r))) (fun p hm => ?_) (fun r => ?_) a1 (a4 _ (fun p hm => ?_))
        (sameCounts_refl a2 _) b2
      · obtain ⟨pass, h1, h2⟩ := List.mem_flatten.1 hm
        exact ((en s (by simp)).1 pass h1 _).2 ⟨p, h2, rfl⟩
      · exact ⟨fun hr => ⟨(0, r), List.mem_map.2 ⟨r, hr, rfl⟩, rfl⟩, fun ⟨p, hp, e⟩ => by
          obtain ⟨r', hr', rfl⟩ := List.mem_map.1 hp
          exact e ▸ hr'⟩
      · obtain ⟨r', hr', rfl⟩ := List.mem_map.1 hm
        exact hr'

/-- values added once each, and none that was there, are listed once each -/
theorem query_nodup {l l' : LLLine W} {h new : History W} (hh : Honest l h) (hh' : Honest l' (h ++ new)) (h4 : new.Nodup)
    (h5 : ∀ x ∈ new, x ∉ h) (k : Ty W) {q q' : List (LRange × Str × List (Val k))} (hq : l.query k = .ok q)
    (hq' : l'.query k = .ok q') (hn : ∀ e ∈ q, e.2.2.Nodup) : ∀ e ∈ q', e.2.2.Nodup := by
  obtain ⟨hr, ho⟩ := hh.spec
  obtain ⟨hr', ho'⟩ := hh'.spec
  have hd : ∀ {h : History W}, Ordered h → ∀ r ∈ rangesOf k h, r.1 ≤ r.2 + 1 := fun ho r hm => by
    obtain ⟨v, hv⟩ := mem_rangesOf.1 hm
    have := ho _ hv
    simp only at this
    omega
  rw [C13_query_is_history hr' k (hd ho')] at hq'
  cases hq'
  intro e he
  obtain ⟨r, _, rfl⟩ := List.mem_map.1 he
  rw [valuesOf_append, List.nodup_append]
  refine ⟨?_, ?_, fun a ha b hb e => ?_⟩
  · by_cases hm : r ∈ rangesOf k h
    · rw [C13_query_is_history hr k (hd ho)] at hq
      cases hq
      exact hn _ (List.mem_map.2 ⟨r, hm, rfl⟩)
    · have : valuesOf k r h = [] := Classical.byContradiction (fun hne => hm (mem_rangesOf_iff_values.2 hne))
      rw [this]
      exact .nil
  · refine List.Pairwise.filterMap _ (fun a a' hne b hb b' hb' e => hne ?_) h4
    by_cases ha : a.range = r
    · by_cases ha' : a'.range = r
      · rw [if_pos ha] at hb
        rw [if_pos ha'] at hb'
        have e1 := Rec.valAs_eq_some.1 hb
        have e2 := Rec.valAs_eq_some.1 hb'
        rw [e1, e2, ha, ha', e]
      · rw [if_neg ha'] at hb'
        cases hb'
    · rw [if_neg ha] at hb
      cases hb
  · subst e
    exact h5 _ (mem_valuesOf.1 hb) (mem_valuesOf.1 ha)

end LNlp
