import Verif.Spec.Once
import Verif.Lemmas.Grammar
import Verif.Props.Grammar
/- Helper lemmas for Props/Once.lean. -/
namespace LNlp
variable {W : World}

/-- searching a whole line finds exactly the places where the right-hand side holds -/
theorem whole_find {l : LLLine W} {h : History W} (hr : Reachable l h) (ho : Ordered h) (ne : l.ll_tokens ≠ []) (ptr : Nat)
    {α : Type} (p : Pat W α) : ∃ found, (wholeLine l ptr).findBy p.matcher = .ok found ∧
      ∀ s x, (s, x) ∈ found ↔ s.ll_line = ⟨ptr, l⟩ ∧ p.Holds l (· ∈ h) s.start_idx s.end_idx x := by
  obtain ⟨found, hf⟩ := findBy_total (wholeLine_inside ne ptr)
    (show TotalOn (wholeLine l ptr).ll_line.val p.matcher from built_totalOn p.built hr)
  refine ⟨found, hf, fun s x => ?_⟩
  have hlen : 0 < l.ll_tokens.length := List.length_pos_iff.2 ne
  rw [mem_findBy hf]
  constructor
  · rintro ⟨h1, hi, rs, hrs, hm⟩
    have hi' : s.start_idx < l.ll_tokens.length := by
      have := hi.2
      simp only [wholeLine] at this
      omega
    obtain ⟨rs', hrs', hiff⟩ := p.matcher_spec hr ho hi'
    have hrs : p.matcher.go (.fwd s.start_idx) l = .ok rs := hrs
    rw [hrs] at hrs'; cases hrs'
    exact ⟨h1, (hiff _ _).1 hm⟩
  · rintro ⟨h1, hp⟩
    have hin := hp.inside (F := (· ∈ h)) (fun y hy => ⟨ho y hy, (hr.rep.bounds y hy).2⟩)
    obtain ⟨rs, hrs, hiff⟩ := p.matcher_spec hr ho (i := s.start_idx) (by omega)
    refine ⟨h1, ⟨Nat.zero_le _, ?_⟩, rs, hrs, (hiff _ _).2 hp⟩
    simp only [wholeLine]
    omega

theorem eq_same_line {s t : LLSelection W} {c : Rc (LLLine W)} (hs : s.ll_line = c) (ht : t.ll_line = c) :
    s.eq t = true ↔ s = t := by
  obtain ⟨a, i, j⟩ := s
  obtain ⟨b, i', j'⟩ := t
  simp only at hs ht
  subst hs; subst ht
  simp [LLSelection.eq]

/-- the loop of a resolver that looks first -/
theorem lookFirst_fold {sel : LLSelection W} {k : Ty W} {there : LLSelection W × Val k → Bool} :
    ∀ (cands new : List (LLSelection W × Val k)),
      (∀ c ∈ cands, ∃ hits, sel.findBy (X.attrEq k c.2) = .ok hits ∧ hits.any (fun s => s.1.eq c.1) = there c) →
      new.Pairwise (fun a b => (a.1.eq b.1 && valEq k a.2 b.2) = false) →
      ∃ out, foldR (lookFirst sel k) new cands = .ok (new ++ out) ∧ (∀ c ∈ out, c ∈ cands ∧ there c = false) ∧
        (new ++ out).Pairwise (fun a b => (a.1.eq b.1 && valEq k a.2 b.2) = false) ∧
        ∀ c ∈ cands, there c = true ∨ c ∈ new ++ out ∨ ∃ s ∈ new ++ out, (s.1.eq c.1 && valEq k s.2 c.2) = true
  | [], new, _, hp => ⟨[], by simp [foldR], by simp, by simpa using hp, by simp⟩
  | c :: cands, new, hc, hp => by
    obtain ⟨hits, hf, ht⟩ := hc c (by simp)
    cases hk : there c || new.any (fun s => s.1.eq c.1 && valEq k s.2 c.2) with
    | true =>
      have hs : lookFirst sel k new c = .ok new := by simp only [lookFirst, hf, ht, hk, if_true]
      obtain ⟨out, h1, h2, h3, h4⟩ := lookFirst_fold cands new (fun x hx => hc x (by simp [hx])) hp
      refine ⟨out, by rw [foldR, hs]; exact h1, fun x hx => ⟨by simp [(h2 x hx).1], (h2 x hx).2⟩, h3, fun x hx => ?_⟩
      rcases List.mem_cons.1 hx with rfl | hx
      · rcases Bool.or_eq_true_iff.1 hk with hk | hk
        · exact .inl hk
        · obtain ⟨s, hs, he⟩ := List.any_eq_true.1 hk
          exact .inr (.inr ⟨s, List.mem_append_left _ hs, he⟩)
      · exact h4 x hx
    | false =>
      obtain ⟨hk1, hk2⟩ := Bool.or_eq_false_iff.1 hk
      have hs : lookFirst sel k new c = .ok (new ++ [c]) := by simp [lookFirst, hf, ht, hk]
      obtain ⟨out, h1, h2, h3, h4⟩ := lookFirst_fold cands (new ++ [c]) (fun x hx => hc x (by simp [hx])) (by
        rw [List.pairwise_append]
        refine ⟨hp, by simp, fun a ha b hb => ?_⟩
        rw [List.mem_singleton.1 hb]
        exact Bool.eq_false_iff.2 (List.any_eq_false.1 hk2 a ha))
      rw [List.append_assoc] at h1 h3 h4
      refine ⟨c :: out, by rw [foldR, hs]; simpa using h1, fun x hx => ?_, by simpa using h3, fun x hx => ?_⟩
      · rcases List.mem_cons.1 hx with rfl | hx
        · exact ⟨by simp, hk1⟩
        · exact ⟨by simp [(h2 x hx).1], (h2 x hx).2⟩
      · rcases List.mem_cons.1 hx with rfl | hx
        · exact .inr (.inl (by simp))
        · simpa using h4 x hx

/-- one run of a rule that looks first adds its conclusions that are not there, each once -/
theorem once_run {l : LLLine W} {h : History W} (hh : Honest l h) (ne : l.ll_tokens ≠ []) (ptr : Nat) (r : Rule W)
    (hx : Exact r.attr) :
    ∃ l' new, l.run ptr r.once = .ok l' ∧ Honest l' (h ++ new) ∧ l'.ll_tokens = l.ll_tokens ∧ new.Nodup ∧
      (∀ x, x ∈ new ↔ r.Concludes l (· ∈ h) x ∧ x ∉ h) ∧ (new = [] → l' = l) := by
  obtain ⟨hr, ho⟩ := hh.spec
  obtain ⟨found, hf, hm⟩ := whole_find hr ho ne ptr r.pat
  have hcand : ∀ c ∈ found.flatMap (fun st => (r.values st.2).map (fun v => (st.1, v))), c.1.ll_line = ⟨ptr, l⟩ ∧
      ∃ x, r.pat.Holds l (· ∈ h) c.1.start_idx c.1.end_idx x ∧ c.2 ∈ r.values x := by
    intro c hc
    obtain ⟨⟨s, x⟩, hs, hc⟩ := List.mem_flatMap.1 hc
    obtain ⟨v, hv, rfl⟩ := List.mem_map.1 hc
    exact ⟨((hm s x).1 hs).1, x, ((hm s x).1 hs).2, hv⟩
  obtain ⟨out, h1, h2, h3, h4⟩ := lookFirst_fold (sel := wholeLine l ptr) (k := r.attr)
    (there := fun c => (valuesOf r.attr (c.1.start_idx, c.1.end_idx) h).any (fun w => valEq r.attr w c.2))
    (found.flatMap (fun st => (r.values st.2).map (fun v => (st.1, v)))) [] (fun c hc => by
      obtain ⟨hits, hf', hm'⟩ := whole_find hr ho ne ptr (.attrEq r.attr c.2)
      refine ⟨hits, hf', ?_⟩
      rw [Bool.eq_iff_iff, List.any_eq_true, List.any_eq_true]
      have hl := (hcand c hc).1
      constructor
      · rintro ⟨⟨s, u⟩, hs, he⟩
        obtain ⟨hsl, w, hw, hin⟩ := (hm' s u).1 hs
        have := (eq_same_line hsl hl).1 he
        subst this
        exact ⟨w, mem_valuesOf.2 hin, hw⟩
      · rintro ⟨w, hw, he⟩
        exact ⟨(c.1, ()), (hm' c.1 ()).2 ⟨hl, w, he, mem_valuesOf.1 hw⟩, (eq_same_line hl hl).2 rfl⟩)
    List.Pairwise.nil
  simp only [List.nil_append] at h1 h3 h4
  have hrun : HonestRun l ptr r.once (out.map (fun s => s.1.finishWithAttr s.2)) := by
    refine ⟨by simp only [Rule.once, hf, h1], fun a ha => ?_⟩
    obtain ⟨c, hc, rfl⟩ := List.mem_map.1 ha
    obtain ⟨⟨s, x⟩, hs, hc'⟩ := List.mem_flatMap.1 (h2 c hc).1
    obtain ⟨v, _, rfl⟩ := List.mem_map.1 hc'
    exact ⟨s, v, .findBy .self r.pat.builtin hf hs, rfl⟩
  obtain ⟨l', hl'⟩ := honest_run_ok hr.rep ho ne hrun
  refine ⟨l', _, hl', .run l h ptr r.once _ l' hh ne hrun hl', run_tokens hl', ?_, fun x => ?_, fun he => ?_⟩
  · rw [List.map_map]
    refine List.pairwise_map.2 (h3.imp_of_mem (fun {a b} ha hb hab he => ?_))
    have e1 := (Rec.mk.inj he).2.1
    have e2 := eq_of_heq (Rec.mk.inj he).2.2
    have ea : a.1 = b.1 := by
      have := (hcand a (h2 a ha).1).1
      have := (hcand b (h2 b hb).1).1
      obtain ⟨⟨_, _, _⟩, _⟩ := a
      obtain ⟨⟨_, _, _⟩, _⟩ := b
      simp only [LLSelection.finishWithAttr, Prod.mk.injEq] at *
      simp_all
    have ev : a.2 = b.2 := e2
    have := (hcand b (h2 b hb).1).1
    rw [ea, ev, (eq_same_line this this).2 rfl, (hx b.2 b.2).2 rfl] at hab
    cases hab
  · simp only [List.map_map, List.mem_map, Function.comp]
    constructor
    · rintro ⟨c, hc, rfl⟩
      obtain ⟨hl, x, hp, hv⟩ := hcand c (h2 c hc).1
      refine ⟨⟨_, _, x, c.2, hp, hv, rfl⟩, fun hin => ?_⟩
      have := (h2 c hc).2
      exact List.any_eq_false.1 this _ (mem_valuesOf.2 hin) ((hx _ _).2 rfl)
    · rintro ⟨⟨i, j, f, v, hp, hv, rfl⟩, hn⟩
      have hc : ((⟨⟨ptr, l⟩, i, j⟩, v) : LLSelection W × Val r.attr) ∈
          found.flatMap (fun st => (r.values st.2).map (fun v => (st.1, v))) :=
        List.mem_flatMap.2 ⟨(⟨⟨ptr, l⟩, i, j⟩, f), (hm _ _).2 ⟨rfl, hp⟩, List.mem_map.2 ⟨v, hv, rfl⟩⟩
      rcases h4 _ hc with ht | ho | ⟨s, hs, he⟩
      · obtain ⟨w, hw, he⟩ := List.any_eq_true.1 ht
        rw [(hx _ _).1 he] at hw
        exact absurd (mem_valuesOf.1 hw) hn
      · exact ⟨_, ho, rfl⟩
      · refine ⟨s, hs, ?_⟩
        obtain ⟨e1, e2⟩ := Bool.and_eq_true_iff.1 he
        have e1 := (eq_same_line (hcand s (h2 s hs).1).1 rfl).1 e1
        have e2 := (hx _ _).1 e2
        rw [e1, e2]
        rfl
  · have : out = [] := by simpa using he
    subst this
    have hgo := hrun.1
    rw [run_of_go ne hgo] at hl'
    simp only [List.map_nil, foldR] at hl'
    cases hl'
    rfl

/-- rules that look first, run in any order and number -/
theorem onces_run : ∀ (prog : List (Nat × Rule W)) {l : LLLine W} {h : History W}, Honest l h → l.ll_tokens ≠ [] →
    (∀ p ∈ prog, Exact p.2.attr) →
    ∃ l' new, runAll l (onceRuns prog) = .ok l' ∧ Honest l' (h ++ new) ∧ l'.ll_tokens = l.ll_tokens ∧ new.Nodup ∧
      (∀ x ∈ new, x ∉ h) ∧ (∀ x ∈ new, ∃ p ∈ prog, x.ty = p.2.attr) ∧
      (∀ p ∈ prog, ∀ x, p.2.Concludes l (· ∈ h) x → x ∈ h ++ new) ∧ (new = [] → l' = l)
  | [], l, h, hh, _, _ => ⟨l, [], rfl, by simpa using hh, rfl, .nil, by simp, by simp, by simp, fun _ => rfl⟩
  | (ptr, r) :: prog, l, h, hh, ne, hx => by
    obtain ⟨l1, new1, hl1, hh1, ht1, hn1, hi1, he1⟩ := once_run hh ne ptr r (hx (ptr, r) (by simp))
    obtain ⟨l', new2, hl2, hh2, ht2, hn2, hd2, hy2, hc2, he2⟩ := onces_run prog hh1 (by rw [ht1]; exact ne)
      (fun p hp => hx p (by simp [hp]))
    refine ⟨l', new1 ++ new2, ?_, by rw [← List.append_assoc]; exact hh2, ht2.trans ht1, ?_, ?_, ?_, ?_, ?_⟩
    · simp only [onceRuns, List.map_cons, runAll, hl1]
      exact hl2
    · rw [List.nodup_append]
      refine ⟨hn1, hn2, fun a ha b hb e => hd2 b hb ?_⟩
      rw [← e]
      exact List.mem_append_right _ ha
    · intro x hx
      rcases List.mem_append.1 hx with hx | hx
      · exact ((hi1 x).1 hx).2
      · exact fun hm => hd2 x hx (List.mem_append_left _ hm)
    · intro x hx
      rcases List.mem_append.1 hx with hx | hx
      · obtain ⟨⟨i, j, f, v, _, _, rfl⟩, _⟩ := (hi1 x).1 hx
        exact ⟨(ptr, r), by simp, rfl⟩
      · obtain ⟨p, hp, e⟩ := hy2 x hx
        exact ⟨p, by simp [hp], e⟩
    · intro p hp x hc
      rw [← List.append_assoc]
      rcases List.mem_cons.1 hp with rfl | hp
      · refine List.mem_append_left _ ?_
        by_cases hm : x ∈ h
        · exact List.mem_append_left _ hm
        · exact List.mem_append_right _ ((hi1 x).2 ⟨hc, hm⟩)
      · exact hc2 p hp x ((hc.line ht1).mono (fun y _ hy => List.mem_append_left _ hy))
    · intro he
      obtain ⟨e1, e2⟩ := List.append_eq_nil_iff.1 he
      exact (he2 e2).trans (he1 e1)

/-- looking first changes nothing but the repetitions -/
theorem onces_same : ∀ (prog : List (Nat × Rule W)) {l1 l2 : LLLine W} {h1 h2 : History W}, Honest l1 h1 → Honest l2 h2 →
    l1.ll_tokens ≠ [] → l1.ll_tokens = l2.ll_tokens → (∀ x, x ∈ h1 ↔ x ∈ h2) → (∀ p ∈ prog, Exact p.2.attr) →
    ∃ l1' new1 l2' new2, runAll l1 (onceRuns prog) = .ok l1' ∧ Honest l1' (h1 ++ new1) ∧
      runAll l2 (ruleRuns prog) = .ok l2' ∧ Honest l2' (h2 ++ new2) ∧ (∀ x, x ∈ h1 ++ new1 ↔ x ∈ h2 ++ new2) ∧
      new1.Nodup ∧ ∀ x ∈ new1, x ∉ h1
  | [], l1, l2, h1, h2, hh1, hh2, _, _, hs, _ =>
    ⟨l1, [], l2, [], rfl, by simpa using hh1, rfl, by simpa using hh2, by simpa using hs, .nil, by simp⟩
  | (ptr, r) :: prog, l1, l2, h1, h2, hh1, hh2, ne, ht, hs, hx => by
    obtain ⟨m1, n1, a1, a2, a3, a4, a5, _⟩ := once_run hh1 ne ptr r (hx (ptr, r) (by simp))
    obtain ⟨m2, n2, b1, b2, b3, b4⟩ := rule_run hh2 (by rw [← ht]; exact ne) ptr r
    obtain ⟨l1', n1', l2', n2', c1, c2, c3, c4, c5, c6, c7⟩ := onces_same prog a2 b2 (by rw [a3]; exact ne)
      (by rw [a3, b3, ht]) (fun x => by
        rw [List.mem_append, List.mem_append, a5, b4, hs]
        constructor
        · rintro (h | ⟨h, _⟩)
          · exact .inl h
          · exact .inr ((h.line ht.symm).mono (fun y _ hy => (hs y).1 hy))
        · rintro (h | h)
          · exact .inl h
          · by_cases hm : x ∈ h2
            · exact .inl hm
            · exact .inr ⟨(h.line ht).mono (fun y _ hy => (hs y).2 hy), hm⟩)
      (fun p hp => hx p (by simp [hp]))
    refine ⟨l1', n1 ++ n1', l2', n2 ++ n2', ?_, by rw [← List.append_assoc]; exact c2, ?_, by rw [← List.append_assoc]; exact c4,
      by rw [← List.append_assoc, ← List.append_assoc]; exact c5, ?_, ?_⟩
    · simp only [onceRuns, List.map_cons, runAll, a1]
      exact c1
    · simp only [ruleRuns, List.map_cons, runAll, b1]
      exact c3
    · rw [List.nodup_append]
      refine ⟨a4, c6, fun a ha b hb e => c7 b hb ?_⟩
      rw [← e]
      exact List.mem_append_right _ ha
    · intro x hx
      rcases List.mem_append.1 hx with hx | hx
      · exact ((a5 x).1 hx).2
      · exact fun hm => c7 x hx (List.mem_append_left _ hm)

/-- the values of a type, counted range by range -/
theorem valuesOf_total (k : Ty W) : ∀ (h : History W) (rs : List LRange), rs.Nodup → (∀ x ∈ h, x.ty = k → x.range ∈ rs) →
    (rs.map (fun r => (valuesOf k r h).length)).sum = (h.filter (fun x => decide (x.ty = k))).length
  | [], rs, _, _ => by
    simp only [valuesOf, List.filterMap_nil, List.length_nil, List.filter_nil]
    induction rs with
    | nil => rfl
    | cons r rs ih => simp_all
  | x :: h, rs, hn, hm => by
    have ih := valuesOf_total k h rs hn (fun y hy => hm y (by simp [hy]))
    by_cases hk : x.ty = k
    · obtain ⟨t, rg, v⟩ := x
      simp only at hk
      subst hk
      rw [List.filter_cons_of_pos (by simp), List.length_cons, ← ih]
      have hin := hm ⟨t, rg, v⟩ (by simp) rfl
      have e : ∀ r, (valuesOf t r (⟨t, rg, v⟩ :: h)).length = (valuesOf t r h).length + if rg = r then 1 else 0 := by
        intro r
        have := valuesOf_append t r [⟨t, rg, v⟩] h
        rw [List.singleton_append] at this
        rw [this, List.length_append, Nat.add_comm]
        congr 1
        by_cases hr : rg = r
        · subst hr
          have := valuesOf_snoc_self t rg ([] : History W) v
          simp only [List.nil_append] at this
          rw [this]
          simp [valuesOf]
        · simp [valuesOf, hr]
      simp only [e]
      clear ih e hm
      induction rs with
      | nil => cases hin
      | cons r rs ih =>
        rw [List.nodup_cons] at hn
        simp only [List.map_cons, List.sum_cons]
        rcases List.mem_cons.1 hin with rfl | hin
        · have : rs.map (fun r => (valuesOf t r h).length + if rg = r then 1 else 0) = rs.map (fun r => (valuesOf t r h).length) := by
            refine List.map_congr_left (fun r hr => ?_)
            rw [if_neg (fun e => hn.1 (by rw [e]; exact hr))]
            rfl
          rw [this, if_pos rfl]
          omega
        · rw [if_neg (fun e => hn.1 (by rw [← e]; exact hin)), ih hn.2 hin]
          omega
    · rw [List.filter_cons_of_neg (by simpa using hk), ← ih]
      congr 1
      refine List.map_congr_left (fun r _ => ?_)
      have := valuesOf_append k r [x] h
      rw [List.singleton_append] at this
      rw [this]
      have e := valuesOf_snoc_ne_ty k r ([] : History W) x hk
      simp only [List.nil_append] at e
      rw [e]
      simp [valuesOf]

/-- a line does not depend on the history it is described with -/
theorem honest_mem {l : LLLine W} {h h' : History W} (hh : Honest l h) (hh' : Honest l h') (x : Rec W) : x ∈ h ↔ x ∈ h' := by
  obtain ⟨hr, ho⟩ := hh.spec
  obtain ⟨hr', ho'⟩ := hh'.spec
  have hq := C13_query_is_history hr x.ty (fun r hm => by
    obtain ⟨v, hv⟩ := mem_rangesOf.1 hm
    have := ho _ hv
    simp only at this
    omega)
  exact ((C13_query_complete hr x.ty _ hq).2.1 x.range x.val).symm.trans ((C13_query_complete hr' x.ty _ hq).2.1 x.range x.val)

/-- what rules that look first assign follows by the rules -/
theorem onces_sound {l : LLLine W} {h : History W} (hh : Honest l h) (ne : l.ll_tokens ≠ []) {rules : List (Rule W)}
    (hx : ∀ r ∈ rules, Exact r.attr) {prog : List (Nat × Rule W)} (hp : ∀ p ∈ prog, p.2 ∈ rules) :
    ∃ l' new, runAll l (onceRuns prog) = .ok l' ∧ Honest l' (h ++ new) ∧ l'.ll_tokens = l.ll_tokens ∧ new.Nodup ∧
      (∀ x ∈ new, x ∉ h) ∧ (∀ x ∈ new, ∃ p ∈ prog, x.ty = p.2.attr) ∧
      (∀ p ∈ prog, ∀ x, p.2.Concludes l (· ∈ h) x → x ∈ h ++ new) ∧ (new = [] → l' = l) ∧
      ∀ x ∈ h ++ new, Derivable l h rules x := by
  obtain ⟨l', new, h1, h2, h3, h4, h5, h6, h7, h8⟩ := onces_run prog hh ne (fun p hp' => hx _ (hp p hp'))
  refine ⟨l', new, h1, h2, h3, h4, h5, h6, h7, h8, ?_⟩
  clear h4 h5 h6 h7 h8
  suffices H : ∀ (prog : List (Nat × Rule W)) {l1 : LLLine W} {h1 : History W}, Honest l1 h1 → l1.ll_tokens = l.ll_tokens →
      (∀ p ∈ prog, p.2 ∈ rules) → (∀ x ∈ h1, Derivable l h rules x) → ∀ l' new, runAll l1 (onceRuns prog) = .ok l' →
      ∃ new, Honest l' (h1 ++ new) ∧ ∀ x ∈ h1 ++ new, Derivable l h rules x by
    obtain ⟨new', h2', h9⟩ := H prog hh rfl hp (fun x hx F hF _ => hF x hx) l' new h1
    exact fun x hx => h9 x ((honest_mem h2 h2' x).1 hx)
  intro prog
  induction prog with
  | nil =>
    intro l1 h1 hh1 ht hp hd l' new hrun
    cases hrun
    exact ⟨[], by simpa using hh1, by simpa using hd⟩
  | cons p prog ih =>
    obtain ⟨ptr, r⟩ := p
    intro l1 h1 hh1 ht hp hd l' new hrun
    obtain ⟨l2, new2, a1, a2, a3, a4, a5, _⟩ := once_run hh1 (by rw [ht]; exact ne) ptr r (hx r (hp (ptr, r) (by simp)))
    simp only [onceRuns, List.map_cons, runAll, a1] at hrun
    obtain ⟨new3, b1, b2⟩ := ih a2 (a3.trans ht) (fun p hp' => hp p (by simp [hp'])) (fun x hx => by
      rcases List.mem_append.1 hx with hx | hx
      · exact hd x hx
      · intro F hF hc
        refine hc r (hp (ptr, r) (by simp)) x ?_
        exact Rule.Concludes.line ht.symm (((a5 x).1 hx).1.mono (fun y _ hy => hd y hy F hF hc))) l' [] hrun
    exact ⟨new2 ++ new3, by rw [← List.append_assoc]; exact b1, by rw [← List.append_assoc]; exact b2⟩

/-- where nothing is left to conclude, rules that look first change nothing -/
theorem still_of_closed {l : LLLine W} {h : History W} (hh : Honest l h) (ne : l.ll_tokens ≠ []) {rules : List (Rule W)}
    (hx : ∀ r ∈ rules, Exact r.attr) (hc : Closed l rules (· ∈ h)) {prog : List (Nat × Rule W)} (hp : ∀ p ∈ prog, p.2 ∈ rules) :
    runAll l (onceRuns prog) = .ok l := by
  obtain ⟨l', new, h1, _, _, _, h5, _, _, h8, h9⟩ := onces_sound hh ne hx hp
  have : new = [] := List.eq_nil_iff_forall_not_mem.2 (fun x hx => h5 x hx
    (h9 x (List.mem_append_right _ hx) (· ∈ h) (fun _ hy => hy) hc))
  rw [h1, h8 this]

/-- and where a pass adds nothing, nothing is left to conclude -/
theorem closed_of_nothing_new {l1 : LLLine W} {h0 : History W} {l0 : LLLine W} {h1 : History W} {rules : List (Rule W)}
    (ht : l1.ll_tokens = l0.ll_tokens) (hh : ∀ x ∈ h0, x ∈ h1) (hs : ∀ x ∈ h1, Derivable l0 h0 rules x)
    {pass : List (Nat × Rule W)} (hp : ∀ r ∈ rules, ∃ p ∈ pass, p.2 = r)
    (hc : ∀ p ∈ pass, ∀ x, p.2.Concludes l1 (· ∈ h1) x → x ∈ h1) (x : Rec W) : x ∈ h1 ↔ Derivable l0 h0 rules x := by
  refine ⟨hs x, fun hd => hd (· ∈ h1) hh ?_⟩
  intro r hr x hx
  obtain ⟨p, hpp, rfl⟩ := hp r hr
  exact hc p hpp x (hx.line ht)

end LNlp
