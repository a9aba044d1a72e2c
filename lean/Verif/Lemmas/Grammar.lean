import Verif.Spec.Grammar
import Verif.Lemmas.Phrase
import Verif.Lemmas.Honest
import Verif.Lemmas.ProgramCareful
/- Helper lemmas for the grammars of Props/Grammar.lean. -/
namespace LNlp
variable {W : World} {α : Type}

theorem Pat.built : ∀ {α : Type} (p : Pat W α), Built (fun _ => True) false p.matcher
  | _, .attr k => .attr k trivial
  | _, .attrEq k v => .attrEq k trivial v
  | _, .text => .tokenText
  | _, .seq a b => .seq2 a.built b.built
  | _, .both a b => .all2 a.built b.built

theorem Pat.builtin : ∀ {α : Type} (p : Pat W α), Builtin p.matcher
  | _, .attr k => .attr k trivial
  | _, .attrEq k v => .attrEq k trivial v
  | _, .text => .tokenText
  | _, .seq a b => .seq2 a.builtin b.builtin
  | _, .both a b => .all2 a.builtin b.builtin

theorem Pat.Holds.mono {l : LLLine W} {F G : Rec W → Prop} : ∀ {α : Type} {p : Pat W α} {i j : Nat} {x : α},
    p.Holds l F i j x → (∀ y, p.Mentions y.ty → F y → G y) → p.Holds l G i j x
  | _, .attr _, _, _, _, h, hF => hF _ rfl h
  | _, .attrEq _ _, _, _, _, hh, hF => by
    obtain ⟨w, hw, h⟩ := hh
    exact ⟨w, hw, hF _ rfl h⟩
  | _, .text, _, _, _, h, _ => h
  | _, .seq _ _, _, _, (_, _), hh, hF => by
    obtain ⟨m, ha, hb⟩ := hh
    exact ⟨m, ha.mono (fun y hy => hF y (.inl hy)), hb.mono (fun y hy => hF y (.inr hy))⟩
  | _, .both _ _, _, _, (_, _), hh, hF => by
    obtain ⟨ha, hb⟩ := hh
    exact ⟨ha.mono (fun y hy => hF y (.inl hy)), hb.mono (fun y hy => hF y (.inr hy))⟩

/-- only the tokens of the line matter -/
theorem Pat.Holds.line {l l' : LLLine W} (ht : l'.ll_tokens = l.ll_tokens) {F : Rec W → Prop} :
    ∀ {α : Type} {p : Pat W α} {i j : Nat} {x : α}, p.Holds l F i j x → p.Holds l' F i j x
  | _, .attr _, _, _, _, h => h
  | _, .attrEq _ _, _, _, _, h => h
  | _, .text, _, _, _, h => ⟨h.1, by rw [textAt, ht]; exact h.2⟩
  | _, .seq _ _, _, _, (_, _), hh => by
    obtain ⟨m, ha, hb⟩ := hh
    exact ⟨m, ha.line ht, hb.line ht⟩
  | _, .both _ _, _, _, (_, _), hh => by
    obtain ⟨ha, hb⟩ := hh
    exact ⟨ha.line ht, hb.line ht⟩

theorem textAt_lt {l : LLLine W} {i : Nat} {s : Str} (h : textAt l i = some s) : i < l.ll_tokens.length := by
  unfold textAt at h
  cases hi : l.ll_tokens[i]? with
  | none => rw [hi] at h; cases h
  | some t => exact (List.getElem?_eq_some_iff.1 hi).1

theorem Pat.Holds.inside {l : LLLine W} {F : Rec W → Prop}
    (hF : ∀ y, F y → y.range.1 ≤ y.range.2 ∧ y.range.2 < l.ll_tokens.length) :
    ∀ {α : Type} {p : Pat W α} {i j : Nat} {x : α}, p.Holds l F i j x → i ≤ j ∧ j < l.ll_tokens.length
  | _, .attr _, _, _, _, h => hF _ h
  | _, .attrEq _ _, _, _, _, hh => by
    obtain ⟨_, _, h⟩ := hh
    exact hF _ h
  | _, .text, _, _, _, h => ⟨Nat.le_of_eq h.1, h.1 ▸ textAt_lt h.2⟩
  | _, .seq _ _, _, _, (_, _), hh => by
    obtain ⟨m, ha, hb⟩ := hh
    have h1 := ha.inside hF
    have h2 := hb.inside hF
    omega
  | _, .both _ _, _, _, (_, _), hh => by
    obtain ⟨ha, _⟩ := hh
    exact ha.inside hF

/-- facts of a shorter range only -/
theorem Pat.Holds.short {l : LLLine W} {F G : Rec W → Prop} {n : Nat}
    (hF : ∀ y, F y → y.range.1 ≤ y.range.2 ∧ y.range.2 < l.ll_tokens.length)
    (hs : ∀ y, F y → y.range.2 - y.range.1 < n → G y) :
    ∀ {α : Type} {p : Pat W α} {i j : Nat} {x : α}, p.Holds l F i j x → j - i < n → p.Holds l G i j x
  | _, .attr _, _, _, _, h, hl => hs _ h hl
  | _, .attrEq _ _, _, _, _, hh, hl => by
    obtain ⟨w, he, h⟩ := hh
    exact ⟨w, he, hs _ h hl⟩
  | _, .text, _, _, _, h, _ => h
  | _, .seq _ _, i, j, (_, _), hh, hl => by
    obtain ⟨m, ha, hb⟩ := hh
    have h1 := ha.inside hF
    have h2 := hb.inside hF
    exact ⟨m, ha.short hF hs (by omega), hb.short hF hs (by omega)⟩
  | _, .both _ _, _, _, (_, _), hh, hl => by
    obtain ⟨ha, hb⟩ := hh
    exact ⟨ha.short hF hs hl, hb.short hF hs hl⟩

/-- facts of a range shorter than the whole, except those mentioned as the whole -/
theorem Pat.Holds.shrink {l : LLLine W} {F G : Rec W → Prop} {n : Nat}
    (hF : ∀ y, F y → y.range.1 ≤ y.range.2 ∧ y.range.2 < l.ll_tokens.length)
    (hs : ∀ y, F y → y.range.2 - y.range.1 < n → G y) :
    ∀ {α : Type} {p : Pat W α} {i j : Nat} {x : α}, p.Holds l F i j x → j - i ≤ n →
      (∀ y, p.MentionsWhole y.ty → F y → G y) → p.Holds l G i j x
  | _, .attr _, _, _, _, h, _, hw => hw _ rfl h
  | _, .attrEq _ _, _, _, _, hh, _, hw => by
    obtain ⟨w, he, h⟩ := hh
    exact ⟨w, he, hw _ rfl h⟩
  | _, .text, _, _, _, h, _, _ => h
  | _, .seq _ _, i, j, (_, _), hh, hl, _ => by
    obtain ⟨m, ha, hb⟩ := hh
    have h1 := ha.inside hF
    have h2 := hb.inside hF
    exact ⟨m, ha.short hF hs (by omega), hb.short hF hs (by omega)⟩
  | _, .both _ _, _, _, (_, _), hh, hl, hw => by
    obtain ⟨ha, hb⟩ := hh
    exact ⟨ha.shrink hF hs hl (fun y hy => hw y (.inl hy)), hb.shrink hF hs hl (fun y hy => hw y (.inr hy))⟩

/-- a matcher finds forwards exactly what holds -/
theorem Pat.matcher_spec {l : LLLine W} {h : History W} (hr : Reachable l h) (ho : Ordered h) :
    ∀ {α : Type} (p : Pat W α) {i : Nat}, i < l.ll_tokens.length →
      ∃ rs, p.matcher.go (.fwd i) l = .ok rs ∧ ∀ x j, (x, j) ∈ rs ↔ p.Holds l (· ∈ h) i j x := by
  have hF : ∀ y, y ∈ h → y.range.1 ≤ y.range.2 ∧ y.range.2 < l.ll_tokens.length :=
    fun y hy => ⟨ho y hy, (hr.rep.bounds y hy).2⟩
  intro α p
  induction p with
  | attr k =>
    intro i hi
    refine ⟨_, rep_attr_fwd hr.rep k hi, fun x j => ?_⟩
    rw [mem_attr_list]
    exact ⟨fun ⟨r, h1, h2, h3⟩ => by cases r; cases h1; cases h2; exact h3, fun h => ⟨_, rfl, rfl, h⟩⟩
  | attrEq k v =>
    intro i hi
    refine ⟨_, rep_attrEq_fwd hr.rep k v hi, fun x j => ?_⟩
    rw [mem_oneOf_list]
    exact ⟨fun ⟨r, w, h1, h2, h3, _, h4⟩ => by cases r; cases h1; cases h2; exact ⟨w, h3, h4⟩,
      fun ⟨w, h1, h2⟩ => ⟨_, w, rfl, rfl, h1, rfl, h2⟩⟩
  | text =>
    intro i hi
    have hg := textToken_fwd l i
    rw [List.getElem?_eq_getElem hi] at hg
    have ht : textAt l i = (match l.ll_tokens[i].token with
      | .Text s _ => some s
      | .Value => none) := by rw [textAt, List.getElem?_eq_getElem hi]; rfl
    cases hk : l.ll_tokens[i].token with
    | Text s tag =>
      rw [hk] at ht
      simp only [hk] at hg
      refine ⟨_, hg, fun x j => ?_⟩
      simp only [List.mem_singleton, Prod.mk.injEq, Pat.Holds, ht, Option.some.injEq]
      exact ⟨fun ⟨a, b⟩ => ⟨b.symm, a.symm⟩, fun ⟨a, b⟩ => ⟨b.symm, a.symm⟩⟩
    | Value =>
      rw [hk] at ht
      simp only [hk] at hg
      exact ⟨_, hg, fun x j => by simp [Pat.Holds, ht]⟩
  | seq a b iha ihb =>
    intro i hi
    obtain ⟨rs, hrs, _⟩ := built_totalOn (Pat.built (.seq a b)) hr (.fwd i) hi
    refine ⟨rs, hrs, fun x j => ?_⟩
    obtain ⟨x, y⟩ := x
    rw [mem_seq2 hrs]
    constructor
    · rintro ⟨as, m, d', bs, ha, hma, ⟨rfl, hm⟩, hb, hmb⟩
      obtain ⟨as', ha', hia⟩ := iha hi
      obtain ⟨bs', hb', hib⟩ := ihb hm
      rw [ha] at ha'; cases ha'
      rw [hb] at hb'; cases hb'
      exact ⟨m, (hia x m).1 hma, (hib y j).1 hmb⟩
    · rintro ⟨m, ha, hb⟩
      have hm := hb.inside hF
      obtain ⟨as, ha', hia⟩ := iha hi
      obtain ⟨bs, hb', hib⟩ := ihb (i := m + 1) (by omega)
      exact ⟨as, m, _, bs, ha', (hia x m).2 ha, ⟨rfl, by omega⟩, hb', (hib y j).2 hb⟩
  | both a b iha ihb =>
    intro i hi
    obtain ⟨rs, hrs, _⟩ := built_totalOn (Pat.built (.both a b)) hr (.fwd i) hi
    refine ⟨rs, hrs, fun x j => ?_⟩
    obtain ⟨x, y⟩ := x
    rw [mem_all2 hrs]
    obtain ⟨as, ha, hia⟩ := iha hi
    obtain ⟨bs, hb, hib⟩ := ihb hi
    constructor
    · rintro ⟨as', bs', ha', hb', h1, h2⟩
      rw [ha] at ha'; cases ha'
      rw [hb] at hb'; cases hb'
      exact ⟨(hia x j).1 h1, (hib y j).1 h2⟩
    · rintro ⟨h1, h2⟩
      exact ⟨as, bs, ha, hb, (hia x j).2 h1, (hib y j).2 h2⟩

theorem Rule.Concludes.mono {l : LLLine W} {F G : Rec W → Prop} {r : Rule W} {x : Rec W} (h : r.Concludes l F x)
    (hF : ∀ y, r.pat.Mentions y.ty → F y → G y) : r.Concludes l G x := by
  obtain ⟨i, j, f, v, hh, hv, rfl⟩ := h
  exact ⟨i, j, f, v, hh.mono hF, hv, rfl⟩

theorem Rule.Concludes.line {l l' : LLLine W} (ht : l'.ll_tokens = l.ll_tokens) {F : Rec W → Prop} {r : Rule W}
    {x : Rec W} (h : r.Concludes l F x) : r.Concludes l' F x := by
  obtain ⟨i, j, f, v, hh, hv, rfl⟩ := h
  exact ⟨i, j, f, v, hh.line ht, hv, rfl⟩

/-- one run of a rule adds exactly its conclusions from the facts so far -/
theorem rule_run {l : LLLine W} {h : History W} (hh : Honest l h) (ne : l.ll_tokens ≠ []) (ptr : Nat) (r : Rule W) :
    ∃ l' new, l.run ptr r.resolver = .ok l' ∧ Honest l' (h ++ new) ∧ l'.ll_tokens = l.ll_tokens ∧
      ∀ x, x ∈ new ↔ r.Concludes l (· ∈ h) x := by
  obtain ⟨hr, ho⟩ := hh.spec
  obtain ⟨found, hf⟩ := findBy_total (wholeLine_inside ne ptr)
    (show TotalOn (wholeLine l ptr).ll_line.val r.pat.matcher from built_totalOn r.pat.built hr)
  have hrun : HonestRun l ptr r.resolver
      (found.flatMap (fun st => (r.values st.2).map (fun v => st.1.finishWithAttr v))) := by
    refine ⟨by simp only [Rule.resolver, hf], fun a ha => ?_⟩
    exact honest_findBy r.pat.builtin hf ha
  obtain ⟨l', hl'⟩ := honest_run_ok hr.rep ho ne hrun
  refine ⟨l', _, hl', .run l h ptr r.resolver _ l' hh ne hrun hl', run_tokens hl', fun x => ?_⟩
  have hlen : 0 < l.ll_tokens.length := List.length_pos_iff.2 ne
  simp only [List.mem_map, List.mem_flatMap]
  constructor
  · rintro ⟨a, ⟨⟨s, f⟩, hs, v, hv, rfl⟩, rfl⟩
    obtain ⟨_, hi, rs, hrs, hm⟩ := (mem_findBy hf).1 hs
    have hi' : s.start_idx < l.ll_tokens.length := by
      have := hi.2
      simp only [wholeLine] at this
      omega
    obtain ⟨rs', hrs', hiff⟩ := r.pat.matcher_spec hr ho hi'
    have hrs : r.pat.matcher.go (.fwd s.start_idx) l = .ok rs := hrs
    rw [hrs] at hrs'; cases hrs'
    exact ⟨s.start_idx, s.end_idx, f, v, (hiff _ _).1 hm, hv, rfl⟩
  · rintro ⟨i, j, f, v, hp, hv, rfl⟩
    have hin := hp.inside (F := (· ∈ h)) (fun y hy => ⟨ho y hy, (hr.rep.bounds y hy).2⟩)
    obtain ⟨rs, hrs, hiff⟩ := r.pat.matcher_spec hr ho (i := i) (by omega)
    refine ⟨_, ⟨(⟨⟨ptr, l⟩, i, j⟩, f), (mem_findBy hf).2 ⟨rfl, ⟨Nat.zero_le _, ?_⟩, rs, hrs, (hiff _ _).2 hp⟩, v, hv, rfl⟩, rfl⟩
    simp only [wholeLine]
    omega

/-- any sequence of rules runs, and keeps to what follows by the rules -/
theorem rules_run {l0 : LLLine W} {h0 : History W} {rules : List (Rule W)} :
    ∀ (prog : List (Nat × Rule W)) {l : LLLine W} {h : History W}, Honest l h → l.ll_tokens ≠ [] →
      (∀ p ∈ prog, p.2 ∈ rules) → l.ll_tokens = l0.ll_tokens → (∀ x ∈ h, Derivable l0 h0 rules x) →
      ∃ l' new, runAll l (ruleRuns prog) = .ok l' ∧ Honest l' (h ++ new) ∧
        l'.ll_tokens = l0.ll_tokens ∧ (∀ x ∈ h ++ new, Derivable l0 h0 rules x) ∧
        (∀ p ∈ prog, ∀ x, p.2.Concludes l (· ∈ h) x → x ∈ h ++ new) ∧
        (∀ x ∈ new, ∃ p ∈ prog, x.ty = p.2.attr) ∧
        (Layered (prog.map (·.2)) → Closed l (prog.map (·.2)) (· ∈ h ++ new))
  | [], l, h, hh, _, _, ht, hd =>
    ⟨l, [], rfl, by simpa using hh, ht, by simpa using hd, by simp, by simp, fun _ r hr => by cases hr⟩
  | (ptr, r) :: prog, l, h, hh, ne, hm, ht, hd => by
    obtain ⟨l1, new, hl1, hh1, ht1, hn⟩ := rule_run hh ne ptr r
    obtain ⟨l', new', hl', hh', ht', hd', hc', hty, hcl⟩ := rules_run (l0 := l0) (h0 := h0) (rules := rules) prog hh1 (by rw [ht1]; exact ne)
      (fun p hp => hm p (by simp [hp])) (ht1.trans ht) (fun x hx => by
        rcases List.mem_append.1 hx with hx | hx
        · exact hd x hx
        · intro F hF hc
          refine hc r (hm (ptr, r) (by simp)) x ?_
          refine Rule.Concludes.line ht.symm (((hn x).1 hx).mono (fun y _ hy => ?_))
          exact hd y hy F hF hc)
    refine ⟨l', new ++ new', ?_, by rw [← List.append_assoc]; exact hh', ht',
      by rw [← List.append_assoc]; exact hd', ?_, ?_, ?_⟩
    · simp only [ruleRuns, List.map_cons, runAll, hl1]
      exact hl'
    · rw [← List.append_assoc]
      intro p hp x hx
      rcases List.mem_cons.1 hp with rfl | hp
      · exact List.mem_append_left _ (List.mem_append_right _ ((hn x).2 hx))
      · exact hc' p hp x ((hx.line ht1).mono (fun y _ hy => List.mem_append_left _ hy))
    · intro x hx
      rcases List.mem_append.1 hx with hx | hx
      · obtain ⟨i, j, f, v, _, _, rfl⟩ := (hn x).1 hx
        exact ⟨(ptr, r), by simp, rfl⟩
      · obtain ⟨p, hp, e⟩ := hty x hx
        exact ⟨p, by simp [hp], e⟩
    · rw [← List.append_assoc]
      intro hl r' hr' x hx
      simp only [List.map_cons, List.mem_cons] at hr'
      rcases hr' with rfl | hr'
      · refine List.mem_append_left _ (List.mem_append_right _ ((hn x).2 (hx.mono (fun y hy hm => ?_))))
        have hno := hl.1
        rcases List.mem_append.1 hm with hm | hm
        · rcases List.mem_append.1 hm with hm | hm
          · exact hm
          · obtain ⟨i, j, f, v, _, _, rfl⟩ := (hn y).1 hm
            exact absurd hy (hno r' (by simp))
        · obtain ⟨p, hp, e⟩ := hty y hm
          rw [e] at hy
          exact absurd hy (hno p.2 (List.mem_cons_of_mem _ (List.mem_map.2 ⟨p, hp, rfl⟩)))
      · exact hcl hl.2 r' hr' x (hx.line ht1)

theorem InSteps.succ {l : LLLine W} {h : History W} {rules : List (Rule W)} {n : Nat} {x : Rec W}
    (hx : InSteps l h rules n x) : InSteps l h rules (n + 1) x := .inl hx

theorem InSteps.le {l : LLLine W} {h : History W} {rules : List (Rule W)} {n m : Nat} {x : Rec W} (hnm : n ≤ m)
    (hx : InSteps l h rules n x) : InSteps l h rules m x := by
  induction hnm with
  | refl => exact hx
  | step _ ih => exact ih.succ

theorem InSteps.derivable {l : LLLine W} {h : History W} {rules : List (Rule W)} : ∀ {n : Nat} {x : Rec W},
    InSteps l h rules n x → Derivable l h rules x
  | 0, x, hx, F, hF, _ => hF x hx
  | n + 1, x, hx, F, hF, hc => by
    rcases hx with hx | ⟨r, hr, hx⟩
    · exact hx.derivable F hF hc
    · exact hc r hr x (hx.mono (fun y _ hy => hy.derivable F hF hc))

/-- facts found in finitely many steps -/
theorem Pat.Holds.finite {l : LLLine W} {F : Nat → Rec W → Prop} (hm : ∀ (n m : Nat) (y), n ≤ m → F n y → F m y) :
    ∀ {α : Type} {p : Pat W α} {i j : Nat} {x : α}, p.Holds l (fun y => ∃ n, F n y) i j x → ∃ n, p.Holds l (F n) i j x
  | _, .attr _, _, _, _, hh => by
    obtain ⟨n, h⟩ := hh
    exact ⟨n, h⟩
  | _, .attrEq _ _, _, _, _, hh => by
    obtain ⟨w, he, n, h⟩ := hh
    exact ⟨n, w, he, h⟩
  | _, .text, _, _, _, h => ⟨0, h⟩
  | _, .seq _ _, _, _, (_, _), hh => by
    obtain ⟨m, ha, hb⟩ := hh
    obtain ⟨n1, h1⟩ := ha.finite hm
    obtain ⟨n2, h2⟩ := hb.finite hm
    exact ⟨n1 + n2, m, h1.mono (fun y _ => hm _ _ y (by omega)), h2.mono (fun y _ => hm _ _ y (by omega))⟩
  | _, .both _ _, _, _, (_, _), hh => by
    obtain ⟨ha, hb⟩ := hh
    obtain ⟨n1, h1⟩ := ha.finite hm
    obtain ⟨n2, h2⟩ := hb.finite hm
    exact ⟨n1 + n2, h1.mono (fun y _ => hm _ _ y (by omega)), h2.mono (fun y _ => hm _ _ y (by omega))⟩

theorem derivable_iff_within {l : LLLine W} {h : History W} {rules : List (Rule W)} {x : Rec W} :
    Derivable l h rules x ↔ ∃ n, InSteps l h rules n x := by
  constructor
  · intro hx
    refine hx (fun x => ∃ n, InSteps l h rules n x) (fun y hy => ⟨0, hy⟩) ?_
    rintro r hr x ⟨i, j, f, v, hp, hv, rfl⟩
    obtain ⟨n, hp⟩ := hp.finite (F := InSteps l h rules) (fun _ _ _ h1 h2 => h2.le h1)
    exact ⟨n + 1, .inr ⟨r, hr, i, j, f, v, hp, hv, rfl⟩⟩
  · rintro ⟨n, hx⟩
    exact hx.derivable

theorem InSteps.base {l : LLLine W} {h : History W} {rules : List (Rule W)} {x : Rec W} (hx : ∀ r ∈ rules, x.ty ≠ r.attr) :
    ∀ {n : Nat}, InSteps l h rules n x → x ∈ h
  | 0, h => h
  | n + 1, h => by
    rcases h with h | ⟨r, hr, i, j, f, v, _, _, rfl⟩
    · exact h.base hx
    · exact absurd rfl (hx r hr)

/-- a derivation of a fact is no deeper than the range is long, if rules only use facts about parts -/
theorem growing_within {l : LLLine W} {h : History W} {rules : List (Rule W)} (hg : Growing rules)
    (hin : ∀ y ∈ h, y.range.1 ≤ y.range.2 ∧ y.range.2 < l.ll_tokens.length) {x : Rec W} (hx : Derivable l h rules x) :
    (x.range.1 ≤ x.range.2 ∧ x.range.2 < l.ll_tokens.length) ∧
      InSteps l h rules (x.range.2 - x.range.1 + 1) x := by
  refine hx (fun x => (x.range.1 ≤ x.range.2 ∧ x.range.2 < l.ll_tokens.length) ∧
      InSteps l h rules (x.range.2 - x.range.1 + 1) x)
    (fun y hy => ⟨hin y hy, InSteps.le (Nat.zero_le _) (show InSteps l h rules 0 y from hy)⟩) ?_
  rintro r hr x ⟨i, j, f, v, hp, hv, rfl⟩
  refine ⟨hp.inside (fun y hy => hy.1), .inr ⟨r, hr, i, j, f, v, ?_, hv, rfl⟩⟩
  refine hp.shrink (n := j - i) (fun y hy => hy.1) (fun y hy hl => hy.2.le hl) (Nat.le_refl _) (fun y hw hy => ?_)
  refine InSteps.le (Nat.zero_le _) (InSteps.base (fun r' hr' e => ?_) hy.2)
  rw [e] at hw
  exact hg r hr r' hr' hw

/-- after `n` passes, everything that follows in `n` steps is there, and nothing that does not follow -/
theorem passes_run {l0 : LLLine W} {h0 : History W} {rules : List (Rule W)} :
    ∀ (passes : List (List (Nat × Rule W))) {l : LLLine W} {h : History W} (n : Nat), Honest l h → l.ll_tokens ≠ [] →
      (∀ prog ∈ passes, ∀ r, r ∈ rules ↔ ∃ p ∈ prog, p.2 = r) → l.ll_tokens = l0.ll_tokens →
      (∀ x ∈ h, Derivable l0 h0 rules x) → (∀ x, InSteps l0 h0 rules n x → x ∈ h) →
      ∃ l' new, runAll l (ruleRuns passes.flatten) = .ok l' ∧ Honest l' (h ++ new) ∧ l'.ll_tokens = l0.ll_tokens ∧
        (∀ x ∈ h ++ new, Derivable l0 h0 rules x) ∧ ∀ x, InSteps l0 h0 rules (n + passes.length) x → x ∈ h ++ new
  | [], l, h, n, hh, _, _, ht, hd, hw => ⟨l, [], rfl, by simpa using hh, ht, by simpa using hd, by simpa using hw⟩
  | prog :: passes, l, h, n, hh, ne, hm, ht, hd, hw => by
    have hmem := hm prog (by simp)
    obtain ⟨l1, new1, hl1, hh1, ht1, hd1, hc, _, _⟩ := rules_run (l0 := l0) (h0 := h0) (rules := rules) prog hh ne
      (fun p hp => (hmem _).2 ⟨p, hp, rfl⟩) ht hd
    obtain ⟨l', new2, hl2, hh2, ht2, hd2, hw2⟩ := passes_run (l0 := l0) (h0 := h0) (rules := rules) passes (n + 1) hh1
      (by rw [ht1, ← ht]; exact ne) (fun q hq => hm q (by simp [hq])) ht1 hd1 (fun x hx => by
        rcases hx with hx | ⟨r, hr, hx⟩
        · exact List.mem_append_left _ (hw x hx)
        · obtain ⟨p, hp, rfl⟩ := (hmem r).1 hr
          exact hc p hp x ((hx.line ht).mono (fun y _ hy => hw y hy)))
    refine ⟨l', new1 ++ new2, ?_, by rw [← List.append_assoc]; exact hh2, ht2, by rw [← List.append_assoc]; exact hd2, ?_⟩
    · simp only [ruleRuns, List.flatten_cons, List.map_append] at hl1 hl2 ⊢
      rw [runAll_append, hl1]
      exact hl2
    · rw [← List.append_assoc]
      intro x hx
      refine hw2 x ?_
      rw [List.length_cons] at hx
      rw [show n + 1 + passes.length = n + (passes.length + 1) by omega]
      exact hx

end LNlp
