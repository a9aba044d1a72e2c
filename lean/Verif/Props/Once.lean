import Verif.Lemmas.Once
import Verif.Lemmas.Ways
import Verif.Lemmas.Structure
import Verif.Props.Structure
import Verif.Demo.Structure
/- C144: rules as resolvers that look before they assign. -/
namespace LNlp
variable {W : World}

theorem Demo.exact (n : Demo.W.Key) : Exact (Ty.user n : Ty Demo.W) := fun (a b : Str) => beq_iff_eq (a := a) (b := b)
theorem Demo.pair_exact : ∀ r ∈ [Demo.pair], Exact r.attr := by
  intro r hr
  cases List.mem_singleton.1 hr
  exact Demo.exact 0
theorem Demo.chains_exact : ∀ r ∈ Demo.chains.map Expansion.rule, Exact r.attr := by
  intro r hr
  obtain ⟨p, hp, rfl⟩ := List.mem_map.1 hr
  simp only [Demo.chains, Demo.trees, List.cons_append, List.nil_append, List.mem_cons, List.not_mem_nil, or_false] at hp
  rcases hp with rfl | rfl | rfl | rfl <;> exact Demo.exact _

/-- C144: one run assigns just the conclusions that are not there yet, each once. -/
theorem C144_one_run {l : LLLine W} {h : History W} (hh : Honest l h) (ne : l.ll_tokens ≠ []) (ptr : Nat) (r : Rule W)
    (hx : Exact r.attr) :
    ∃ l' new, l.run ptr r.once = .ok l' ∧ Honest l' (h ++ new) ∧ new.Nodup ∧
      ∀ x, x ∈ new ↔ r.Concludes l (· ∈ h) x ∧ x ∉ h := by
  obtain ⟨l', new, h1, h2, _, h3, h4, _⟩ := once_run hh ne ptr r hx
  exact ⟨l', new, h1, h2, h3, h4⟩

example := C144_one_run Demo.chainHonest Demo.chain_ne 1 Demo.pair (Demo.exact 0)

/-- C144: however rules that look first are run, they never panic and the attributes are those the same runs of the plain
rules (C125) give; only the repetitions are missing. -/
theorem C144_same_attributes {l : LLLine W} {h : History W} (hh : Honest l h) (ne : l.ll_tokens ≠ [])
    (prog : List (Nat × Rule W)) (hx : ∀ p ∈ prog, Exact p.2.attr) :
    ∃ l1 new1 l2 new2, runAll l (onceRuns prog) = .ok l1 ∧ Honest l1 (h ++ new1) ∧
      runAll l (ruleRuns prog) = .ok l2 ∧ Honest l2 (h ++ new2) ∧ (∀ x, x ∈ h ++ new1 ↔ x ∈ h ++ new2) ∧
      new1.Nodup ∧ ∀ x ∈ new1, x ∉ h :=
  onces_same prog hh hh ne rfl (fun _ => Iff.rfl) hx

example := C144_same_attributes Demo.chainHonest Demo.chain_ne [(1, Demo.pair), (2, Demo.pair)] (by
  intro p hp
  simp only [List.mem_cons, List.not_mem_nil, or_false] at hp
  rcases hp with rfl | rfl <;> exact Demo.exact 0)

/-- C144: so if `query` listed no value twice for a range before, it never does. -/
theorem C144_query_once {l : LLLine W} {h : History W} (hh : Honest l h) (ne : l.ll_tokens ≠ [])
    (prog : List (Nat × Rule W)) (hx : ∀ p ∈ prog, Exact p.2.attr) (k : Ty W) {q : List (LRange × Str × List (Val k))}
    (hq : l.query k = .ok q) (hn : ∀ e ∈ q, e.2.2.Nodup) :
    ∃ l' q', runAll l (onceRuns prog) = .ok l' ∧ l'.query k = .ok q' ∧ ∀ e ∈ q', e.2.2.Nodup := by
  obtain ⟨l', new, h1, h2, h3, h4, h5, _⟩ := onces_run prog hh ne hx
  obtain ⟨hr, ho⟩ := hh.spec
  obtain ⟨hr', ho'⟩ := h2.spec
  have hd : ∀ {h : History W}, Ordered h → ∀ r ∈ rangesOf k h, r.1 ≤ r.2 + 1 := fun ho r hm => by
    obtain ⟨v, hv⟩ := mem_rangesOf.1 hm
    have := ho _ hv
    simp only at this
    omega
  refine ⟨l', _, h1, C13_query_is_history hr' k (hd ho'), fun e he => ?_⟩
  obtain ⟨r, _, rfl⟩ := List.mem_map.1 he
  rw [valuesOf_append, List.nodup_append]
  refine ⟨?_, ?_, fun a ha b hb e => ?_⟩
  · by_cases hm : r ∈ rangesOf k h
    · rw [C13_query_is_history hr k (hd ho)] at hq
      cases hq
      exact hn _ (List.mem_map.2 ⟨r, hm, rfl⟩)
    · have : valuesOf k r h = [] := Classical.byContradiction (fun hne => hm (mem_rangesOf_iff_values.2 hne))
      rw [this]
      exact .nil
  · refine List.Pairwise.filterMap _ (fun a a' hne b hb b' hb' e => hne ?_) h4
    by_cases ha : a.range = r
    · by_cases ha' : a'.range = r
      · rw [if_pos ha] at hb
        rw [if_pos ha'] at hb'
        have e1 := Rec.valAs_eq_some.1 hb
        have e2 := Rec.valAs_eq_some.1 hb'
        rw [e1, e2, ha, ha', e]
      · rw [if_neg ha'] at hb'
        cases hb'
    · rw [if_neg ha] at hb
      cases hb
  · subst e
    exact h5 _ (mem_valuesOf.1 hb) (mem_valuesOf.1 ha)

example := C144_query_once Demo.chainHonest Demo.chain_ne [(1, Demo.pair), (2, Demo.pair)] (by
  intro p hp
  simp only [List.mem_cons, List.not_mem_nil, or_false] at hp
  rcases hp with rfl | rfl <;> exact Demo.exact 0) (.user 0)
  (q := ([((0, 0), [], [['a']]), ((1, 1), [], [['a']]), ((2, 2), [], [['a']])] : List (LRange × Str × List Str))) rfl
  (show ∀ e ∈ ([((0, 0), [], [['a']]), ((1, 1), [], [['a']]), ((2, 2), [], [['a']])] : List (LRange × Str × List Str)),
    e.2.2.Nodup by decide)

/-- C144: a loop over the rules can stop when a pass leaves the number of values `query` lists as it was: then the line is
the same as before the pass, and has exactly what follows by the rules. -/
theorem C144_stops {l : LLLine W} {h : History W} (hh : Honest l h) (ne : l.ll_tokens ≠ []) (rules : List (Rule W))
    (hx : ∀ r ∈ rules, Exact r.attr) (before pass : List (Nat × Rule W)) (hb : ∀ p ∈ before, p.2 ∈ rules)
    (hp : ∀ r, r ∈ rules ↔ ∃ p ∈ pass, p.2 = r) {l1 l2 : LLLine W} (h1 : runAll l (onceRuns before) = .ok l1)
    (h2 : runAll l1 (onceRuns pass) = .ok l2)
    (still : ∀ r ∈ rules, ∃ q1 q2, l1.query r.attr = .ok q1 ∧ l2.query r.attr = .ok q2 ∧ listed q1 = listed q2) :
    l2 = l1 ∧ ∀ k, ∃ q, l1.query k = .ok q ∧
      ∀ i j v, (∃ text vs, ((i, j), text, vs) ∈ q ∧ v ∈ vs) ↔ Derivable l h rules ⟨k, (i, j), v⟩ := by
  obtain ⟨l1', new1, a1, a2, a3, _, _, _, _, _, a9⟩ := onces_sound hh ne hx hb
  rw [h1] at a1; cases a1
  obtain ⟨l2', new2, b1, b2, b3, _, _, b6, b7, b8⟩ := onces_run pass a2 (by rw [a3]; exact ne)
    (fun p hp' => hx _ ((hp _).2 ⟨p, hp', rfl⟩))
  rw [h2] at b1; cases b1
  obtain ⟨hr1, ho1⟩ := a2.spec
  obtain ⟨hr2, ho2⟩ := b2.spec
  have hd : ∀ {h : History W}, Ordered h → ∀ k, ∀ r ∈ rangesOf k h, r.1 ≤ r.2 + 1 := fun ho k r hm => by
    obtain ⟨v, hv⟩ := mem_rangesOf.1 hm
    have := ho _ hv
    simp only at this
    omega
  have hq : ∀ {l : LLLine W} {h : History W} (_ : Reachable l h) (_ : Ordered h) (k : Ty W) {q}, l.query k = .ok q →
      listed q = (h.filter (fun x => decide (x.ty = k))).length := by
    intro l h hr ho k q hq
    rw [C13_query_is_history hr k (hd ho k)] at hq
    cases hq
    rw [← valuesOf_total k h (rangesOf k h) (rangesOf_nodup k h) (fun x hx e => by
      obtain ⟨t, r, v⟩ := x
      simp only at e
      subst e
      exact mem_rangesOf.2 ⟨v, hx⟩)]
    simp only [listed, List.map_map, Function.comp_def]
  have hnil : new2 = [] := by
    refine List.eq_nil_iff_forall_not_mem.2 (fun x hxn => ?_)
    obtain ⟨p, hpp, hty⟩ := b6 x hxn
    obtain ⟨q1, q2, c1, c2, c3⟩ := still p.2 ((hp _).2 ⟨p, hpp, rfl⟩)
    rw [hq hr1 ho1 _ c1, hq hr2 ho2 _ c2] at c3
    simp only [List.filter_append, List.length_append] at c3
    have : 0 < (new2.filter (fun x => decide (x.ty = p.2.attr))).length :=
      List.length_pos_of_mem (List.mem_filter.2 ⟨hxn, by simpa using hty⟩)
    omega
  refine ⟨b8 hnil, fun k => ⟨_, C13_query_is_history hr1 k (hd ho1 k), fun i j v => ?_⟩⟩
  refine ((C13_query_complete hr1 k _ (C13_query_is_history hr1 k (hd ho1 k))).2.1 (i, j) v).trans ?_
  refine closed_of_nothing_new a3 (fun x hx => List.mem_append_left _ hx) a9 (fun r hr => (hp r).1 hr) ?_ _
  intro p hpp x hc
  have := b7 p hpp x hc
  rw [hnil, List.append_nil] at this
  exact this

/-- C144: and such a loop ends: if the rules assign values from a finite stock, it does after as many passes as there are
tokens times values in the stock; from then on no run changes anything. -/
theorem C144_ends {l : LLLine W} {h : History W} (hh : Honest l h) (ne : l.ll_tokens ≠ []) (rules : List (Rule W))
    (hx : ∀ r ∈ rules, Exact r.attr) (stock : List ((k : Ty W) × Val k))
    (hs : ∀ r ∈ rules, ∀ f, ∀ v ∈ r.values f, ⟨r.attr, v⟩ ∈ stock) (passes : List (List (Nat × Rule W)))
    (hp : ∀ prog ∈ passes, ∀ r, r ∈ rules ↔ ∃ p ∈ prog, p.2 = r)
    (enough : l.ll_tokens.length * stock.length ≤ passes.length) :
    ∃ l', runAll l (onceRuns passes.flatten) = .ok l' ∧
      ∀ prog : List (Nat × Rule W), (∀ p ∈ prog, p.2 ∈ rules) → runAll l' (onceRuns prog) = .ok l' := by
  obtain ⟨l1, new1, l2, new2, a1, a2, a3, a4, a5, _⟩ := C144_same_attributes hh ne passes.flatten (fun p hm => by
    obtain ⟨prog, h1, h2⟩ := List.mem_flatten.1 hm
    exact hx _ ((hp prog h1 _).2 ⟨p, h2, rfl⟩))
  obtain ⟨l3, new3, b1, b2, b3⟩ := C125_stock_passes hh ne rules stock hs passes hp enough
  rw [a3] at b1; cases b1
  have ht : l1.ll_tokens = l.ll_tokens := runs_tokens a1
  have key : ∀ x, x ∈ h ++ new1 ↔ Derivable l h rules x := fun x => (a5 x).trans ((honest_mem a4 b2 x).trans (b3 x))
  refine ⟨l1, a1, fun prog hpr => still_of_closed a2 (by rw [ht]; exact ne) hx ?_ hpr⟩
  intro r hr x hc
  refine (key x).2 (fun F hF hcl => hcl r hr x ?_)
  exact (hc.line ht.symm).mono (fun y _ hy => (key y).1 hy F hF hcl)

example := C144_ends Demo.chainHonest Demo.chain_ne (Demo.chains.map Expansion.rule) Demo.chains_exact
  _ (expansions_stock Demo.chains)
  (List.replicate 12 (Demo.chains.map (fun p => (1, p.rule)))) Demo.rules_passes (by decide)

/-- C144: or, if rules use what rules assign only as parts of sequences, after as many passes as there are tokens. -/
theorem C144_ends_growing {l : LLLine W} {h : History W} (hh : Honest l h) (ne : l.ll_tokens ≠ []) (rules : List (Rule W))
    (hx : ∀ r ∈ rules, Exact r.attr) (hg : Growing rules) (passes : List (List (Nat × Rule W)))
    (hp : ∀ prog ∈ passes, ∀ r, r ∈ rules ↔ ∃ p ∈ prog, p.2 = r) (enough : l.ll_tokens.length ≤ passes.length) :
    ∃ l', runAll l (onceRuns passes.flatten) = .ok l' ∧
      ∀ prog : List (Nat × Rule W), (∀ p ∈ prog, p.2 ∈ rules) → runAll l' (onceRuns prog) = .ok l' := by
  obtain ⟨l1, new1, l2, new2, a1, a2, a3, a4, a5, _⟩ := C144_same_attributes hh ne passes.flatten (fun p hm => by
    obtain ⟨prog, h1, h2⟩ := List.mem_flatten.1 hm
    exact hx _ ((hp prog h1 _).2 ⟨p, h2, rfl⟩))
  obtain ⟨l3, new3, b1, b2, b3⟩ := C125_enough_passes hh ne rules hg passes hp enough
  rw [a3] at b1; cases b1
  have ht : l1.ll_tokens = l.ll_tokens := runs_tokens a1
  have key : ∀ x, x ∈ h ++ new1 ↔ Derivable l h rules x := fun x => (a5 x).trans ((honest_mem a4 b2 x).trans (b3 x))
  refine ⟨l1, a1, fun prog hpr => still_of_closed a2 (by rw [ht]; exact ne) hx ?_ hpr⟩
  intro r hr x hc
  refine (key x).2 (fun F hF hcl => hcl r hr x ?_)
  exact (hc.line ht.symm).mono (fun y _ hy => (key y).1 hy F hF hcl)

example := C144_ends_growing Demo.chainHonest Demo.chain_ne [Demo.pair] Demo.pair_exact Demo.pair_growing
  [[(1, Demo.pair)], [(2, Demo.pair)], [(3, Demo.pair)]] (by simp [eq_comm]) (by decide)

/-- C144: the end does not depend on the order: if two sequences of runs, in whatever order, lead to lines that a pass over
all rules leaves as they are, `query` lists the same values for the same ranges on both, equally often. -/
theorem C144_order {l : LLLine W} {h : History W} (hh : Honest l h) (ne : l.ll_tokens ≠ []) (rules : List (Rule W))
    (hx : ∀ r ∈ rules, Exact r.attr) (prog1 prog2 pass1 pass2 : List (Nat × Rule W)) (hb1 : ∀ p ∈ prog1, p.2 ∈ rules)
    (hb2 : ∀ p ∈ prog2, p.2 ∈ rules) (hp1 : ∀ r, r ∈ rules ↔ ∃ p ∈ pass1, p.2 = r) (hp2 : ∀ r, r ∈ rules ↔ ∃ p ∈ pass2, p.2 = r)
    {l1 l2 : LLLine W} (h1 : runAll l (onceRuns prog1) = .ok l1) (h2 : runAll l (onceRuns prog2) = .ok l2)
    (s1 : runAll l1 (onceRuns pass1) = .ok l1) (s2 : runAll l2 (onceRuns pass2) = .ok l2) (k : Ty W) :
    ∃ q1 q2, l1.query k = .ok q1 ∧ l2.query k = .ok q2 ∧ ∀ r text,
      (∀ vs, (r, text, vs) ∈ q1 → ∃ vs', (r, text, vs') ∈ q2 ∧ vs.Perm vs') ∧
      ∀ vs, (r, text, vs) ∈ q2 → ∃ vs', (r, text, vs') ∈ q1 ∧ vs.Perm vs' := by
  have end_of : ∀ (prog pass : List (Nat × Rule W)) (_ : ∀ p ∈ prog, p.2 ∈ rules) (_ : ∀ r, r ∈ rules ↔ ∃ p ∈ pass, p.2 = r)
      (l' : LLLine W), runAll l (onceRuns prog) = .ok l' → runAll l' (onceRuns pass) = .ok l' →
      ∃ new, Honest l' (h ++ new) ∧ l'.ll_tokens = l.ll_tokens ∧ new.Nodup ∧ (∀ x ∈ new, x ∉ h) ∧
        ∀ x, x ∈ h ++ new ↔ Derivable l h rules x := by
    intro prog pass hb hp l' hl hs
    obtain ⟨m, new, a1, a2, a3, a4, a5, _, _, _, a9⟩ := onces_sound hh ne hx hb
    rw [hl] at a1; cases a1
    obtain ⟨m', new', b1, b2, _, _, b5, _, b7, _⟩ := onces_run pass a2 (by rw [a3]; exact ne)
      (fun p hp' => hx _ ((hp _).2 ⟨p, hp', rfl⟩))
    rw [hs] at b1; cases b1
    refine ⟨new, a2, a3, a4, a5, ?_⟩
    refine closed_of_nothing_new a3 (fun x hx => List.mem_append_left _ hx) a9 (fun r hr => (hp r).1 hr) ?_
    intro p hpp x hc
    exact (honest_mem b2 a2 x).1 (b7 p hpp x hc)
  obtain ⟨n1, a1, a2, a3, a4, a5⟩ := end_of prog1 pass1 hb1 hp1 l1 h1 s1
  obtain ⟨n2, b1, b2, b3, b4, b5⟩ := end_of prog2 pass2 hb2 hp2 l2 h2 s2
  have hperm : n1.Perm n2 := by
    refine (List.perm_ext_iff_of_nodup a3 b3).2 (fun x => ?_)
    have := (a5 x).trans (b5 x).symm
    rw [List.mem_append, List.mem_append] at this
    constructor
    · exact fun hm => (this.1 (.inr hm)).resolve_left (a4 x hm)
    · exact fun hm => (this.2 (.inr hm)).resolve_left (b4 x hm)
  obtain ⟨hr1, ho1⟩ := a1.spec
  obtain ⟨hr2, ho2⟩ := b1.spec
  have hd : ∀ {h : History W}, Ordered h → ∀ r ∈ rangesOf k h, r.1 ≤ r.2 + 1 := fun ho r hm => by
    obtain ⟨v, hv⟩ := mem_rangesOf.1 hm
    have := ho _ hv
    simp only at this
    omega
  refine ⟨_, _, C13_query_is_history hr1 k (hd ho1), C13_query_is_history hr2 k (hd ho2), fun r text => ?_⟩
  have tr : ∀ {h h' : History W} {l l' : LLLine W}, h.Perm h' → l.ll_tokens = l'.ll_tokens → ∀ vs,
      (r, text, vs) ∈ (rangesOf k h).map (fun r => (r, coveredText l.ll_tokens r, valuesOf k r h)) →
      ∃ vs', (r, text, vs') ∈ (rangesOf k h').map (fun r => (r, coveredText l'.ll_tokens r, valuesOf k r h')) ∧ vs.Perm vs' := by
    intro h h' l l' hp ht vs hm
    obtain ⟨r', hr', e⟩ := List.mem_map.1 hm
    cases e
    refine ⟨valuesOf k r h', List.mem_map.2 ⟨r, ?_, by rw [ht]⟩, valuesOf_perm hp⟩
    obtain ⟨v, hv⟩ := mem_rangesOf.1 hr'
    exact mem_rangesOf.2 ⟨v, hp.mem_iff.1 hv⟩
  have ht : l1.ll_tokens = l2.ll_tokens := a2.trans b2.symm
  exact ⟨tr (List.Perm.append_left h hperm) ht, tr (List.Perm.append_left h hperm.symm) ht.symm⟩

/-- one run of each, and again: nothing changes any more -/
theorem Demo.pair_end : ∃ l1, runAll Demo.chainLine (onceRuns [(1, Demo.pair), (2, Demo.pair), (3, Demo.pair)]) = .ok l1 ∧
    ∀ prog : List (Nat × Rule Demo.W), (∀ p ∈ prog, p.2 ∈ [Demo.pair]) → runAll l1 (onceRuns prog) = .ok l1 :=
  C144_ends_growing Demo.chainHonest Demo.chain_ne [Demo.pair] Demo.pair_exact Demo.pair_growing
    [[(1, Demo.pair)], [(2, Demo.pair)], [(3, Demo.pair)]] (by simp [eq_comm]) (by decide)

example : ∃ l1, runAll Demo.chainLine (onceRuns [(1, Demo.pair), (2, Demo.pair), (3, Demo.pair)]) = .ok l1 ∧
    ∃ q, l1.query (.user 0) = .ok q ∧ ∀ i j v, (∃ text vs, ((i, j), text, vs) ∈ q ∧ v ∈ vs) ↔
      Derivable Demo.chainLine (creationHistory Demo.W List.length Demo.chainInput) [Demo.pair] ⟨.user 0, (i, j), v⟩ := by
  obtain ⟨l1, h1, h2⟩ := Demo.pair_end
  obtain ⟨_, hm, hh, hh', _⟩ := onces_run [(1, Demo.pair), (2, Demo.pair), (3, Demo.pair)] Demo.chainHonest Demo.chain_ne (by
    intro p hp
    simp only [List.mem_cons, List.not_mem_nil, or_false] at hp
    rcases hp with rfl | rfl | rfl <;> exact Demo.exact 0)
  refine ⟨l1, h1, (C144_stops Demo.chainHonest Demo.chain_ne [Demo.pair] Demo.pair_exact _ [(4, Demo.pair)] (by simp)
    (by simp [eq_comm]) h1 (h2 _ (by simp)) (fun r hr => ?_)).2 (.user 0)⟩
  cases List.mem_singleton.1 hr
  rw [h1] at hh
  cases hh
  obtain ⟨hr, ho⟩ := hh'.spec
  have hq := C13_query_is_history hr (Demo.pair.attr) (fun r hm => by
    obtain ⟨v, hv⟩ := mem_rangesOf.1 hm
    have := ho _ hv
    simp only at this
    omega)
  exact ⟨_, _, hq, hq, rfl⟩

example : ∃ l1, runAll Demo.chainLine (onceRuns [(1, Demo.pair), (2, Demo.pair), (3, Demo.pair)]) = .ok l1 ∧
    ∃ q1 q2, l1.query (.user 0) = .ok q1 ∧ l1.query (.user 0) = .ok q2 ∧ ∀ r text,
      (∀ vs, (r, text, vs) ∈ q1 → ∃ vs', (r, text, vs') ∈ q2 ∧ vs.Perm vs') ∧
      ∀ vs, (r, text, vs) ∈ q2 → ∃ vs', (r, text, vs') ∈ q1 ∧ vs.Perm vs' := by
  obtain ⟨l1, h1, h2⟩ := Demo.pair_end
  exact ⟨l1, h1, C144_order Demo.chainHonest Demo.chain_ne [Demo.pair] Demo.pair_exact _ _ [(4, Demo.pair)] [(5, Demo.pair)]
    (by simp) (by simp) (by simp [eq_comm]) (by simp [eq_comm]) h1 h1 (h2 _ (by simp)) (h2 _ (by simp)) (.user 0)⟩

/-- C144: the equality is needed: if no value is equal to itself (as `f64::NAN`), looking first makes no difference, and
each run assigns everything again (C142). -/
theorem C144_equality_needed {l : LLLine W} {h : History W} (hh : Honest l h) (ne : l.ll_tokens ≠ []) (ptr : Nat) (r : Rule W)
    (never : ∀ a b : Val r.attr, valEq r.attr a b = false) : l.run ptr r.once = l.run ptr r.resolver := by
  obtain ⟨hr, ho⟩ := hh.spec
  have hgo : r.once.go (wholeLine l ptr) = r.resolver.go (wholeLine l ptr) := by
    simp only [Rule.once, Rule.resolver]
    cases (wholeLine l ptr).findBy r.pat.matcher with
    | error e => rfl
    | ok found =>
      have key : ∀ (cands new : List (LLSelection W × Val r.attr)),
          foldR (lookFirst (wholeLine l ptr) r.attr) new cands = .ok (new ++ cands) := by
        intro cands
        induction cands with
        | nil => intro new; simp [foldR]
        | cons c cands ih =>
          intro new
          obtain ⟨hits, hf, hm⟩ := whole_find hr ho ne ptr (.attrEq r.attr c.2)
          have hnil : hits = [] := by
            refine List.eq_nil_iff_forall_not_mem.2 (fun ⟨s, u⟩ hs => ?_)
            obtain ⟨_, w, hw, _⟩ := (hm s u).1 hs
            rw [never] at hw
            cases hw
          subst hnil
          have hf' : (wholeLine l ptr).findBy (X.attrEq r.attr c.2) = .ok [] := hf
          have hs : lookFirst (wholeLine l ptr) r.attr new c = .ok (new ++ [c]) := by
            simp [lookFirst, hf', never]
          rw [foldR, hs]
          simp only
          rw [ih, List.append_assoc, List.singleton_append]
      simp only [key, List.nil_append, List.map_flatMap, List.map_map, Function.comp_def]
  unfold LLLine.run
  split
  · rfl
  · have hgo' : r.once.go ⟨⟨ptr, l⟩, 0, l.ll_tokens.length - 1⟩ = r.resolver.go ⟨⟨ptr, l⟩, 0, l.ll_tokens.length - 1⟩ := hgo
    rw [hgo']
    cases r.resolver.go ⟨⟨ptr, l⟩, 0, l.ll_tokens.length - 1⟩ with
    | error e => rfl
    | ok p => rfl

/-- floats that are all not a number -/
def Demo.nans : World := { Demo.W with userEq := fun _ _ _ => false }
def Demo.nanInput : List (InputToken Demo.nans) := [.Custom 1 [AnyAttribute.new (Ty.user (0 : Nat)) (['a'] : Str)]]
def Demo.nanLine : LLLine Demo.nans := Demo.getOk ⟨[], ⟨TypeIdToMany.empty, [], [], HMap.empty⟩⟩
  (createLineFromInputTokens Demo.nans Demo.nanInput List.length)
theorem Demo.nanHonest : Honest Demo.nanLine (creationHistory Demo.nans List.length Demo.nanInput) :=
  .create _ _ _ (by
    intro t ht a ha
    rw [List.mem_singleton.1 ht] at ha
    simp only [InputToken.attrList, List.mem_singleton] at ha
    exact ⟨_, _, ha⟩) rfl

example := C144_equality_needed Demo.nanHonest (by intro h; cases h) 1 (again (Ty.user (0 : Nat))) (fun _ _ => rfl)

end LNlp
