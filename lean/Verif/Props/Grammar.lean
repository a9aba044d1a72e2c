import Verif.Lemmas.Grammar
import Verif.Props.Store
import Verif.Props.Select
import Verif.Demo.Grammar
/- C125: rules over attributes, run as resolvers, compute what follows from the rules. -/
namespace LNlp
variable {W : World}

/-- C125: one run of a rule never panics and adds exactly what the rule concludes from the attributes so far. -/
theorem C125_one_run {l : LLLine W} {h : History W} (hh : Honest l h) (ne : l.ll_tokens ≠ []) (ptr : Nat) (r : Rule W) :
    ∃ l' new, l.run ptr r.resolver = .ok l' ∧ Honest l' (h ++ new) ∧ ∀ x, x ∈ new ↔ r.Concludes l (· ∈ h) x := by
  obtain ⟨l', new, h1, h2, _, h3⟩ := rule_run hh ne ptr r
  exact ⟨l', new, h1, h2, h3⟩

example := C125_one_run Demo.readmeHonest Demo.readme_ne 1 Demo.word

/-- C125: rules run in any order, any number of times, never panic, and every attribute follows by the rules. -/
theorem C125_sound {l : LLLine W} {h : History W} (hh : Honest l h) (ne : l.ll_tokens ≠ []) (rules : List (Rule W))
    (prog : List (Nat × Rule W)) (hp : ∀ p ∈ prog, p.2 ∈ rules) :
    ∃ l' new, runAll l (ruleRuns prog) = .ok l' ∧ Honest l' (h ++ new) ∧ ∀ x ∈ h ++ new, Derivable l h rules x := by
  obtain ⟨l', new, h1, h2, _, h3, _⟩ := rules_run (l0 := l) (h0 := h) (rules := rules) prog hh ne hp rfl
    (fun x hx F hF _ => hF x hx)
  exact ⟨l', new, h1, h2, h3⟩

example := C125_sound Demo.readmeHonest Demo.readme_ne [Demo.word, Demo.address]
  [(7, Demo.address), (5, Demo.word), (6, Demo.word)] (by simp)

/-- C125: for rules in layers, one pass finds exactly what follows by the rules. -/
theorem C125_layers {l : LLLine W} {h : History W} (hh : Honest l h) (ne : l.ll_tokens ≠ []) (prog : List (Nat × Rule W))
    (hl : Layered (prog.map (·.2))) :
    ∃ l' new, runAll l (ruleRuns prog) = .ok l' ∧ Honest l' (h ++ new) ∧
      ∀ x, x ∈ h ++ new ↔ Derivable l h (prog.map (·.2)) x := by
  obtain ⟨l', new, h1, h2, _, h3, _, _, h4⟩ := rules_run (l0 := l) (h0 := h) (rules := prog.map (·.2)) prog hh ne
    (fun p hp => List.mem_map.2 ⟨p, hp, rfl⟩) rfl (fun x hx F hF _ => hF x hx)
  exact ⟨l', new, h1, h2, fun x => ⟨h3 x, fun hx => hx _ (fun y hy => List.mem_append_left _ hy) (h4 hl)⟩⟩

example := C125_layers Demo.readmeHonest Demo.readme_ne Demo.readme Demo.readme_layered

/-- C125: so `query` shows exactly what follows by the rules: every interpretation of every span, and nothing else. -/
theorem C125_query {l : LLLine W} {h : History W} (hh : Honest l h) (ne : l.ll_tokens ≠ []) (prog : List (Nat × Rule W))
    (hl : Layered (prog.map (·.2))) :
    ∃ l', runAll l (ruleRuns prog) = .ok l' ∧ ∀ k, ∃ q, l'.query k = .ok q ∧
      ∀ i j v, (∃ text vs, ((i, j), text, vs) ∈ q ∧ v ∈ vs) ↔ Derivable l h (prog.map (·.2)) ⟨k, (i, j), v⟩ := by
  obtain ⟨l', new, h1, h2, h3⟩ := C125_layers hh ne prog hl
  obtain ⟨hr, ho⟩ := h2.spec
  refine ⟨l', h1, fun k => ?_⟩
  have hq := C13_query_is_history hr k (fun r hm => by
    obtain ⟨v, hv⟩ := mem_rangesOf.1 hm
    have := ho _ hv
    simp only at this
    omega)
  exact ⟨_, hq, fun i j v => ((C13_query_complete hr k _ hq).2.1 (i, j) v).trans (h3 _)⟩

/-- "I live in New York City": two addresses on the first nine tokens and one on all of them -/
example : ∀ v, Derivable Demo.readmeLine (creationHistory Demo.W List.length Demo.readmeInput) (Demo.readme.map (·.2))
    ⟨Ty.user 3, (0, 8), v⟩ ↔ v = "Self at NY".toList ∨ v = "Self at NYC".toList := by
  obtain ⟨l', h1, h2⟩ := C125_query Demo.readmeHonest Demo.readme_ne Demo.readme Demo.readme_layered
  obtain ⟨q, hq, h3⟩ := h2 (Ty.user 3)
  cases h1
  have e : q = [((0, 10), "I live in New York City".toList, ["Self at NYC".toList]),
    ((0, 8), "I live in New York".toList, ["Self at NY".toList, "Self at NYC".toList])] := (Except.ok.inj hq).symm
  subst e
  intro v
  refine (h3 0 8 v).symm.trans ⟨?_, fun h => ⟨_, _, .tail _ (.head _), ?_⟩⟩
  · rintro ⟨t, vs, hm, hv⟩
    cases hm with
    | tail _ hm => cases hm with
      | head => cases hv with
        | head => exact .inl rfl
        | tail _ hv => cases hv with
          | head => exact .inr rfl
          | tail _ hv => cases hv
      | tail _ hm => cases hm
  · rcases h with rfl | rfl
    · exact .head _
    · exact .tail _ (.head _)

/-- C125: any two orders in layers give the same attributes. -/
theorem C125_order {l : LLLine W} {h : History W} (hh : Honest l h) (ne : l.ll_tokens ≠ []) (prog prog' : List (Nat × Rule W))
    (hl : Layered (prog.map (·.2))) (hl' : Layered (prog'.map (·.2))) (same : ∀ r, r ∈ prog.map (·.2) ↔ r ∈ prog'.map (·.2)) :
    ∃ l1 new1 l2 new2, runAll l (ruleRuns prog) = .ok l1 ∧ Honest l1 (h ++ new1) ∧
      runAll l (ruleRuns prog') = .ok l2 ∧ Honest l2 (h ++ new2) ∧ ∀ x, x ∈ h ++ new1 ↔ x ∈ h ++ new2 := by
  obtain ⟨l1, new1, a1, a2, a3⟩ := C125_layers hh ne prog hl
  obtain ⟨l2, new2, b1, b2, b3⟩ := C125_layers hh ne prog' hl'
  refine ⟨l1, new1, l2, new2, a1, a2, b1, b2, fun x => (a3 x).trans (Iff.trans ?_ (b3 x).symm)⟩
  have hc : ∀ F, Closed l (prog.map (·.2)) F ↔ Closed l (prog'.map (·.2)) F :=
    fun F => ⟨fun h r hr => h r ((same r).2 hr), fun h r hr => h r ((same r).1 hr)⟩
  exact ⟨fun hx F hF h => hx F hF ((hc F).2 h), fun hx F hF h => hx F hF ((hc F).1 h)⟩

example := C125_order Demo.readmeHonest Demo.readme_ne Demo.readme [(1, Demo.word), (3, Demo.state), (2, Demo.location), (4, Demo.address)]
  Demo.readme_layered (by simp [Layered, Demo.word, Demo.location, Demo.state, Demo.address, Demo.is, Demo.sp, Pat.Mentions]; decide)
  (by intro r; simp only [Demo.readme, List.map_cons, List.map_nil, List.mem_cons, List.not_mem_nil, or_false]; constructor <;> (intro h; rcases h with h | h | h | h <;> simp [h]))

/-- C125: what follows is what follows in finitely many steps. -/
theorem C125_steps {l : LLLine W} {h : History W} {rules : List (Rule W)} {x : Rec W} :
    Derivable l h rules x ↔ ∃ n, InSteps l h rules n x := derivable_iff_within

example := @C125_steps Demo.W Demo.chainLine [] [Demo.pair]

/-- C125: rules that use each other in circles can be run again and again: `n` passes over all rules, each in any
order, find everything that follows in `n` steps, and nothing that does not follow. -/
theorem C125_passes {l : LLLine W} {h : History W} (hh : Honest l h) (ne : l.ll_tokens ≠ []) (rules : List (Rule W))
    (passes : List (List (Nat × Rule W))) (hp : ∀ prog ∈ passes, ∀ r, r ∈ rules ↔ ∃ p ∈ prog, p.2 = r) :
    ∃ l' new, runAll l (ruleRuns passes.flatten) = .ok l' ∧ Honest l' (h ++ new) ∧
      (∀ x ∈ h ++ new, Derivable l h rules x) ∧ ∀ x, InSteps l h rules passes.length x → x ∈ h ++ new := by
  obtain ⟨l', new, h1, h2, _, h3, h4⟩ := passes_run (l0 := l) (h0 := h) (rules := rules) passes 0 hh ne hp rfl
    (fun x hx F hF _ => hF x hx) (fun x hx => hx)
  exact ⟨l', new, h1, h2, h3, by simpa using h4⟩

example := C125_passes Demo.chainHonest Demo.chain_ne [Demo.pair] [[(1, Demo.pair)], [(2, Demo.pair), (3, Demo.pair)]]
  (by
    intro prog hp r
    simp only [List.mem_cons, List.not_mem_nil, or_false] at hp
    rcases hp with rfl | rfl <;> simp [eq_comm])

/-- C125: if rules use what rules assign only as parts of sequences, as many passes as there are tokens find everything. -/
theorem C125_enough_passes {l : LLLine W} {h : History W} (hh : Honest l h) (ne : l.ll_tokens ≠ []) (rules : List (Rule W))
    (hg : Growing rules) (passes : List (List (Nat × Rule W)))
    (hp : ∀ prog ∈ passes, ∀ r, r ∈ rules ↔ ∃ p ∈ prog, p.2 = r) (enough : l.ll_tokens.length ≤ passes.length) :
    ∃ l' new, runAll l (ruleRuns passes.flatten) = .ok l' ∧ Honest l' (h ++ new) ∧
      ∀ x, x ∈ h ++ new ↔ Derivable l h rules x := by
  obtain ⟨l', new, h1, h2, h3, h4⟩ := C125_passes hh ne rules passes hp
  obtain ⟨hr, ho⟩ := hh.spec
  refine ⟨l', new, h1, h2, fun x => ⟨h3 x, fun hx => h4 x ?_⟩⟩
  obtain ⟨h5, h6⟩ := growing_within hg (fun y hy => ⟨ho y hy, (hr.rep.bounds y hy).2⟩) hx
  exact h6.le (by omega)

example := C125_enough_passes Demo.chainHonest Demo.chain_ne [Demo.pair] Demo.pair_growing
  [[(1, Demo.pair)], [(2, Demo.pair)], [(3, Demo.pair)]] (by simp [eq_comm]) (by decide)

/-- C125: one pass is not enough for a rule that uses what it assigns. -/
theorem C125_one_pass_false : ∃ l' new, runAll Demo.chainLine (ruleRuns [(1, Demo.pair)]) = .ok l' ∧
    Honest l' (creationHistory Demo.W List.length Demo.chainInput ++ new) ∧ ∃ x,
    Derivable Demo.chainLine (creationHistory Demo.W List.length Demo.chainInput) [Demo.pair] x ∧
      x ∉ creationHistory Demo.W List.length Demo.chainInput ++ new := by
  obtain ⟨l', new, h1, h2, h3⟩ := C125_one_run Demo.chainHonest Demo.chain_ne 1 Demo.pair
  have hone : ∀ y ∈ creationHistory Demo.W List.length Demo.chainInput, y.range.1 = y.range.2 := by
    intro y hy
    have hy := List.mem_map.2 ⟨y, hy, (rfl : y.range = y.range)⟩
    have e : (creationHistory Demo.W List.length Demo.chainInput).map (·.range) = [(0, 0), (1, 1), (2, 2)] := rfl
    rw [e] at hy
    simp only [List.mem_cons, List.not_mem_nil, or_false] at hy
    rcases hy with e | e | e <;> rw [e]
  have hall : ∀ i, i < 3 → (⟨Ty.user 0, (i, i), (['a'] : Str)⟩ : Rec Demo.W) ∈ creationHistory Demo.W List.length Demo.chainInput := by
    have e : creationHistory Demo.W List.length Demo.chainInput = [⟨Ty.user 0, (0, 0), (['a'] : Str)⟩,
      ⟨Ty.user 0, (1, 1), (['a'] : Str)⟩, ⟨Ty.user 0, (2, 2), (['a'] : Str)⟩] := rfl
    rw [e]
    intro i hi
    match i, hi with
    | 0, _ => simp
    | 1, _ => simp
    | 2, _ => simp
  refine ⟨l', new, by simp only [ruleRuns, List.map_cons, List.map_nil, runAll, h1], h2,
    ⟨Ty.user 0, (0, 2), (['a', 'a', 'a'] : Str)⟩, fun F hF hc => ?_, fun hx => ?_⟩
  · have h01 : F ⟨Ty.user 0, (0, 1), (['a', 'a'] : Str)⟩ :=
      hc Demo.pair (by simp) _ ⟨0, 1, ((['a'] : Str), (['a'] : Str)), _,
        ⟨0, hF _ (hall 0 (by omega)), hF _ (hall 1 (by omega))⟩, List.mem_singleton.2 rfl, rfl⟩
    exact hc Demo.pair (by simp) _ ⟨0, 2, ((['a', 'a'] : Str), (['a'] : Str)), _,
        ⟨1, h01, hF _ (hall 2 (by omega))⟩, List.mem_singleton.2 rfl, rfl⟩
  · rcases List.mem_append.1 hx with hx | hx
    · exact absurd (hone _ hx) (by simp)
    · obtain ⟨i, j, ⟨a, b⟩, v, ⟨m, ha, hb⟩, _, e⟩ := (h3 _).1 hx
      have e1 := congrArg Rec.range e
      have := hone _ ha
      have := hone _ hb
      simp only [Prod.mk.injEq] at *
      omega

/-- C125: more rules and more attributes to start with never lose an interpretation. -/
theorem C125_more {l : LLLine W} {h h' : History W} {rules rules' : List (Rule W)} (hh : ∀ x ∈ h, x ∈ h')
    (hr : ∀ r ∈ rules, r ∈ rules') {x : Rec W} (hx : Derivable l h rules x) : Derivable l h' rules' x :=
  fun F hF hc => hx F (fun y hy => hF y (hh y hy)) (fun r hm => hc r (hr r hm))

example := @C125_more Demo.W Demo.readmeLine [] (creationHistory Demo.W List.length Demo.readmeInput) [Demo.word]
  (Demo.readme.map (·.2)) (by simp) (by simp [Demo.readme])

end LNlp
