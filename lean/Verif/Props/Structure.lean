import Verif.Lemmas.Structure
import Verif.Demo.Structure
/- C125 (finite stock of values) and C143: context-free grammars over attributes. -/
namespace LNlp
variable {W : World}

/-- C125: if the rules assign values from a finite stock, as many passes as there are tokens times values in the stock find
everything that follows, however the rules use each other. -/
theorem C125_stock_passes {l : LLLine W} {h : History W} (hh : Honest l h) (ne : l.ll_tokens ≠ []) (rules : List (Rule W))
    (stock : List ((k : Ty W) × Val k)) (hs : ∀ r ∈ rules, ∀ f, ∀ v ∈ r.values f, ⟨r.attr, v⟩ ∈ stock)
    (passes : List (List (Nat × Rule W))) (hp : ∀ prog ∈ passes, ∀ r, r ∈ rules ↔ ∃ p ∈ prog, p.2 = r)
    (enough : l.ll_tokens.length * stock.length ≤ passes.length) :
    ∃ l' new, runAll l (ruleRuns passes.flatten) = .ok l' ∧ Honest l' (h ++ new) ∧
      ∀ x, x ∈ h ++ new ↔ Derivable l h rules x := by
  obtain ⟨l', new, h1, h2, h3, h4⟩ := C125_passes hh ne rules passes hp
  obtain ⟨hr, ho⟩ := hh.spec
  have hin : ∀ y ∈ h, y.range.1 ≤ y.range.2 ∧ y.range.2 < l.ll_tokens.length := fun y hy => ⟨ho y hy, (hr.rep.bounds y hy).2⟩
  refine ⟨l', new, h1, h2, fun x => ⟨h3 x, fun hx => h4 x ?_⟩⟩
  have hb : x.range.1 ≤ x.range.2 ∧ x.range.2 < l.ll_tokens.length := by
    refine hx (fun y => y.range.1 ≤ y.range.2 ∧ y.range.2 < l.ll_tokens.length) hin ?_
    rintro r _ x ⟨i, j, f, v, hp, _, rfl⟩
    exact hp.inside (fun y hy => hy)
  exact (stock_steps hs hin l.ll_tokens.length x (by omega) (derivable_iff_within.1 hx)).le enough

example := C125_stock_passes Demo.chainHonest Demo.chain_ne (Demo.chains.map Expansion.rule)
  _ (expansions_stock Demo.chains)
  (List.replicate 12 (Demo.chains.map (fun p => (1, p.rule)))) Demo.rules_passes (by decide)

/-- C143: the productions of a grammar over texts and attributes, run as resolvers in any order and number, never panic
and assign only what the grammar finds. -/
theorem C143_sound {l : LLLine W} {h : History W} (hh : Honest l h) (ne : l.ll_tokens ≠ []) (G : List (Expansion W))
    (prog : List (Nat × Rule W)) (hp : ∀ p ∈ prog, p.2 ∈ G.map Expansion.rule) :
    ∃ l', runAll l (ruleRuns prog) = .ok l' ∧ ∀ k, ∃ q, l'.query k = .ok q ∧
      ∀ i j text vs v, ((i, j), text, vs) ∈ q → v ∈ vs → Parsed l h G ⟨k, (i, j), v⟩ := by
  obtain ⟨l', new, h1, h2, h3⟩ := C125_sound hh ne (G.map Expansion.rule) prog hp
  obtain ⟨hr, ho⟩ := hh.spec
  obtain ⟨hr', ho'⟩ := h2.spec
  refine ⟨l', h1, fun k => ?_⟩
  have hq := C13_query_is_history hr' k (fun r hm => by
    obtain ⟨v, hv⟩ := mem_rangesOf.1 hm
    have := ho' _ hv
    simp only at this
    omega)
  refine ⟨_, hq, fun i j text vs v hm hv => ?_⟩
  exact (derivable_iff_parsed (fun y hy => ⟨ho y hy, (hr.rep.bounds y hy).2⟩)).1
    (h3 _ (((C13_query_complete hr' k _ hq).2.1 (i, j) v).1 ⟨text, vs, hm, hv⟩))

example := C143_sound Demo.chainHonest Demo.chain_ne Demo.chains
  [(7, (Demo.chains.map Expansion.rule)[1]), (7, (Demo.chains.map Expansion.rule)[0])] (by
    intro p hp
    simp only [List.mem_cons, List.not_mem_nil, or_false] at hp
    rcases hp with rfl | rfl <;> exact List.getElem_mem _)

/-- C143: as many passes as there are tokens times productions, each in any order, parse the line: whatever resolvers ran
before, `query` lists just what was there and what the grammar finds, and searches find what can be replaced by what was
there. -/
theorem C143_parses {l : LLLine W} {h : History W} (hh : Honest l h) (ne : l.ll_tokens ≠ []) (G : List (Expansion W))
    (passes : List (List (Nat × Rule W))) (hp : ∀ prog ∈ passes, ∀ r, r ∈ G.map Expansion.rule ↔ ∃ p ∈ prog, p.2 = r)
    (enough : l.ll_tokens.length * G.length ≤ passes.length) :
    ∃ l', runAll l (ruleRuns passes.flatten) = .ok l' ∧ FullyParsed l h G l' := by
  obtain ⟨l', new, h1, h2, h3⟩ := C125_stock_passes hh ne (G.map Expansion.rule) _ (expansions_stock G) passes hp (by rw [List.length_map]; exact enough)
  exact ⟨l', h1, fullyParsed hh h2 ne (runs_tokens h1) h3⟩

example := C143_parses Demo.chainHonest Demo.chain_ne Demo.chains
  (List.replicate 12 (Demo.chains.map (fun p => (1, p.rule)))) Demo.rules_passes (by decide)

/-- three neighbours: `2('t') → 1('s') 0('a') ⇒ 1 1 0('a') ⇒ 0 1 0('a') ⇒ 0 0 0('a')` -/
example : Parsed Demo.chainLine (creationHistory Demo.W List.length Demo.chainInput) Demo.trees
    ⟨Ty.user 2, (0, 2), (['t'] : Str)⟩ := by
  have hall : ∀ i, i < 3 → (⟨Ty.user 0, (i, i), (['a'] : Str)⟩ : Rec Demo.W) ∈ creationHistory Demo.W List.length Demo.chainInput := by
    have e : creationHistory Demo.W List.length Demo.chainInput = [⟨Ty.user 0, (0, 0), (['a'] : Str)⟩,
      ⟨Ty.user 0, (1, 1), (['a'] : Str)⟩, ⟨Ty.user 0, (2, 2), (['a'] : Str)⟩] := rfl
    rw [e]
    intro i hi
    rcases (show i = 0 ∨ i = 1 ∨ i = 2 by omega) with rfl | rfl | rfl <;> simp
  refine .inr ⟨Demo.trees[2], List.getElem_mem _, 0, 2, rfl,
    [.attr (Ty.user 0), .attr (Ty.user 0), .attrEq (Ty.user 0) (['a'] : Str)], ?_, ?_⟩
  · have s0 := Rewrites.refl (G := Demo.trees) Demo.trees[2].rhs
    have s1 := Rewrites.step (before := []) s0 (p := Demo.trees[1]) (List.getElem_mem _) ⟨rfl, rfl⟩
    have s2 := Rewrites.step (before := []) s1 (p := Demo.trees[0]) (List.getElem_mem _) rfl
    exact Rewrites.step (before := [_]) s2 (p := Demo.trees[0]) (List.getElem_mem _) rfl
  · exact ⟨0, ⟨_, hall 0 (by decide)⟩, 1, ⟨_, hall 1 (by decide)⟩, 2, ⟨_, rfl, hall 2 (by decide)⟩, rfl⟩

/-- C143: if no production is just one symbol of a type that has productions, as many passes as there are tokens do. -/
theorem C143_no_chains {l : LLLine W} {h : History W} (hh : Honest l h) (ne : l.ll_tokens ≠ []) (G : List (Expansion W))
    (nc : NoChains G) (passes : List (List (Nat × Rule W)))
    (hp : ∀ prog ∈ passes, ∀ r, r ∈ G.map Expansion.rule ↔ ∃ p ∈ prog, p.2 = r)
    (enough : l.ll_tokens.length ≤ passes.length) :
    ∃ l', runAll l (ruleRuns passes.flatten) = .ok l' ∧ FullyParsed l h G l' := by
  obtain ⟨l', new, h1, h2, h3⟩ := C125_enough_passes hh ne (G.map Expansion.rule) nc.growing passes hp enough
  exact ⟨l', h1, fullyParsed hh h2 ne (runs_tokens h1) h3⟩

example := C143_no_chains Demo.chainHonest Demo.chain_ne Demo.trees Demo.trees_noChains
  (List.replicate 3 (Demo.trees.map (fun p => (1, p.rule)))) Demo.rules_passes (by decide)

/-- C143: and if the productions are in layers, one pass does. -/
theorem C143_layers {l : LLLine W} {h : History W} (hh : Honest l h) (ne : l.ll_tokens ≠ []) (G : List (Nat × Expansion W))
    (hl : Layered (G.map (·.2.rule))) :
    ∃ l', runAll l (ruleRuns (G.map (fun p => (p.1, p.2.rule)))) = .ok l' ∧ FullyParsed l h (G.map (·.2)) l' := by
  obtain ⟨l', new, h1, h2, h3⟩ := C125_layers hh ne (G.map (fun p => (p.1, p.2.rule))) (by simpa [Function.comp_def] using hl)
  refine ⟨l', h1, fullyParsed hh h2 ne (runs_tokens h1) (fun x => (h3 x).trans ?_)⟩
  simp only [List.map_map, Function.comp_def]

example := C143_layers Demo.chainHonest Demo.chain_ne Demo.flat Demo.flat_layered

end LNlp
