import Verif.Lemmas.Cfg
import Verif.Props.Grammar
import Verif.Demo.Cfg
/- C141: a context-free or conjunctive grammar, written as resolvers, is recognised. -/
namespace LNlp
variable {W : World}

private theorem query_ranges {l : LLLine W} {h : History W} (hh : Honest l h) (k : Ty W) :
    ∃ q, l.query k = .ok q ∧ ∀ i j, (∃ text vs, ((i, j), text, vs) ∈ q) ↔ ∃ v, (⟨k, (i, j), v⟩ : Rec W) ∈ h := by
  obtain ⟨hr, ho⟩ := hh.spec
  have hq := C13_query_is_history hr k (fun r hm => by
    obtain ⟨v, hv⟩ := mem_rangesOf.1 hm
    have := ho _ hv
    simp only at this
    omega)
  refine ⟨_, hq, fun i j => ?_⟩
  obtain ⟨_, h1, h2⟩ := C13_query_complete hr k _ hq
  constructor
  · rintro ⟨text, vs, hm⟩
    obtain ⟨v, hv⟩ := List.exists_mem_of_ne_nil vs (h2 _ hm).1
    exact ⟨v, (h1 (i, j) v).1 ⟨text, vs, hm, hv⟩⟩
  · rintro ⟨v, hv⟩
    obtain ⟨text, vs, hm, _⟩ := (h1 (i, j) v).2 hv
    exact ⟨text, vs, hm⟩

/-- C141: the productions of a grammar, run as resolvers in any order and number, never panic and find only what the
grammar derives. -/
theorem C141_sound {l : LLLine W} {h : History W} (hh : Honest l h) (ne : l.ll_tokens ≠ []) (G : List (Production W))
    (clean : ∀ r ∈ h, ¬ MentionsType G r.ty) (prog : List (Nat × Rule W)) (hp : ∀ p ∈ prog, p.2 ∈ G.map Production.rule) :
    ∃ l', runAll l (ruleRuns prog) = .ok l' ∧ ∀ k, MentionsType G k → ∃ q, l'.query k = .ok q ∧
      ∀ i j text vs, ((i, j), text, vs) ∈ q → ∃ ws, Spells l i j ws ∧ Derives G (.attr k) ws := by
  obtain ⟨l', new, h1, h2, h3⟩ := C125_sound hh ne (G.map Production.rule) prog hp
  refine ⟨l', h1, fun k hk => ?_⟩
  obtain ⟨q, hq, hm⟩ := query_ranges h2 k
  refine ⟨q, hq, fun i j text vs hmem => ?_⟩
  obtain ⟨v, hv⟩ := (hm i j).1 ⟨text, vs, hmem⟩
  exact (derivable_iff_derives clean hk).1 ⟨v, h3 _ hv⟩

example := C141_sound Demo.abcHonest Demo.abc_ne Demo.abc Demo.abc_clean
  (Demo.abc.map (fun p => (1, p.rule))) (by
    intro p hp
    obtain ⟨q, hq, rfl⟩ := List.mem_map.1 hp
    exact List.mem_map.2 ⟨q, hq, rfl⟩)

/-- C141: as many passes over the productions as there are tokens times as there are productions, each in any order,
find exactly what the grammar derives: `query` lists the ranges whose texts are in the language. -/
theorem C141_recognises {l : LLLine W} {h : History W} (hh : Honest l h) (ne : l.ll_tokens ≠ []) (G : List (Production W))
    (clean : ∀ r ∈ h, ¬ MentionsType G r.ty) (passes : List (List (Nat × Rule W)))
    (hp : ∀ prog ∈ passes, ∀ r, r ∈ G.map Production.rule ↔ ∃ p ∈ prog, p.2 = r)
    (enough : l.ll_tokens.length * G.length ≤ passes.length) :
    ∃ l', runAll l (ruleRuns passes.flatten) = .ok l' ∧ ∀ k, MentionsType G k → ∃ q, l'.query k = .ok q ∧
      ∀ i j, (∃ text vs, ((i, j), text, vs) ∈ q) ↔ ∃ ws, Spells l i j ws ∧ Derives G (.attr k) ws := by
  obtain ⟨l', new, h1, h2, h3, h4⟩ := C125_passes hh ne (G.map Production.rule) passes hp
  obtain ⟨hr, ho⟩ := hh.spec
  have hin : ∀ y ∈ h, y.range.1 ≤ y.range.2 ∧ y.range.2 < l.ll_tokens.length :=
    fun y hy => ⟨ho y hy, (hr.rep.bounds y hy).2⟩
  refine ⟨l', h1, fun k hk => ?_⟩
  obtain ⟨q, hq, hm⟩ := query_ranges h2 k
  refine ⟨q, hq, fun i j => (hm i j).trans (Iff.trans ?_ (derivable_iff_derives clean hk))⟩
  constructor
  · rintro ⟨v, hv⟩
    exact ⟨v, h3 _ hv⟩
  · rintro ⟨v, hv⟩
    have hb : i ≤ j ∧ j < l.ll_tokens.length := by
      refine hv (fun y => y.range.1 ≤ y.range.2 ∧ y.range.2 < l.ll_tokens.length) hin ?_
      rintro r _ x ⟨i, j, f, v, hp, _, rfl⟩
      exact hp.inside (fun y hy => hy)
    obtain ⟨n, hn⟩ := derivable_iff_within.1 hv
    obtain ⟨v', hv'⟩ := grammar_steps hin l.ll_tokens.length k i j (by omega) ⟨n, v, hn⟩
    exact ⟨v', h4 _ (hv'.le enough)⟩

example := C141_recognises Demo.unitHonest (by intro h; cases h) Demo.units Demo.units_clean
  (List.replicate 2 (Demo.units.map (fun p => (1, p.rule)))) Demo.units_passes (by decide)

/-- C141: if no production is just one symbol that has productions, as many passes as there are tokens are enough. -/
theorem C141_unit_free {l : LLLine W} {h : History W} (hh : Honest l h) (ne : l.ll_tokens ≠ []) (G : List (Production W))
    (clean : ∀ r ∈ h, ¬ MentionsType G r.ty) (hu : UnitFree G) (passes : List (List (Nat × Rule W)))
    (hp : ∀ prog ∈ passes, ∀ r, r ∈ G.map Production.rule ↔ ∃ p ∈ prog, p.2 = r)
    (enough : l.ll_tokens.length ≤ passes.length) :
    ∃ l', runAll l (ruleRuns passes.flatten) = .ok l' ∧ ∀ k, MentionsType G k → ∃ q, l'.query k = .ok q ∧
      ∀ i j, (∃ text vs, ((i, j), text, vs) ∈ q) ↔ ∃ ws, Spells l i j ws ∧ Derives G (.attr k) ws := by
  obtain ⟨l', new, h1, h2, h3⟩ := C125_enough_passes hh ne (G.map Production.rule) hu.growing passes hp enough
  refine ⟨l', h1, fun k hk => ?_⟩
  obtain ⟨q, hq, hm⟩ := query_ranges h2 k
  refine ⟨q, hq, fun i j => (hm i j).trans (Iff.trans ?_ (derivable_iff_derives clean hk))⟩
  exact ⟨fun ⟨v, hv⟩ => ⟨v, (h3 _).1 hv⟩, fun ⟨v, hv⟩ => ⟨v, (h3 _).2 hv⟩⟩

example := C141_unit_free Demo.abcHonest Demo.abc_ne Demo.abc Demo.abc_clean Demo.abc_unitFree
  (List.replicate 6 (Demo.abc.map (fun p => (1, p.rule)))) Demo.abc_passes (by decide)

/-- C141: otherwise they are not: in the wrong order, one pass over `S → A` and `A → a` does not find that `a` is an `S`. -/
theorem C141_units_false : ∃ (l l' : LLLine Demo.W) (h : History Demo.W) (G : List (Production Demo.W)), Honest l h ∧
    (∀ r ∈ h, ¬ MentionsType G r.ty) ∧ l.ll_tokens.length = 1 ∧
    runAll l (ruleRuns (G.map (fun p => (1, p.rule)))) = .ok l' ∧ l'.query (.user 0) = .ok [] ∧
    Spells l 0 0 [['a']] ∧ Derives G (.attr (.user 0)) [['a']] := by
  refine ⟨Demo.unitLine, _, _, Demo.units, Demo.unitHonest, Demo.units_clean, rfl, rfl, rfl, ?_, ?_⟩
  · exact spells_single.2 ⟨rfl, rfl⟩
  · intro L hL
    have h1 : L (.attr (.user 1)) [['a']] := hL.2 (Demo.to 1 (Demo.tok 'a') []) (by simp [Demo.units]) _ (by
      intro c hc
      cases List.mem_singleton.1 hc
      exact ⟨[['a']], [], rfl, hL.1 _, rfl⟩)
    exact hL.2 (Demo.to 0 (Demo.nt 1) []) (by simp [Demo.units]) _ (by
      intro c hc
      cases List.mem_singleton.1 hc
      exact ⟨[['a']], [], rfl, h1, rfl⟩)

/-- C141: for a line made from a text, that is: `query` lists the ranges of the text's pieces that the grammar derives. -/
theorem C141_text {s : Str} {l : LLLine W} (hl : createLineFromString W s = .ok l) (ne : l.ll_tokens ≠ [])
    (G : List (Production W)) (own : ¬ MentionsType G .char ∧ ¬ MentionsType G .textTag) (passes : List (List (Nat × Rule W)))
    (hp : ∀ prog ∈ passes, ∀ r, r ∈ G.map Production.rule ↔ ∃ p ∈ prog, p.2 = r)
    (enough : (textPieces W s).length * G.length ≤ passes.length) :
    ∃ l', runAll l (ruleRuns passes.flatten) = .ok l' ∧ ∀ k, MentionsType G k → ∃ q, l'.query k = .ok q ∧
      ∀ i j, (∃ text vs, ((i, j), text, vs) ∈ q) ↔ i ≤ j ∧ j < (textPieces W s).length ∧
        Derives G (.attr k) ((((textPieces W s).map (·.1)).drop i).take (j + 1 - i)) := by
  have hh := text_honest hl
  obtain ⟨l', h1, h2⟩ := C141_recognises hh ne G (text_clean own) passes hp (by rw [text_length hl]; exact enough)
  refine ⟨l', h1, fun k hk => ?_⟩
  obtain ⟨q, hq, hm⟩ := h2 k hk
  refine ⟨q, hq, fun i j => (hm i j).trans ⟨?_, ?_⟩⟩
  · rintro ⟨ws, hs, hd⟩
    have hn := hd.ne_nil
    obtain ⟨hij, hj⟩ := hs.inside hn
    rw [text_length hl] at hj
    exact ⟨hij, hj, (hs.unique (text_spells hl hij hj)) ▸ hd⟩
  · rintro ⟨hij, hj, hd⟩
    exact ⟨_, text_spells hl hij hj, hd⟩

example : ∃ l, createLineFromString Demo.W "ab".toList = .ok l ∧ l.ll_tokens ≠ [] ∧
    (¬ MentionsType Demo.abc .char ∧ ¬ MentionsType Demo.abc .textTag) ∧
    (textPieces Demo.W "ab".toList).length * Demo.abc.length ≤
      (List.replicate 9 (Demo.abc.map (fun p => (1, p.rule)))).length :=
  ⟨_, rfl, (by intro h; cases h), Demo.abc_own, by decide⟩

/-- C141: with conjunctions, more than context-free languages: as many `a`s as `b`s as `c`s, in this order. -/
theorem C141_counting (ws : List Str) : Derives Demo.abc (.attr (.user 0)) ws ↔
    ∃ n, 0 < n ∧ ws = List.replicate n ['a'] ++ List.replicate n ['b'] ++ List.replicate n ['c'] :=
  abc_iff ws

/-- C141: so, on any line, as many passes as there are tokens find exactly the stretches of the form `aⁿbⁿcⁿ`. -/
theorem C141_counting_found {l : LLLine Demo.W} {h : History Demo.W} (hh : Honest l h) (ne : l.ll_tokens ≠ [])
    (clean : ∀ r ∈ h, ¬ MentionsType Demo.abc r.ty) :
    ∃ l' q, runAll l (ruleRuns (List.replicate l.ll_tokens.length (Demo.abc.map (fun p => (1, p.rule)))).flatten) = .ok l' ∧
      l'.query (.user 0) = .ok q ∧ ∀ i j, (∃ text vs, ((i, j), text, vs) ∈ q) ↔
        ∃ n, 0 < n ∧ Spells l i j (List.replicate n ['a'] ++ List.replicate n ['b'] ++ List.replicate n ['c']) := by
  obtain ⟨l', h1, h2⟩ := C141_unit_free hh ne Demo.abc clean Demo.abc_unitFree
    (List.replicate l.ll_tokens.length (Demo.abc.map (fun p => (1, p.rule)))) Demo.abc_passes (by simp)
  obtain ⟨q, hq, hm⟩ := h2 (.user 0) ⟨_, .head _, .inl rfl⟩
  refine ⟨l', q, h1, hq, fun i j => (hm i j).trans ⟨?_, ?_⟩⟩
  · rintro ⟨ws, hs, hd⟩
    obtain ⟨n, hn, rfl⟩ := (C141_counting ws).1 hd
    exact ⟨n, hn, hs⟩
  · rintro ⟨n, hn, hs⟩
    exact ⟨_, hs, (C141_counting _).2 ⟨n, hn, rfl⟩⟩

example := C141_counting_found Demo.abcHonest Demo.abc_ne Demo.abc_clean

end LNlp
