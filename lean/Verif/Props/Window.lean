import Verif.Lemmas.Window
import Verif.Lemmas.WindowExpr
import Verif.Lemmas.WindowOnce
import Verif.Lemmas.Piecewise
import Verif.Props.Structure
import Verif.Demo.Structure
/- C145: what rules find on a stretch of a line depends on that stretch only. -/
namespace LNlp
variable {W : World}

/-! ### C145 -/

/-- C145: what a matcher made of `x::attr`, `x::attr_eq`, `x::token_text`, `x::seq` and `x::all` finds inside a stretch is the
same, in the same order, on any two lines on which the tokens of the stretch and the attributes inside it are the same. -/
theorem C145_matcher {l l' : LLLine W} {h h' : History W} (hh : Honest l h) (hh' : Honest l' h') {n n' w : Nat}
    (s : SameWindow l h n l' h' n' w) {α : Type} (p : Pat W α) (i : Nat) (hi : i < w) :
    ∃ rs rs', p.matcher.go (.fwd (n + i)) l = .ok rs ∧ p.matcher.go (.fwd (n' + i)) l' = .ok rs' ∧
      resultsIn n w rs = resultsIn n' w rs' := by
  obtain ⟨rs, h1, h2⟩ := p.within_eq hh.spec.1 hh.spec.2 s.fits hi
  obtain ⟨rs', h1', h2'⟩ := p.within_eq hh'.spec.1 hh'.spec.2 s.fits' hi
  exact ⟨rs, rs', h1, h1', by rw [h2, h2', s.tokens, s.records]⟩

/-- the last two of three tokens and the first two of three -/
theorem Demo.chain_window : SameWindow Demo.chainLine (creationHistory Demo.W List.length Demo.chainInput) 1
    Demo.chainLine (creationHistory Demo.W List.length Demo.chainInput) 0 2 := ⟨by decide, by decide, rfl, rfl⟩

example := C145_matcher Demo.chainHonest Demo.chainHonest Demo.chain_window Demo.pair.pat 0 (by decide)

/-- C145: after any runs of any rules, in any order and however often, on two lines with the same stretch, `query` lists for
the ranges inside the stretch the same ranges, texts and values in the same order on both. -/
theorem C145_query {l l' : LLLine W} {h h' : History W} (hh : Honest l h) (hh' : Honest l' h') (ne : l.ll_tokens ≠ [])
    (ne' : l'.ll_tokens ≠ []) {n n' w : Nat} (s : SameWindow l h n l' h' n' w) (prog : List (Nat × Nat × Rule W)) :
    ∃ m m', runAll l (ruleRuns (prog.map (fun p => (p.1, p.2.2)))) = .ok m ∧
      runAll l' (ruleRuns (prog.map (fun p => (p.2.1, p.2.2)))) = .ok m' ∧
      ∀ k, ∃ q q', m.query k = .ok q ∧ m'.query k = .ok q' ∧ queryIn n w q = queryIn n' w q' := by
  obtain ⟨m, g, m', g', h1, h2, h3, h4, _, _, s'⟩ := rules_run_in prog hh hh' ne ne' s
  refine ⟨m, m', h1, h3, fun k => ?_⟩
  obtain ⟨q, hq, e⟩ := query_in h2.spec.1 h2.spec.2 n w k
  obtain ⟨q', hq', e'⟩ := query_in h4.spec.1 h4.spec.2 n' w k
  exact ⟨q, q', hq, hq', by rw [e, e', s'.tokens, s'.records]⟩

example := C145_query Demo.chainHonest Demo.chainHonest Demo.chain_ne Demo.chain_ne Demo.chain_window
  [(1, 2, Demo.pair), (3, 4, Demo.pair)]

/-- C145: the same if some of the rules look before they assign (C144), whatever their `==`. -/
theorem C145_looking {l l' : LLLine W} {h h' : History W} (hh : Honest l h) (hh' : Honest l' h') (ne : l.ll_tokens ≠ [])
    (ne' : l'.ll_tokens ≠ []) {n n' w : Nat} (s : SameWindow l h n l' h' n' w) (prog : List (Nat × Nat × Bool × Rule W)) :
    ∃ m m', runAll l (mixedRuns (prog.map (fun p => (p.1, p.2.2)))) = .ok m ∧
      runAll l' (mixedRuns (prog.map (fun p => (p.2.1, p.2.2)))) = .ok m' ∧
      ∀ k, ∃ q q', m.query k = .ok q ∧ m'.query k = .ok q' ∧ queryIn n w q = queryIn n' w q' := by
  obtain ⟨m, g, m', g', h1, h2, h3, h4, _, _, s'⟩ := mixed_run_in prog hh hh' ne ne' s
  refine ⟨m, m', h1, h3, fun k => ?_⟩
  obtain ⟨q, hq, e⟩ := query_in h2.spec.1 h2.spec.2 n w k
  obtain ⟨q', hq', e'⟩ := query_in h4.spec.1 h4.spec.2 n' w k
  exact ⟨q, q', hq, hq', by rw [e, e', s'.tokens, s'.records]⟩

example := C145_looking Demo.chainHonest Demo.chainHonest Demo.chain_ne Demo.chain_ne Demo.chain_window
  [(1, 2, true, Demo.pair), (3, 4, false, Demo.pair), (5, 6, true, Demo.pair)]

/-- C145: in particular what rules find in a part of the input is what they find in that part alone: for the line of
`xs ++ ys ++ zs`, `query` lists for the ranges inside the tokens of `ys`, counted from there, exactly what it lists for the line
of `ys`, whatever is before and after. -/
theorem C145_parts (size : Str → Nat) (xs ys zs : List (InputToken W)) (l lx ly : LLLine W)
    (wf : ∀ t ∈ xs ++ (ys ++ zs), t.WF) (ok : createLineFromInputTokens W (xs ++ (ys ++ zs)) size = .ok l)
    (okx : createLineFromInputTokens W xs size = .ok lx) (oky : createLineFromInputTokens W ys size = .ok ly) (hy : ys ≠ [])
    (prog : List (Nat × Nat × Rule W)) :
    ∃ m m', runAll l (ruleRuns (prog.map (fun p => (p.1, p.2.2)))) = .ok m ∧
      runAll ly (ruleRuns (prog.map (fun p => (p.2.1, p.2.2)))) = .ok m' ∧
      ∀ k, ∃ q q', m.query k = .ok q ∧ m'.query k = .ok q' ∧
        queryIn lx.ll_tokens.length ly.ll_tokens.length q = q' := by
  have wfy : ∀ t ∈ ys, t.WF := fun t ht => wf t (by simp [ht])
  obtain ⟨m, g, m', g', h1, h2, h3, h4, _, ht, s⟩ := rules_run_in prog (.create _ size l wf ok) (.create _ size ly wfy oky)
    (create_ne wf ok (by simp [hy])) (create_ne wfy oky hy) (same_parts size xs ys zs l lx ly wf ok okx oky)
  refine ⟨m, m', h1, h3, fun k => ?_⟩
  obtain ⟨q, hq, e⟩ := query_in h2.spec.1 h2.spec.2 lx.ll_tokens.length ly.ll_tokens.length k
  obtain ⟨q', hq', e'⟩ := query_in h4.spec.1 h4.spec.2 0 ly.ll_tokens.length k
  refine ⟨q, q', hq, hq', ?_⟩
  rw [e, s.tokens, s.records, ← e', ← ht]
  exact queryIn_all h4.spec.1 h4.spec.2 hq'

/-- the README's sentence, and its part `New York` -/
example := C145_parts (W := Demo.W) List.length [.Text "I live in ".toList []] [.Text "New York".toList []]
  [.Text " City".toList []] _ _ _ (by
    intro t ht a ha
    simp only [List.cons_append, List.nil_append, List.mem_cons, List.not_mem_nil, or_false] at ht
    rcases ht with rfl | rfl | rfl <;> cases ha) rfl rfl rfl (by simp)
  [(1, 1, Demo.word), (2, 2, Demo.location), (3, 3, Demo.state), (4, 4, Demo.address)]

/-- C145: any expression without `x::any_of` (so also `x::token_has_any`, and `x::seq` and `x::all` of three), in either
direction: what it finds inside a stretch is the same, in the same order, on any two lines with the same stretch, if it does not
panic on either. -/
theorem C145_expression {l l' : LLLine W} {h h' : History W} (hh : Honest l h) (hh' : Honest l' h') {n n' w : Nat}
    (s : SameWindow l h n l' h' n' w) {α : Type} {m : XMatch W α} (hm : ChoiceFree true m) (d : Dir) (hd : d.at < w)
    (rs rs' : List (α × Nat)) (ok : m.go (d.from n) l = .ok rs) (ok' : m.go (d.from n') l' = .ok rs') :
    foundIn n w rs = foundIn n' w rs' :=
  expr_in hh.spec.1 hh.spec.2 hh'.spec.1 hh'.spec.2 s hm d hd rs rs' ok ok'

/-- `x::seq((x::attr::<A>(), x::token_has_any(&["a"])))` -/
def Demo.pairAny : XMatch Demo.W (Str × Str) := X.seq2 (X.attr (Ty.user 0)) (X.tokenHasAny (Ty.user 0) [(['a'] : Str)])
theorem Demo.pairAny_free : ChoiceFree true Demo.pairAny := .seq2 (.attr _) (.tokenHasAny _ rfl _)

example := C145_expression Demo.chainHonest Demo.chainHonest Demo.chain_window Demo.pairAny_free (.fwd 0) (by decide)
  [((['a'], ['a']), 2)] [((['a'], ['a']), 1)] rfl rfl
example := C145_expression Demo.chainHonest Demo.chainHonest Demo.chain_window Demo.pairAny_free (.bwd 1) (by decide)
  [((['a'], ['a']), 1)] [((['a'], ['a']), 0)] rfl rfl

/-- C145: and the same for queries after any runs of resolvers that search for such expressions, if the runs do not panic. -/
theorem C145_finders {l l' m m' : LLLine W} {h h' : History W} (hh : Honest l h) (hh' : Honest l' h') (ne : l.ll_tokens ≠ [])
    (ne' : l'.ll_tokens ≠ []) {n n' w : Nat} (s : SameWindow l h n l' h' n' w) (prog : List (Nat × Nat × Finder W))
    (hc : ∀ p ∈ prog, ChoiceFree true p.2.2.expr) (ok : runAll l (finderRuns (prog.map (fun p => (p.1, p.2.2)))) = .ok m)
    (ok' : runAll l' (finderRuns (prog.map (fun p => (p.2.1, p.2.2)))) = .ok m') (k : Ty W) :
    ∃ q q', m.query k = .ok q ∧ m'.query k = .ok q' ∧ queryIn n w q = queryIn n' w q' := by
  obtain ⟨g, g', h2, h4, _, _, s'⟩ := finders_run_in prog hh hh' ne ne' s hc ok ok'
  obtain ⟨q, hq, e⟩ := query_in h2.spec.1 h2.spec.2 n w k
  obtain ⟨q', hq', e'⟩ := query_in h4.spec.1 h4.spec.2 n' w k
  exact ⟨q, q', hq, hq', by rw [e, e', s'.tokens, s'.records]⟩

/-- assigns the two texts together -/
def Demo.pairFinder : Finder Demo.W := ⟨Ty.user 0, Str × Str, Demo.pairAny, fun p => [p.1 ++ p.2]⟩

example := C145_finders (m := Demo.getOk Demo.emptyLine (Demo.chainLine.run 1 Demo.pairFinder.resolver))
  (m' := Demo.getOk Demo.emptyLine (Demo.chainLine.run 2 Demo.pairFinder.resolver)) Demo.chainHonest Demo.chainHonest Demo.chain_ne
  Demo.chain_ne Demo.chain_window [(1, 2, Demo.pairFinder)] (by
    intro p hp
    rw [List.mem_singleton.1 hp]
    exact Demo.pairAny_free) rfl rfl (Ty.user 0)

/-- C145 with `x::token_has_any` and no word about panics: if an expression does not panic in `xs` alone, it does not panic there
in `xs ++ zs`. -/
def C145_panic_claim : Prop := ∀ (W : World) (α : Type) (m : XMatch W α), ChoiceFree true m →
  ∀ (xs zs : List (InputToken W)) (l lx : LLLine W), createLineFromInputTokens W (xs ++ zs) List.length = .ok l →
  createLineFromInputTokens W xs List.length = .ok lx → ∀ (i : Nat) (rs : List (α × Nat)), i < lx.ll_tokens.length →
  m.go (.fwd i) lx = .ok rs → ∃ rs', m.go (.fwd i) l = .ok rs'

/-- `x::seq((x::token_text(), x::token_has_any(&[])))` panics if a custom token without attributes is put behind the text -/
theorem C145_panic_false : ¬ C145_panic_claim := fun c => by
  obtain ⟨rs', h⟩ := c Demo.W _ (X.seq2 X.tokenText (X.tokenHasAny Ty.textTag [])) (.seq2 .tokenText (.tokenHasAny _ rfl _))
    [.Text ['a'] []] [.Custom 1 []] _ _ rfl rfl 0 [] (by decide) rfl
  cases h

/-- C145 with `x::any_of`: what it finds in `xs` at the start of `xs ++ zs` is what it finds in `xs` alone. -/
def C145_any_of_claim : Prop := ∀ (W : World) (α β : Type) (a : Pat W α) (b : Pat W β) (xs zs : List (InputToken W)) (l lx : LLLine W),
  createLineFromInputTokens W (xs ++ zs) List.length = .ok l → createLineFromInputTokens W xs List.length = .ok lx →
  ∀ (i : Nat) (rs rs' : List (AnyOf2 α β × Nat)), i < lx.ll_tokens.length → (X.anyOf2 a.matcher b.matcher).go (.fwd i) l = .ok rs →
    (X.anyOf2 a.matcher b.matcher).go (.fwd i) lx = .ok rs' →
    resultsIn 0 lx.ll_tokens.length rs = resultsIn 0 lx.ll_tokens.length rs'

/-- two texts, or else one: with `" "` after it, `"a"` by itself is not found -/
theorem C145_any_of_false : ¬ C145_any_of_claim := fun c =>
  absurd (c Demo.W _ _ (.seq .text .text) .text [.Text ['a'] []] [.Text [' '] []] _ _ rfl rfl 0
    [(.A (['a'], [' ']), 1)] [(.B ['a'], 0)] (by decide) rfl rfl) (by intro h; cases h)

end LNlp
