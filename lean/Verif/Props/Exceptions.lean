import Verif.Lemmas.Strata
import Verif.Demo.Exceptions
import Verif.Props.Store
/- C146: rules with exceptions and choices, in layers. -/
namespace LNlp
variable {W : World}

/-- C146: one run of a rule with exceptions or choices never panics and adds exactly what the rule concludes from the
attributes so far, with the exceptions judged by them. -/
theorem C146_one_run {l : LLLine W} {h : History W} (hh : Honest l h) (ne : l.ll_tokens ≠ []) (ptr : Nat) (r : ERule W) :
    ∃ l' new, l.run ptr r.resolver = .ok l' ∧ Honest l' (h ++ new) ∧ ∀ x, x ∈ new ↔ r.Concludes l (· ∈ h) (· ∈ h) x := by
  obtain ⟨l', new, h1, h2, _, h3⟩ := erule_run hh ne ptr r
  exact ⟨l', new, h1, h2, h3⟩

example := C146_one_run Demo.chainHonest Demo.chain_ne 1 Demo.elast

/-- C146: layers of such rules, each layer run with enough passes before the next, find a stable set of attributes: just
what follows by all the rules if the exceptions are judged by the finished line. -/
theorem C146_stable {l : LLLine W} {h : History W} (hh : Honest l h) (ne : l.ll_tokens ≠ []) (layers : List (Stratum W))
    (hs : InStrata (layers.map (·.rules))) (enough : ∀ s ∈ layers, s.Enough l.ll_tokens.length) :
    ∃ l' new, runAll l (strataRuns layers) = .ok l' ∧ Honest l' (h ++ new) ∧
      Stable l h (layers.map (·.rules)).flatten (· ∈ h ++ new) := by
  obtain ⟨l', new, h1, h2, _, h3⟩ := strata_run layers hh ne hs enough
  exact ⟨l', new, h1, h2, h3⟩

example := C146_stable Demo.readmeHonest Demo.readme_ne Demo.estrata Demo.estrata_strata Demo.estrata_enough
example := C146_stable Demo.chainHonest Demo.chain_ne Demo.echain Demo.echain_strata Demo.echain_enough

/-- C146: rules that can be put in layers have no more than one stable set. -/
theorem C146_unique {l : LLLine W} {h : History W} (layers : List (List (ERule W))) (hs : InStrata layers)
    {M M' : Rec W → Prop} (hM : Stable l h layers.flatten M) (hM' : Stable l h layers.flatten M') (x : Rec W) :
    M x ↔ M' x := stable_unique hs hM hM' x

example : ∃ l' new, runAll Demo.readmeLine (strataRuns Demo.estrata) = .ok l' ∧ ∀ M,
    Stable Demo.readmeLine (creationHistory Demo.W List.length Demo.readmeInput) (Demo.estrata.map (·.rules)).flatten M →
    ∀ x, M x ↔ x ∈ creationHistory Demo.W List.length Demo.readmeInput ++ new := by
  obtain ⟨l', new, h1, _, h3⟩ := C146_stable Demo.readmeHonest Demo.readme_ne Demo.estrata Demo.estrata_strata Demo.estrata_enough
  exact ⟨l', new, h1, fun M hM => C146_unique _ Demo.estrata_strata hM h3⟩

/-- C146: `query` shows just that set. -/
theorem C146_query {l : LLLine W} {h : History W} (hh : Honest l h) (ne : l.ll_tokens ≠ []) (layers : List (Stratum W))
    (hs : InStrata (layers.map (·.rules))) (enough : ∀ s ∈ layers, s.Enough l.ll_tokens.length) {M : Rec W → Prop}
    (hM : Stable l h (layers.map (·.rules)).flatten M) :
    ∃ l', runAll l (strataRuns layers) = .ok l' ∧ ∀ k, ∃ q, l'.query k = .ok q ∧
      ∀ i j v, (∃ text vs, ((i, j), text, vs) ∈ q ∧ v ∈ vs) ↔ M ⟨k, (i, j), v⟩ := by
  obtain ⟨l', new, h1, h2, h3⟩ := C146_stable hh ne layers hs enough
  obtain ⟨hr, ho⟩ := h2.spec
  refine ⟨l', h1, fun k => ?_⟩
  have hq := C13_query_is_history hr k (fun r hm => by
    obtain ⟨v, hv⟩ := mem_rangesOf.1 hm
    have := ho _ hv
    simp only at this
    omega)
  exact ⟨_, hq, fun i j v => ((C13_query_complete hr k _ hq).2.1 (i, j) v).trans (C146_unique _ hs h3 hM _)⟩

/-- "I live in New York City": the word "New" begins a place, so it is no name -/
example : ∃ M, Stable Demo.readmeLine (creationHistory Demo.W List.length Demo.readmeInput)
    (Demo.estrata.map (·.rules)).flatten M ∧ ¬ M ⟨Ty.user 3, (6, 6), ("New".toList : Str)⟩ ∧
    M ⟨Ty.user 3, (8, 8), ("York".toList : Str)⟩ := by
  obtain ⟨l', new, h1, _, h3⟩ := C146_stable Demo.readmeHonest Demo.readme_ne Demo.estrata Demo.estrata_strata Demo.estrata_enough
  obtain ⟨l2, h2, hq⟩ := C146_query Demo.readmeHonest Demo.readme_ne Demo.estrata Demo.estrata_strata Demo.estrata_enough h3
  obtain ⟨q, hq, hiff⟩ := hq (Ty.user 3)
  cases h2
  have e : q = [((0, 0), "I".toList, ["I".toList]), ((2, 2), "live".toList, ["live".toList]),
    ((4, 4), "in".toList, ["in".toList]), ((8, 8), "York".toList, ["York".toList]),
    ((10, 10), "City".toList, ["City".toList])] := (Except.ok.inj hq).symm
  subst e
  refine ⟨_, h3, fun hm => ?_, (hiff 8 8 ("York".toList : Str)).1 ⟨_, _, .tail _ (.tail _ (.tail _ (.head _))), .head _⟩⟩
  obtain ⟨t, vs, hm, _⟩ := (hiff 6 6 ("New".toList : Str)).2 hm
  cases hm with
  | tail _ hm => cases hm with
    | tail _ hm => cases hm with
      | tail _ hm => cases hm with
        | tail _ hm => cases hm with
          | tail _ hm => cases hm

/-- C146: the same rules in other layers, or in another order inside the layers, find the same attributes. -/
theorem C146_order {l : LLLine W} {h : History W} (hh : Honest l h) (ne : l.ll_tokens ≠ []) (layers layers' : List (Stratum W))
    (hs : InStrata (layers.map (·.rules))) (enough : ∀ s ∈ layers, s.Enough l.ll_tokens.length)
    (hs' : InStrata (layers'.map (·.rules))) (enough' : ∀ s ∈ layers', s.Enough l.ll_tokens.length)
    (same : ∀ r, r ∈ (layers.map (·.rules)).flatten ↔ r ∈ (layers'.map (·.rules)).flatten) :
    ∃ l1 new1 l2 new2, runAll l (strataRuns layers) = .ok l1 ∧ Honest l1 (h ++ new1) ∧
      runAll l (strataRuns layers') = .ok l2 ∧ Honest l2 (h ++ new2) ∧ ∀ x, x ∈ h ++ new1 ↔ x ∈ h ++ new2 := by
  obtain ⟨l1, new1, a1, a2, a3⟩ := C146_stable hh ne layers hs enough
  obtain ⟨l2, new2, b1, b2, b3⟩ := C146_stable hh ne layers' hs' enough'
  refine ⟨l1, new1, l2, new2, a1, a2, b1, b2, C146_unique _ hs a3 (fun x => (b3 x).trans ⟨?_, ?_⟩)⟩
  · exact entailed_congr (fun _ => Iff.rfl) (fun r => (same r).symm) (fun _ => Iff.rfl)
  · exact entailed_congr (fun _ => Iff.rfl) same (fun _ => Iff.rfl)

example := C146_order Demo.readmeHonest Demo.readme_ne Demo.estrata Demo.estrata' Demo.estrata_strata Demo.estrata_enough
  Demo.estrata'_strata Demo.estrata'_enough (by intro r; simp [Demo.estrata, Demo.estrata'])

/-- C146: and then no run of any of the rules finds anything more. -/
theorem C146_done {l : LLLine W} {h : History W} (hh : Honest l h) (ne : l.ll_tokens ≠ []) (layers : List (Stratum W))
    (hs : InStrata (layers.map (·.rules))) (enough : ∀ s ∈ layers, s.Enough l.ll_tokens.length)
    (prog : List (Nat × ERule W)) (hp : ∀ p ∈ prog, p.2 ∈ (layers.map (·.rules)).flatten) :
    ∃ l1 h1 l2 h2, runAll l (strataRuns layers) = .ok l1 ∧ Honest l1 h1 ∧ runAll l1 (eruleRuns prog) = .ok l2 ∧
      Honest l2 h2 ∧ ∀ x, x ∈ h2 ↔ x ∈ h1 := by
  obtain ⟨l1, new1, a1, a2, a3, a4⟩ := strata_run layers hh ne hs enough
  obtain ⟨l2, h2, b1, b2, b3⟩ := stable_runs a4 prog a2 (by rw [a3]; exact ne) a3 hp (fun _ => Iff.rfl)
  exact ⟨l1, _, l2, h2, a1, a2, b1, b2, b3⟩

example := C146_done Demo.chainHonest Demo.chain_ne Demo.echain Demo.echain_strata Demo.echain_enough
  [(7, Demo.elast), (8, Demo.epair)] (by simp [Demo.echain])

/-- without layers: the same two rules in either order find the same attributes -/
def C146_circles_claim : Prop := ∀ (W : World) (l l1 l2 : LLLine W) (h : History W) (r r' : ERule W), Honest l h →
  l.ll_tokens ≠ [] → (∀ t, t = r.attr ∨ t = r'.attr → ¬ r.pat.Mentions t ∧ ¬ r'.pat.Mentions t) →
  ¬ r.pat.Excepts r.attr → ¬ r'.pat.Excepts r'.attr → runAll l (eruleRuns [(1, r), (2, r')]) = .ok l1 →
  runAll l (eruleRuns [(2, r'), (1, r)]) = .ok l2 →
  ∀ k q1 q2, l1.query k = .ok q1 → l2.query k = .ok q2 → q1 = q2

/-- C146: rules that make exceptions of each other cannot be put in layers; the one that is run first wins. -/
theorem C146_circles_false : ¬ C146_circles_claim := by
  intro claim
  have := claim Demo.W Demo.chainLine _ _ _ Demo.eleft Demo.eright Demo.chainHonest Demo.chain_ne (by
      rintro t (rfl | rfl) <;> simp [Demo.eleft, Demo.eright, EPat.Mentions]
      all_goals decide)
    (by simp [Demo.eleft, EPat.Excepts, EPat.Mentions]; decide) (by simp [Demo.eright, EPat.Excepts, EPat.Mentions]; decide)
    rfl rfl (Ty.user 1) _ _ rfl rfl
  exact absurd (congrArg List.length this) (by decide)

end LNlp
