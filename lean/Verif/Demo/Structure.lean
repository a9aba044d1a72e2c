import Verif.Spec.Structure
import Verif.Demo.Grammar
/- Grammars over attributes in the demo world. -/
namespace LNlp.Demo
open LNlp

/-- `1 → 0 | 1 1`, `2 → 1('s') 0('a')` -/
def trees : List (Expansion W) :=
  [⟨Ty.user 1, (['s'] : Str), .attr (Ty.user 0), []⟩,
   ⟨Ty.user 1, (['s'] : Str), .attr (Ty.user 1), [.attr (Ty.user 1)]⟩,
   ⟨Ty.user 2, (['t'] : Str), .attrEq (Ty.user 1) (['s'] : Str), [.attrEq (Ty.user 0) (['a'] : Str)]⟩]
/-- `3 → 2` -/
def chains : List (Expansion W) := trees ++ [⟨Ty.user 3, (['u'] : Str), .attr (Ty.user 2), []⟩]
/-- `1 → 0 0`, `2 → 1 0` -/
def flat : List (Nat × Expansion W) :=
  [(1, ⟨Ty.user 1, (['s'] : Str), .attr (Ty.user 0), [.attr (Ty.user 0)]⟩),
   (2, ⟨Ty.user 2, (['t'] : Str), .attr (Ty.user 1), [.attrEq (Ty.user 0) (['a'] : Str)]⟩)]

theorem trees_noChains : NoChains trees := by
  intro p hp e q hq
  simp only [trees, List.mem_cons, List.not_mem_nil, or_false] at hp hq
  rcases hp with rfl | rfl | rfl
  · rcases hq with rfl | rfl | rfl <;> simp
  · cases e
  · cases e

theorem rules_passes {G : List (Expansion W)} {n : Nat} : ∀ prog ∈ List.replicate n (G.map (fun p => (1, p.rule))), ∀ r,
    r ∈ G.map Expansion.rule ↔ ∃ p ∈ prog, p.2 = r := by
  intro prog hprog r
  rw [(List.mem_replicate.1 hprog).2]
  constructor
  · intro hr
    obtain ⟨q, hq, rfl⟩ := List.mem_map.1 hr
    exact ⟨_, List.mem_map.2 ⟨q, hq, rfl⟩, rfl⟩
  · rintro ⟨p, hp, rfl⟩
    obtain ⟨q, hq, rfl⟩ := List.mem_map.1 hp
    exact List.mem_map.2 ⟨q, hq, rfl⟩

theorem flat_layered : Layered (flat.map (·.2.rule)) := by
  simp [flat, Layered, Expansion.rule, phraseOf, Category.recogniser, Pat.Mentions]
  decide

-- TEST
#guard (match runAll chainLine (ruleRuns (flat.map (fun p => (p.1, p.2.rule)))) with
  | .ok l => match l.query (Ty.user 2) with
    | .ok q => q.map (·.1)
    | .error _ => []
  | .error _ => []) = [(0, 2)]

end LNlp.Demo
