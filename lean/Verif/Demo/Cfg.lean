import Verif.Spec.Cfg
import Verif.Demo.Grammar
/- Context-free grammars in the demo world. -/
namespace LNlp.Demo
open LNlp

/-- one conjunct -/
def to (k : Nat) (x : Symbol W) (xs : List (Symbol W)) : Production W := ⟨Ty.user k, (['x'] : Str), (x, xs), []⟩
/-- a token -/
def tok (c : Char) : Symbol W := .text [c]
/-- what productions find -/
def nt (k : Nat) : Symbol W := .attr (Ty.user k)

/-- as many `b`s as `a`s as `c`s: `S → A D & E C`, `A → a | a A`, `D → b c | b D c`, `E → a b | a E b`, `C → c | c C` -/
def abc : List (Production W) :=
  [⟨Ty.user 0, (['x'] : Str), (nt 1, [nt 2]), [(nt 3, [nt 4])]⟩,
   to 1 (tok 'a') [], to 1 (tok 'a') [nt 1],
   to 2 (tok 'b') [tok 'c'], to 2 (tok 'b') [nt 2, tok 'c'],
   to 3 (tok 'a') [tok 'b'], to 3 (tok 'a') [nt 3, tok 'b'],
   to 4 (tok 'c') [], to 4 (tok 'c') [nt 4]]

theorem abc_unitFree : UnitFree abc := by
  intro p hp c hc h q hq
  simp only [abc, to, List.mem_cons, List.not_mem_nil, or_false] at hp
  rcases hp with rfl | rfl | rfl | rfl | rfl | rfl | rfl | rfl | rfl <;>
    simp_all [tok, nt] <;> (rcases hc with rfl | rfl <;> simp at h)

/-- a production that is just one symbol -/
def units : List (Production W) := [to 0 (nt 1) [], to 1 (tok 'a') []]

def spelled (s : String) : List (InputToken W) := s.toList.map (fun c => .Text [c] [])
def abcLine : LLLine W := getOk emptyLine (createLineFromInputTokens W (spelled "aabbcc") List.length)
theorem abcHonest : Honest abcLine (creationHistory W List.length (spelled "aabbcc")) :=
  .create _ _ _ (by
    intro t ht a ha
    obtain ⟨c, _, rfl⟩ := List.mem_map.1 ht
    cases ha) rfl
theorem abc_ne : abcLine.ll_tokens ≠ [] := by intro h; cases h

def unitLine : LLLine W := getOk emptyLine (createLineFromInputTokens W (spelled "a") List.length)
theorem unitHonest : Honest unitLine (creationHistory W List.length (spelled "a")) :=
  .create _ _ _ (by
    intro t ht a ha
    obtain ⟨c, _, rfl⟩ := List.mem_map.1 ht
    cases ha) rfl

theorem abc_passes {n : Nat} : ∀ prog ∈ List.replicate n (abc.map (fun p => (1, p.rule))), ∀ r,
    r ∈ abc.map Production.rule ↔ ∃ p ∈ prog, p.2 = r := by
  intro prog hprog r
  rw [(List.mem_replicate.1 hprog).2]
  constructor
  · intro hr
    obtain ⟨q, hq, rfl⟩ := List.mem_map.1 hr
    exact ⟨_, List.mem_map.2 ⟨q, hq, rfl⟩, rfl⟩
  · rintro ⟨p, hp, rfl⟩
    obtain ⟨q, hq, rfl⟩ := List.mem_map.1 hp
    exact List.mem_map.2 ⟨q, hq, rfl⟩

theorem units_passes {n : Nat} : ∀ prog ∈ List.replicate n (units.map (fun p => (1, p.rule))), ∀ r,
    r ∈ units.map Production.rule ↔ ∃ p ∈ prog, p.2 = r := by
  intro prog hprog r
  rw [(List.mem_replicate.1 hprog).2]
  constructor
  · intro hr
    obtain ⟨q, hq, rfl⟩ := List.mem_map.1 hr
    exact ⟨_, List.mem_map.2 ⟨q, hq, rfl⟩, rfl⟩
  · rintro ⟨p, hp, rfl⟩
    obtain ⟨q, hq, rfl⟩ := List.mem_map.1 hp
    exact List.mem_map.2 ⟨q, hq, rfl⟩

theorem abc_user {k : Ty W} (h : MentionsType abc k) : ∃ n, k = Ty.user n := by
  obtain ⟨p, hp, h⟩ := h
  simp only [abc, to, List.mem_cons, List.not_mem_nil, or_false] at hp
  rcases hp with rfl | rfl | rfl | rfl | rfl | rfl | rfl | rfl | rfl <;>
    simp [tok, nt] at h <;> first | exact ⟨_, h.symm⟩ | exact ⟨_, h⟩ | skip
  all_goals rcases h with h | h
  all_goals first | exact ⟨_, h.symm⟩ | exact ⟨_, h⟩ | skip
  all_goals rcases h with h | h
  all_goals rcases h with h | h <;> exact ⟨_, h⟩

theorem units_user {k : Ty W} (h : MentionsType units k) : ∃ n, k = Ty.user n := by
  obtain ⟨p, hp, h⟩ := h
  simp only [units, to, List.mem_cons, List.not_mem_nil, or_false] at hp
  rcases hp with rfl | rfl <;> simp [tok, nt] at h
  · rcases h with h | h
    · exact ⟨_, h.symm⟩
    · exact ⟨_, h⟩
  · exact ⟨_, h.symm⟩

theorem abc_own : ¬ MentionsType abc .char ∧ ¬ MentionsType abc .textTag :=
  ⟨fun h => (by obtain ⟨_, e⟩ := abc_user h; cases e), fun h => (by obtain ⟨_, e⟩ := abc_user h; cases e)⟩

theorem abc_clean : ∀ r ∈ creationHistory W List.length (spelled "aabbcc"), ¬ MentionsType abc r.ty := by
  intro r hr hm
  obtain ⟨n, e⟩ := abc_user hm
  have : ∀ t ∈ (creationHistory W List.length (spelled "aabbcc")).map (·.ty), t = .char ∨ t = .textTag := by decide
  rcases this _ (List.mem_map.2 ⟨r, hr, rfl⟩) with h | h <;> rw [h] at e <;> cases e

theorem units_clean : ∀ r ∈ creationHistory W List.length (spelled "a"), ¬ MentionsType units r.ty := by
  intro r hr hm
  obtain ⟨n, e⟩ := units_user hm
  have : ∀ t ∈ (creationHistory W List.length (spelled "a")).map (·.ty), t = .char ∨ t = .textTag := by decide
  rcases this _ (List.mem_map.2 ⟨r, hr, rfl⟩) with h | h <;> rw [h] at e <;> cases e

-- TEST: short texts (every pass assigns every value again, so that long ones take long)
def found (s : String) : List LRange :=
  match createLineFromInputTokens W (spelled s) List.length with
  | .error _ => []
  | .ok l => match runAll l (ruleRuns (List.replicate s.length (abc.map (fun p => (1, p.rule)))).flatten) with
    | .error _ => []
    | .ok l' => match l'.query (.user 0) with
      | .error _ => []
      | .ok q => q.map (·.1)
#guard found "abc" = [(0, 2)]
#guard found "aab" = []

end LNlp.Demo
