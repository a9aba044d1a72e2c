import Verif.Spec.Edges
import Verif.Demo.Grammar
/- Bare tokens in the demo world: three tokens without attributes, then a letter. -/
namespace LNlp.Demo
open LNlp

def plainInput : List (InputToken W) := [.Custom 1 [], .Custom 1 [], .Custom 1 [], .Text ['a'] []]
def plainLine : LLLine W := getOk emptyLine (createLineFromInputTokens W plainInput List.length)
theorem plainOk : createLineFromInputTokens W plainInput List.length = .ok plainLine := rfl
theorem plainWf : ∀ t ∈ plainInput, t.WF := by
  intro t ht a ha
  simp only [plainInput, List.mem_cons, List.not_mem_nil, or_false] at ht
  rcases ht with rfl | rfl | rfl | rfl <;> cases ha
def plainHist : History W := creationHistory W List.length plainInput
theorem plainHonest : Honest plainLine plainHist := .create _ _ _ plainWf plainOk
theorem plainNe : plainLine.ll_tokens ≠ [] := by decide

def lettersLine : LLLine W := getOk emptyLine (createLineFromInputTokens W [.Text ['a', ' ', 'b'] []] List.length)
theorem lettersHonest : Honest lettersLine (creationHistory W List.length [.Text ['a', ' ', 'b'] []]) :=
  .create _ _ _ (by
    intro t ht a ha
    rw [List.mem_singleton.1 ht] at ha
    cases ha) rfl
theorem letters_text : ∀ t ∈ lettersLine.ll_tokens, ∃ s tag, t.token = .Text s tag := by
  intro t ht
  have ht : t.token ∈ lettersLine.ll_tokens.map (·.token) := List.mem_map_of_mem ht
  have ht : t.token ∈ [LToken.Text ['a'] .WORD, .Text [' '] .SPACE, .Text ['b'] .WORD] := ht
  simp only [List.mem_cons, List.not_mem_nil, or_false] at ht
  rcases ht with e | e | e <;> exact ⟨_, _, e⟩

end LNlp.Demo
