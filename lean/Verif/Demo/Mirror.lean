import Verif.Spec.Mirror
import Verif.Demo.Grammar
/- A line and the same line written from right to left, in the demo world. -/
namespace LNlp.Demo
open LNlp

def lrInput : List (InputToken W) :=
  [.Custom 1 [AnyAttribute.new (Ty.user 0) (['a'] : Str)], .Text ['b'] [AnyAttribute.new (Ty.user 0) (['b'] : Str)],
    .Text ['c'] [], .Custom 1 []]
def lrLine : LLLine W := getOk emptyLine (createLineFromInputTokens W lrInput List.length)
def rlLine : LLLine W := getOk emptyLine (createLineFromInputTokens W lrInput.reverse List.length)
theorem lr_wf : ∀ t ∈ lrInput, t.WF := by
  intro t ht a ha
  simp only [lrInput, List.mem_cons, List.not_mem_nil, or_false] at ht
  rcases ht with rfl | rfl | rfl | rfl <;> simp only [InputToken.attrList, List.mem_singleton, List.not_mem_nil] at ha <;>
    exact ⟨_, _, ha⟩
theorem lr_single : ∀ t ∈ lrInput, SingleInput W t := by
  intro t ht
  simp only [lrInput, List.mem_cons, List.not_mem_nil, or_false] at ht
  rcases ht with rfl | rfl | rfl | rfl <;> exact fun _ => rfl
theorem lr_ok : createLineFromInputTokens W lrInput List.length = .ok lrLine := rfl
theorem rl_ok : createLineFromInputTokens W lrInput.reverse List.length = .ok rlLine := rfl
theorem lrHonest : Honest lrLine (creationHistory W List.length lrInput) := .create _ _ _ lr_wf lr_ok
theorem rlHonest : Honest rlLine (creationHistory W List.length lrInput.reverse) :=
  .create _ _ _ (fun t ht => lr_wf t (List.mem_reverse.1 ht)) rl_ok
/-- the rule `pair` (Demo/Grammar.lean), for texts written from right to left -/
def riap : Rule W :=
  ⟨Ty.user 0, _, .seq (.attr (Ty.user 0)) (.attr (Ty.user 0)), fun x => [((show Str from x.2) ++ (show Str from x.1) : Str)]⟩
/-- a thing with a text behind it; a thing with a text before it -/
def owner : Rule W := ⟨Ty.user 3, _, .seq (.attr (Ty.user 0)) .text, fun x => [(show Str from x.1)]⟩
def renwo : Rule W := ⟨Ty.user 3, _, .seq .text (.attr (Ty.user 0)), fun x => [(show Str from x.2)]⟩
theorem ownerTurned : owner.Turned renwo := .mk (Ty.user 3) _ _ _ _ _ (.seq (.attr (Ty.user 0)) .text) (fun _ => rfl)
theorem pairTurned : pair.Turned riap := .mk (Ty.user 0) _ _ _ _ _ (.seq (.attr _) (.attr _)) (fun _ => rfl)

end LNlp.Demo
