import Verif.Demo.Laws
/- Concrete inputs and lines in the demo world, used to show that theorem hypotheses are satisfiable. -/
namespace LNlp

/-! Example input used below: a text with a digit word, a custom token, and attributes. -/
namespace Demo
/-- `["Pay 12ab, ", <custom 3>, "1_0"]` with attributes on the first two -/
def exInput : List (InputToken W) :=
  [.Text ['P','a','y',' ','1','2','a','b',',',' '] [AnyAttribute.new (Ty.user 0) (['A'] : Str)],
   .Custom 3 [AnyAttribute.new (Ty.user 1) (['L'] : Str), AnyAttribute.new (Ty.user 0) (['B'] : Str)],
   .Text ['1','_','0'] []]

theorem exInput_wf : ∀ t ∈ exInput, t.WF := by
  intro t ht a ha
  simp [exInput] at ht
  rcases ht with rfl | rfl | rfl
  · simp [InputToken.attrList] at ha; exact ⟨_, _, ha⟩
  · simp [InputToken.attrList] at ha; rcases ha with ha | ha <;> exact ⟨_, _, ha⟩
  · simp [InputToken.attrList] at ha

theorem exInput_ok : ∃ l, createLineFromInputTokens W exInput List.length = .ok l := ⟨_, rfl⟩

/-- unwrap, for examples -/
def getOk {α : Type} (d : α) : R α → α
  | .ok a => a
  | .error _ => d

def emptyLine : LLLine W := ⟨[], ⟨TypeIdToMany.empty, [], [], HMap.empty⟩⟩

/-- the line of `exInput` (nine tokens) -/
def exLine : LLLine W := getOk emptyLine (createLineFromInputTokens W exInput List.length)
theorem exLine_ok : createLineFromInputTokens W exInput List.length = .ok exLine := rfl

/-- a resolver that assigns a multi-token range twice and another one once -/
def exRes : Resolver W where
  attr := Ty.user 2
  go := fun _ => .ok ([⟨0, 2, (['x'] : Str)⟩, ⟨0, 2, (['x'] : Str)⟩, ⟨3, 4, (['y'] : Str)⟩], false)

/-- the line after running `exRes` -/
def exLine2 : LLLine W := getOk emptyLine (exLine.run 7 exRes)
theorem exLine2_ok : exLine.run 7 exRes = .ok exLine2 := rfl

def exHist : History W := creationHistory W List.length exInput
def exHist2 : History W := exHist ++
  ([⟨0, 2, (['x'] : Str)⟩, ⟨0, 2, (['x'] : Str)⟩, ⟨3, 4, (['y'] : Str)⟩] :
    List (LLCursorAssignment (Val (Ty.user (W := W) 2)))).map (recOf (Ty.user 2))

theorem exReach : Reachable exLine exHist := .create exInput List.length exLine exInput_wf exLine_ok
theorem exLine_ne : exLine.ll_tokens ≠ [] := by intro h; cases h
theorem exReach2 : Reachable exLine2 exHist2 :=
  .run exLine exHist 7 exRes _ false exLine2 exReach exLine_ne rfl exLine2_ok

/-- an empty line -/
theorem emptyReach : ∃ l : LLLine W, Reachable l (creationHistory W List.length []) ∧ l.ll_tokens = [] :=
  ⟨_, .create [] List.length _ (by simp) rfl, rfl⟩
end Demo

end LNlp
