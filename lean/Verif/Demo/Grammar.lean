import Verif.Spec.Grammar
import Verif.Demo.Replay
import Verif.Demo.Examples
/- Grammars in the demo world. -/
namespace LNlp.Demo
open LNlp

/-- a space -/
def sp : Pat W Unit := .attrEq Ty.textTag TextTag.SPACE
/-- a word -/
def is (s : String) : Pat W Unit := .attrEq (Ty.user 1) (s.toList : Str)
/-- the README's grammar: words, `Location = 'New' + 'York' + 'City'`,
`Address = Person + Verb('live') + Predicate('in') + Location` -/
def word : Rule W := ⟨Ty.user 1, Str, .text, fun s => if s.all isLatinLetter then [s] else []⟩
def location : Rule W :=
  ⟨Ty.user 2, _, .seq (is "New") (.seq sp (.seq (is "York") (.seq sp (is "City")))), fun _ => [("NYC".toList : Str)]⟩
/-- other interpretations of the same words -/
def state : Rule W :=
  ⟨Ty.user 2, _, .seq (is "New") (.seq sp (is "York")), fun _ => [("NY".toList : Str), ("NYC".toList : Str)]⟩
def address : Rule W :=
  ⟨Ty.user 3, _, .seq (is "I") (.seq sp (.seq (is "live") (.seq sp (.seq (is "in") (.seq sp (.attr (Ty.user 2))))))),
    fun x => [("Self at ".toList ++ (show Str from x.2.2.2.2.2.2) : Str)]⟩
def readme : List (Nat × Rule W) := [(1, word), (2, location), (3, state), (4, address)]
def readmeInput : List (InputToken W) := [.Text "I live in New York City".toList []]
def readmeLine : LLLine W := getOk emptyLine (createLineFromInputTokens W readmeInput List.length)
theorem readmeHonest : Honest readmeLine (creationHistory W List.length readmeInput) :=
  .create _ _ _ (by intro t ht a ha; simp [readmeInput] at ht; subst ht; simp [InputToken.attrList] at ha) rfl
theorem readme_ne : readmeLine.ll_tokens ≠ [] := by intro h; cases h
theorem readme_layered : Layered (readme.map (·.2)) := by
  simp [readme, Layered, word, location, state, address, is, sp, Pat.Mentions]
  decide

-- TEST: the README's picture
#guard shows (runAll readmeLine (ruleRuns readme)) [Ty.user 2, Ty.user 3] =
  "I     live     in     New     York     City\n                      ╰───────────────────╯\"NYC\"\n                      ╰──────────╯\"NYC\"\n                      ╰──────────╯\"NY\"\n╰─────────────────────────────────────────╯\"Self at NYC\"\n╰────────────────────────────────╯\"Self at NYC\"\n╰────────────────────────────────╯\"Self at NY\""

/-- three custom tokens, each with an attribute -/
def chainInput : List (InputToken W) :=
  List.replicate 3 (.Custom 1 [AnyAttribute.new (Ty.user 0) (['a'] : Str)])
def chainLine : LLLine W := getOk emptyLine (createLineFromInputTokens W chainInput List.length)
theorem chainHonest : Honest chainLine (creationHistory W List.length chainInput) :=
  .create _ _ _ (by
    intro t ht a ha
    rw [(List.mem_replicate.1 ht).2] at ha
    simp only [InputToken.attrList, List.mem_singleton] at ha
    exact ⟨_, _, ha⟩) rfl
theorem chain_ne : chainLine.ll_tokens ≠ [] := by intro h; cases h
/-- two neighbours make one -/
def pair : Rule W :=
  ⟨Ty.user 0, _, .seq (.attr (Ty.user 0)) (.attr (Ty.user 0)), fun x => [((show Str from x.1) ++ (show Str from x.2) : Str)]⟩
theorem pair_growing : Growing [pair] := by
  intro r hr r' hr'
  simp only [List.mem_singleton] at hr hr'
  subst hr; subst hr'
  simp [pair, Pat.MentionsWhole]

end LNlp.Demo
