import Verif.Spec.Exceptions
import Verif.Demo.Grammar
/- Rules with exceptions in the demo world. -/
namespace LNlp.Demo
open LNlp

/-- words, the place "New York", words that do not begin a place, and the best reading of a word -/
def eword : ERule W := ⟨Ty.user 1, Str, .text, fun s => if s.all isLatinLetter then [s] else []⟩
def eplace : ERule W :=
  ⟨Ty.user 2, _, .seq (.attrEq (Ty.user 1) ("New".toList : Str)) (.seq (.attrEq Ty.textTag TextTag.SPACE)
    (.attrEq (Ty.user 1) ("York".toList : Str))), fun _ => [("NY".toList : Str)]⟩
def ename : ERule W := ⟨Ty.user 3, _, .unless (.attr (Ty.user 1)) (.attr (Ty.user 2)), fun s => [(show Str from s)]⟩
def ebest : ERule W := ⟨Ty.user 4, _, .anyOf (.attr (Ty.user 2)) (.attr (Ty.user 1)), fun s => match s with
  | .A p => [(show Str from p)]
  | .B w => [(show Str from w)]⟩
def estrata : List (Stratum W) := [⟨[eword], [[(1, eword)]]⟩, ⟨[eplace], [[(2, eplace)]]⟩,
  ⟨[ename, ebest], [[(3, ebest), (4, ename)]]⟩]
/-- the same in another order: the best reading in a layer of its own -/
def estrata' : List (Stratum W) := [⟨[eword], [[(1, eword)], [(2, eword)]]⟩, ⟨[eplace], [[(2, eplace)]]⟩,
  ⟨[ename], [[(3, ename)]]⟩, ⟨[ebest], [[(4, ebest)]]⟩]

-- TEST: "New" begins a place, "York" does not
#guard shows (runAll readmeLine (strataRuns estrata)) [Ty.user 3, Ty.user 4] =
  "I     live     in     New     York     City\n╰\"I\"\n      ╰──╯\"live\"\n               ╰╯\"in\"\n                              ╰──╯\"York\"\n                                       ╰──╯\"City\"\n╰\"I\"\n      ╰──╯\"live\"\n               ╰╯\"in\"\n                      ╰──────────╯\"NY\"\n                              ╰──╯\"York\"\n                                       ╰──╯\"City\""

theorem estrata_strata : InStrata (estrata.map (·.rules)) := by
  simp [estrata, InStrata, eword, eplace, ename, ebest, EPat.Mentions, EPat.Excepts]
  decide
theorem estrata'_strata : InStrata (estrata'.map (·.rules)) := by
  simp [estrata', InStrata, eword, eplace, ename, ebest, EPat.Mentions, EPat.Excepts]
  decide
theorem estrata_enough : ∀ s ∈ estrata, s.Enough readmeLine.ll_tokens.length := by
  intro s hs
  simp only [estrata, List.mem_cons, List.not_mem_nil, or_false] at hs
  rcases hs with rfl | rfl | rfl
  · exact ⟨by simp [eq_comm], .inl ⟨by simp [eword, EPat.Mentions], by simp⟩⟩
  · exact ⟨by simp [eq_comm], .inl ⟨by simp [eplace, EPat.Mentions]; decide, by simp⟩⟩
  · exact ⟨by
      intro pass hp r
      cases List.mem_singleton.1 hp
      simp only [List.mem_cons, List.not_mem_nil, or_false]
      constructor
      · rintro (rfl | rfl)
        · exact ⟨(4, _), .inr rfl, rfl⟩
        · exact ⟨(3, _), .inl rfl, rfl⟩
      · rintro ⟨p, rfl | rfl, rfl⟩
        · exact .inr rfl
        · exact .inl rfl, .inl ⟨by simp [ename, ebest, EPat.Mentions]; decide, by simp⟩⟩
theorem estrata'_enough : ∀ s ∈ estrata', s.Enough readmeLine.ll_tokens.length := by
  intro s hs
  simp only [estrata', List.mem_cons, List.not_mem_nil, or_false] at hs
  rcases hs with rfl | rfl | rfl | rfl
  · exact ⟨by simp [eq_comm], .inl ⟨by simp [eword, EPat.Mentions], by simp⟩⟩
  · exact ⟨by simp [eq_comm], .inl ⟨by simp [eplace, EPat.Mentions]; decide, by simp⟩⟩
  · exact ⟨by simp [eq_comm], .inl ⟨by simp [ename, EPat.Mentions]; decide, by simp⟩⟩
  · exact ⟨by simp [eq_comm], .inl ⟨by simp [ebest, EPat.Mentions]; decide, by simp⟩⟩

/-- two neighbours make one; what has no neighbour is last -/
def epair : ERule W :=
  ⟨Ty.user 0, _, .seq (.attr (Ty.user 0)) (.attr (Ty.user 0)), fun x => [((show Str from x.1) ++ (show Str from x.2) : Str)]⟩
def elast : ERule W := ⟨Ty.user 1, _, .unless (.attr (Ty.user 0)) (.seq (.attr (Ty.user 0)) (.attr (Ty.user 0))),
  fun s => [(show Str from s)]⟩
def echain : List (Stratum W) := [⟨[epair], [[(1, epair)], [(2, epair)], [(3, epair)]]⟩, ⟨[elast], [[(4, elast)]]⟩]
theorem echain_strata : InStrata (echain.map (·.rules)) := by
  simp [echain, InStrata, epair, elast, EPat.Mentions, EPat.Excepts]
theorem echain_enough : ∀ s ∈ echain, s.Enough chainLine.ll_tokens.length := by
  intro s hs
  simp only [echain, List.mem_cons, List.not_mem_nil, or_false] at hs
  rcases hs with rfl | rfl
  · exact ⟨by simp [eq_comm], .inr (.inl ⟨by simp [epair, EPat.MentionsWhole], by decide⟩)⟩
  · exact ⟨by simp [eq_comm], .inl ⟨by simp [elast, EPat.Mentions], by simp⟩⟩

/-- a pair that does not begin a triple -/
def eshort : ERule W := ⟨Ty.user 1, _, .unless (.attrEq (Ty.user 0) ("aa".toList : Str)) (.attrEq (Ty.user 0) ("aaa".toList : Str)),
  fun _ => [("aa".toList : Str)]⟩
def eshorts : List (Stratum W) := [⟨[epair], [[(1, epair)], [(2, epair)], [(3, epair)]]⟩, ⟨[eshort], [[(4, eshort)]]⟩]
theorem eshorts_strata : InStrata (eshorts.map (·.rules)) := by
  simp [eshorts, InStrata, epair, eshort, EPat.Mentions, EPat.Excepts]
theorem eshorts_enough : ∀ s ∈ eshorts, s.Enough chainLine.ll_tokens.length := by
  intro s hs
  simp only [eshorts, List.mem_cons, List.not_mem_nil, or_false] at hs
  rcases hs with rfl | rfl
  · exact ⟨by simp [eq_comm], .inr (.inl ⟨by simp [epair, EPat.MentionsWhole], by decide⟩)⟩
  · exact ⟨by simp [eq_comm], .inl ⟨by simp [eshort, EPat.Mentions], by simp⟩⟩

/-- each makes an exception of the other -/
def eleft : ERule W := ⟨Ty.user 1, _, .unless (.attr (Ty.user 0)) (.attr (Ty.user 2)), fun s => [(show Str from s)]⟩
def eright : ERule W := ⟨Ty.user 2, _, .unless (.attr (Ty.user 0)) (.attr (Ty.user 1)), fun s => [(show Str from s)]⟩

end LNlp.Demo
