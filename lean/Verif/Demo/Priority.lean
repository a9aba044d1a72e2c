import Verif.Spec.Priority
import Verif.Demo.Exceptions
/- Readings in order of priority in the demo world. -/
namespace LNlp.Demo
open LNlp

/-- two neighbours, or else one alone -/
def two : Reading W (Ty.user 2) :=
  ⟨_, .seq (.attr (Ty.user 0)) (.attr (Ty.user 0)), fun x => [((show Str from x.1) ++ (show Str from x.2) : Str)]⟩
def single : Reading W (Ty.user 2) := ⟨_, .attr (Ty.user 0), fun x => [(show Str from x)]⟩
/-- two neighbours, without a value -/
def silent : Reading W (Ty.user 2) := ⟨_, .seq (.attr (Ty.user 0)) (.attr (Ty.user 0)), fun _ => []⟩
/-- one without a right neighbour, and one whose right neighbour has been read -/
def end' : Reading W (Ty.user 2) := ⟨_, .unless (.attr (Ty.user 0)) (.seq (.attr (Ty.user 0)) (.attr (Ty.user 0))),
  fun x => [(show Str from x)]⟩
def left : Reading W (Ty.user 2) :=
  ⟨_, .seq (.attr (Ty.user 0)) (.attr (Ty.user 2)), fun x => [((show Str from x.1) ++ (show Str from x.2) : Str)]⟩

theorem two_blind : two.Blind := by simp [two, Reading.Blind, EPat.Mentions, EPat.Excepts]
theorem single_blind : single.Blind := by simp [single, Reading.Blind, EPat.Mentions, EPat.Excepts]
theorem silent_blind : silent.Blind := by simp [silent, Reading.Blind, EPat.Mentions, EPat.Excepts]
theorem end'_blind : end'.Blind := by simp [end', Reading.Blind, EPat.Mentions, EPat.Excepts]
theorem readings_blind : ∀ p ∈ [(1, two), (2, single)], p.2.Blind := by
  intro p hp
  simp only [List.mem_cons, List.not_mem_nil, or_false] at hp
  rcases hp with rfl | rfl
  · exact two_blind
  · exact single_blind

-- TEST: two, two, and the last alone
#guard shows (runAll chainLine (priorityRuns [(1, two), (2, single)])) [Ty.user 2] =
  "<>  <>  <>\n╰────╯\"aa\"\n    ╰────╯\"aa\"\n        ╰╯\"a\""

end LNlp.Demo
