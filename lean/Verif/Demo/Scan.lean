import Verif.Spec.Scan
import Verif.Demo.Grammar
import Verif.Lemmas.Strata
/- Scanning in the demo world. -/
namespace LNlp.Demo
open LNlp

abbrev lone : XMatch W (Val (W := W) (Ty.user 0)) := X.attr (Ty.user 0)
/-- two neighbours -/
abbrev couple := X.seq2 lone lone
/-- three neighbours, or else one alone -/
abbrev tripleOrOne := X.anyOf2 (X.seq2 lone couple) lone

theorem lone_built {has : Bool} : Built (fun _ : Ty W => True) has lone := .attr _ trivial
theorem couple_built {has : Bool} : Built (fun _ : Ty W => True) has couple := .seq2 lone_built lone_built
theorem tripleOrOne_built {has : Bool} : Built (fun _ : Ty W => True) has tripleOrOne :=
  .anyOf2 (.seq2 lone_built couple_built) lone_built

def chainSel : LLSelection W := ⟨⟨0, chainLine⟩, 0, 2⟩
theorem chainSel_inside : chainSel.Inside := ⟨by decide, by decide⟩
theorem couple_well : WellBehaved chainSel.ll_line.val couple :=
  builtin_wellBehaved couple_built chainHonest.spec.1.rep chainHonest.spec.2
theorem tripleOrOne_well : WellBehaved chainSel.ll_line.val tripleOrOne :=
  builtin_wellBehaved tripleOrOne_built chainHonest.spec.1.rep chainHonest.spec.2
theorem lone_well : WellBehaved chainSel.ll_line.val lone :=
  builtin_wellBehaved lone_built chainHonest.spec.1.rep chainHonest.spec.2

/-- the results of `find_by` for `lone` -/
def ones : List (LLSelection W × Val (W := W) (Ty.user 0)) :=
  [(⟨⟨0, chainLine⟩, 0, 0⟩, (['a'] : Str)), (⟨⟨0, chainLine⟩, 1, 1⟩, (['a'] : Str)), (⟨⟨0, chainLine⟩, 2, 2⟩, (['a'] : Str))]
theorem ones_found : chainSel.findBy lone = .ok ones := rfl
theorem ones_apart : ones.Pairwise Apart := by simp [ones, Apart]

def coupleValue : Val (W := W) (Ty.user 0) × Val (W := W) (Ty.user 0) → Val (W := W) (Ty.user 2) :=
  fun x => ((show Str from x.1) ++ (show Str from x.2) : Str)

def scanned {α : Type} (r : R (Option (List (LLSelection W × α) × List (LLSelection W)))) : List (Nat × Nat) × List (Nat × Nat) :=
  match r with
  | .ok (some (out, ps)) => (out.map (fun p => (p.1.start_idx, p.1.end_idx)), ps.map (fun p => (p.start_idx, p.end_idx)))
  | _ => ([(99, 99)], [])

-- TEST: the first two; the third is left
#guard scanned (scan couple 3 chainSel) = ([(0, 1)], [(2, 2)])
#guard scanned (scan tripleOrOne 3 chainSel) = ([(0, 2)], [])
#guard scanned (scan tripleOrOne 3 { chainSel with start_idx := 1 }) = ([(1, 1), (2, 2)], [])
#guard shows (chainLine.run 1 (scanning (Ty.user 2) couple coupleValue)) [Ty.user 2] =
  "<>  <>  <>\n╰────╯\"aa\""

end LNlp.Demo
