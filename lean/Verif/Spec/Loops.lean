import Verif.Spec.Select
/-
Loops over selections (C107): what one round of the usual loops does, and chains of rounds.
-/
namespace LNlp
variable {W : World}

/-- number of tokens of a non-empty selection -/
def LLSelection.count (s : LLSelection W) : Nat := s.end_idx + 1 - s.start_idx

/-- one round of a loop that extends a selection: `match_forwards` or `match_backwards` with one of the
matchers `P`, continuing with one of the results -/
inductive Extends (P : {Out : Type} → XMatch W Out → Prop) (s : LLSelection W) : LLSelection W → Prop
  | forwards {Out : Type} {m : XMatch W Out} {out : List (LLSelection W × Out)} {s' : LLSelection W} {x : Out} :
      P m → s.matchForwards m = .ok out → (s', x) ∈ out → Extends P s s'
  | backwards {Out : Type} {m : XMatch W Out} {out : List (LLSelection W × Out)} {s' : LLSelection W} {x : Out} :
      P m → s.matchBackwards m = .ok out → (s', x) ∈ out → Extends P s s'

/-- any number of rounds -/
inductive Rounds (step : LLSelection W → LLSelection W → Prop) : Nat → LLSelection W → LLSelection W → Prop
  | zero (s) : Rounds step 0 s s
  | more {n s s' s''} : step s s' → Rounds step n s' s'' → Rounds step (n + 1) s s''

/-- one round of a loop that searches a selection: `find_first_by` with one of the matchers `P`, extending
what was found any number of times, and continuing with one of the two sides of it (`split_with`) -/
inductive Searches (P : {Out : Type} → XMatch W Out → Prop) (s : LLSelection W) : LLSelection W → Prop
  | mk {Out : Type} {m : XMatch W Out} {f f' : LLSelection W} {x : Out} {n : Nat}
      {a b : Option (LLSelection W)} {s' : LLSelection W} :
      P m → s.findFirstBy m = .ok (some (f, x)) → Rounds (Extends P) n f f' →
      s.splitWith f' = .ok (a, b) → (a = some s' ∨ b = some s') → Searches P s s'

/-- one round of a loop that trims as long as something changes -/
inductive Trims (P : {Out : Type} → XMatch W Out → Prop) (s : LLSelection W) : LLSelection W → Prop
  | mk {Out : Type} {m : XMatch W Out} {s' : LLSelection W} :
      P m → s.trim m = .ok (some s') ∨ s.trimStart m = .ok (some s') ∨ s.trimEnd m = .ok (some s') → (s'.start_idx, s'.end_idx) ≠ (s.start_idx, s.end_idx) → Trims P s s'

/-- one round of `while let Some(next) = s.after() { s = next }` -/
def Steps (s s' : LLSelection W) : Prop := s.after = some s'

/-- a loop ends: no more than some number of rounds can be run -/
def Ends (step : LLSelection W → LLSelection W → Prop) (s : LLSelection W) : Prop :=
  ∃ n, ∀ k s', Rounds step k s s' → k ≤ n
end LNlp
