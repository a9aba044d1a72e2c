import Verif.Demo.Uax29
import Verif.Spec.Written
/- A world with UAX #29 word boundaries and decimal numbers, for the examples of C127. -/
namespace LNlp.Demo
open LNlp

/-- reads up to 28 digits with at most one point -/
def numParse (s : Str) : Option (Nat × Nat) :=
  let a := s.takeWhile (fun c => decide (IsDigit c))
  match s.dropWhile (fun c => decide (IsDigit c)) with
  | [] => if a ≠ [] ∧ a.length ≤ 28 then some (digitsVal a, 0) else none
  | '.' :: f => if (a ++ f) ≠ [] ∧ (∀ c ∈ f, IsDigit c) ∧ (a ++ f).length ≤ 28 then some (digitsVal (a ++ f), f.length) else none
  | _ => none

def N : World := { U with
  Decimal := Nat × Nat
  amountDbg := fun d => "Amount(".toList ++ d.1.repr.toList ++ "e-".toList ++ d.2.repr.toList ++ [')']
  amountEq := fun a b => a == b
  parseDecimal := numParse }

theorem nUax : Uax29 N ucls := ⟨uUax.split, uUax.letter, uUax.digit, uUax.hyphen, uUax.enDash⟩

theorem nTable : NumTable N ucls where
  comma := by decide
  point := by decide
  apostrophe := by decide
  blank := by decide
  alpha := by decide

theorem nDec : DecLaws N (fun n k => (n, k)) where
  whole := by
    intro s hs hl
    show numParse s = _
    have h1 : s.takeWhile (fun c => decide (IsDigit c)) = s := by
      have := List.takeWhile_append_of_pos (p := fun c => decide (IsDigit c)) (l₁ := s) (l₂ := []) (by simpa using hs.2)
      simpa using this
    have h2 : s.dropWhile (fun c => decide (IsDigit c)) = [] := by
      have := List.dropWhile_append_of_pos (p := fun c => decide (IsDigit c)) (l₁ := s) (l₂ := []) (by simpa using hs.2)
      simpa using this
    simp only [numParse, h1, h2]
    rw [if_pos ⟨hs.1, hl⟩]
    rfl
  fraction := by
    intro s f hs hf hl
    show numParse (s ++ '.' :: f) = _
    have hp : decide (IsDigit '.') = false := by decide
    have h1 : (s ++ '.' :: f).takeWhile (fun c => decide (IsDigit c)) = s := by
      rw [List.takeWhile_append_of_pos (by simpa using hs.2), List.takeWhile_cons, hp]
      simp
    have h2 : (s ++ '.' :: f).dropWhile (fun c => decide (IsDigit c)) = '.' :: f := by
      rw [List.dropWhile_append_of_pos (by simpa using hs.2), List.dropWhile_cons, hp]
      simp
    simp only [numParse, h1, h2]
    rw [if_pos ⟨by simp [hs.1], hf.2, hl⟩]
    rfl
  different := by
    intro n n' k k' h
    exact Prod.mk.inj h

end LNlp.Demo
