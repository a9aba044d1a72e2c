import Verif.Spec.Written
/- Specification vocabulary: the amounts of a text, and texts put side by side. -/
namespace LNlp

/-- the amounts a line made from a string has after the resolver ran -/
def amountsOf (W : World) (r : AmountResolver) (s : Str) : R (List (LRange × Str × List W.Decimal)) :=
  match createLineFromString W s with
  | .error e => .error e
  | .ok l =>
    match l.run 0 (r.resolver W) with
    | .error e => .error e
    | .ok l' => l'.query .amount

/-- the text has `n` tokens and these amounts; nothing is in the empty text -/
def AmountsIn (W : World) (r : AmountResolver) (s : Str) (n : Nat) (out : List (LRange × Str × List W.Decimal)) : Prop :=
  (s = [] ∧ n = 0 ∧ out = []) ∨
    ∃ l, createLineFromString W s = .ok l ∧ l.ll_tokens.length = n ∧ amountsOf W r s = .ok out

/-- an entry of a query, `n` tokens further right -/
def shiftEntry {V : Type} (n : Nat) (x : LRange × Str × V) : LRange × Str × V := ((x.1.1 + n, x.1.2 + n), x.2)

/-- a character that cannot belong to a number -/
def NoNumber (r : AmountResolver) (c : Char) : Prop := ¬ IsDigit c ∧ c ∉ r.delimiters ∧ c ≠ r.decimal

/-- a character that ends words: blanks, and what the word boundary rules do not mention (brackets, currency signs and
other symbols) -/
def EndsWords (cls : Char → WBChar) (c : Char) : Prop := (cls c).cls = .wSegSpace ∨ (cls c).cls = .other

end LNlp
