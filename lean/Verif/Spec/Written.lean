import Verif.Spec.Uax29
import Verif.Spec.Amount
/- Numbers as people write them, and what is to be expected of them. -/
namespace LNlp

/-- a non-empty string of ASCII digits -/
def Digits (g : Str) : Prop := g ≠ [] ∧ ∀ c ∈ g, IsDigit c

/-- the value of a digit string -/
def digitsVal (s : Str) : Nat := s.foldl (fun v c => 10 * v + (c.toNat - 48)) 0

/-- digit groups with signs between them: `1,234,567.89` is `written "1" [(',', "234"), (',', "567"), ('.', "89")]` -/
def written (g : Str) (rest : List (Char × Str)) : Str := g ++ rest.flatMap (fun p => p.1 :: p.2)

/-- all digits of a written number -/
def digitsIn (g : Str) (rest : List (Char × Str)) : Str := g ++ rest.flatMap (·.2)

def digitChar (d : Nat) : Char := Char.ofNat (48 + d)

/-- a number in decimal notation -/
def numeral (n : Nat) : Str := if n < 10 then [digitChar n] else numeral (n / 10) ++ [digitChar (n % 10)]
termination_by n

/-- a number in decimal notation with a sign before every three digits, counted from the end -/
def thousands (sep : Char) (n : Nat) : Str :=
  if n < 1000 then numeral n
  else thousands sep (n / 1000) ++ sep :: [digitChar (n / 100 % 10), digitChar (n / 10 % 10), digitChar (n % 10)]
termination_by n

/-- what the Unicode Character Database has about the signs in written numbers -/
structure NumTable (W : World) (cls : Char → WBChar) : Prop where
  comma : (cls ',').cls = .midNum
  point : (cls '.').cls = .midNumLet
  apostrophe : (cls '\'').cls = .singleQuote
  blank : (cls ' ').cls = .wSegSpace
  alpha : ∀ c ∈ [',', '.', '\'', ' '], W.isAlphabetic c = false

/-- `make n k` is the decimal number `n / 10 ^ k`.  `Decimal::from_str` reads up to 28 digits exactly. -/
structure DecLaws (W : World) (make : Nat → Nat → W.Decimal) : Prop where
  whole : ∀ s, Digits s → s.length ≤ 28 → W.parseDecimal s = some (make (digitsVal s) 0)
  fraction : ∀ s f, Digits s → Digits f → (s ++ f).length ≤ 28 →
    W.parseDecimal (s ++ '.' :: f) = some (make (digitsVal (s ++ f)) f.length)
  /-- scale and digits are kept: 1.0 and 1.00 are different decimals (`Decimal::scale`) -/
  different : ∀ n n' k k', make n k = make n' k' → n = n' ∧ k = k'

end LNlp
