import Verif.Spec.WrittenIn
/- Specification vocabulary: word boundaries inside a text, the tokens of a text, what a resolver finds in a text, and
texts of several lines. -/
namespace LNlp

/-- there is a word boundary between the two parts of the text `a ++ b` (or one of them is empty) -/
def WordBreak (W : World) (a b : Str) : Prop :=
  a = [] ∨ b = [] ∨ ∃ u v, W.splitWordBounds (a ++ b) = u ++ v ∧ u.flatten = a

/-- the line made from the text has these tokens; the empty text, from which no line can be made, has none -/
def TokensIn (W : World) (s : Str) (toks : List LLToken) : Prop :=
  (s = [] ∧ toks = []) ∨ ∃ l, createLineFromString W s = .ok l ∧ l.ll_tokens = toks

/-- the text has `n` tokens, and querying its line for the resolver's attribute after the resolver ran yields these
entries; nothing is in the empty text -/
def ResolvedIn (W : World) (r : Resolver W) (s : Str) (n : Nat) (out : List (LRange × Str × List (Val r.attr))) : Prop :=
  (s = [] ∧ n = 0 ∧ out = []) ∨
    ∃ l l', createLineFromString W s = .ok l ∧ l.ll_tokens.length = n ∧ l.run 0 r = .ok l' ∧ l'.query r.attr = .ok out

/-- the text begins and ends with something else than a blank, and not with a combining mark or the like -/
def Solid (cls : Char → WBChar) (m : Str) : Prop :=
  (∃ d, m.head? = some d ∧ (cls d).cls ≠ .wSegSpace ∧ (cls d).cls.ignored = false) ∧
  ∃ d, m.getLast? = some d ∧ (cls d).cls ≠ .wSegSpace

/-- the lines as one text, a newline between each two -/
def joinLines : List Str → Str
  | [] => []
  | [s] => s
  | s :: t :: rest => s ++ '\n' :: joinLines (t :: rest)

/-- lists with `x` between each two -/
def between1 {α : Type} (x : α) : List (List α) → List α
  | [] => []
  | [s] => s
  | s :: t :: rest => s ++ x :: between1 x (t :: rest)

end LNlp
