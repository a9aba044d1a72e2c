import Verif.Spec.Laws
import Verif.Spec.Resolve
/- Tokenising the text of a token again. -/
namespace LNlp

/-- Facts about UAX #29 word boundaries: cutting a text between two of its words leaves the words on both
sides as they are; runs of ASCII letters (rule WB5) and runs of ASCII digits (rule WB8) are one word. -/
structure SplitStable (W : World) : Prop where
  cut : ∀ s a b, W.splitWordBounds s = a ++ b → W.splitWordBounds a.flatten = a ∧ W.splitWordBounds b.flatten = b
  letters : ∀ w : Str, w ≠ [] → (∀ c ∈ w, c.toNat < 128 ∧ W.isAlphabetic c = true) → W.splitWordBounds w = [w]
  digits : ∀ w : Str, w ≠ [] → (∀ c ∈ w, IsDigit c) → W.splitWordBounds w = [w]

/-- a word found in a text is one word on its own -/
theorem SplitStable.again {W : World} (S : SplitStable W) (s : Str) :
    ∀ w ∈ W.splitWordBounds s, W.splitWordBounds w = [w] := by
  intro w hw
  obtain ⟨a, b, e⟩ := List.append_of_mem hw
  have h1 := (S.cut s (a ++ [w]) b (by rw [e]; simp)).1
  have h2 := (S.cut _ a [w] h1).2
  simpa using h2

/-- Facts about lowercasing: it keeps single words single words if there is no zero-width joiner in them (with one it
need not, see `C124_lower_joiner`), keeps digits, and makes no digit. -/
structure LowerStable (W : World) : Prop where
  word : ∀ w, '\u200d' ∉ w → W.splitWordBounds w = [w] → W.splitWordBounds (W.toLowercase w) = [W.toLowercase w]
  digits : ∀ w : Str, (∀ c ∈ w, IsDigit c) → W.toLowercase w = w
  head : ∀ w : Str, (∀ c ∈ w.head?, ¬ IsDigit c) → ∀ c ∈ (W.toLowercase w).head?, ¬ IsDigit c

/-- no token of the line has a zero-width joiner in its text -/
def NoJoiner {W : World} (l : LLLine W) : Prop := ∀ i t, textAt l i = some t → '\u200d' ∉ t

/-- a text that is tokenised to one token: not a phrase of several words, not empty, not "1st" -/
def SingleToken (W : World) (s : Str) : Prop := ∃ tag, textPieces W s = [(s, tag)]

end LNlp
