import Verif.Spec.History
/- Laws of the outside functions, used as explicit hypotheses. `Demo/Laws.lean` proves that the demo
world satisfies them (so they are consistent). -/
namespace LNlp

/-- `split_word_bounds` returns the whole string cut into non-empty words
(documented contract of unicode-segmentation). -/
structure SplitLaws (W : World) : Prop where
  concat : ∀ s, (W.splitWordBounds s).flatten = s
  nonempty : ∀ s, ∀ w ∈ W.splitWordBounds s, w ≠ []

/-- Facts about Unicode properties of ASCII characters and of letters. -/
structure AsciiLaws (W : World) : Prop where
  digit_not_alpha : ∀ c, IsDigit c → W.isAlphabetic c = false
  punct_not_alpha : ∀ c, DocPunct c → W.isAlphabetic c = false
  punct_not_space : ∀ c, DocPunct c → W.isWhitespace c = false
  alpha_not_space : ∀ c, W.isAlphabetic c = true → W.isWhitespace c = false

/-- UAX #29 rule WB8: the word splitter never cuts between two ASCII digits. -/
def NoDigitBreak (W : World) : Prop :=
  ∀ s pre post (w1 w2 : Str) (c d : Char), W.splitWordBounds s = pre ++ w1 :: w2 :: post →
    w1.getLast? = some c → w2.head? = some d → ¬ (IsDigit c ∧ IsDigit d)

end LNlp
