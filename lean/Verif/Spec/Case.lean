import Verif.Spec.Sentences
import Verif.Spec.Laws
/- Specification vocabulary: lines and texts that differ in upper and lower case only. -/
namespace LNlp
variable {W : World}

/-- the lines have the same number of tokens, and the tokens at each index have the same tag and the same text up
to letter case -/
structure SameButCase (l l' : LLLine W) : Prop where
  length : l.ll_tokens.length = l'.ll_tokens.length
  tag : ∀ i, tagAt l i = tagAt l' i
  text : ∀ i, (textAt l i).map W.toLowercase = (textAt l' i).map W.toLowercase

/-- `f` changes the case of letters: it maps letters to letters of the same byte length with the same lowercase
and leaves everything else, and word boundaries do not depend on case.  (For example `to_ascii_lowercase`: UAX #29
puts all ASCII letters into one class.) -/
structure Recase (W : World) (f : Char → Char) : Prop where
  split : ∀ s, W.splitWordBounds (s.map f) = (W.splitWordBounds s).map (List.map f)
  letters : ∀ c, W.isAlphabetic c = true → W.isAlphabetic (f c) = true
  others : ∀ c, W.isAlphabetic c = false → f c = c
  bytes : ∀ c, (f c).utf8Size = c.utf8Size
  lower : ∀ s, W.toLowercase (s.map f) = W.toLowercase s

/-- the token with the case of its text changed -/
def LToken.recase (f : Char → Char) : LToken → LToken
  | .Text s tag => .Text (s.map f) tag
  | .Value => .Value

end LNlp
