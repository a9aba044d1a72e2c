import Verif.Spec.Select
import Verif.Model.Display
/- Specification of the rendering of a line. -/
namespace LNlp
variable {W : World}

/-- what rendering needs of widths: the empty text has none, and text behind two spaces makes what is before it no
narrower.  (It need not hold that text becomes no narrower by any text appended: the variation selectors of emoji, for
example, may narrow what is before them.) -/
structure WidthLaws (W : World) : Prop where
  nil : W.strWidth [] = 0
  mono : ∀ a b, W.strWidth (a ++ [' ', ' ']) ≤ W.strWidth (a ++ [' ', ' '] ++ b)

/-- the width of texts two spaces apart is the sum of the widths.  This holds for every version of unicode-width 0.1: up
to 0.1.12 the width of a text is the sum of the widths of its characters, later versions give certain sequences of
characters a width of their own, but none with a space in it. -/
structure AdditiveWidth (W : World) : Prop where
  nil : W.strWidth [] = 0
  append : ∀ a b, W.strWidth (a ++ [' ', ' '] ++ b) = W.strWidth a + W.strWidth [' ', ' '] + W.strWidth b

/-- how a token is shown -/
def shown (t : LLToken) : Str :=
  match t.token with
  | .Text s _ => s
  | .Value => ['<', '>']

/-- token texts joined by two spaces -/
def headerOf (toks : List LLToken) : Str := List.intercalate [' ', ' '] (toks.map shown)

/-- the display column at which token `i` starts -/
def colStart (W : World) (toks : List LLToken) (i : Nat) : Nat :=
  W.strWidth (if i = 0 then [] else headerOf (toks.take i) ++ [' ', ' '])

/-- the display column right after token `i` -/
def colEnd (W : World) (toks : List LLToken) (i : Nat) : Nat := W.strWidth (headerOf (toks.take (i + 1)))

/-- a bracket under `width` columns -/
def bracket (width : Nat) : Str :=
  if width ≤ 1 then ['╰'] else ['╰'] ++ List.replicate (width - 2) '─' ++ ['╯']

/-- the line shown for one attribute value -/
def attrLine (W : World) (toks : List LLToken) (item : LRange × Str) : Str :=
  ['\n'] ++ List.replicate (colStart W toks item.1.1) ' '
    ++ bracket (colEnd W toks item.1.2 - colStart W toks item.1.1) ++ item.2

/-- what including type `k` adds: one item per value, ranges in order of first assignment, newest value
of a range first -/
def shownValues (k : Ty W) (h : History W) : List (LRange × Str) :=
  (rangesOf k h).flatMap (fun r => (valuesOf k r h).reverse.map (fun v => (r, valDbg k v)))

/-- a display of line `l` after including the types `ks` in this order -/
def displayWith (l : LLLine W) (ks : List (Ty W)) : R (LLLineDisplay W) :=
  foldR (fun d k => d.with k) (LLLineDisplay.new l) ks

/-- a shown value that cannot be mistaken for a part of a bracket or for another line -/
def Readable (s : Str) : Prop := '\n' ∉ s ∧ s.head? ≠ some '─' ∧ s.head? ≠ some '╯'

end LNlp
