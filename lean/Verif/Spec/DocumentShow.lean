import Verif.Spec.Beside
/- Specification vocabulary: the rendering of a line put together from many parts. -/
namespace LNlp
variable {W : World}

/-- the texts of the lines side by side, two spaces apart -/
def headerAll (ls : List (LLLine W)) : Str := List.intercalate [' ', ' '] (ls.map (fun l => headerOf l.ll_tokens))

/-- the columns that a line takes when another follows: its text and two spaces -/
def columnsOf (l : LLLine W) : Nat := W.strWidth (headerOf l.ll_tokens) + W.strWidth [' ', ' ']

/-- the lines that the renderings of several lines have for the values of type `k`, those of each line moved to stand under
its text; the first text begins at column `n` -/
def attrLinesAll (k : Ty W) : Nat → List (LLLine W) → List Str
  | _, [] => []
  | n, l :: ls => (attrLines l k).map (movedRight n) ++ attrLinesAll k (n + columnsOf l) ls

/-- the rendering of `l` with the types `ks` is the renderings of the lines `ls` side by side, the lines grouped by type -/
def RenderedAll (l : LLLine W) (ls : List (LLLine W)) (ks : List (Ty W)) : Prop :=
  (∀ x ∈ ls, Shows x ks (headerOf x.ll_tokens ++ (ks.flatMap (attrLines x)).flatten)) ∧
  Shows l ks (headerAll ls ++ (ks.flatMap (fun k => attrLinesAll k 0 ls)).flatten)

end LNlp
