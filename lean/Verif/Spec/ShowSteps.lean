import Verif.Spec.DocumentShow
import Verif.Spec.Steps
/- Specification vocabulary: renderings whose attributes come in some order. -/
namespace LNlp
variable {W : World}

/-- the lines that the rendering of a line of these tokens has for the values of one entry of a query -/
def attrBlock (toks : List LLToken) (k : Ty W) (e : LRange × Str × List (Val k)) : List Str :=
  (entryLines k [e]).map (attrLine W toks)

/-- the lines that the rendering of `l` has for the values of type `k`, in blocks of those under the same tokens -/
def attrBlocks (l : LLLine W) (k : Ty W) : List (List Str) := (queried l k).map (attrBlock l.ll_tokens k)

/-- the blocks of several lines, those of each line moved to stand under its text; the first text begins at column `n` -/
def attrBlocksAll (k : Ty W) : Nat → List (LLLine W) → List (List Str)
  | _, [] => []
  | n, l :: ls => (attrBlocks l k).map (fun b => b.map (movedRight n)) ++ attrBlocksAll k (n + columnsOf l) ls

/-- the rendering of `l` with the types `ks` has the texts of the lines `ls` side by side and, type by type, the blocks of their
renderings in some order -/
def RenderedTogether (l : LLLine W) (ls : List (LLLine W)) (ks : List (Ty W)) : Prop :=
  (∀ x ∈ ls, Shows x ks (headerOf x.ll_tokens ++ (ks.flatMap (fun k => (attrBlocks x k).flatten)).flatten)) ∧
  ∃ blocks : Ty W → List (List Str), (∀ k ∈ ks, (blocks k).Perm (attrBlocksAll k 0 ls)) ∧
    Shows l ks (headerAll ls ++ (ks.flatMap (fun k => (blocks k).flatten)).flatten)

end LNlp
