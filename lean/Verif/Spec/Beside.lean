import Verif.Spec.Show
import Verif.Spec.WrittenIn
/- Specification vocabulary: the rendering of a line put together from two parts. -/
namespace LNlp
variable {W : World}

/-- the lines that the rendering of `l` has for the values of type `k`, one per value -/
def attrLines (l : LLLine W) (k : Ty W) : List Str := (entryLines k (queried l k)).map (attrLine W l.ll_tokens)

/-- a line of a rendering (it begins with the line break) moved `n` columns to the right -/
def movedRight (n : Nat) : Str → Str
  | [] => []
  | c :: rest => c :: (List.replicate n ' ' ++ rest)

/-- the tokens of `lx`, then the tokens of `ly` -/
def TokensBeside (l lx ly : LLLine W) : Prop :=
  l.ll_tokens.map (·.token) = lx.ll_tokens.map (·.token) ++ ly.ll_tokens.map (·.token)

/-- the attributes of type `k` of `lx`, then those of `ly`, counted from behind `lx` -/
def QueryBeside (l lx ly : LLLine W) (k : Ty W) : Prop :=
  queried l k = queried lx k ++ (queried ly k).map (shiftEntry lx.ll_tokens.length)

/-- the three renderings with the types `ks`: the texts of the two parts stand side by side, two spaces apart; the
lines of the first part are as they were; the lines of the second part are moved to stand under their tokens; the lines
are grouped by type -/
def RenderedBeside (l lx ly : LLLine W) (ks : List (Ty W)) : Prop :=
  Shows lx ks (headerOf lx.ll_tokens ++ (ks.flatMap (attrLines lx)).flatten) ∧
  Shows ly ks (headerOf ly.ll_tokens ++ (ks.flatMap (attrLines ly)).flatten) ∧
  Shows l ks (headerOf lx.ll_tokens ++ [' ', ' '] ++ headerOf ly.ll_tokens ++
    (ks.flatMap (fun k => attrLines lx k ++ (attrLines ly k).map
      (movedRight (W.strWidth (headerOf lx.ll_tokens) + W.strWidth [' ', ' '])))).flatten)

end LNlp
