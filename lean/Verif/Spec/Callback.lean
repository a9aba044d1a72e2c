import Verif.Model.Callback
import Verif.Spec.Tokenize
/- What is to be expected of a creation with a callback that counts, remembers or panics. -/
namespace LNlp
variable {W : World}

/-- the texts of the text tokens, in order -/
def textsOf (toks : List LLToken) : List Str :=
  toks.filterMap (fun t => match t.token with
    | .Text s _ => some s
    | .Value => none)

/-- the texts one input is cut into -/
def inputTexts (W : World) : InputToken W → List Str
  | .Text s _ => (textPieces W s).map (·.1)
  | .Custom _ _ => []

/-- the callback, having been called with `calls`, answers to all of the texts in turn -/
def Answers (cb : Callback) : List Str → List Str → Prop
  | _, [] => True
  | calls, s :: rest => (∃ n, cb calls s = some n) ∧ Answers cb (calls ++ [s]) rest

/-- what it answers to them (0 where it panics) -/
def answered (cb : Callback) : List Str → List Str → List Nat
  | _, [] => []
  | calls, s :: rest => (cb calls s).getD 0 :: answered cb (calls ++ [s]) rest

/-- the size a custom input brings itself -/
def ownSize : InputToken W → Nat
  | .Text _ _ => 0
  | .Custom n _ => n

/-- a callback that is a mathematical function -/
def Callback.of (size : Str → Nat) : Callback := fun _ s => some (size s)

end LNlp
