import Verif.Spec.Select
/- Specification for lines put together from parts, and for lines after any number of runs. -/
namespace LNlp
variable {W : World}

/-- the token `n` places further right and `p` positions further on -/
def LLToken.shift (n p : Nat) (t : LLToken) : LLToken :=
  { token_idx := t.token_idx + n, pos_starts_at := t.pos_starts_at + p, pos_ends_at := t.pos_ends_at + p,
    token := t.token }

/-- the position at which the last token ends, 0 without tokens -/
def endOf (toks : List LLToken) : Nat := (toks.getLast?.map (·.pos_ends_at)).getD 0

/-- add `n` to the token indexes of a match result -/
def shiftResults {α : Type} (n : Nat) : R (List (α × Nat)) → R (List (α × Nat))
  | .error e => .error e
  | .ok rs => .ok (rs.map (fun r => (r.1, r.2 + n)))

/-- the input without its attributes -/
def InputToken.bare : InputToken W → InputToken W
  | .Text s _ => .Text s []
  | .Custom n _ => .Custom n []

/-- `RunsTo l0 l`: line `l` is `l0` after any number of runs of any resolvers -/
inductive RunsTo {W : World} (l0 : LLLine W) : LLLine W → Prop
  | refl : RunsTo l0 l0
  | run {l l' : LLLine W} (ptr : Nat) (r : Resolver W) : RunsTo l0 l → l.run ptr r = .ok l' → RunsTo l0 l'

/-- a size function under which sizes of neighbouring texts add up (bytes, UTF-16 units, characters, …) -/
structure Additive (size : Str → Nat) : Prop where
  nil : size [] = 0
  append : ∀ a b, size (a ++ b) = size a + size b

/-- the matches of `m` in an optional selection -/
def findOpt {α : Type} (o : Option (LLSelection W)) (m : XMatch W α) : R (List (LLSelection W × α)) :=
  match o with
  | none => .ok []
  | some s => s.findBy m

end LNlp
