import Verif.Spec.Amount
import Verif.Model.Currency
/- Specification of pipelines: several resolvers run one after another on a line. -/
namespace LNlp
variable {W : World}

/-- Resolver `r` does not look at attributes of type `k`: what it assigns on a line it also assigns after
any resolver of attribute type `k` ran on that line. -/
def Blind (k : Ty W) (r : Resolver W) : Prop :=
  ∀ (l l' : LLLine W) (h : History W) (r' : Resolver W) (ptr p p' : Nat) (asgs : List (LLCursorAssignment (Val r.attr))),
    Reachable l h → l.ll_tokens ≠ [] → r'.attr = k → l.run ptr r' = .ok l' →
    r.go (wholeLine l p) = .ok (asgs, false) → r.go (wholeLine l' p') = .ok (asgs, false)

/-- The resolvers that come with the library and its companion crates. -/
inductive Stage (W : World)
  | table {k : Ty W} (t : TextMatchAssignResolver W k)
  | pos
  | keywords (r : ClauseKeywordResolver)
  | clauses
  | amounts (r : AmountResolver)

/-- the resolver of a stage -/
def Stage.resolver : Stage W → Resolver W
  | .table t => t.resolver
  | .pos => posTagResolver W
  | .keywords r => r.resolver W
  | .clauses => clauseResolver W
  | .amounts r => r.resolver W

/-- the attribute types a stage looks at -/
def Stage.Looks : Stage W → Ty W → Prop
  | .table _, _ => False
  | .pos, k => k = .textTag
  | .keywords _, _ => False
  | .clauses, k => k = .textTag ∨ k = .clauseKeyword
  | .amounts _, k => k = .textTag ∨ k = .char

/-- `line.run(&r0).run(&r1)…`; every run gets a fresh `Rc` -/
def runAll : LLLine W → List (Nat × Resolver W) → R (LLLine W)
  | l, [] => .ok l
  | l, (ptr, r) :: rs =>
    match l.run ptr r with
    | .ok l' => runAll l' rs
    | .error e => .error e

/-- every token of the line is a text or carries an attribute of its own -/
def AllTestable (l : LLLine W) (h : History W) : Prop :=
  ∀ i, i < l.ll_tokens.length → (∃ t, textAt l i = some t) ∨ ∃ x ∈ h, x.range = (i, i)

/-- the value for a currency symbol -/
def symbolOf {V : Type} (usd euro : V) (c : Char) : Option V :=
  if c = '$' then some usd else if c = '€' then some euro else none

/-- the currency symbol of token `i`: its text is the symbol and nothing else -/
def symbolAt {V : Type} (usd euro : V) (l : LLLine W) (i : Nat) : Option V :=
  (charAt l i).bind (symbolOf usd euro)

end LNlp
