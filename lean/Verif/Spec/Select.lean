import Verif.Spec.Match
import Verif.Spec.Store
import Verif.Model.Selection
/- Specification for selections: token membership, the selections obtainable through the API, and the
lines whose resolvers only assign such selections. -/
namespace LNlp
variable {W : World}

/-- token `i` belongs to the selection -/
def LLSelection.Has (s : LLSelection W) (i : Nat) : Prop := s.start_idx ≤ i ∧ i ≤ s.end_idx

/-- token `i` belongs to the selection, if there is one -/
def HasOpt (o : Option (LLSelection W)) (i : Nat) : Prop := ∃ s, o = some s ∧ s.Has i

/-- the selection is non-empty and lies in its line -/
def LLSelection.Inside (s : LLSelection W) : Prop :=
  s.start_idx ≤ s.end_idx ∧ s.end_idx < s.ll_line.val.ll_tokens.length

/-- `p` is a non-empty part of `s`, on the same line -/
def LLSelection.PartOf (p s : LLSelection W) : Prop :=
  p.ll_line = s.ll_line ∧ s.start_idx ≤ p.start_idx ∧ p.start_idx ≤ p.end_idx ∧ p.end_idx ≤ s.end_idx

/-- matcher results at tokens of the line go in the direction of matching and stay in the line -/
def WellBehaved {Out : Type} (l : LLLine W) (m : XMatch W Out) : Prop :=
  (∀ i out, i < l.ll_tokens.length → m.go (.fwd i) l = .ok out →
    ∀ r ∈ out, i ≤ r.2 ∧ r.2 < l.ll_tokens.length) ∧
  (∀ i out, i < l.ll_tokens.length → m.go (.bwd i) l = .ok out → ∀ r ∈ out, r.2 ≤ i)

/-- A match of `m` found forwards in `s`: it starts at token `a` of `s` and ends at token `b`. -/
def FoundIn {Out : Type} (m : XMatch W Out) (s : LLSelection W) (a b : Nat) : Prop :=
  s.Has a ∧ ∃ out x, m.go (.fwd a) s.ll_line.val = .ok out ∧ (x, b) ∈ out

/-- The selections obtainable from `s0` by any sequence of the public operations other than `after`,
using matchers from `P` (and, for `split_with`, any two selections obtained that way). -/
inductive ApiSel (P : {Out : Type} → XMatch W Out → Prop) (s0 : LLSelection W) : LLSelection W → Prop
  | self : ApiSel P s0 s0
  | fromLine {s s' : LLSelection W} : ApiSel P s0 s → LLSelection.fromLine s.ll_line = some s' →
      ApiSel P s0 s'
  | findBy {s s' : LLSelection W} {Out : Type} {m : XMatch W Out} {out : List (LLSelection W × Out)} {x : Out} :
      ApiSel P s0 s → P m → s.findBy m = .ok out → (s', x) ∈ out → ApiSel P s0 s'
  | findFirstBy {s s' : LLSelection W} {Out : Type} {m : XMatch W Out} {x : Out} :
      ApiSel P s0 s → P m → s.findFirstBy m = .ok (some (s', x)) → ApiSel P s0 s'
  | findBoth {s s' : LLSelection W} {Out : Type} {m : XMatch W Out} {out : List (LLSelection W × Out)} {x : Out} :
      ApiSel P s0 s → P m → s.findByForwardsAndBackwards m = .ok out → (s', x) ∈ out → ApiSel P s0 s'
  | matchForwards {s s' : LLSelection W} {Out : Type} {m : XMatch W Out} {out : List (LLSelection W × Out)} {x : Out} :
      ApiSel P s0 s → P m → s.matchForwards m = .ok out → (s', x) ∈ out → ApiSel P s0 s'
  | matchFirstForwards {s s' : LLSelection W} {Out : Type} {m : XMatch W Out} {x : Out} :
      ApiSel P s0 s → P m → s.matchFirstForwards m = .ok (some (s', x)) → ApiSel P s0 s'
  | matchBackwards {s s' : LLSelection W} {Out : Type} {m : XMatch W Out} {out : List (LLSelection W × Out)} {x : Out} :
      ApiSel P s0 s → P m → s.matchBackwards m = .ok out → (s', x) ∈ out → ApiSel P s0 s'
  | matchFirstBackwards {s s' : LLSelection W} {Out : Type} {m : XMatch W Out} {x : Out} :
      ApiSel P s0 s → P m → s.matchFirstBackwards m = .ok (some (s', x)) → ApiSel P s0 s'
  | splitBy {s s' : LLSelection W} {Out : Type} {m : XMatch W Out} {out : List (LLSelection W)} :
      ApiSel P s0 s → P m → s.splitBy m = .ok out → s' ∈ out → ApiSel P s0 s'
  | splitWith {s t s' : LLSelection W} {a b : Option (LLSelection W)} :
      ApiSel P s0 s → ApiSel P s0 t → s.splitWith t = .ok (a, b) → (a = some s' ∨ b = some s') → ApiSel P s0 s'
  | trimStart {s s' : LLSelection W} {Out : Type} {m : XMatch W Out} :
      ApiSel P s0 s → P m → s.trimStart m = .ok (some s') → ApiSel P s0 s'
  | trimEnd {s s' : LLSelection W} {Out : Type} {m : XMatch W Out} :
      ApiSel P s0 s → P m → s.trimEnd m = .ok (some s') → ApiSel P s0 s'
  | trim {s s' : LLSelection W} {Out : Type} {m : XMatch W Out} :
      ApiSel P s0 s → P m → s.trim m = .ok (some s') → ApiSel P s0 s'

/-- the resolver `r`, run on line `l`, returned assignments made from API selections only -/
def HonestRun (l : LLLine W) (ptr : Nat) (r : Resolver W)
    (asgs : List (LLCursorAssignment (Val r.attr))) : Prop :=
  r.go (wholeLine l ptr) = .ok (asgs, false) ∧
  ∀ a ∈ asgs, ∃ s v, ApiSel (fun m => Builtin m) (wholeLine l ptr) s ∧ a = s.finishWithAttr v

/-- Lines all of whose resolvers so far used the API honestly. -/
inductive Honest {W : World} : LLLine W → History W → Prop
  | create (input : List (InputToken W)) (size : Str → Nat) (l : LLLine W)
      (wf : ∀ t ∈ input, t.WF) (ok : createLineFromInputTokens W input size = .ok l) :
      Honest l (creationHistory W size input)
  | run (l : LLLine W) (h : History W) (ptr : Nat) (r : Resolver W)
      (asgs : List (LLCursorAssignment (Val r.attr))) (l' : LLLine W)
      (prev : Honest l h) (ne : l.ll_tokens ≠ []) (honest : HonestRun l ptr r asgs)
      (ok : l.run ptr r = .ok l') :
      Honest l' (h ++ asgs.map (recOf r.attr))
  | runEmpty (l : LLLine W) (h : History W) (ptr : Nat) (r : Resolver W) (l' : LLLine W)
      (prev : Honest l h) (empty : l.ll_tokens = []) (ok : l.run ptr r = .ok l') : Honest l' h

end LNlp
