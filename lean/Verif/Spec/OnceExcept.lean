import Verif.Spec.Once
import Verif.Spec.Exceptions
/- Rules with exceptions that look before they assign (C147), and loops over layers of them that go on to the next layer
when a pass adds nothing. -/
namespace LNlp
variable {W : World}

/-- a rule with exceptions as a resolver that looks first, as `Rule.once` -/
def ERule.once (r : ERule W) : Resolver W :=
  { attr := r.attr
    go := fun sel => match sel.findBy r.pat.matcher with
      | .error e => .error e
      | .ok found =>
        match foldR (lookFirst sel r.attr) [] (found.flatMap (fun st => (r.values st.2).map (fun v => (st.1, v)))) with
        | .error e => .error e
        | .ok new => .ok (new.map (fun s => s.1.finishWithAttr s.2), false) }

/-- the runs of the rules, each with its `Rc` -/
def eonceRuns (prog : List (Nat × ERule W)) : List (Nat × Resolver W) := prog.map (fun p => (p.1, p.2.once))

/-- the runs of layers, one layer after the other -/
def onceStrataRuns (layers : List (Stratum W)) : List (Nat × Resolver W) :=
  layers.flatMap (fun s => eonceRuns s.passes.flatten)

/-- the number of values `query` lists is the same for the two lines, for each of the attributes the rules assign -/
def SameCounts (rules : List (ERule W)) (l l' : LLLine W) : Prop :=
  ∀ r ∈ rules, ∃ q q', l.query r.attr = .ok q ∧ l'.query r.attr = .ok q' ∧ listed q = listed q'

/-- A loop over layers: the rules of a layer are run in any order and number, until a pass over all of them leaves the
number of values as it was; then the next layer has its turn. -/
inductive LayerLoop : LLLine W → List (List (ERule W)) → LLLine W → Prop
  | done (l : LLLine W) : LayerLoop l [] l
  | layer {l l1 l2 l' : LLLine W} {rules : List (ERule W)} {later : List (List (ERule W))}
      (before pass : List (Nat × ERule W)) (hb : ∀ p ∈ before, p.2 ∈ rules)
      (hp : ∀ r, r ∈ rules ↔ ∃ p ∈ pass, p.2 = r) (h1 : runAll l (eonceRuns before) = .ok l1)
      (h2 : runAll l1 (eonceRuns pass) = .ok l2) (still : SameCounts rules l1 l2) (go : LayerLoop l2 later l') :
      LayerLoop l (rules :: later) l'

end LNlp
