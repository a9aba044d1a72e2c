import Verif.Spec.Grammar
/- Resolvers that look before they assign (C144): the rules of Spec/Grammar.lean, but a value that is already there, or was
already found, is not assigned again. -/
namespace LNlp
variable {W : World}

/-- one round of the loop of a resolver that looks first:
`if sel.find_by(&x::attr_eq(&v)).iter().any(|(s, _)| *s == at) || new.iter().any(|(s, w)| *s == at && *w == v) { continue }
new.push((at, v))` -/
def lookFirst (sel : LLSelection W) (k : Ty W) (new : List (LLSelection W × Val k)) (c : LLSelection W × Val k) :
    R (List (LLSelection W × Val k)) :=
  match sel.findBy (X.attrEq k c.2) with
  | .error e => .error e
  | .ok there =>
    if there.any (fun s => s.1.eq c.1) || new.any (fun s => s.1.eq c.1 && valEq k s.2 c.2) then .ok new
    else .ok (new ++ [c])

/-- a rule as a resolver that looks first: for each place `find_by` finds and each value the rule assigns there, the round
above; at the end `finish_with_attr` for each that is new -/
def Rule.once (r : Rule W) : Resolver W :=
  { attr := r.attr
    go := fun sel => match sel.findBy r.pat.matcher with
      | .error e => .error e
      | .ok found =>
        match foldR (lookFirst sel r.attr) [] (found.flatMap (fun st => (r.values st.2).map (fun v => (st.1, v)))) with
        | .error e => .error e
        | .ok new => .ok (new.map (fun s => s.1.finishWithAttr s.2), false) }

/-- `==` says exactly which values are the same, as a derived `PartialEq` without floats does -/
def Exact (k : Ty W) : Prop := ∀ a b : Val k, valEq k a b = true ↔ a = b

/-- the runs of the rules, each with its `Rc` -/
def onceRuns (prog : List (Nat × Rule W)) : List (Nat × Resolver W) := prog.map (fun p => (p.1, p.2.once))

/-- how many values a query lists -/
def listed {k : Ty W} (q : List (LRange × Str × List (Val k))) : Nat := (q.map (fun e => e.2.2.length)).sum

end LNlp
