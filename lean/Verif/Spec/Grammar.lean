import Verif.Spec.Select
import Verif.Spec.Resolve
import Verif.Spec.Pipeline
/- README.md, "Layering": attributes are built from attributes by rules such as `Location = 'New' + 'York' + 'City'`.
A rule of such a grammar, the resolver it is written as, and what follows from a set of rules, without reference to
how resolvers are run. -/
namespace LNlp
variable {W : World}

/-- the right-hand side of a rule, with the type of what it finds -/
inductive Pat (W : World) : Type → Type 1
  | attr (k : Ty W) : Pat W (Val k)
  | attrEq (k : Ty W) (v : Val k) : Pat W Unit
  | text : Pat W Str
  | seq {α β : Type} (a : Pat W α) (b : Pat W β) : Pat W (α × β)
  | both {α β : Type} (a : Pat W α) (b : Pat W β) : Pat W (α × β)

/-- a right-hand side as a matcher expression -/
def Pat.matcher {α : Type} : Pat W α → XMatch W α
  | .attr k => X.attr k
  | .attrEq k v => X.attrEq k v
  | .text => X.tokenText
  | .seq a b => X.seq2 a.matcher b.matcher
  | .both a b => X.all2 a.matcher b.matcher

/-- a rule: the type of the attribute it assigns, what it looks for, and the values it assigns there -/
structure Rule (W : World) where
  attr : Ty W
  Found : Type
  pat : Pat W Found
  values : Found → List (Val attr)

/-- a rule as a resolver:
`selection.find_by(&pat).into_iter().flat_map(|(sel, x)| values(x).map(|v| sel.finish_with_attr(v))).collect()` -/
def Rule.resolver (r : Rule W) : Resolver W :=
  { attr := r.attr
    go := fun sel => match sel.findBy r.pat.matcher with
      | .ok found => .ok (found.flatMap (fun st => (r.values st.2).map (fun v => st.1.finishWithAttr v)), false)
      | .error e => .error e }

/-- the right-hand side is found on the tokens `i ..= j`, given the facts `F` -/
def Pat.Holds (l : LLLine W) (F : Rec W → Prop) {α : Type} : Pat W α → Nat → Nat → α → Prop
  | .attr k, i, j, v => F ⟨k, (i, j), v⟩
  | .attrEq k v, i, j, _ => ∃ w, valEq k w v = true ∧ F ⟨k, (i, j), w⟩
  | .text, i, j, s => i = j ∧ textAt l i = some s
  | .seq a b, i, j, (x, y) => ∃ m, a.Holds l F i m x ∧ b.Holds l F (m + 1) j y
  | .both a b, i, j, (x, y) => a.Holds l F i j x ∧ b.Holds l F i j y

/-- a rule concludes a fact from the facts `F` -/
def Rule.Concludes (l : LLLine W) (F : Rec W → Prop) (r : Rule W) (x : Rec W) : Prop :=
  ∃ i j found v, r.pat.Holds l F i j found ∧ v ∈ r.values found ∧ x = ⟨r.attr, (i, j), v⟩

/-- a set of facts with all conclusions of the rules -/
def Closed (l : LLLine W) (rules : List (Rule W)) (F : Rec W → Prop) : Prop :=
  ∀ r ∈ rules, ∀ x, r.Concludes l F x → F x

/-- what follows from the facts `h` by the rules: the members of every closed set that contains `h` -/
def Derivable (l : LLLine W) (h : History W) (rules : List (Rule W)) (x : Rec W) : Prop :=
  ∀ F : Rec W → Prop, (∀ y ∈ h, F y) → Closed l rules F → F x

/-- what follows in at most `n` steps -/
def InSteps (l : LLLine W) (h : History W) (rules : List (Rule W)) : Nat → Rec W → Prop
  | 0, x => x ∈ h
  | n + 1, x => InSteps l h rules n x ∨ ∃ r ∈ rules, r.Concludes l (InSteps l h rules n) x

/-- the right-hand side mentions attributes of type `t` -/
def Pat.Mentions (t : Ty W) {α : Type} : Pat W α → Prop
  | .attr k => k = t
  | .attrEq k _ => k = t
  | .text => False
  | .seq a b => a.Mentions t ∨ b.Mentions t
  | .both a b => a.Mentions t ∨ b.Mentions t

/-- … on all the tokens it is found on -/
def Pat.MentionsWhole (t : Ty W) {α : Type} : Pat W α → Prop
  | .attr k => k = t
  | .attrEq k _ => k = t
  | .text => False
  | .seq _ _ => False
  | .both a b => a.MentionsWhole t ∨ b.MentionsWhole t

/-- in layers: no rule mentions a type that it, or a later rule, assigns -/
def Layered : List (Rule W) → Prop
  | [] => True
  | r :: rules => (∀ r' ∈ r :: rules, ¬ r.pat.Mentions r'.attr) ∧ Layered rules

/-- a rule may use what the rules assign, but only as a part of a sequence -/
def Growing (rules : List (Rule W)) : Prop :=
  ∀ r ∈ rules, ∀ r' ∈ rules, ¬ r.pat.MentionsWhole r'.attr

/-- the runs of the rules, each with its `Rc` -/
def ruleRuns (prog : List (Nat × Rule W)) : List (Nat × Resolver W) := prog.map (fun p => (p.1, p.2.resolver))

end LNlp
