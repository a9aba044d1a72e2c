import Verif.Spec.Grammar
import Verif.Spec.UserMatch
/- Rules with exceptions and choices: a right-hand side may also say "unless that is found here" (a matcher of the user,
`X.unless`) or `x::any_of`. What follows from such rules, without reference to how resolvers are run: a set of facts is
stable if it is just what follows when the exceptions are judged by the set itself. -/
namespace LNlp
variable {W : World}

/-- the right-hand side of a rule with exceptions, with the type of what it finds -/
inductive EPat (W : World) : Type → Type 1
  | attr (k : Ty W) : EPat W (Val k)
  | attrEq (k : Ty W) (v : Val k) : EPat W Unit
  | text : EPat W Str
  | seq {α β : Type} (a : EPat W α) (b : EPat W β) : EPat W (α × β)
  | both {α β : Type} (a : EPat W α) (b : EPat W β) : EPat W (α × β)
  | anyOf {α β : Type} (a : EPat W α) (b : EPat W β) : EPat W (AnyOf2 α β)
  | unless {α β : Type} (a : EPat W α) (b : EPat W β) : EPat W α

/-- a right-hand side as a matcher expression -/
def EPat.matcher {α : Type} : EPat W α → XMatch W α
  | .attr k => X.attr k
  | .attrEq k v => X.attrEq k v
  | .text => X.tokenText
  | .seq a b => X.seq2 a.matcher b.matcher
  | .both a b => X.all2 a.matcher b.matcher
  | .anyOf a b => X.anyOf2 a.matcher b.matcher
  | .unless a b => X.unless a.matcher b.matcher

/-- a rule: the type of the attribute it assigns, what it looks for, and the values it assigns there -/
structure ERule (W : World) where
  attr : Ty W
  Found : Type
  pat : EPat W Found
  values : Found → List (Val attr)

/-- a rule as a resolver:
`selection.find_by(&pat).into_iter().flat_map(|(sel, x)| values(x).map(|v| sel.finish_with_attr(v))).collect()` -/
def ERule.resolver (r : ERule W) : Resolver W :=
  { attr := r.attr
    go := fun sel => match sel.findBy r.pat.matcher with
      | .ok found => .ok (found.flatMap (fun st => (r.values st.2).map (fun v => st.1.finishWithAttr v)), false)
      | .error e => .error e }

/-- the right-hand side is found on the tokens `i ..= j`, given the facts `F`, where the exceptions are judged by `N` -/
def EPat.Holds (l : LLLine W) : {α : Type} → EPat W α → (F N : Rec W → Prop) → Nat → Nat → α → Prop
  | _, .attr k, F, _, i, j, v => F ⟨k, (i, j), v⟩
  | _, .attrEq k v, F, _, i, j, _ => ∃ w, valEq k w v = true ∧ F ⟨k, (i, j), w⟩
  | _, .text, _, _, i, j, s => i = j ∧ textAt l i = some s
  | _, .seq a b, F, N, i, j, (x, y) => ∃ m, a.Holds l F N i m x ∧ b.Holds l F N (m + 1) j y
  | _, .both a b, F, N, i, j, (x, y) => a.Holds l F N i j x ∧ b.Holds l F N i j y
  | _, .anyOf a _, F, N, i, j, .A x => a.Holds l F N i j x
  | _, .anyOf a b, F, N, i, j, .B y => b.Holds l F N i j y ∧ ¬ ∃ j' x, a.Holds l N N i j' x
  | _, .unless a b, F, N, i, j, x => a.Holds l F N i j x ∧ ¬ ∃ j' y, b.Holds l N N i j' y

/-- a rule concludes a fact from the facts `F`, with the exceptions of `N` -/
def ERule.Concludes (l : LLLine W) (F N : Rec W → Prop) (r : ERule W) (x : Rec W) : Prop :=
  ∃ i j found v, r.pat.Holds l F N i j found ∧ v ∈ r.values found ∧ x = ⟨r.attr, (i, j), v⟩

/-- what follows from the facts `h` by the rules, with the exceptions of `N` -/
def Entailed (l : LLLine W) (h : History W) (rules : List (ERule W)) (N : Rec W → Prop) (x : Rec W) : Prop :=
  ∀ F : Rec W → Prop, (∀ y ∈ h, F y) → (∀ r ∈ rules, ∀ z, r.Concludes l F N z → F z) → F x

/-- the facts `M` are just what follows with the exceptions of `M` itself -/
def Stable (l : LLLine W) (h : History W) (rules : List (ERule W)) (M : Rec W → Prop) : Prop :=
  ∀ x, M x ↔ Entailed l h rules M x

/-- the right-hand side mentions attributes of type `t` as something that is to be found -/
def EPat.Mentions (t : Ty W) {α : Type} : EPat W α → Prop
  | .attr k => k = t
  | .attrEq k _ => k = t
  | .text => False
  | .seq a b => a.Mentions t ∨ b.Mentions t
  | .both a b => a.Mentions t ∨ b.Mentions t
  | .anyOf a b => a.Mentions t ∨ b.Mentions t
  | .unless a _ => a.Mentions t

/-- … as an exception, or in an alternative that hides another -/
def EPat.Excepts (t : Ty W) {α : Type} : EPat W α → Prop
  | .attr _ => False
  | .attrEq _ _ => False
  | .text => False
  | .seq a b => a.Excepts t ∨ b.Excepts t
  | .both a b => a.Excepts t ∨ b.Excepts t
  | .anyOf a b => a.Mentions t ∨ a.Excepts t ∨ b.Excepts t
  | .unless a b => a.Excepts t ∨ b.Mentions t ∨ b.Excepts t

/-- … as something to be found on all the tokens the right-hand side is found on -/
def EPat.MentionsWhole (t : Ty W) {α : Type} : EPat W α → Prop
  | .attr k => k = t
  | .attrEq k _ => k = t
  | .text => False
  | .seq _ _ => False
  | .both a b => a.MentionsWhole t ∨ b.MentionsWhole t
  | .anyOf a b => a.MentionsWhole t ∨ b.MentionsWhole t
  | .unless a _ => a.MentionsWhole t

/-- layers: the rules of a layer may use what the rules of the layer assign, but exceptions are about what is assigned in
earlier layers, and nothing is about what is assigned in later ones -/
def InStrata : List (List (ERule W)) → Prop
  | [] => True
  | layer :: later => (∀ r ∈ layer, ∀ r' ∈ layer, ¬ r.pat.Excepts r'.attr) ∧
    (∀ r ∈ layer, ∀ r' ∈ later.flatten, ¬ r.pat.Mentions r'.attr ∧ ¬ r.pat.Excepts r'.attr) ∧ InStrata later

/-- the runs of a layer: passes over its rules -/
structure Stratum (W : World) where
  rules : List (ERule W)
  passes : List (List (Nat × ERule W))

/-- Every pass runs all rules of the layer, in any order, and there are enough passes on a line of `n` tokens: one if the
rules do not use each other; `n` if they use each other only as parts of sequences; `n` for each value of a finite stock
they take their values from otherwise. -/
def Stratum.Enough (n : Nat) (s : Stratum W) : Prop :=
  (∀ pass ∈ s.passes, ∀ r, r ∈ s.rules ↔ ∃ p ∈ pass, p.2 = r) ∧
  ((∀ r ∈ s.rules, ∀ r' ∈ s.rules, ¬ r.pat.Mentions r'.attr) ∧ 1 ≤ s.passes.length ∨
   (∀ r ∈ s.rules, ∀ r' ∈ s.rules, ¬ r.pat.MentionsWhole r'.attr) ∧ n ≤ s.passes.length ∨
   ∃ stock : List ((k : Ty W) × Val k), (∀ r ∈ s.rules, ∀ f, ∀ v ∈ r.values f, ⟨r.attr, v⟩ ∈ stock) ∧
     n * stock.length ≤ s.passes.length)

/-- the runs of the rules, each with its `Rc` -/
def eruleRuns (prog : List (Nat × ERule W)) : List (Nat × Resolver W) := prog.map (fun p => (p.1, p.2.resolver))

/-- the runs of layers, one layer after the other -/
def strataRuns (layers : List (Stratum W)) : List (Nat × Resolver W) :=
  layers.flatMap (fun s => eruleRuns s.passes.flatten)

end LNlp
