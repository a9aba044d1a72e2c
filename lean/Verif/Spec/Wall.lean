import Verif.Spec.Window
import Verif.Spec.Edit
import Verif.Spec.Exceptions
/- Tokens that nothing can be found across (C158). -/
namespace LNlp
variable {W : World}

/-- the range goes over token `t` -/
def Over (t : Nat) (r : LRange) : Prop := r.1 ≤ t ∧ t ≤ r.2

/-- given the facts `F`, whatever the right-hand side of a rule finds over token `t` has property `Q`; of a sequence the part over
this token decides, of two things looked for at once one is enough -/
def Pat.Stops (l : LLLine W) (F : Rec W → Prop) (t : Nat) {α : Type} : Pat W α → (α → Prop) → Prop
  | .attr k, Q => ∀ r v, F ⟨k, r, v⟩ → Over t r → Q v
  | .attrEq k v, Q => ∀ r w, valEq k w v = true → F ⟨k, r, w⟩ → Over t r → Q ()
  | .text, Q => ∀ s, textAt l t = some s → Q s
  | .seq a b, Q => a.Stops l F t (fun x => ∀ y, Q (x, y)) ∧ b.Stops l F t (fun y => ∀ x, Q (x, y))
  | .both a b, Q => a.Stops l F t (fun x => ∀ y, Q (x, y)) ∨ b.Stops l F t (fun y => ∀ x, Q (x, y))

/-- the rule stops at token `t`: what is there now makes it assign nothing over this token -/
def Rule.Stops (l : LLLine W) (F : Rec W → Prop) (t : Nat) (r : Rule W) : Prop := r.pat.Stops l F t (fun x => r.values x = [])

/-- all the rules stop at token `t` -/
def Wall (l : LLLine W) (h : History W) (rules : List (Rule W)) (t : Nat) : Prop :=
  ∀ r ∈ rules, r.Stops l (· ∈ h) t

/-- nothing that a query lists reaches over an end of the stretch of `w` tokens from `n` on: a range that shares a token with it
lies in it -/
def NoneAcross (n w : Nat) {β : Type} (q : List (LRange × β)) : Prop :=
  ∀ e ∈ q, e.1.1 < n + w → n ≤ e.1.2 → n ≤ e.1.1 ∧ e.1.2 < n + w

/-- the rule stops at the first token of a text that is just this -/
def Rule.StopsOn (w : Str) (r : Rule W) : Prop :=
  ∀ l, createLineFromString W w = .ok l → r.Stops l (· ∈ creationHistory W utf8Len [.Text w []]) 0

/-! ### rules with exceptions and choices -/

/-- the same for right-hand sides with exceptions and choices: of a choice both alternatives count, exceptions do not -/
def EPat.Stops (l : LLLine W) (F : Rec W → Prop) (t : Nat) {α : Type} : EPat W α → (α → Prop) → Prop
  | .attr k, Q => ∀ r v, F ⟨k, r, v⟩ → Over t r → Q v
  | .attrEq k v, Q => ∀ r w, valEq k w v = true → F ⟨k, r, w⟩ → Over t r → Q ()
  | .text, Q => ∀ s, textAt l t = some s → Q s
  | .seq a b, Q => a.Stops l F t (fun x => ∀ y, Q (x, y)) ∧ b.Stops l F t (fun y => ∀ x, Q (x, y))
  | .both a b, Q => a.Stops l F t (fun x => ∀ y, Q (x, y)) ∨ b.Stops l F t (fun y => ∀ x, Q (x, y))
  | .anyOf a b, Q => a.Stops l F t (fun x => Q (.A x)) ∧ b.Stops l F t (fun y => Q (.B y))
  | .unless a _, Q => a.Stops l F t Q

/-- nothing that counts as an exception, or hides an alternative, is found over token `t` -/
def EPat.Clear (l : LLLine W) (F : Rec W → Prop) (t : Nat) {α : Type} : EPat W α → Prop
  | .attr _ => True
  | .attrEq _ _ => True
  | .text => True
  | .seq a b => a.Clear l F t ∧ b.Clear l F t
  | .both a b => a.Clear l F t ∧ b.Clear l F t
  | .anyOf a b => a.Stops l F t (fun _ => False) ∧ a.Clear l F t ∧ b.Clear l F t
  | .unless a b => b.Stops l F t (fun _ => False) ∧ a.Clear l F t ∧ b.Clear l F t

/-- what is there now makes the rule assign nothing over token `t` -/
def ERule.Stops (l : LLLine W) (F : Rec W → Prop) (t : Nat) (r : ERule W) : Prop := r.pat.Stops l F t (fun x => r.values x = [])

/-- all the rules stop at token `t` -/
def EWall (l : LLLine W) (h : History W) (rules : List (ERule W)) (t : Nat) : Prop :=
  ∀ r ∈ rules, r.Stops l (· ∈ h) t

/-- and no exception of a rule is over it -/
def EClear (l : LLLine W) (h : History W) (rules : List (ERule W)) (t : Nat) : Prop :=
  ∀ r ∈ rules, r.pat.Clear l (· ∈ h) t

end LNlp
