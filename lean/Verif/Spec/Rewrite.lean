import Verif.Spec.Grammar
/- Replacing one search expression by another: what it means that one finds wherever the other does, and the line on
which to try. -/
namespace LNlp
variable {W : World}

/-- a way of searching from a selection: `find_by`, `match_forwards` or `match_backwards` -/
abbrev Searching (W : World) := {Out : Type} → LLSelection W → XMatch W Out → R (List (LLSelection W × Out))

/-- on the line `l`, every range that a search for `a` reports is reported by the same search for `b` -/
def Covers (search : Searching W) {α β : Type} (l : LLLine W) (a : XMatch W α) (b : XMatch W β) : Prop :=
  ∀ s : LLSelection W, s.ll_line.val = l → s.Inside →
    ∃ as bs, search s a = .ok as ∧ search s b = .ok bs ∧ ∀ p ∈ as, ∃ q ∈ bs, q.1 = p.1

/-- no part is `token_text` -/
def Pat.NoText {α : Type} : Pat W α → Prop
  | .attr _ => True
  | .attrEq _ _ => True
  | .text => False
  | .seq a b => a.NoText ∧ b.NoText
  | .both a b => a.NoText ∧ b.NoText

/-- some part is `attr_eq(&v)` -/
def Pat.Compares (k : Ty W) (v : Val k) {α : Type} : Pat W α → Prop
  | .attr _ => False
  | .attrEq k' v' => (⟨k', v'⟩ : Sigma (fun k : Ty W => Val k)) = ⟨k, v⟩
  | .text => False
  | .seq a b => a.Compares k v ∨ b.Compares k v
  | .both a b => a.Compares k v ∨ b.Compares k v

/-- how many tokens the test line has: one, and one for each `seq` -/
def Pat.tokens {α : Type} : Pat W α → Nat
  | .attr _ => 1
  | .attrEq _ _ => 1
  | .text => 1
  | .seq a b => a.tokens + b.tokens
  | .both a b => a.tokens + b.tokens - 1

/-- The attributes of the test line, one for each `attr` and `attr_eq`: parts of a sequence stand next to each other;
what is found at the same place begins and ends together, with nothing else in common.  `w` gives the values. -/
def Pat.sketch (w : (k : Ty W) → Val k) {α : Type} : Pat W α → History W
  | .attr k => [⟨k, (0, 0), w k⟩]
  | .attrEq k v => [⟨k, (0, 0), v⟩]
  | .text => []
  | .seq a b => a.sketch w ++
      (b.sketch w).map (fun r => ⟨r.ty, (r.range.1 + a.tokens, r.range.2 + a.tokens), r.val⟩)
  | .both a b =>
      (a.sketch w).map (fun r => ⟨r.ty,
        (r.range.1, if r.range.2 + 1 = a.tokens then a.tokens + b.tokens - 2 else r.range.2), r.val⟩) ++
      (b.sketch w).map (fun r => ⟨r.ty,
        (if r.range.1 = 0 then 0 else r.range.1 + a.tokens - 1, r.range.2 + a.tokens - 1), r.val⟩)

/-- `n` tokens without text, each with the attribute `v` -/
def markedInput (k : Ty W) (v : Val k) (n : Nat) : List (InputToken W) :=
  List.replicate n (.Custom 0 [AnyAttribute.new k v])

/-- everything on the test line: the marks, one on each token, and the attributes of the sketch -/
def Pat.testHistory (w : (k : Ty W) → Val k) (mk : Ty W) (mv : Val mk) {α : Type} (a : Pat W α) : History W :=
  creationHistory W (fun _ => 0) (markedInput mk mv a.tokens) ++ a.sketch w

/-- the test line: it comes about by creating a line and running resolvers, has these attributes and no texts -/
structure Pat.TestLine (w : (k : Ty W) → Val k) (mk : Ty W) (mv : Val mk) {α : Type} (a : Pat W α) (l : LLLine W) :
    Prop where
  honest : Honest l (a.testHistory w mk mv)
  length : l.ll_tokens.length = a.tokens
  texts : ∀ i, textAt l i = none

/-- `PartialEq` of the values that `a` compares with is an equivalence as far as these values are concerned -/
def Pat.Lawful {α : Type} (a : Pat W α) : Prop :=
  ∀ k v, a.Compares k v → valEq k v v = true ∧
    ∀ u v', valEq k u v = true → valEq k v v' = true → valEq k u v' = true

/-- the values of the test line are none that `b` compares with -/
def Pat.Fresh (w : (k : Ty W) → Val k) {α : Type} (b : Pat W α) : Prop :=
  ∀ k v, b.Compares k v → valEq k (w k) v = false

end LNlp
