import Verif.Spec.View
import Verif.Spec.Grammar
/-
Reading a line from right to left (C148).
-/
namespace LNlp
variable {W : World}

/-- token `i` of a line of `n` tokens, counted from the other end -/
def mirrorIdx (n i : Nat) : Nat := if i < n then n - 1 - i else i

/-- a range, counted from the other end -/
def mirrorR (n : Nat) (r : LRange) : LRange := (mirrorIdx n r.2, mirrorIdx n r.1)

/-- an attribute, on its range counted from the other end -/
def Rec.mirror (n : Nat) (x : Rec W) : Rec W := { x with range := mirrorR n x.range }

/-- the other direction, from the same token counted from the other end -/
def Dir.mirror (n : Nat) : Dir → Dir
  | .fwd i => .bwd (mirrorIdx n i)
  | .bwd i => .fwd (mirrorIdx n i)

/-- what a matcher found, with the ends counted from the other end -/
def mirrorL {α : Type} (n : Nat) (rs : List (α × Nat)) : List (α × Nat) := rs.map (fun r => (r.1, mirrorIdx n r.2))

/-- The second line is the first one written from right to left: the same tokens in the opposite order, with the same
attributes on them; where it matters (`SameOrder`), these came in the same order. -/
structure Reversed (l : LLLine W) (h : History W) (l' : LLLine W) (h' : History W) : Prop where
  tokens : l'.ll_tokens.map (·.token) = (l.ll_tokens.map (·.token)).reverse
  attrs : SameOrder (h.map (Rec.mirror l.ll_tokens.length)) h'

/-- a selection, on the line written from right to left -/
def LLSelection.mirror (s : LLSelection W) (line : Rc (LLLine W)) : LLSelection W :=
  { ll_line := line
    start_idx := mirrorIdx s.ll_line.val.ll_tokens.length s.end_idx
    end_idx := mirrorIdx s.ll_line.val.ll_tokens.length s.start_idx }

/-- inputs of one token each: custom tokens, and texts that are one word or sign -/
def SingleInput (W : World) (t : InputToken W) : Prop := ∀ size, (tokensOf W size t).length = 1

/-- the right-hand sides of two rules are the same but for the order of what stands next to each other; `f` puts what
the first finds into the order of the second -/
inductive Pat.Turned : {α β : Type} → Pat W α → Pat W β → (α → β) → Prop
  | attr (k : Ty W) : Turned (.attr k) (.attr k) id
  | attrEq (k : Ty W) (v : Val k) : Turned (.attrEq k v) (.attrEq k v) id
  | text : Turned .text .text id
  | seq {α α' β β' : Type} {a : Pat W α} {a' : Pat W α'} {f : α → α'} {b : Pat W β} {b' : Pat W β'} {g : β → β'} :
      Turned a a' f → Turned b b' g → Turned (.seq a b) (.seq b' a') (fun p => (g p.2, f p.1))
  | both {α α' β β' : Type} {a : Pat W α} {a' : Pat W α'} {f : α → α'} {b : Pat W β} {b' : Pat W β'} {g : β → β'} :
      Turned a a' f → Turned b b' g → Turned (.both a b) (.both a' b') (fun p => (f p.1, g p.2))

/-- the same rule for texts written from right to left -/
inductive Rule.Turned : Rule W → Rule W → Prop
  | mk (k : Ty W) {α β : Type} (p : Pat W α) (q : Pat W β) (f : α → β) (v : α → List (Val k)) (w : β → List (Val k))
      (pat : p.Turned q f) (values : ∀ x, w (f x) = v x) : Turned ⟨k, α, p, v⟩ ⟨k, β, q, w⟩

end LNlp
