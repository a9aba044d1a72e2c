import Verif.Spec.Grammar
/- In how many ways something is found: lists with repetitions instead of sets (C142). -/
namespace LNlp
variable {W : World}

/-- what a right-hand side finds on the tokens `i ..= j`, once for each way to find it, given the assignments `h` with
their repetitions -/
def Pat.ways (l : LLLine W) (h : History W) : {α : Type} → Pat W α → Nat → Nat → List α
  | _, .attr k, i, j => valuesOf k (i, j) h
  | _, .attrEq k v, i, j => ((valuesOf k (i, j) h).filter (fun x => valEq k x v)).map (fun _ => ())
  | _, .text, i, j => if i = j then (textAt l i).toList else []
  | _, .seq a b, i, j => (List.range l.ll_tokens.length).flatMap (fun m =>
      (a.ways l h i m).flatMap (fun x => (b.ways l h (m + 1) j).map (fun y => (x, y))))
  | _, .both a b, i, j => (a.ways l h i j).flatMap (fun x => (b.ways l h i j).map (fun y => (x, y)))

/-- what a rule concludes on the tokens `i ..= j`, once for each way to conclude it -/
def Rule.waysOn (l : LLLine W) (h : History W) (r : Rule W) (i j : Nat) : History W :=
  (r.pat.ways l h i j).flatMap (fun f => (r.values f).map (fun v => ⟨r.attr, (i, j), v⟩))

/-- … on all ranges -/
def Rule.ways (l : LLLine W) (h : History W) (r : Rule W) : History W :=
  (List.range l.ll_tokens.length).flatMap (fun i => (List.range l.ll_tokens.length).flatMap (fun j => r.waysOn l h i j))

/-- the rule that finds an attribute and assigns it again -/
def again (k : Ty W) : Rule W := ⟨k, Val k, .attr k, fun v => [v]⟩

end LNlp
