import Verif.Spec.Select
/- The longest and the shortest match behind a selection. -/
namespace LNlp
variable {W : World} {Out : Type}

/-- `o` is the first of the longest selections in `rs`, and `none` if there are none -/
def FirstLongest (rs : List (LLSelection W × Out)) (o : Option (LLSelection W × Out)) : Prop :=
  (rs = [] ∧ o = none) ∨ ∃ before p after, rs = before ++ p :: after ∧ o = some p ∧
    (∀ q ∈ before, q.1.end_idx < p.1.end_idx) ∧ ∀ q ∈ after, q.1.end_idx ≤ p.1.end_idx

/-- `o` is the first of the shortest selections in `rs`, and `none` if there are none -/
def FirstShortest (rs : List (LLSelection W × Out)) (o : Option (LLSelection W × Out)) : Prop :=
  (rs = [] ∧ o = none) ∨ ∃ before p after, rs = before ++ p :: after ∧ o = some p ∧
    (∀ q ∈ before, p.1.end_idx < q.1.end_idx) ∧ ∀ q ∈ after, p.1.end_idx ≤ q.1.end_idx

/-- is something of `a` behind `b`? `a.split_with(&b)[1].is_some()` -/
def LLSelection.exceeds (a b : LLSelection W) : R Bool :=
  match a.splitWith b with
  | .error e => .error e
  | .ok parts => .ok parts.2.isSome

/-- What a user can write instead of `match_forwards_longest` and `match_forwards_shortest`, with `better` being
`|p, b| p.split_with(b)[1].is_some()` and `|p, b| b.split_with(p)[1].is_some()`:
```
let mut best = None;
for p in selection.match_forwards(matcher) {
    best = match best {
        Some(b) if !better(&p.0, &b.0) => Some(b),
        _ => Some(p),
    };
}
best
``` -/
def LLSelection.bestForwards (better : LLSelection W → LLSelection W → R Bool) (s : LLSelection W) (m : XMatch W Out) :
    R (Option (LLSelection W × Out)) :=
  match s.matchForwards m with
  | .error e => .error e
  | .ok rs => foldR (fun best p =>
      match best with
      | none => .ok (some p)
      | some b =>
        match better p.1 b.1 with
        | .error e => .error e
        | .ok true => .ok (some p)
        | .ok false => .ok (some b)) none rs

/-- the longest match, by `split_with` -/
def LLSelection.longestForwards (s : LLSelection W) (m : XMatch W Out) : R (Option (LLSelection W × Out)) :=
  s.bestForwards (fun p b => p.exceeds b) m

/-- the shortest match, by `split_with` -/
def LLSelection.shortestForwards (s : LLSelection W) (m : XMatch W Out) : R (Option (LLSelection W × Out)) :=
  s.bestForwards (fun p b => b.exceeds p) m

end LNlp
