import Verif.Spec.Loops
/- Scanning (C150): find the first match, keep it, go on with what is left behind it. -/
namespace LNlp
variable {W : World} {Out : Type}

/-- At most so many rounds of the loop

    while let Some((found, x)) = selection.find_first_by(&m) {
        let [before, behind] = selection.split_with(&found);
        …
    }

with `find_first_by` and `split_with` (ll_selection.rs:128-133, 286-306), going on with `behind` as long as there is one.
It collects the matches, and the pieces of the selection before, between and behind them.  `none`: the rounds did not
suffice. -/
def scan (m : XMatch W Out) : Nat → LLSelection W → R (Option (List (LLSelection W × Out) × List (LLSelection W)))
  | 0, _ => .ok none
  | n + 1, s =>
    match s.findFirstBy m with
    | .error e => .error e
    | .ok none => .ok (some ([], [s]))
    | .ok (some (found, x)) =>
      match s.splitWith found with
      | .error e => .error e
      | .ok (before, none) => .ok (some ([(found, x)], before.toList))
      | .ok (before, some behind) =>
        match scan m n behind with
        | .error e => .error e
        | .ok none => .ok none
        | .ok (some (out, pieces)) => .ok (some ((found, x) :: out, before.toList ++ pieces))

/-- one ends before the other begins -/
def Apart (p q : LLSelection W × Out) : Prop := p.1.end_idx < q.1.start_idx

/-- A choice of matches that do not overlap, from left to right: each is the first result at its token, and every token of
the selection where a match begins lies in a chosen match. -/
structure Leftmost (m : XMatch W Out) (s : LLSelection W) (out : List (LLSelection W × Out)) : Prop where
  line : ∀ p ∈ out, p.1.ll_line = s.ll_line
  starts : ∀ p ∈ out, s.Has p.1.start_idx
  first : ∀ p ∈ out, ∃ rs, m.go (.fwd p.1.start_idx) s.ll_line.val = .ok ((p.2, p.1.end_idx) :: rs)
  apart : out.Pairwise Apart
  covers : ∀ i r rs, s.Has i → m.go (.fwd i) s.ll_line.val = .ok (r :: rs) → ∃ p ∈ out, p.1.Has i

/-- The pieces are the longest parts of the selection without tokens of the matches, from left to right. -/
structure Between (s : LLSelection W) (out : List (LLSelection W × Out)) (pieces : List (LLSelection W)) : Prop where
  parts : ∀ p ∈ pieces, p.PartOf s
  rest : ∀ i, s.Has i → ((∃ p ∈ pieces, p.Has i) ↔ ∀ q ∈ out, ¬ q.1.Has i)
  longest : pieces.Pairwise (fun p q => p.end_idx + 1 < q.start_idx)

/-- a resolver that scans for `m` and assigns one value to each match kept -/
def scanning (k : Ty W) (m : XMatch W Out) (value : Out → Val k) : Resolver W := ⟨k, fun s =>
  match scan m s.count s with
  | .error e => .error e
  | .ok none => .ok ([], false)
  | .ok (some (out, _)) => .ok (finishWith out value, false)⟩

end LNlp
