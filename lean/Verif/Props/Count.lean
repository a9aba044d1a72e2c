import Verif.Lemmas.Count
import Verif.Lemmas.SelectApi
import Verif.Props.Select
import Verif.Lemmas.Currency
/- Property C138: how many results a search has. -/
namespace LNlp
variable {W : World} {T : Ty W → Prop}

/-! ### C138: how many results an expression has -/

/-- C138: where at most `c` values of one type start and end at any token, an expression of the library with `n` attribute
matchers has at most `c ^ n` results at a position, forwards and backwards. -/
theorem C138_results {n : Nat} {Out : Type} {m : XMatch W Out} (hm : Weighs T n m) {l : LLLine W} {h : History W}
    (hr : Reachable l h) {c : Nat} (hc : 1 ≤ c) (hs : Sparse T c h) (d : Dir) (out : List (Out × Nat))
    (hg : m.go d l = .ok out) : out.length ≤ c ^ n := weighs_length hm hr.rep hc hs d out hg

/-- there are no more values than assignments -/
theorem sparse_length (h : History W) : Sparse T h.length h := fun _ _ _ =>
  ⟨Nat.le_trans (List.length_filter_le ..) (List.length_filter_le ..),
    Nat.le_trans (List.length_filter_le ..) (List.length_filter_le ..)⟩

example := C138_results (T := fun _ => True) (.seq2 (.attrEq (W := Demo.W) .textTag trivial TextTag.WORD) (.attr .char trivial))
  Demo.exReach2 (by decide) (sparse_length _) (.fwd 0) _ rfl

/-- C138: so the results of `find_by` grow with the selection only linearly: at most `c ^ n` per token of it. -/
theorem C138_find_by {n : Nat} {Out : Type} {m : XMatch W Out} (hm : Weighs T n m) {h : History W} (s : LLSelection W)
    (hr : Reachable s.ll_line.val h) {c : Nat} (hc : 1 ≤ c) (hs : Sparse T c h) (out : List (LLSelection W × Out))
    (hf : s.findBy m = .ok out) : out.length ≤ (s.end_idx + 1 - s.start_idx) * c ^ n := by
  unfold LLSelection.findBy at hf
  obtain ⟨hok, rfl⟩ := flatMapR_ok_iff.1 hf
  refine Nat.le_trans (length_flatMap_le _ (c ^ n) _ (fun i hi => ?_)) ?_
  · obtain ⟨ys, hy⟩ := hok i hi
    rw [hy]
    change ys.length ≤ _
    cases hg : m.go (.fwd i) s.ll_line.val with
    | error e => rw [hg] at hy; cases hy
    | ok rs =>
      rw [hg] at hy
      cases hy
      rw [List.length_map]
      exact C138_results hm hr hc hs _ rs hg
  · exact Nat.mul_le_mul_right _ (by simp [rangeIncl])

example := C138_find_by (T := fun _ => True) (.attr (W := Demo.W) .textTag trivial) (wholeLine Demo.exLine2 0)
  Demo.exReach2 (by decide) (sparse_length _) _ rfl

/-- C138: on a line with at most one value of a type at each token, every expression of the library has at most one result
at a position, … -/
theorem C138_unambiguous {n : Nat} {Out : Type} {m : XMatch W Out} (hm : Weighs T n m) {l : LLLine W} {h : History W}
    (hr : Reachable l h) (hs : Sparse T 1 h) (d : Dir) (out : List (Out × Nat)) (hg : m.go d l = .ok out) :
    out.length ≤ 1 := by
  have := C138_results hm hr (Nat.le_refl 1) hs d out hg
  rwa [Nat.one_pow] at this

/-- C138: … as on every line made of texts without attributes. -/
theorem C138_fresh {size : Str → Nat} {input : List (InputToken W)} (hi : ∀ t ∈ input, t.attrList = []) :
    Sparse (fun _ => True) 1 (creationHistory W size input) := by
  have e : creationHistory W size input = builtinHistory W ((input.flatMap (tokensOf W size)).map (·.1)) := by
    have : inputHistory W size 0 input = [] := by
      generalize 0 = i
      induction input generalizing i with
      | nil => rfl
      | cons t ts ih =>
        simp only [inputHistory, hi t (by simp), List.map_nil, List.nil_append]
        exact ih (fun t ht => hi t (by simp [ht])) _
    rw [creationHistory, this, List.append_nil]
  intro k _ i
  rw [e, startingAt, endingAt, List.filter_filter, List.filter_filter, ← List.countP_eq_length_filter,
    ← List.countP_eq_length_filter]
  constructor
  · refine Nat.le_trans (builtin_sparse k i _ ?_ ?_ _ 0) (by simp)
    · intro x hx _; simp only [Bool.and_eq_true, decide_eq_true_eq] at hx; exact hx.1
    · intro x hx; simp only [Bool.and_eq_true, decide_eq_true_eq] at hx; exact .inl hx.2
  · refine Nat.le_trans (builtin_sparse k i _ ?_ ?_ _ 0) (by simp)
    · intro x hx _; simp only [Bool.and_eq_true, decide_eq_true_eq] at hx; exact hx.1
    · intro x hx; simp only [Bool.and_eq_true, decide_eq_true_eq] at hx; exact .inr hx.2

/-- a word, a comma, a word -/
def Demo.commaLine : LLLine Demo.W := Demo.getOk Demo.emptyLine (createLineFromString Demo.W ['a', ',', 'b'])
theorem Demo.commaReach : Reachable Demo.commaLine (creationHistory Demo.W utf8Len [.Text ['a', ',', 'b'] []]) :=
  .create _ _ _ (string_wf _) rfl

example := C138_unambiguous (T := fun _ => True) (.seq2 (.attr (W := Demo.W) .textTag trivial) (.attr .char trivial))
  Demo.commaReach (C138_fresh (by simp [InputToken.attrList])) (.bwd 1) _ rfl

/-- C138: the bound is attained: where `c` values cover each of `n + 1` tokens in a row, `n + 1` times `attr()` in sequence
has `c ^ (n + 1)` results. -/
theorem C138_attained (k : Ty W) {l : LLLine W} (c n i : Nat) (hl : i + n < l.ll_tokens.length)
    (hv : ∀ j, i ≤ j → j ≤ i + n → ∃ out, (X.attr k).go (.fwd j) l = .ok out ∧ out.length = c ∧ ∀ r ∈ out, r.2 = j) :
    Weighs (fun x => x = k) (n + 1) (X.attrs k n).2 ∧
    ∃ out, (X.attrs k n).2.go (.fwd i) l = .ok out ∧ out.length = c ^ (n + 1) := by
  constructor
  · clear hv hl
    induction n with
    | zero => exact Weighs.attr (T := fun x => x = k) k rfl
    | succ n ih => rw [Nat.add_comm (n + 1) 1]; exact Weighs.seq2 (Weighs.attr (T := fun x => x = k) k rfl) ih
  · induction n generalizing i with
    | zero =>
      obtain ⟨out, h1, h2, _⟩ := hv i (Nat.le_refl _) (Nat.le_refl _)
      exact ⟨out, h1, h2.trans (Nat.pow_one c).symm⟩
    | succ n ih =>
      obtain ⟨as, h1, h2, h3⟩ := hv i (Nat.le_refl _) (by omega)
      obtain ⟨bs, h4, h5⟩ := ih (i + 1) (by omega) (fun j hj hj' => hv j (by omega) (by omega))
      have ga : ∀ r ∈ as, X.goAfter (X.attrs k n).2 (.fwd i) r.2 l = .ok bs := by
        intro r hr
        rw [h3 r hr, X.goAfter, Dir.after, if_pos (show i + 1 < l.ll_tokens.length by omega)]
        exact h4
      refine ⟨_, seq2_ok_iff.2 ⟨as, h1, fun r hr => ⟨bs, ga r hr⟩, rfl⟩, ?_⟩
      have key : ∀ xs : List (Val k × Nat), (∀ r ∈ xs, X.goAfter (X.attrs k n).2 (.fwd i) r.2 l = .ok bs) →
          (xs.flatMap (fun pa => (okD (X.goAfter (X.attrs k n).2 (.fwd i) pa.2 l)).map
            (fun pb => ((pa.1, pb.1), pb.2)))).length = xs.length * bs.length := by
        intro xs
        induction xs with
        | nil => intro _; simp
        | cons x xs ihx =>
          intro hx
          rw [List.flatMap_cons, List.length_append, ihx (fun r hr => hx r (by simp [hr])), hx x (by simp), List.length_map,
            List.length_cons, Nat.add_mul, Nat.one_mul, Nat.add_comm]
          rfl
      refine Eq.trans (key as ga) ?_
      rw [h2, h5, Nat.pow_succ' (n := n + 1)]

/-- two tokens with two values each -/
def Demo.twice : InputToken Demo.W :=
  .Custom 1 [AnyAttribute.new (Ty.user 2) ['v'], AnyAttribute.new (Ty.user 2) ['w']]
def Demo.twiceLine : LLLine Demo.W := Demo.getOk Demo.emptyLine (createLineFromInputTokens Demo.W [Demo.twice, Demo.twice] List.length)

example := C138_attained (Ty.user 2) (l := Demo.twiceLine) 2 1 0 (by decide)
  (by
    intro j _ hj
    rcases (show j = 0 ∨ j = 1 by omega) with rfl | rfl
    · exact ⟨_, rfl, rfl, by decide⟩
    · exact ⟨_, rfl, rfl, by decide⟩)

end LNlp
