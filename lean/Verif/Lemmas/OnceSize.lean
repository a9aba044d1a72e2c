import Verif.Lemmas.Once
import Verif.Lemmas.Structure
/- How much rules that look first can add. -/
namespace LNlp
variable {W : World}

/-- what `query` lists for a type, counted in the history -/
theorem listed_history {l : LLLine W} {h : History W} (hr : Reachable l h) (ho : Ordered h) (k : Ty W) :
    ∃ q, l.query k = .ok q ∧ listed q = (h.filter (fun x => decide (x.ty = k))).length := by
  refine ⟨_, C13_query_is_history hr k (fun r hm => ?_), ?_⟩
  · obtain ⟨v, hv⟩ := mem_rangesOf.1 hm
    have := ho _ hv
    simp only at this
    omega
  · rw [← valuesOf_total k h (rangesOf k h) (rangesOf_nodup k h) (fun x hx e => by
      obtain ⟨t, r, v⟩ := x
      simp only at e
      subst e
      exact mem_rangesOf.2 ⟨v, hx⟩)]
    simp only [listed, List.map_map, Function.comp_def]

/-- the ordered ranges of a line of `n` tokens -/
def spansTo (n : Nat) : List LRange := (List.range n).flatMap (fun j => (List.range (j + 1)).map (fun i => (i, j)))

theorem mem_spansTo {n : Nat} {r : LRange} : r ∈ spansTo n ↔ r.1 ≤ r.2 ∧ r.2 < n := by
  obtain ⟨i, j⟩ := r
  simp only [spansTo, List.mem_flatMap, List.mem_range, List.mem_map, Prod.mk.injEq]
  constructor
  · rintro ⟨j', hj, i', hi, rfl, rfl⟩; omega
  · rintro ⟨hi, hj⟩; exact ⟨j, hj, i, by omega, rfl, rfl⟩

theorem length_spansTo : ∀ n : Nat, 2 * (spansTo n).length = n * (n + 1)
  | 0 => rfl
  | n + 1 => by
    have ih := length_spansTo n
    have : (spansTo (n + 1)).length = (spansTo n).length + (n + 1) := by
      simp [spansTo, List.range_succ, List.flatMap_append]
    rw [this, Nat.mul_add, ih, ← Nat.add_mul, Nat.mul_comm]

/-- the records a stock of values can give on a line of `n` tokens -/
def cellsOf (n : Nat) (stock : List ((k : Ty W) × Val k)) : History W :=
  (spansTo n).flatMap (fun r => stock.map (fun s => ⟨s.1, r, s.2⟩))

theorem mem_cellsOf {n : Nat} {stock : List ((k : Ty W) × Val k)} {x : Rec W} :
    x ∈ cellsOf n stock ↔ (x.range.1 ≤ x.range.2 ∧ x.range.2 < n) ∧ ⟨x.ty, x.val⟩ ∈ stock := by
  simp only [cellsOf, List.mem_flatMap, mem_spansTo, List.mem_map]
  constructor
  · rintro ⟨r, hr, s, hs, rfl⟩; exact ⟨hr, hs⟩
  · rintro ⟨hr, hs⟩; exact ⟨_, hr, _, hs, rfl⟩

theorem length_cellsOf (n : Nat) (stock : List ((k : Ty W) × Val k)) :
    2 * (cellsOf n stock).length = n * (n + 1) * stock.length := by
  rw [← length_spansTo n]
  simp only [cellsOf, List.length_flatMap, List.length_map]
  rw [Nat.mul_assoc]
  congr 1
  induction spansTo n with
  | nil => simp
  | cons r rs ih => simp only [List.map_cons, List.sum_cons, ih, List.length_cons, Nat.add_mul]; omega

/-- what rules whose values come from a stock conclude is one of these records -/
theorem derivable_cells {l : LLLine W} {h : History W} (hh : Honest l h) {rules : List (Rule W)}
    {stock : List ((k : Ty W) × Val k)} (hs : ∀ r ∈ rules, ∀ f, ∀ v ∈ r.values f, ⟨r.attr, v⟩ ∈ stock) {x : Rec W}
    (hx : Derivable l h rules x) : x ∈ h ∨ x ∈ cellsOf l.ll_tokens.length stock := by
  obtain ⟨hr, ho⟩ := hh.spec
  have := hx (fun y => (y.range.1 ≤ y.range.2 ∧ y.range.2 < l.ll_tokens.length) ∧
      (y ∈ h ∨ y ∈ cellsOf l.ll_tokens.length stock))
    (fun y hy => ⟨⟨ho y hy, (hr.rep.bounds y hy).2⟩, .inl hy⟩) (by
      rintro r hr x ⟨i, j, f, v, hp, hv, rfl⟩
      have hin := hp.inside (fun y hy => hy.1)
      exact ⟨hin, .inr (mem_cellsOf.2 ⟨hin, hs r hr f v hv⟩)⟩)
  exact this.2

end LNlp
