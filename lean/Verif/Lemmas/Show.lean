import Verif.Lemmas.Algebra
import Verif.Spec.Show
/- Lemmas about the rendering of query entries. -/
namespace LNlp
variable {W : World}

/-- the single values of query entries -/
def singles {α : Type} (q : List (LRange × Str × List α)) : List (LRange × α) := q.flatMap (fun e => e.2.2.map (fun v => (e.1, v)))

theorem singles_sorted {α : Type} {q : List (LRange × Str × List α)} (one : ∀ e ∈ q, ∃ v, e.2.2 = [v])
    (hpw : q.Pairwise (fun x y => x.1.2 < y.1.1)) : (singles q).Pairwise (fun x y => x.1.2 < y.1.1) := by
  unfold singles
  rw [List.pairwise_flatMap]
  refine ⟨fun e he => ?_, hpw.imp (fun {x y} hxy a ha b hb => ?_)⟩
  · obtain ⟨kind, hv⟩ := one e he
    rw [hv]
    simp
  · obtain ⟨_, _, rfl⟩ := List.mem_map.1 ha
    obtain ⟨_, _, rfl⟩ := List.mem_map.1 hb
    exact hxy

theorem mem_singles {α : Type} {q : List (LRange × Str × List α)} {r : LRange} {v : α} :
    (r, v) ∈ singles q ↔ ∃ text vs, (r, text, vs) ∈ q ∧ v ∈ vs := by
  unfold singles
  rw [List.mem_flatMap]
  constructor
  · rintro ⟨⟨r', text, vs⟩, he, hv⟩
    obtain ⟨v', hv', e⟩ := List.mem_map.1 hv
    cases e
    exact ⟨text, vs, he, hv'⟩
  · rintro ⟨text, vs, he, hv⟩
    exact ⟨_, he, List.mem_map.2 ⟨v, hv, rfl⟩⟩

theorem singles_lines {k : Ty W} {q : List (LRange × Str × List (Val k))} (one : ∀ e ∈ q, ∃ v, e.2.2 = [v]) :
    entryLines k q = (singles q).map (fun c => (c.1, valDbg k c.2)) := by
  unfold singles entryLines
  rw [List.map_flatMap]
  apply flatMap_congr'
  intro e he
  obtain ⟨v, hv⟩ := one e he
  rw [hv]
  rfl

/-- the values of single tokens, token after token, the newest value first -/
theorem tokenEntries_lines (k : Ty W) (l : LLLine W) (f : Nat → List (Val k)) :
    entryLines k (tokenEntries l f) =
      (List.range l.ll_tokens.length).flatMap (fun i => (f i).reverse.map (fun v => ((i, i), valDbg k v))) := by
  unfold entryLines tokenEntries
  rw [List.flatMap_def, List.map_filterMap, List.flatMap_def]
  induction List.range l.ll_tokens.length with
  | nil => rfl
  | cons i is ih =>
    simp only [List.filterMap_cons, List.map_cons, List.flatten_cons]
    by_cases h : (f i).isEmpty
    · have h' := List.isEmpty_iff.1 h
      simp only [h', List.isEmpty_nil, if_true, Option.map_none, List.reverse_nil, List.map_nil, List.nil_append]
      exact ih
    · simp only [h, Bool.false_eq_true, if_false, Option.map_some, List.flatten_cons, ih]

end LNlp
