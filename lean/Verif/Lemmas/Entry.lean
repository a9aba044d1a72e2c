import Verif.Spec.Entry
/- Lemmas for C152: the map and the shelf go together. -/
namespace LNlp
variable {W : World}

theorem Shelf.put_same (s : Shelf W) (k : Ty W) (o : Option (Val k)) : s.put k o k = o := by simp [Shelf.put]

theorem Shelf.put_other (s : Shelf W) {k k' : Ty W} (o : Option (Val k)) (h : k' ≠ k) : s.put k o k' = s k' := by
  simp [Shelf.put, Ne.symm h]

theorem DynAny.downcast_same (k : Ty W) (v : Val k) : (⟨k, v⟩ : DynAny W).downcast k = some v := by
  simp [DynAny.downcast]

theorem DynAny.downcast_other (d : DynAny W) {k : Ty W} (h : d.ty ≠ k) : d.downcast k = none := by
  simp [DynAny.downcast, h]

/-- the map holds under every type the shelf's value of that type -/
def ShelfMap (m : AnyMap W) (s : Shelf W) : Prop := ∀ k, m.get? k = (s k).map (fun v => ⟨k, v⟩)

theorem shelfMap_set {m : AnyMap W} {s : Shelf W} (h : ShelfMap m s) (k : Ty W) (v : Val k) :
    ShelfMap (m.set k ⟨k, v⟩) (s.put k (some v)) := by
  intro k'
  by_cases e : k' = k
  · subst e; simp [HMap.get?, HMap.set, Shelf.put_same]
  · rw [Shelf.put_other s _ e, ← h k']; simp [HMap.get?, HMap.set, e]

theorem shelfMap_set2 {m : AnyMap W} {s : Shelf W} (h : ShelfMap m s) (k : Ty W) (u v : Val k) :
    ShelfMap ((m.set k ⟨k, u⟩).set k ⟨k, v⟩) (s.put k (some v)) := by
  intro k'
  by_cases e : k' = k
  · subst e; simp [HMap.get?, HMap.set, Shelf.put_same]
  · rw [Shelf.put_other s _ e, ← h k']; simp [HMap.get?, HMap.set, e]

theorem shelfMap_erase {m : AnyMap W} {s : Shelf W} (h : ShelfMap m s) (k : Ty W) :
    ShelfMap (m.erase k) (s.put k none) := by
  intro k'
  by_cases e : k' = k
  · subst e; simp [HMap.get?, HMap.erase, Shelf.put_same]
  · rw [Shelf.put_other s _ e, ← h k']; simp [HMap.get?, HMap.erase, e]

theorem shelfMap_none {m : AnyMap W} {s : Shelf W} (h : ShelfMap m s) {k : Ty W} (hk : s k = none) :
    ShelfMap m (s.put k none) := by
  intro k'
  by_cases e : k' = k
  · subst e; rw [Shelf.put_same, h k', hk]
  · rw [Shelf.put_other s _ e, h k']

theorem entry_some {m : AnyMap W} {s : Shelf W} (h : ShelfMap m s) {k : Ty W} {v : Val k} (hk : s k = some v) :
    m.entry k = .Occupied ⟨m, k, ⟨k, v⟩⟩ := by
  have := h k
  rw [hk] at this
  simp only [AnyMap.entry, this, Option.map_some]

theorem entry_none {m : AnyMap W} {s : Shelf W} (h : ShelfMap m s) {k : Ty W} (hk : s k = none) :
    m.entry k = .Vacant ⟨m, k⟩ := by
  have := h k
  rw [hk] at this
  simp only [AnyMap.entry, this, Option.map_none]

theorem perform_expected {m : AnyMap W} {s : Shelf W} (h : ShelfMap m s) (op : EntryOp W) :
    (op.perform m).1 = (op.expected s).1 ∧ ShelfMap (op.perform m).2 (op.expected s).2 := by
  cases op with
  | look k =>
    cases hk : s k with
    | none => simp only [EntryOp.perform, EntryOp.expected, entry_none h hk, hk]; exact ⟨by first | trivial | rfl, h⟩
    | some v =>
      simp only [EntryOp.perform, EntryOp.expected, entry_some h hk, hk, OccupiedEntry.get, DynAny.downcast_same, expect]
      exact ⟨by first | trivial | rfl, h⟩
  | orInsert k v edit =>
    cases hk : s k with
    | none =>
      simp only [EntryOp.perform, EntryOp.expected, entry_none h hk, hk, Entry.orInsert, VacantEntry.insert, DynAny.downcast_same]
      exact ⟨by first | trivial | rfl, shelfMap_set2 h k _ _⟩
    | some x =>
      simp only [EntryOp.perform, EntryOp.expected, entry_some h hk, hk, Entry.orInsert, OccupiedEntry.intoMut, DynAny.downcast_same]
      exact ⟨by first | trivial | rfl, shelfMap_set h k _⟩
  | orInsertWith k f edit =>
    cases hk : s k with
    | none =>
      cases hf : f () with
      | error p =>
        simp only [EntryOp.perform, EntryOp.expected, entry_none h hk, hk, Entry.orInsertWith, hf]
        exact ⟨by first | trivial | rfl, h⟩
      | ok v =>
        simp only [EntryOp.perform, EntryOp.expected, entry_none h hk, hk, Entry.orInsertWith, hf, VacantEntry.insert,
          DynAny.downcast_same]
        exact ⟨by first | trivial | rfl, shelfMap_set2 h k _ _⟩
    | some x =>
      simp only [EntryOp.perform, EntryOp.expected, entry_some h hk, hk, Entry.orInsertWith, OccupiedEntry.intoMut,
        DynAny.downcast_same]
      exact ⟨by first | trivial | rfl, shelfMap_set h k _⟩
  | change k edit =>
    cases hk : s k with
    | none => simp only [EntryOp.perform, EntryOp.expected, entry_none h hk, hk]; exact ⟨by first | trivial | rfl, h⟩
    | some x =>
      simp only [EntryOp.perform, EntryOp.expected, entry_some h hk, hk, OccupiedEntry.getMut, DynAny.downcast_same]
      exact ⟨by first | trivial | rfl, shelfMap_set h k _⟩
  | put k v =>
    cases hk : s k with
    | none =>
      simp only [EntryOp.perform, EntryOp.expected, entry_none h hk, hk, VacantEntry.insert, DynAny.downcast_same]
      exact ⟨by first | trivial | rfl, shelfMap_set2 h k _ _⟩
    | some x =>
      simp only [EntryOp.perform, EntryOp.expected, entry_some h hk, hk, OccupiedEntry.insert, DynAny.downcast_same, expect]
      exact ⟨by first | trivial | rfl, shelfMap_set h k _⟩
  | take k =>
    cases hk : s k with
    | none =>
      simp only [EntryOp.perform, EntryOp.expected, entry_none h hk, hk]
      exact ⟨by first | trivial | rfl, shelfMap_none h hk⟩
    | some x =>
      simp only [EntryOp.perform, EntryOp.expected, entry_some h hk, hk, OccupiedEntry.remove, DynAny.downcast_same, expect]
      exact ⟨by first | trivial | rfl, shelfMap_erase h k⟩

theorem performAll_expected : ∀ (ops : List (EntryOp W)) {m : AnyMap W} {s : Shelf W}, ShelfMap m s →
    (performAll ops m).1 = (expectedAll ops s).1 ∧ ShelfMap (performAll ops m).2 (expectedAll ops s).2
  | [], _, _, h => ⟨rfl, h⟩
  | op :: ops, _, _, h => by
    obtain ⟨h1, h2⟩ := perform_expected h op
    obtain ⟨h3, h4⟩ := performAll_expected ops h2
    exact ⟨by simp only [performAll, expectedAll, h1, h3], h4⟩

end LNlp
