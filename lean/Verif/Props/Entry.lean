import Verif.Lemmas.Entry
import Verif.Demo.World
/- C152: the entry API of type_bucket.rs. -/
namespace LNlp
variable {W : World}


/-- C152: whatever is done with the entries of a map that was empty at first, in any order, the caller sees what a
shelf with one place per type would show, and the map is such a shelf at the end.  In particular operations on one
type do not disturb another, and the function given to `or_insert_with` is called only if there is no value. -/
theorem C152_entries (ops : List (EntryOp W)) :
    (performAll ops HMap.empty).1 = (expectedAll ops (fun _ => none)).1 ∧
    ∀ k, (performAll ops HMap.empty).2.get? k = ((expectedAll ops (fun _ => none)).2 k).map (fun v => ⟨k, v⟩) :=
  performAll_expected ops (fun _ => rfl)

example := C152_entries (W := Demo.W) [.orInsert (.user (1 : Nat)) (['a'] : Str) (fun (s : Str) => s ++ s), .put .char 'x', .take (.user (1 : Nat)),
  .orInsertWith .char (fun _ => .error .user) id, .look (.user (1 : Nat)), .change .char (fun _ => 'y')]

/-- C152: the `unwrap`s of the entry API are never reached with a wrong type: what a caller sees as a panic is the panic
of a function it gave itself. -/
theorem C152_no_panic (ops : List (EntryOp W)) (op : EntryOp W) (p : Panic)
    (h : (⟨op, .error p⟩ : (op : EntryOp W) × R (Option (Val op.key))) ∈ (performAll ops HMap.empty).1) :
    ∃ k f edit, op = .orInsertWith k f edit ∧ f () = .error p := by
  rw [(C152_entries ops).1] at h
  revert h
  generalize (fun _ => none : Shelf W) = s
  induction ops generalizing s with
  | nil => intro h; cases h
  | cons o ops ih =>
    intro h
    rcases List.mem_cons.1 h with h | h
    · obtain ⟨rfl, h⟩ := Sigma.mk.inj h
      have h := eq_of_heq h
      cases op with
      | look k => cases h
      | orInsert k v edit => simp only [EntryOp.expected] at h; split at h <;> cases h
      | orInsertWith k f edit =>
        refine ⟨k, f, edit, rfl, ?_⟩
        simp only [EntryOp.expected] at h
        split at h
        · cases h
        · split at h
          · cases h
          · next hf => cases h; exact hf
      | change k edit => simp only [EntryOp.expected] at h; split at h <;> cases h
      | put k v => cases h
      | take k => cases h
    · exact ih _ h

example := C152_no_panic (W := Demo.W) [.orInsertWith .char (fun _ => .error .user) id]
  (.orInsertWith .char (fun _ => .error .user) id) .user (.head _)

/-- C152: an entry made with a type other than that of the stored value panics whatever is done with it; `insert` has
then replaced the value already, and `remove` has thrown it away. -/
theorem C152_wrong_type {k : Ty W} (e : OccupiedEntry W k) (hk : e.cur.ty ≠ k) (v : Val k) :
    e.get = .error .bucketType ∧ e.getMut = .error .bucketType ∧ e.intoMut = .error .bucketType ∧
    (e.insert v).1 = .error .bucketType ∧ (e.insert v).2.map.get? e.key = some ⟨k, v⟩ ∧
    e.remove.1 = .error .bucketType ∧ e.remove.2.get? e.key = none ∧
    (Entry.Occupied e).orInsert v = .error .bucketType ∧
    ∀ f, (Entry.Occupied e).orInsertWith f = .error .bucketType := by
  have hd := DynAny.downcast_other e.cur hk
  simp [OccupiedEntry.get, OccupiedEntry.getMut, OccupiedEntry.intoMut, OccupiedEntry.insert, OccupiedEntry.remove,
    Entry.orInsert, Entry.orInsertWith, hd, expect, HMap.get?, HMap.set, HMap.erase]

example := C152_wrong_type (W := Demo.W) (k := .char) ⟨HMap.set HMap.empty .textTag ⟨.textTag, .WORD⟩, .textTag, ⟨.textTag, .WORD⟩⟩
  (by intro h; cases h) 'x'

end LNlp
