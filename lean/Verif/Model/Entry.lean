import Verif.Model.TypeBucket
/-
Model of the entry API of /repo/src/type_bucket.rs:45-123.  The code is compiled (`#![allow(dead_code)]`) but nothing
in the crate makes an entry: `TypeBucket::entry` (262-278) is commented out, and it was written for a map with one
`Box<dyn Any>` per type, as the entries are, not for today's map with a bucket per type.  A failed `downcast` is
`Panic.bucketType` as in the rest of the file.
-/
namespace LNlp
variable {W : World}

/-- `HashMap<TypeId, Box<dyn Any>>`, the map the entries of type_bucket.rs:48,86 belong to -/
abbrev AnyMap (W : World) := HMap (Ty W) (DynAny W)

/-- `hash_map::OccupiedEntry::remove` -/
def HMap.erase {K V : Type} [DecidableEq K] (m : HMap K V) (k : K) : HMap K V :=
  fun k' => if k' = k then none else m k'

/-- `&'a mut T` into a map: the value it shows and the map after writing another one through it -/
structure MutRef (W : World) (k : Ty W) where
  val : Val k
  write : Val k → AnyMap W

/-- `OccupiedEntry<'a, T>`, type_bucket.rs:47-50: the map, the key and what is stored under it; the type `T` is only in
`marker` -/
structure OccupiedEntry (W : World) (k : Ty W) where
  map : AnyMap W
  key : Ty W
  cur : DynAny W

/-- `OccupiedEntry::get`, type_bucket.rs:54-56 -/
def OccupiedEntry.get {k : Ty W} (e : OccupiedEntry W k) : R (Val k) := expect (e.cur.downcast k) .bucketType

/-- `OccupiedEntry::get_mut`, type_bucket.rs:59-61 -/
def OccupiedEntry.getMut {k : Ty W} (e : OccupiedEntry W k) : R (MutRef W k) :=
  match e.cur.downcast k with
  | some v => .ok ⟨v, fun w => e.map.set e.key ⟨k, w⟩⟩
  | none => .error .bucketType

/-- `OccupiedEntry::into_mut`, type_bucket.rs:65-67 -/
def OccupiedEntry.intoMut {k : Ty W} (e : OccupiedEntry W k) : R (MutRef W k) :=
  match e.cur.downcast k with
  | some v => .ok ⟨v, fun w => e.map.set e.key ⟨k, w⟩⟩
  | none => .error .bucketType

/-- `OccupiedEntry::insert`, type_bucket.rs:70-76: the new value is in the map before the old one is downcast -/
def OccupiedEntry.insert {k : Ty W} (e : OccupiedEntry W k) (v : Val k) : R (Val k) × OccupiedEntry W k :=
  (expect (e.cur.downcast k) .bucketType, ⟨e.map.set e.key ⟨k, v⟩, e.key, ⟨k, v⟩⟩)

/-- `OccupiedEntry::remove`, type_bucket.rs:79-81: the value is out of the map before it is downcast -/
def OccupiedEntry.remove {k : Ty W} (e : OccupiedEntry W k) : R (Val k) × AnyMap W :=
  (expect (e.cur.downcast k) .bucketType, e.map.erase e.key)

/-- `VacantEntry<'a, T>`, type_bucket.rs:86-89 -/
structure VacantEntry (W : World) (k : Ty W) where
  map : AnyMap W
  key : Ty W

/-- `VacantEntry::insert`, type_bucket.rs:93-95: the boxed value is stored and downcast again -/
def VacantEntry.insert {k : Ty W} (e : VacantEntry W k) (v : Val k) : R (MutRef W k) :=
  match (⟨k, v⟩ : DynAny W).downcast k with
  | some v' => .ok ⟨v', fun w => (e.map.set e.key ⟨k, v⟩).set e.key ⟨k, w⟩⟩
  | none => .error .bucketType

/-- `Entry<'a, T>`, type_bucket.rs:100-103 -/
inductive Entry (W : World) (k : Ty W) where
  | Occupied (inner : OccupiedEntry W k)
  | Vacant (inner : VacantEntry W k)

/-- `Entry::or_insert`, type_bucket.rs:108-113 -/
def Entry.orInsert {k : Ty W} (e : Entry W k) (default : Val k) : R (MutRef W k) :=
  match e with
  | .Occupied inner => inner.intoMut
  | .Vacant inner => inner.insert default

/-- `Entry::or_insert_with`, type_bucket.rs:117-122; the function may panic, and whether it is called matters -/
def Entry.orInsertWith {k : Ty W} (e : Entry W k) (default : Unit → R (Val k)) : R (MutRef W k) :=
  match e with
  | .Occupied inner => inner.intoMut
  | .Vacant inner =>
    match default () with
    | .error p => .error p
    | .ok v => inner.insert v

/-- `TypeBucket::entry` as it stands in the comment, type_bucket.rs:262-278 -/
def AnyMap.entry (m : AnyMap W) (k : Ty W) : Entry W k :=
  match m.get? k with
  | some d => .Occupied ⟨m, k, d⟩
  | none => .Vacant ⟨m, k⟩

end LNlp
