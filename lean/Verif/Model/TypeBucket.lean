import Verif.Model.Basic
/-
Model of /repo/src/type_bucket.rs and /repo/src/type_id_to_many.rs.
The entry API (`OccupiedEntry`, `VacantEntry`, `Entry`, lines 45-123), which nothing calls, is in Model/Entry.lean.
-/
namespace LNlp
variable {W : World}

/-- `Box<dyn Any>`: a value together with its dynamic type (type_bucket.rs:15). -/
structure DynAny (W : World) where
  ty : Ty W
  val : Val ty

/-- `Box<dyn Bucket + Send + Sync>`: always a `Vec<T>` for some dynamic type `T`
(type_bucket.rs:128-131, 159-175). -/
structure DynBucket (W : World) where
  ty : Ty W
  items : List (Val ty)

/-- `<dyn Any>::downcast::<T>()`: succeeds exactly at the dynamic type. -/
def DynAny.downcast (d : DynAny W) (k : Ty W) : Option (Val k) :=
  if h : d.ty = k then some (h ▸ d.val) else none

/-- `bucket.as_any().downcast_ref::<Vec<T>>()` (type_bucket.rs:161-167). -/
def DynBucket.downcast (d : DynBucket W) (k : Ty W) : Option (List (Val k)) :=
  if h : d.ty = k then some (h ▸ d.items) else none

/-- `AnyAttribute(TypeId, Box<dyn Bucket>, Box<dyn Any>)`, type_bucket.rs:15 -/
structure AnyAttribute (W : World) where
  key : Ty W
  emptyBucket : DynBucket W
  value : DynAny W

/-- `AnyAttribute::new`, type_bucket.rs:24-30 -/
def AnyAttribute.new (k : Ty W) (v : Val k) : AnyAttribute W :=
  { key := k, emptyBucket := ⟨k, []⟩, value := ⟨k, v⟩ }

/-- `AnyAttribute::extract`, type_bucket.rs:32-38; `Result<T, Self>` as `Except`. -/
def AnyAttribute.extract (a : AnyAttribute W) (k : Ty W) : Except (AnyAttribute W) (Val k) :=
  match a.value.downcast k with
  | some v => .ok v
  | none => .error { key := a.key, emptyBucket := a.emptyBucket, value := a.value }

/-- `AnyAttribute::type_id`, type_bucket.rs:40-42 -/
def AnyAttribute.typeId (a : AnyAttribute W) : Ty W := a.key

/-- `Bucket::insert_any` for `Vec<T>`, type_bucket.rs:168-170 -/
def DynBucket.insertAny (b : DynBucket W) (v : DynAny W) : R (DynBucket W) :=
  match v.downcast b.ty with
  | some x => .ok { ty := b.ty, items := b.items ++ [x] }
  | none => .error .bucketType

/-- `TypeBucket`, type_bucket.rs:127-132 -/
structure TypeBucket (W : World) where
  map : HMap (Ty W) (DynBucket W)

/-- `TypeBucket::default()` / `new`, type_bucket.rs:125,180-184 -/
def TypeBucket.empty : TypeBucket W := { map := HMap.empty }

/-- `TypeBucket::insert_any_attribute`, type_bucket.rs:189-191 -/
def TypeBucket.insertAnyAttribute (b : TypeBucket W) (a : AnyAttribute W) : R (TypeBucket W) :=
  let entry := match b.map.get? a.key with
    | some d => d
    | none => a.emptyBucket
  match entry.insertAny a.value with
  | .ok d => .ok { map := b.map.set a.key d }
  | .error e => .error e

/-- `TypeBucket::insert::<T>`, type_bucket.rs:197-205 -/
def TypeBucket.insert (b : TypeBucket W) (k : Ty W) (v : Val k) : R (TypeBucket W) :=
  let entry := match b.map.get? k with
    | some d => d
    | none => ⟨k, []⟩
  match entry.downcast k with
  | some vec => .ok { map := b.map.set k ⟨k, vec ++ [v]⟩ }
  | none => .error .bucketType

/-- `TypeBucket::get::<T>`, type_bucket.rs:216-222 -/
def TypeBucket.get (b : TypeBucket W) (k : Ty W) : R (List (Val k)) :=
  match b.map.get? k with
  | none => .ok []
  | some d => expect (d.downcast k) .bucketType

/-- `TypeBucket::get_debug::<T>`, type_bucket.rs:224-236 -/
def TypeBucket.getDebug (b : TypeBucket W) (k : Ty W) : R (List Str) :=
  match b.map.get? k with
  | none => .ok []
  | some d =>
    match d.downcast k with
    | none => .error .bucketType
    | some items => .ok (items.map (valDbg k))

/-- `TypeBucket::clear`, type_bucket.rs:256-260 -/
def TypeBucket.clear (_b : TypeBucket W) : TypeBucket W := { map := HMap.empty }

/-- `TypeIdToMany<T>`, type_id_to_many.rs:3-6 -/
structure TypeIdToMany (W : World) (α : Type) where
  map : HMap (Ty W) (List α)

/-- `TypeIdToMany::default()`, type_id_to_many.rs:3 -/
def TypeIdToMany.empty {α : Type} : TypeIdToMany W α := { map := HMap.empty }

/-- `insert_distinct::<T>`, type_id_to_many.rs:9-18 -/
def TypeIdToMany.insertDistinct {α : Type} [DecidableEq α] (m : TypeIdToMany W α) (k : Ty W)
    (x : α) : TypeIdToMany W α :=
  let entry := (m.map.get? k).getD []
  { map := m.map.set k (if entry.contains x then entry else entry ++ [x]) }

/-- `insert_any_distinct`, type_id_to_many.rs:19-28 -/
def TypeIdToMany.insertAnyDistinct {α : Type} [DecidableEq α] (m : TypeIdToMany W α) (typeId : Ty W)
    (x : α) : TypeIdToMany W α :=
  let entry := (m.map.get? typeId).getD []
  { map := m.map.set typeId (if entry.contains x then entry else entry ++ [x]) }

/-- `get::<T>`, type_id_to_many.rs:29-33 -/
def TypeIdToMany.get {α : Type} (m : TypeIdToMany W α) (k : Ty W) : List α :=
  match m.map.get? k with
  | some v => v
  | none => []

end LNlp
