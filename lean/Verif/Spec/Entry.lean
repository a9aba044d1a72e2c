import Verif.Model.Entry
/- What the entry API of a typed map is for: one optional value per type. -/
namespace LNlp
variable {W : World}

/-- for every type a value of that type, or none -/
def Shelf (W : World) := (k : Ty W) → Option (Val k)

/-- the shelf with another content for one type -/
def Shelf.put (s : Shelf W) (k : Ty W) (o : Option (Val k)) : Shelf W :=
  fun k' => if h : k = k' then h ▸ o else s k'

/-- what a caller may do with the entry of a type; `edit` is what is written through the reference it gets -/
inductive EntryOp (W : World) where
  /-- look at the value, if there is one -/
  | look (k : Ty W)
  /-- `or_insert(v)`, then `*r = edit(r)` -/
  | orInsert (k : Ty W) (v : Val k) (edit : Val k → Val k)
  /-- `or_insert_with(f)`, then `*r = edit(r)` -/
  | orInsertWith (k : Ty W) (f : Unit → R (Val k)) (edit : Val k → Val k)
  /-- `get_mut` of an occupied entry, then `*r = edit(r)` -/
  | change (k : Ty W) (edit : Val k → Val k)
  /-- `insert` into an occupied or a vacant entry -/
  | put (k : Ty W) (v : Val k)
  /-- `remove` of an occupied entry -/
  | take (k : Ty W)

/-- the type whose entry is used -/
def EntryOp.key : EntryOp W → Ty W
  | .look k | .orInsert k _ _ | .orInsertWith k _ _ | .change k _ | .put k _ | .take k => k

/-- what the caller sees (the value it was shown or given back, if any), and the map afterwards, through the entry API -/
def EntryOp.perform : (op : EntryOp W) → AnyMap W → R (Option (Val op.key)) × AnyMap W
  | .look k, m =>
    match m.entry k with
    | .Occupied e => match e.get with | .ok v => (.ok (some v), m) | .error p => (.error p, m)
    | .Vacant _ => (.ok none, m)
  | .orInsert k v edit, m =>
    match (m.entry k).orInsert v with
    | .ok r => (.ok (some r.val), r.write (edit r.val))
    | .error p => (.error p, m)
  | .orInsertWith k f edit, m =>
    match (m.entry k).orInsertWith f with
    | .ok r => (.ok (some r.val), r.write (edit r.val))
    | .error p => (.error p, m)
  | .change k edit, m =>
    match m.entry k with
    | .Occupied e => match e.getMut with | .ok r => (.ok (some r.val), r.write (edit r.val)) | .error p => (.error p, m)
    | .Vacant _ => (.ok none, m)
  | .put k v, m =>
    match m.entry k with
    | .Occupied e => match e.insert v with | (.ok old, e') => (.ok (some old), e'.map) | (.error p, e') => (.error p, e'.map)
    | .Vacant e => match e.insert v with | .ok r => (.ok none, r.write r.val) | .error p => (.error p, m)
  | .take k, m =>
    match m.entry k with
    | .Occupied e => match e.remove with | (.ok v, m') => (.ok (some v), m') | (.error p, m') => (.error p, m')
    | .Vacant _ => (.ok none, m)

/-- what the caller should see, and the shelf afterwards -/
def EntryOp.expected : (op : EntryOp W) → Shelf W → R (Option (Val op.key)) × Shelf W
  | .look k, s => (.ok (s k), s)
  | .orInsert k v edit, s =>
    match s k with
    | some x => (.ok (some x), s.put k (some (edit x)))
    | none => (.ok (some v), s.put k (some (edit v)))
  | .orInsertWith k f edit, s =>
    match s k with
    | some x => (.ok (some x), s.put k (some (edit x)))
    | none =>
      match f () with
      | .ok v => (.ok (some v), s.put k (some (edit v)))
      | .error p => (.error p, s)
  | .change k edit, s =>
    match s k with
    | some x => (.ok (some x), s.put k (some (edit x)))
    | none => (.ok none, s)
  | .put k v, s => (.ok (s k), s.put k (some v))
  | .take k, s => (.ok (s k), s.put k none)

/-- what is seen in a sequence of operations (a caller may catch panics and go on), and the map at the end -/
def performAll : List (EntryOp W) → AnyMap W → List ((op : EntryOp W) × R (Option (Val op.key))) × AnyMap W
  | [], m => ([], m)
  | op :: ops, m =>
    let r := op.perform m
    let rest := performAll ops r.2
    (⟨op, r.1⟩ :: rest.1, rest.2)

/-- what should be seen in a sequence of operations, and the shelf at the end -/
def expectedAll : List (EntryOp W) → Shelf W → List ((op : EntryOp W) × R (Option (Val op.key))) × Shelf W
  | [], s => ([], s)
  | op :: ops, s =>
    let r := op.expected s
    let rest := expectedAll ops r.2
    (⟨op, r.1⟩ :: rest.1, rest.2)

end LNlp
