import Verif.Spec.Pipeline
/- Specification of the containers as abstract data types, and of matchers without choice. -/
namespace LNlp
variable {W : World}

/-- one operation on a `TypeBucket` -/
inductive BucketOp (W : World)
  /-- `bucket.insert(v)` -/
  | insert (k : Ty W) (v : Val k)
  /-- `bucket.insert_any_attribute(AnyAttribute::new(v))` -/
  | insertAny (k : Ty W) (v : Val k)
  /-- `bucket.clear()` -/
  | clear

/-- performing operations on a bucket one after another -/
def TypeBucket.runOps : TypeBucket W → List (BucketOp W) → R (TypeBucket W)
  | b, [] => .ok b
  | b, .insert k v :: ops =>
    match b.insert k v with
    | .ok b' => b'.runOps ops
    | .error e => .error e
  | b, .insertAny k v :: ops =>
    match b.insertAnyAttribute (AnyAttribute.new k v) with
    | .ok b' => b'.runOps ops
    | .error e => .error e
  | b, .clear :: ops => b.clear.runOps ops

/-- whether the operation is `clear` -/
def BucketOp.isClear : BucketOp W → Bool
  | .clear => true
  | _ => false

/-- the value an operation inserts, if it is of type `k` -/
def BucketOp.valAs (k : Ty W) : BucketOp W → Option (Val k)
  | .insert k' v => if h : k' = k then some (h ▸ v) else none
  | .insertAny k' v => if h : k' = k then some (h ▸ v) else none
  | .clear => none

/-- the operations after the last `clear` -/
def sinceClear (ops : List (BucketOp W)) : List (BucketOp W) :=
  (ops.reverse.takeWhile (fun o => !o.isClear)).reverse

/-- performing insertions into a `TypeIdToMany` one after another; `true` is the typed insertion
(`insert_distinct`), `false` the one by type id (`insert_any_distinct`) -/
def TypeIdToMany.runOps {α : Type} [DecidableEq α] : TypeIdToMany W α → List (Bool × Ty W × α) → TypeIdToMany W α
  | m, [] => m
  | m, (true, k, x) :: ops => (m.insertDistinct k x).runOps ops
  | m, (false, k, x) :: ops => (m.insertAnyDistinct k x).runOps ops

/-- Matchers built from `x::*` without `any_of`; `token_has_any` only if `has`. -/
inductive ChoiceFree (has : Bool) : {Out : Type} → XMatch W Out → Prop
  | attr (k : Ty W) : ChoiceFree has (X.attr k)
  | attrEq (k : Ty W) (v : Val k) : ChoiceFree has (X.attrEq k v)
  | tokenHasAny (k : Ty W) (hh : has = true) (set : List (Val k)) : ChoiceFree has (X.tokenHasAny k set)
  | tokenText : ChoiceFree has X.tokenText
  | all2 {α β : Type} {a : XMatch W α} {b : XMatch W β} :
      ChoiceFree has a → ChoiceFree has b → ChoiceFree has (X.all2 a b)
  | all3 {α β γ : Type} {a : XMatch W α} {b : XMatch W β} {c : XMatch W γ} :
      ChoiceFree has a → ChoiceFree has b → ChoiceFree has c → ChoiceFree has (X.all3 a b c)
  | seq2 {α β : Type} {a : XMatch W α} {b : XMatch W β} :
      ChoiceFree has a → ChoiceFree has b → ChoiceFree has (X.seq2 a b)
  | seq3 {α β γ : Type} {a : XMatch W α} {b : XMatch W β} {c : XMatch W γ} :
      ChoiceFree has a → ChoiceFree has b → ChoiceFree has c → ChoiceFree has (X.seq3 a b c)

end LNlp
