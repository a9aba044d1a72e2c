import Verif.Model.Line
/-
Model of /repo/src/ll_line/x.rs and /repo/src/ll_line/x/*.rs: the two match directions, and the
matchers and matcher combinators.
-/
namespace LNlp
variable {W : World}

/-- `ll_line.attrs.values.get(range).unwrap().get::<T>()`, x.rs:96-101 (and the same text at
123-128, 202-207, 232-237, 260-265) -/
def LLLine.valuesAt (l : LLLine W) (k : Ty W) (range : LRange) : R (List (Val k)) :=
  match l.attrs.values.get? range with
  | none => .error .missingValues
  | some b => b.get k

/-- `XForwards::attr` (x.rs:114-133) and `XBackwards::attr` (x.rs:220-242) -/
def Dir.attr (d : Dir) (k : Ty W) (l : LLLine W) : R (List (Val k × Nat)) :=
  match d with
  | .fwd i =>
    match l.attrs.starts_at[i]? with
    | none => .error .dirOob
    | some m => flatMapR (fun range =>
        match l.valuesAt k range with
        | .error e => .error e
        | .ok vs => .ok (vs.map (fun val => (val, range.2)))) (m.get k)
  | .bwd i =>
    match l.attrs.ends_at[i]? with
    | none => .error .dirOob
    | some m => flatMapR (fun range =>
        match l.valuesAt k range with
        | .error e => .error e
        | .ok vs => .ok (vs.map (fun val => (val, range.1)))) (m.get k)

/-- `XForwards::attr_eq` (x.rs:87-112) and `XBackwards::attr_eq` (x.rs:190-218) -/
def Dir.attrEq (d : Dir) (k : Ty W) (equals : Val k) (l : LLLine W) : R (List (Unit × Nat)) :=
  match d with
  | .fwd i =>
    match l.attrs.starts_at[i]? with
    | none => .error .dirOob
    | some m => flatMapR (fun range =>
        match l.valuesAt k range with
        | .error e => .error e
        | .ok vs => .ok (vs.filterMap (fun val =>
            if valEq k val equals then some ((), range.2) else none))) (m.get k)
  | .bwd i =>
    match l.attrs.ends_at[i]? with
    | none => .error .dirOob
    | some m => flatMapR (fun range =>
        match l.valuesAt k range with
        | .error e => .error e
        | .ok vs => .ok (vs.filterMap (fun val =>
            if valEq k val equals then some ((), range.1) else none))) (m.get k)

/-- `set.contains(value)`, x.rs:150, 268: slice membership by the element type's `PartialEq`
(`self[i] == *value`) -/
def setContains (k : Ty W) (set : List (Val k)) (value : Val k) : Bool :=
  set.any (fun s => valEq k s value)

/-- `XForwards::token_attr_one_of` (x.rs:135-157) and `XBackwards::token_attr_one_of`
(x.rs:244-276) -/
def Dir.tokenAttrOneOf (d : Dir) (k : Ty W) (set : List (Val k)) (l : LLLine W) :
    R (List (Val k × Nat)) :=
  match d with
  | .fwd i =>
    match l.attrs.values.get? (i, i) with
    | none => .error .noTokenAttrs
    | some b =>
      match b.get k with
      | .error e => .error e
      | .ok vs => .ok (vs.filterMap (fun value =>
          if setContains k set value then some (value, i) else none))
  | .bwd i =>
    match l.attrs.ends_at[i]? with
    | none => .error .dirOob
    | some m => flatMapR (fun range =>
        match l.valuesAt k range with
        | .error e => .error e
        | .ok vs => .ok (vs.filterMap (fun val =>
            if setContains k set val then some (val, range.1) else none))) (m.get k)

/-- `XForwards::text_token` (x.rs:159-173) and `XBackwards::text_token` (x.rs:278-286) -/
def Dir.textToken (d : Dir) (l : LLLine W) : R (Option (Str × Nat)) :=
  match d with
  | .fwd i =>
    match l.ll_tokens[i]? with
    | none => .error .textOob
    | some t =>
      match t.token with
      | .Text s _ => .ok (some (s, i))
      | .Value => .ok none
  | .bwd i =>
    match l.ll_tokens[i]? with
    | none => .ok none
    | some t =>
      match t.token with
      | .Text text _ => .ok (some (text, i))
      | .Value => .ok none

/-- `XForwards::after` (x.rs:175-182) and `XBackwards::after` (x.rs:288-294) -/
def Dir.after (d : Dir) (idx : Nat) (l : LLLine W) : Option Dir :=
  match d with
  | .fwd _ =>
    let next_idx := idx + 1
    if next_idx < l.ll_tokens.length then some (.fwd next_idx) else none
  | .bwd _ => if idx > 0 then some (.bwd (idx - 1)) else none

/-- `AnyOf2`, x/any_of.rs:27-31 -/
inductive AnyOf2 (α β : Type)
  | A (a : α)
  | B (b : β)
deriving DecidableEq

/-- `AnyOf3`, x/any_of.rs:56-61 -/
inductive AnyOf3 (α β γ : Type)
  | A (a : α)
  | B (b : β)
  | C (c : γ)
deriving DecidableEq

namespace X

/-- `x::attr::<A>()`, x/attr.rs:3-14, x/functions.rs:43-45 -/
def attr (k : Ty W) : XMatch W (Val k) := ⟨fun d l => d.attr k l⟩

/-- `x::attr_eq(&v)`, x/attr_eq.rs:3-16, x/functions.rs:33-35 -/
def attrEq (k : Ty W) (v : Val k) : XMatch W Unit := ⟨fun d l => d.attrEq k v l⟩

/-- `x::token_has_any(&[..])`, x/token_has_any.rs:3-16, x/functions.rs:38-40 -/
def tokenHasAny (k : Ty W) (oneOf : List (Val k)) : XMatch W (Val k) :=
  ⟨fun d l => d.tokenAttrOneOf k oneOf l⟩

/-- `x::token_text()`, x/token_text.rs:3-14, x/functions.rs:28-30 -/
def tokenText : XMatch W Str :=
  ⟨fun d l =>
    match d.textToken l with
    | .error e => .error e
    | .ok o => .ok o.toList⟩

/-- `x::whitespace()`, x/functions.rs:48-50 -/
def whitespace : XMatch W Unit := attrEq Ty.textTag TextTag.SPACE

/-- `All2::go`, x/all.rs:25-66 (the second matcher runs first) -/
def all2 {α β : Type} (a : XMatch W α) (b : XMatch W β) : XMatch W (α × β) :=
  ⟨fun d l =>
    match b.go d l with
    | .error e => .error e
    | .ok bs =>
      match a.go d l with
      | .error e => .error e
      | .ok as =>
        .ok (as.flatMap (fun pa => bs.filterMap (fun pb =>
          if pa.2 = pb.2 then some ((pa.1, pb.1), pa.2) else none)))⟩

/-- `All3::go`, x/all.rs:68-97 -/
def all3 {α β γ : Type} (a : XMatch W α) (b : XMatch W β) (c : XMatch W γ) :
    XMatch W (α × β × γ) :=
  ⟨fun d l =>
    match b.go d l with
    | .error e => .error e
    | .ok bs =>
      match c.go d l with
      | .error e => .error e
      | .ok cs =>
        match a.go d l with
        | .error e => .error e
        | .ok as =>
          .ok (as.flatMap (fun pa => bs.flatMap (fun pb => cs.filterMap (fun pc =>
            if pa.2 = pb.2 ∧ pa.2 = pc.2 then some ((pa.1, pb.1, pc.1), pa.2) else none))))⟩

/-- `AnyOf2Matcher::go`, x/any_of.rs:33-52 -/
def anyOf2 {α β : Type} (a : XMatch W α) (b : XMatch W β) : XMatch W (AnyOf2 α β) :=
  ⟨fun d l =>
    match a.go d l with
    | .error e => .error e
    | .ok as =>
      if !as.isEmpty then .ok (as.map (fun p => (AnyOf2.A p.1, p.2)))
      else
        match b.go d l with
        | .error e => .error e
        | .ok bs => .ok (bs.map (fun p => (AnyOf2.B p.1, p.2)))⟩

/-- `AnyOf3Matcher::go`, x/any_of.rs:63-88 -/
def anyOf3 {α β γ : Type} (a : XMatch W α) (b : XMatch W β) (c : XMatch W γ) :
    XMatch W (AnyOf3 α β γ) :=
  ⟨fun d l =>
    match a.go d l with
    | .error e => .error e
    | .ok as =>
      if !as.isEmpty then .ok (as.map (fun p => (AnyOf3.A p.1, p.2)))
      else
        match b.go d l with
        | .error e => .error e
        | .ok bs =>
          if !bs.isEmpty then .ok (bs.map (fun p => (AnyOf3.B p.1, p.2)))
          else
            match c.go d l with
            | .error e => .error e
            | .ok cs => .ok (cs.map (fun p => (AnyOf3.C p.1, p.2)))⟩

/-- `direction.after(idx, ll_line).map(|direction| m.go(&direction, ll_line))
.unwrap_or_else(Vec::new)`, x/seq.rs:38-41 -/
def goAfter {α : Type} (m : XMatch W α) (d : Dir) (idx : Nat) (l : LLLine W) :
    R (List (α × Nat)) :=
  match d.after idx l with
  | some d' => m.go d' l
  | none => .ok []

/-- `Seq2::go`, x/seq.rs:25-47 -/
def seq2 {α β : Type} (a : XMatch W α) (b : XMatch W β) : XMatch W (α × β) :=
  ⟨fun d l =>
    match a.go d l with
    | .error e => .error e
    | .ok as => flatMapR (fun pa =>
        match goAfter b d pa.2 l with
        | .error e => .error e
        | .ok bs => .ok (bs.map (fun pb => ((pa.1, pb.1), pb.2)))) as⟩

/-- `Seq3::go`, x/seq.rs:49-78 -/
def seq3 {α β γ : Type} (a : XMatch W α) (b : XMatch W β) (c : XMatch W γ) :
    XMatch W (α × β × γ) :=
  ⟨fun d l =>
    match a.go d l with
    | .error e => .error e
    | .ok as => flatMapR (fun pa =>
        match goAfter b d pa.2 l with
        | .error e => .error e
        | .ok bs => flatMapR (fun pb =>
            match goAfter c d pb.2 l with
            | .error e => .error e
            | .ok cs => .ok (cs.map (fun pc => ((pa.1, pb.1, pc.1), pc.2)))) bs) as⟩

end X

end LNlp
