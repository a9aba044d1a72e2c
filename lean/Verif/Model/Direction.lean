import Verif.Model.X
/-
Model of /repo/src/ll_line/x.rs and /repo/src/ll_line/x/*.rs once more, as the generic code it is: `XDirection` is a public
trait and `XMatch::go` takes any type that implements it, so a user may hand the matchers a direction of their own.
`Model/X.lean` is this code for the two directions of the library (`C136_library`).
-/
namespace LNlp
variable {W : World}

/-- `trait XDirection`, x.rs:41-64: the five methods of a type `S` that implements it.  A method of the user may panic. -/
structure Direction (W : World) (S : Type) where
  attr : S → (k : Ty W) → LLLine W → R (List (Val k × Nat))
  attrEq : S → (k : Ty W) → Val k → LLLine W → R (List (Unit × Nat))
  tokenAttrOneOf : S → (k : Ty W) → List (Val k) → LLLine W → R (List (Val k × Nat))
  textToken : S → LLLine W → R (Option (Str × Nat))
  after : S → Nat → LLLine W → R (Option S)

/-- `impl XDirection for XForwards` (x.rs:86-183) and `impl XDirection for XBackwards` (x.rs:189-295) -/
def Direction.lib : Direction W Dir where
  attr d k l := d.attr k l
  attrEq d k v l := d.attrEq k v l
  tokenAttrOneOf d k set l := d.tokenAttrOneOf k set l
  textToken d l := d.textToken l
  after d idx l := .ok (d.after idx l)

/-- `trait XMatch` with its generic `go<M: XDirection>`, x.rs:24-36 -/
structure GMatch (W : World) (Out : Type) where
  go : {S : Type} → Direction W S → S → LLLine W → R (List (Out × Nat))

/-- the matcher as the selections call it: with a direction of the library (ll_selection.rs:111, 144, 159, 189, 235, 320,
334) -/
def GMatch.matcher {Out : Type} (m : GMatch W Out) : XMatch W Out := ⟨fun d l => m.go Direction.lib d l⟩

namespace GX

/-- `Attr::go`, x/attr.rs:3-14 -/
def attr (k : Ty W) : GMatch W (Val k) := ⟨fun D s l => D.attr s k l⟩

/-- `AttrEq::go`, x/attr_eq.rs:3-16 -/
def attrEq (k : Ty W) (v : Val k) : GMatch W Unit := ⟨fun D s l => D.attrEq s k v l⟩

/-- `TokenHasAny::go`, x/token_has_any.rs:3-16 -/
def tokenHasAny (k : Ty W) (oneOf : List (Val k)) : GMatch W (Val k) := ⟨fun D s l => D.tokenAttrOneOf s k oneOf l⟩

/-- `TokenText::go`, x/token_text.rs:3-14 -/
def tokenText : GMatch W Str :=
  ⟨fun D s l =>
    match D.textToken s l with
    | .error e => .error e
    | .ok o => .ok o.toList⟩

/-- `x::whitespace()`, x/functions.rs:48-50 -/
def whitespace : GMatch W Unit := attrEq Ty.textTag TextTag.SPACE

/-- `All2::go`, x/all.rs:25-66 -/
def all2 {α β : Type} (a : GMatch W α) (b : GMatch W β) : GMatch W (α × β) :=
  ⟨fun D s l =>
    match b.go D s l with
    | .error e => .error e
    | .ok bs =>
      match a.go D s l with
      | .error e => .error e
      | .ok as =>
        .ok (as.flatMap (fun pa => bs.filterMap (fun pb =>
          if pa.2 = pb.2 then some ((pa.1, pb.1), pa.2) else none)))⟩

/-- `All3::go`, x/all.rs:68-97 -/
def all3 {α β γ : Type} (a : GMatch W α) (b : GMatch W β) (c : GMatch W γ) : GMatch W (α × β × γ) :=
  ⟨fun D s l =>
    match b.go D s l with
    | .error e => .error e
    | .ok bs =>
      match c.go D s l with
      | .error e => .error e
      | .ok cs =>
        match a.go D s l with
        | .error e => .error e
        | .ok as =>
          .ok (as.flatMap (fun pa => bs.flatMap (fun pb => cs.filterMap (fun pc =>
            if pa.2 = pb.2 ∧ pa.2 = pc.2 then some ((pa.1, pb.1, pc.1), pa.2) else none))))⟩

/-- `AnyOf2Matcher::go`, x/any_of.rs:33-52 -/
def anyOf2 {α β : Type} (a : GMatch W α) (b : GMatch W β) : GMatch W (AnyOf2 α β) :=
  ⟨fun D s l =>
    match a.go D s l with
    | .error e => .error e
    | .ok as =>
      if !as.isEmpty then .ok (as.map (fun p => (AnyOf2.A p.1, p.2)))
      else
        match b.go D s l with
        | .error e => .error e
        | .ok bs => .ok (bs.map (fun p => (AnyOf2.B p.1, p.2)))⟩

/-- `AnyOf3Matcher::go`, x/any_of.rs:63-88 -/
def anyOf3 {α β γ : Type} (a : GMatch W α) (b : GMatch W β) (c : GMatch W γ) : GMatch W (AnyOf3 α β γ) :=
  ⟨fun D s l =>
    match a.go D s l with
    | .error e => .error e
    | .ok as =>
      if !as.isEmpty then .ok (as.map (fun p => (AnyOf3.A p.1, p.2)))
      else
        match b.go D s l with
        | .error e => .error e
        | .ok bs =>
          if !bs.isEmpty then .ok (bs.map (fun p => (AnyOf3.B p.1, p.2)))
          else
            match c.go D s l with
            | .error e => .error e
            | .ok cs => .ok (cs.map (fun p => (AnyOf3.C p.1, p.2)))⟩

/-- `direction.after(idx, ll_line).map(|direction| m.go(&direction, ll_line)).unwrap_or_else(Vec::new)`, x/seq.rs:38-41 -/
def goAfter {α S : Type} (m : GMatch W α) (D : Direction W S) (s : S) (idx : Nat) (l : LLLine W) : R (List (α × Nat)) :=
  match D.after s idx l with
  | .error e => .error e
  | .ok (some s') => m.go D s' l
  | .ok none => .ok []

/-- `Seq2::go`, x/seq.rs:25-47 -/
def seq2 {α β : Type} (a : GMatch W α) (b : GMatch W β) : GMatch W (α × β) :=
  ⟨fun D s l =>
    match a.go D s l with
    | .error e => .error e
    | .ok as => flatMapR (fun pa =>
        match goAfter b D s pa.2 l with
        | .error e => .error e
        | .ok bs => .ok (bs.map (fun pb => ((pa.1, pb.1), pb.2)))) as⟩

/-- `Seq3::go`, x/seq.rs:49-78 -/
def seq3 {α β γ : Type} (a : GMatch W α) (b : GMatch W β) (c : GMatch W γ) : GMatch W (α × β × γ) :=
  ⟨fun D s l =>
    match a.go D s l with
    | .error e => .error e
    | .ok as => flatMapR (fun pa =>
        match goAfter b D s pa.2 l with
        | .error e => .error e
        | .ok bs => flatMapR (fun pb =>
            match goAfter c D s pb.2 l with
            | .error e => .error e
            | .ok cs => .ok (cs.map (fun pc => ((pa.1, pb.1, pc.1), pc.2)))) bs) as⟩

end GX

end LNlp
