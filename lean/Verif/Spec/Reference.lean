import Verif.Spec.Program
import Verif.Spec.Tokenize
/-
A reference implementation (C135).

The library keeps four indexes per line, type-erased buckets and shared pointers.  Here is the same functionality over a
plain list of facts, written without them: `Sheet` for lines, `Expr` for matcher expressions, `Code` for resolvers.
`none` stands for a panic.
-/
namespace LNlp
variable {W : World}

/-- a line: its tokens, and what has been said about ranges of them, oldest first -/
structure Sheet (W : World) where
  tokens : List LLToken
  facts : History W

/-- do something for every member and put the results together -/
def gather {α β : Type} (f : α → Option (List β)) : List α → Option (List β)
  | [] => some []
  | a :: as => do
    let bs ← f a
    let rest ← gather f as
    return bs ++ rest

/-- go on only if `p` -/
def must (p : Prop) [Decidable p] : Option Unit := if p then some () else none

/-! ### matchers -/

/-- what a user can write with `x::*` and code of their own -/
inductive Expr (W : World) : Type → Type 1
  | attr (k : Ty W) : Expr W (Val k)
  | attrEq (k : Ty W) (v : Val k) : Expr W Unit
  | tokenHasAny (k : Ty W) (set : List (Val k)) : Expr W (Val k)
  | tokenText : Expr W Str
  | all2 {α β : Type} (a : Expr W α) (b : Expr W β) : Expr W (α × β)
  | all3 {α β γ : Type} (a : Expr W α) (b : Expr W β) (c : Expr W γ) : Expr W (α × β × γ)
  | anyOf2 {α β : Type} (a : Expr W α) (b : Expr W β) : Expr W (AnyOf2 α β)
  | anyOf3 {α β γ : Type} (a : Expr W α) (b : Expr W β) (c : Expr W γ) : Expr W (AnyOf3 α β γ)
  | seq2 {α β : Type} (a : Expr W α) (b : Expr W β) : Expr W (α × β)
  | seq3 {α β γ : Type} (a : Expr W α) (b : Expr W β) (c : Expr W γ) : Expr W (α × β × γ)
  | user {I : Type} {A : I → Type} {Out : Type} (part : (i : I) → Expr W (A i)) (t : UserTree A Out) : Expr W Out
  | unrolled {Out : Type} (f : Nat → Expr W Out) : Expr W Out

/-- the matcher of the library -/
def Expr.matcher : {Out : Type} → Expr W Out → XMatch W Out
  | _, .attr k => X.attr k
  | _, .attrEq k v => X.attrEq k v
  | _, .tokenHasAny k set => X.tokenHasAny k set
  | _, .tokenText => X.tokenText
  | _, .all2 a b => X.all2 a.matcher b.matcher
  | _, .all3 a b c => X.all3 a.matcher b.matcher c.matcher
  | _, .anyOf2 a b => X.anyOf2 a.matcher b.matcher
  | _, .anyOf3 a b c => X.anyOf3 a.matcher b.matcher c.matcher
  | _, .seq2 a b => X.seq2 a.matcher b.matcher
  | _, .seq3 a b c => X.seq3 a.matcher b.matcher c.matcher
  | _, .user part t => t.matcher (fun i => (part i).matcher)
  | _, .unrolled f => X.limit (fun n => (f n).matcher)

/-- the ranges with values of a type that start (end) at a place, with the other end -/
def Sheet.rangesAt (s : Sheet W) (k : Ty W) : Dir → List (LRange × Nat)
  | .fwd i => ((rangesOf k s.facts).filter (fun r => decide (r.1 = i))).map (fun r => (r, r.2))
  | .bwd i => ((rangesOf k s.facts).filter (fun r => decide (r.2 = i))).map (fun r => (r, r.1))

/-- the values of a type that start (end) at a place, with the other end -/
def Sheet.valuesAt (s : Sheet W) (k : Ty W) (d : Dir) : Option (List (Val k × Nat)) := do
  must (d.at < s.tokens.length)
  return (s.rangesAt k d).flatMap (fun p => (valuesOf k p.1 s.facts).map (fun v => (v, p.2)))

/-- what `token_has_any` looks at: forwards the values on the token, which must have some attribute; backwards all values
that end at the token (C29, C30) -/
def Sheet.tokenValues (s : Sheet W) (k : Ty W) : Dir → Option (List (Val k × Nat))
  | .fwd i => do
    must (∃ x ∈ s.facts, x.range = (i, i))
    return (valuesOf k (i, i) s.facts).map (fun v => (v, i))
  | .bwd i => s.valuesAt k (.bwd i)

/-- the text of the token at a place -/
def Sheet.textAt (s : Sheet W) (i : Nat) : List Str :=
  match s.tokens[i]? with
  | some ⟨_, _, _, .Text t _⟩ => [t]
  | _ => []

/-- the next place behind one, if there is any -/
def Sheet.next (s : Sheet W) : Dir → Nat → Option Dir
  | .fwd _, e => if e + 1 < s.tokens.length then some (.fwd (e + 1)) else none
  | .bwd _, e => if e = 0 then none else some (.bwd (e - 1))

/-- user code asks, with the `ToIdx`s it got so far -/
def UserTree.means {I : Type} {A : I → Type} {Out : Type} (ask : (i : I) → Option (List (A i × Nat))) :
    List Nat → UserTree A Out → Option (List (Out × Nat))
  | seen, .answer out => some (out.flatMap (fun x => (seen[x.2]?).toList.map (fun e => (x.1, e))))
  | seen, .ask i next => do
    let rs ← ask i
    (next (rs.map (·.1)) (fun a b => decide ((seen ++ rs.map (·.2))[a]? = (seen ++ rs.map (·.2))[b]?))).means ask
      (seen ++ rs.map (·.2))

/-- what an expression finds at a place: values, and where each ends -/
def Expr.means (s : Sheet W) : {Out : Type} → Expr W Out → Dir → Option (List (Out × Nat))
  | _, .attr k, d => s.valuesAt k d
  | _, .attrEq k v, d => do
    let vs ← s.valuesAt k d
    return (vs.filter (fun x => valEq k x.1 v)).map (fun x => ((), x.2))
  | _, .tokenHasAny k set, d => do
    let vs ← s.tokenValues k d
    return vs.filter (fun x => set.any (fun y => valEq k y x.1))
  | _, .tokenText, d => do
    must (d = .fwd d.at → d.at < s.tokens.length)
    return (s.textAt d.at).map (fun t => (t, d.at))
  | _, .all2 a b, d => do
    let as ← a.means s d
    let bs ← b.means s d
    return as.flatMap (fun x => bs.flatMap (fun y => if x.2 = y.2 then [((x.1, y.1), x.2)] else []))
  | _, .all3 a b c, d => do
    let as ← a.means s d
    let bs ← b.means s d
    let cs ← c.means s d
    return as.flatMap (fun x => bs.flatMap (fun y => cs.flatMap (fun z =>
      if x.2 = y.2 ∧ x.2 = z.2 then [((x.1, y.1, z.1), x.2)] else [])))
  | _, .anyOf2 a b, d => do
    let as ← a.means s d
    if as ≠ [] then return as.map (fun x => (.A x.1, x.2))
    let bs ← b.means s d
    return bs.map (fun x => (.B x.1, x.2))
  | _, .anyOf3 a b c, d => do
    let as ← a.means s d
    if as ≠ [] then return as.map (fun x => (.A x.1, x.2))
    let bs ← b.means s d
    if bs ≠ [] then return bs.map (fun x => (.B x.1, x.2))
    let cs ← c.means s d
    return cs.map (fun x => (.C x.1, x.2))
  | _, .seq2 a b, d => do
    let as ← a.means s d
    gather (fun x => match s.next d x.2 with
      | none => some []
      | some d' => do
        let bs ← b.means s d'
        return bs.map (fun y => ((x.1, y.1), y.2))) as
  | _, .seq3 a b c, d => do
    let as ← a.means s d
    gather (fun x => match s.next d x.2 with
      | none => some []
      | some d' => do
        let bs ← b.means s d'
        gather (fun y => match s.next d y.2 with
          | none => some []
          | some d'' => do
            let cs ← c.means s d''
            return cs.map (fun z => ((x.1, y.1, z.1), z.2))) bs) as
  | _, .user part t, d => t.means (fun i => (part i).means s d) []
  | _, .unrolled f, d => (f (s.tokens.length + 2)).means s d

/-! ### selections: token ranges, both ends included -/

/-- the part of a selection from `a` up to before `b`, if there is one -/
def part (r : LRange) (a b : Nat) : List LRange :=
  if max a r.1 < min b (r.2 + 1) then [(max a r.1, min b (r.2 + 1) - 1)] else []

/-- the places of a selection -/
def places (r : LRange) : List Nat := (List.range (r.2 + 1)).filter (fun i => decide (r.1 ≤ i))

/-- where an expression is found forwards from a place -/
def Sheet.ahead {Out : Type} (s : Sheet W) (e : Expr W Out) (i : Nat) : Option (List (LRange × Out)) := do
  let rs ← e.means s (.fwd i)
  return rs.map (fun x => ((i, x.2), x.1))

/-- where an expression is found backwards from a place -/
def Sheet.back {Out : Type} (s : Sheet W) (e : Expr W Out) (i : Nat) : Option (List (LRange × Out)) := do
  let rs ← e.means s (.bwd i)
  return rs.map (fun x => ((x.2, i), x.1))

/-- one call of the API, by the number of the selection; see `Op` -/
inductive Call (W : World) : Type → Type 1
  | fromLine (h : Nat) : Call W Unit
  | findBy {Out : Type} (h : Nat) (e : Expr W Out) : Call W (List Out)
  | findBoth {Out : Type} (h : Nat) (e : Expr W Out) : Call W (List Out)
  | matchForwards {Out : Type} (h : Nat) (e : Expr W Out) : Call W (List Out)
  | matchBackwards {Out : Type} (h : Nat) (e : Expr W Out) : Call W (List Out)
  | splitBy {Out : Type} (h : Nat) (e : Expr W Out) : Call W Unit
  | splitWith (h g : Nat) : Call W (Bool × Bool)
  | trimSelection {Out : Type} (h : Nat) (e : Expr W Out) (from_start from_end : Bool) : Call W Unit
  | after (h : Nat) : Call W Unit

/-- the call of the library -/
def Call.op : {Resp : Type} → Call W Resp → Op W Resp
  | _, .fromLine h => .fromLine h
  | _, .findBy h e => .findBy h e.matcher
  | _, .findBoth h e => .findBoth h e.matcher
  | _, .matchForwards h e => .matchForwards h e.matcher
  | _, .matchBackwards h e => .matchBackwards h e.matcher
  | _, .splitBy h e => .splitBy h e.matcher
  | _, .splitWith h g => .splitWith h g
  | _, .trimSelection h e x y => .trimSelection h e.matcher x y
  | _, .after h => .after h

/-- ranges and values apart -/
def apart {α : Type} (xs : List (LRange × α)) : List LRange × List α := (xs.map (·.1), xs.map (·.2))

/-- what the call answers: the ranges of the new selections, and the rest -/
def Call.means (s : Sheet W) (sels : List LRange) : {Resp : Type} → Call W Resp → Option (List LRange × Resp)
  | _, .fromLine h => do
    let _ ← sels[h]?
    return (if s.tokens = [] then [] else [(0, s.tokens.length - 1)], ())
  | _, .findBy h e => do
    let r ← sels[h]?
    let xs ← gather (s.ahead e) (places r)
    return apart xs
  | _, .findBoth h e => do
    let r ← sels[h]?
    let xs ← gather (fun i => do return (← s.ahead e i) ++ (← s.back e i)) (places r)
    return apart xs
  | _, .matchForwards h e => do
    let r ← sels[h]?
    if r.2 + 1 = s.tokens.length then return ([], [])
    let xs ← e.means s (.fwd (r.2 + 1))
    return apart (xs.map (fun x => ((r.1, x.2), x.1)))
  | _, .matchBackwards h e => do
    let r ← sels[h]?
    if r.1 = 0 then return ([], [])
    let xs ← e.means s (.bwd (r.1 - 1))
    return apart (xs.map (fun x => ((x.2, r.2), x.1)))
  | _, .splitBy h e => do
    let r ← sels[h]?
    let xs ← gather (s.ahead e) (places r)
    if xs.isEmpty then return ([r], ())
    -- from the start, and from behind every match, up to the next match, and to the end
    let from_ := r.1 :: xs.map (fun x => x.1.2 + 1)
    let to := xs.map (fun x => x.1.1) ++ [r.2 + 1]
    return ((from_.zip to).flatMap (fun p => part r p.1 p.2), ())
  | _, .splitWith h g => do
    let r ← sels[h]?
    let q ← sels[g]?
    let before := part r r.1 q.1
    let behind := part r (q.2 + 1) (r.2 + 1)
    return (before ++ behind, (decide (before ≠ []), decide (behind ≠ [])))
  | _, .trimSelection h e fs fe => do
    let r ← sels[h]?
    let first ← if fs then e.means s (.fwd r.1) else some []
    let last ← if fe then e.means s (.bwd r.2) else some []
    let a := match first with
      | [] => r.1
      | x :: _ => x.2 + 1
    let b := match last with
      | [] => r.2
      | x :: _ => x.2 - 1 -- 0 if the match reaches the start of the line, see C50
    return (if r.1 ≤ b ∧ a ≤ b then [(a, b)] else [], ())
  | _, .after h => do
    let r ← sels[h]?
    -- see C44
    return (if r.1 + 1 = s.tokens.length - 1 then [] else [(r.2 + 1, s.tokens.length - 1)], ())

/-- the code of a resolver: it ends with values for some of its selections, panics, or makes a call and goes on -/
inductive Code (W : World) (V : Type) : Type 1
  | finish (values : List (Nat × V))
  | panic (e : Panic)
  | call {Resp : Type} (c : Call W Resp) (next : List LRange → Resp → Code W V)

/-- the program using the library -/
def Code.api {V : Type} : Code W V → Api W V
  | .finish vs => .finish vs
  | .panic e => .panic e
  | .call c next => .call c.op (fun rs x => (next rs x).api)

/-- what the code assigns -/
def Code.means {V : Type} (s : Sheet W) : List LRange → Code W V → Option (List (LRange × V))
  | sels, .finish vs => vs.mapM (fun v => do return (← sels[v.1]?, v.2))
  | _, .panic _ => none
  | sels, .call c next => do
    let (rs, x) ← c.means s sels
    (next rs x).means s (sels ++ rs)

/-- a resolver: the type it assigns and its code, which is given the whole line -/
structure Script (W : World) where
  ty : Ty W
  code : LRange → Code W (Val ty)

/-- the resolver of the library -/
def Script.resolver (p : Script W) : Resolver W := apiResolver p.ty (fun r => (p.code r).api)

/-! ### the line -/

/-- run a resolver: note down what it assigns -/
def Sheet.run (s : Sheet W) (p : Script W) : Option (Sheet W) := do
  if s.tokens = [] then return s
  let whole := (0, s.tokens.length - 1)
  let new ← (p.code whole).means s [whole]
  must (∀ x ∈ new, x.1.1 < s.tokens.length ∧ x.1.2 < s.tokens.length)
  return { s with facts := s.facts ++ new.map (fun x => ⟨p.ty, x.1, x.2⟩) }

/-- run resolvers one after another -/
def Sheet.runs : Sheet W → List (Script W) → Option (Sheet W)
  | s, [] => some s
  | s, p :: ps => do
    let s' ← s.run p
    s'.runs ps

/-- tokens one behind the other, with `usize` positions -/
def placed (W : World) : Nat → Nat → List (LToken × Nat) → List LLToken
  | _, _, [] => []
  | i, p, (t, n) :: rest => ⟨i, p, (p + n) % W.usizeBound, t⟩ :: placed W (i + 1) ((p + n) % W.usizeBound) rest

open Classical in
/-- make a line -/
noncomputable def Sheet.create (W : World) (size : Str → Nat) (input : List (InputToken W)) : Option (Sheet W) := do
  must (∀ t ∈ input, ¬ BadInput W t)
  must (W.overflowChecks = true → totalSize (input.flatMap (tokensOf W size)) < W.usizeBound)
  return { tokens := placed W 0 0 (input.flatMap (tokensOf W size)), facts := creationHistory W size input }

/-- all ranges with values of a type, the text there, and the values -/
def Sheet.query (s : Sheet W) (k : Ty W) : Option (List (LRange × Str × List (Val k))) := do
  must (∀ r ∈ rangesOf k s.facts, r.1 ≤ r.2 + 1)
  return (rangesOf k s.facts).map (fun r => (r, coveredText s.tokens r, valuesOf k r s.facts))

/-- everything an expression finds on the line, with positions -/
def Sheet.find {Out : Type} (s : Sheet W) (e : Expr W Out) : Option (List (Nat × Nat × Out)) :=
  gather (fun i => do
    let rs ← s.ahead e i
    rs.mapM (fun x => do
      let a ← s.tokens[x.1.1]?
      let b ← s.tokens[x.1.2]?
      return (a.pos_starts_at, b.pos_ends_at, x.2))) (List.range s.tokens.length)

/-- a line of the display for the columns from `a` up to before `b`; without overflow checks `b < a` is not noticed -/
def barLine (W : World) (a b : Nat) (text : Str) : Option Str := do
  must (W.overflowChecks = true → a ≤ b)
  let width := if a ≤ b then b - a else W.usizeBound + b - a
  return '\n' :: List.replicate a ' ' ++ '╰' :: List.replicate (b - a - 2) '─' ++ (if 1 < width then ['╯'] else []) ++ text

/-- the display of a line with the values of some types -/
def Sheet.display (s : Sheet W) (ks : List (Ty W)) : Option Str := do
  let lines ← gather (fun x => barLine W (colStart W s.tokens x.1.1) (colEnd W s.tokens x.1.2) x.2)
    (ks.flatMap (fun k => shownValues k s.facts))
  return headerOf s.tokens ++ lines

/-- what the library shows of a line, panics as `none` -/
def SameShown (l : LLLine W) (s : Sheet W) : Prop :=
  l.ll_tokens = s.tokens ∧ (∀ k, (l.query k).toOption = s.query k) ∧ (∀ ks, (shownWith l ks).toOption = s.display ks) ∧
    ∀ {Out : Type} (e : Expr W Out), (l.find e.matcher).toOption.map (·.map (fun f => (f.start_pos_at, f.end_pos_at, f.found)))
      = s.find e

/-- both panic, or both succeed and show the same -/
def Refines (x : R (LLLine W)) (y : Option (Sheet W)) : Prop :=
  match x, y with
  | .ok l, some s => SameShown l s
  | .error _, none => True
  | _, _ => False

end LNlp
