import Verif.Spec.Match
/- Matchers a user writes by implementing `XMatch`: keep some results, change the values, refuse where another matches,
and hand-written copies of `x::all` and `x::any_of`. -/
namespace LNlp
variable {α β : Type}

/-- values with the numbers of their `ToIdx`s -/
def numbered (n : Nat) (vs : List α) : List (α × Nat) := vs.zipIdx n

/-- `self.0.go(direction, ll_line).into_iter().filter(|(v, _)| p(v)).collect()` -/
def UserTree.keep (p : α → Bool) : UserTree (I := Unit) (fun _ => α) α :=
  .ask () (fun vs _ => .answer ((numbered 0 vs).filter (fun x => p x.1)))

/-- `self.0.go(direction, ll_line).into_iter().map(|(v, to)| (f(v), to)).collect()` -/
def UserTree.change (f : α → β) : UserTree (I := Unit) (fun _ => α) β :=
  .ask () (fun vs _ => .answer ((numbered 0 vs).map (fun x => (f x.1, x.2))))

/-- the results of the first matcher where the second finds nothing: asks `false` first -/
def UserTree.unless : UserTree (I := Bool) (fun b => if b then α else β) α :=
  .ask false (fun vs _ => if vs.isEmpty then .ask true (fun ws _ => .answer (numbered 0 ws)) else .answer [])

/-- a copy of `All2::go` (x/all.rs:28-66) -/
def UserTree.both : UserTree (I := Bool) (fun b => if b then α else β) (α × β) :=
  .ask false (fun bs _ => .ask true (fun as same => .answer ((numbered bs.length as).flatMap (fun a =>
    (numbered 0 bs).filterMap (fun b => if same a.2 b.2 then some ((a.1, b.1), a.2) else none)))))

/-- two matchers as the parts of a user's matcher -/
def parts {W : World} (a : XMatch W α) (b : XMatch W β) : (i : Bool) → XMatch W (if i then α else β)
  | true => a
  | false => b

/-- a matcher that keeps the results of `m` with `p` -/
def X.keep {W : World} (p : α → Bool) (m : XMatch W α) : XMatch W α := (UserTree.keep p).matcher (fun _ => m)
/-- a matcher that changes the values of `m` by `f` -/
def X.change {W : World} (f : α → β) (m : XMatch W α) : XMatch W β := (UserTree.change f).matcher (fun _ => m)
/-- a matcher for `a` where `b` finds nothing -/
def X.unless {W : World} (a : XMatch W α) (b : XMatch W β) : XMatch W α := UserTree.unless.matcher (parts a b)
/-- a copy of `x::all((a, b))` -/
def X.both {W : World} (a : XMatch W α) (b : XMatch W β) : XMatch W (α × β) := UserTree.both.matcher (parts a b)

/-- A matcher outside `UserTree`: it jumps with a made-up index, `direction.after(n)`, and asks for an attribute there -/
def X.jump {W : World} (n : Nat) (k : Ty W) : XMatch W (Val k) :=
  ⟨fun d l => match d.after n l with
    | some d' => d'.attr k l
    | none => .ok []⟩

end LNlp
