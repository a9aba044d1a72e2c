import Verif.Spec.UserMatch
import Verif.Spec.Program
import Verif.Lemmas.Match
/- Helper lemmas about matchers of the user. -/
namespace LNlp
variable {W : World} {α β γ : Type}

theorem numbered_flatMap (F : α × Nat → List γ) (G : α × Nat → List γ) : ∀ (rs : List (α × Nat)) (n : Nat),
    (∀ i r, rs[i]? = some r → F (r.1, n + i) = G r) → (numbered n (rs.map (·.1))).flatMap F = rs.flatMap G := by
  intro rs
  induction rs with
  | nil => intros; rfl
  | cons r rs ih =>
    intro n h
    simp only [numbered, List.map_cons, List.zipIdx_cons, List.flatMap_cons]
    rw [show F (r.1, n) = G r from h 0 r rfl]
    congr 1
    refine ih (n + 1) (fun i r' hr => ?_)
    rw [← h (i + 1) r' (by simpa using hr)]
    congr 2
    omega

theorem numbered_filterMap (F : α × Nat → Option γ) (G : α × Nat → Option γ) (rs : List (α × Nat)) (n : Nat)
    (h : ∀ i r, rs[i]? = some r → F (r.1, n + i) = G r) : (numbered n (rs.map (·.1))).filterMap F = rs.filterMap G := by
  have e : ∀ (F : α × Nat → Option γ) (l : List (α × Nat)), l.filterMap F = l.flatMap (fun x => (F x).toList) := by
    intro F l
    induction l with
    | nil => rfl
    | cons x xs ih => simp only [List.filterMap_cons, List.flatMap_cons, ← ih]; cases F x <;> rfl
  rw [e, e]
  exact numbered_flatMap _ _ rs n (fun i r hr => by rw [h i r hr])

theorem keep_go (p : α → Bool) (m : XMatch W α) (d : Dir) (l : LLLine W) :
    (X.keep p m).go d l = Except.map (List.filter (fun r => p r.1)) (m.go d l) := by
  simp only [X.keep, UserTree.matcher, UserTree.keep, UserTree.run, List.nil_append]
  cases m.go d l with
  | error e => rfl
  | ok rs =>
    simp only [Except.map, List.filterMap_filter]
    congr 1
    rw [numbered_filterMap _ (fun r => if p r.1 then some r else none) rs 0]
    · rw [← List.filterMap_eq_filter]; rfl
    · intro i r hr
      simp only [Nat.zero_add, List.getElem?_map, hr, Option.map_some]

theorem change_go (f : α → β) (m : XMatch W α) (d : Dir) (l : LLLine W) :
    (X.change f m).go d l = Except.map (List.map (fun r => (f r.1, r.2))) (m.go d l) := by
  simp only [X.change, UserTree.matcher, UserTree.change, UserTree.run, List.nil_append]
  cases m.go d l with
  | error e => rfl
  | ok rs =>
    simp only [Except.map, List.filterMap_map]
    congr 1
    rw [numbered_filterMap _ (fun r => some (f r.1, r.2)) rs 0]
    · rw [← List.filterMap_eq_map]; rfl
    · intro i r hr
      simp only [Function.comp, Nat.zero_add, List.getElem?_map, hr, Option.map_some]

theorem unless_go (a : XMatch W α) (b : XMatch W β) (d : Dir) (l : LLLine W) :
    (X.unless a b).go d l = match b.go d l with
      | .error e => .error e
      | .ok bs => if bs.isEmpty then a.go d l else .ok [] := by
  simp only [X.unless, UserTree.matcher, UserTree.unless, UserTree.run, List.nil_append]
  rw [show (parts a b false).go d l = b.go d l from rfl]
  cases b.go d l with
  | error e => rfl
  | ok bs =>
    cases bs with
    | cons x xs => rfl
    | nil =>
      simp only [List.map_nil, List.isEmpty_nil, if_true, UserTree.run, List.nil_append]
      rw [show (parts a b true).go d l = a.go d l from rfl]
      cases a.go d l with
      | error e => rfl
      | ok rs =>
        simp only
        congr 1
        refine (numbered_filterMap _ (fun r => some r) rs 0 ?_).trans (by simp)
        intro i r hr
        simp only [Nat.zero_add, List.getElem?_map, hr, Option.map_some]

theorem both_pair {seen : List Nat} {n j : Nat} {r : α × Nat} {q : β × Nat} (h1 : seen[n]? = some r.2)
    (h2 : seen[j]? = some q.2) :
    ((if decide (seen[n]? = seen[j]?) then some ((r.1, q.1), n) else none).bind
      (fun x => (seen[x.2]?).map (fun e => (x.1, e)))) = if r.2 = q.2 then some ((r.1, q.1), r.2) else none := by
  by_cases e : r.2 = q.2
  · simp [h1, h2, e]
  · simp [h1, h2, e]

theorem both_go (a : XMatch W α) (b : XMatch W β) (d : Dir) (l : LLLine W) :
    (X.both a b).go d l = (X.all2 a b).go d l := by
  simp only [X.both, X.all2, UserTree.matcher, UserTree.both, UserTree.run, List.nil_append]
  rw [show (parts a b false).go d l = b.go d l from rfl]
  cases b.go d l with
  | error e => rfl
  | ok bs =>
    simp only
    rw [show (parts a b true).go d l = a.go d l from rfl]
    cases a.go d l with
    | error e => rfl
    | ok as =>
      simp only
      congr 1
      rw [List.filterMap_flatMap]
      have hl : (List.map (fun x => x.1) bs).length = bs.length := List.length_map ..
      refine numbered_flatMap _ (fun pa => bs.filterMap (fun pb =>
        if pa.2 = pb.2 then some ((pa.1, pb.1), pa.2) else none)) as _ (fun i r hr => ?_)
      have h1 : (List.map (fun x => x.2) bs ++ List.map (fun x => x.2) as)[(List.map (fun x => x.1) bs).length + i]? = some r.2 := by
        rw [hl, List.getElem?_append_right (by simp)]
        simp [hr]
      rw [List.filterMap_filterMap]
      refine numbered_filterMap _ _ bs 0 (fun j q hq => ?_)
      have h2 : (List.map (fun x => x.2) bs ++ List.map (fun x => x.2) as)[0 + j]? = some q.2 := by
        rw [Nat.zero_add, List.getElem?_append_left (by
          simpa using (List.getElem?_eq_some_iff.1 hq).1)]
        simp [hq]
      exact both_pair h1 h2

theorem flatMapR_filter {α β : Type} (f g : α → R (List β)) (p : β → Bool) :
    ∀ xs : List α, (∀ x ∈ xs, g x = Except.map (List.filter p) (f x)) →
      flatMapR g xs = Except.map (List.filter p) (flatMapR f xs)
  | [], _ => rfl
  | x :: xs, h => by
    have ih := flatMapR_filter f g p xs (fun y hy => h y (by simp [hy]))
    simp only [flatMapR, h x (by simp), ih]
    cases f x with
    | error e => rfl
    | ok a =>
      simp only [Except.map]
      cases flatMapR f xs with
      | error e => rfl
      | ok b => simp

theorem flatMapR_change {α β γ : Type} (f : α → R (List β)) (g : α → R (List γ)) (t : β → γ) :
    ∀ xs : List α, (∀ x ∈ xs, g x = Except.map (List.map t) (f x)) →
      flatMapR g xs = Except.map (List.map t) (flatMapR f xs)
  | [], _ => rfl
  | x :: xs, h => by
    have ih := flatMapR_change f g t xs (fun y hy => h y (by simp [hy]))
    simp only [flatMapR, h x (by simp), ih]
    cases f x with
    | error e => rfl
    | ok a =>
      simp only [Except.map]
      cases flatMapR f xs with
      | error e => rfl
      | ok b => simp

end LNlp
