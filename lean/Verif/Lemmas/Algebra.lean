import Verif.Lemmas.Select
import Verif.Lemmas.Resolve
import Verif.Spec.Compose
/- Lemmas for C72–C77: how `seq`, `all`, `any_of` act on whole selections. -/
namespace LNlp
variable {W : World} {α β : Type}

/-- extend a selection to the right up to the result's token -/
def extR (s : LLSelection W) (r : α × Nat) : LLSelection W × α :=
  ({ start_idx := s.start_idx, end_idx := r.2, ll_line := s.ll_line }, r.1)

/-- extend a selection to the left up to the result's token -/
def extL (s : LLSelection W) (r : α × Nat) : LLSelection W × α :=
  ({ start_idx := r.2, end_idx := s.end_idx, ll_line := s.ll_line }, r.1)

/-- apply `f` to the values of an ok result -/
def mapOk {γ : Type} (f : α → γ) : R (List α) → R (List γ)
  | .error e => .error e
  | .ok xs => .ok (xs.map f)

theorem mapOk_ok {γ : Type} {f : α → γ} {r : R (List α)} {out : List γ} :
    mapOk f r = .ok out ↔ ∃ xs, r = .ok xs ∧ out = xs.map f := by
  cases r with
  | error e => simp [mapOk]
  | ok xs => simp [mapOk, eq_comm]

theorem matchForwards_after (s : LLSelection W) (m : XMatch W α) (i : Nat)
    (hs : s.end_idx < s.ll_line.val.ll_tokens.length) :
    s.matchForwards m = mapOk (extR s) (X.goAfter m (.fwd i) s.end_idx s.ll_line.val) := by
  unfold LLSelection.matchForwards X.goAfter Dir.after
  by_cases h : s.end_idx + 1 = s.ll_line.val.ll_tokens.length
  · simp [h, mapOk]
  · have h' : s.end_idx + 1 < s.ll_line.val.ll_tokens.length := by omega
    simp only [if_neg h, if_pos h']
    cases m.go (.fwd (s.end_idx + 1)) s.ll_line.val <;> rfl

theorem matchBackwards_after (s : LLSelection W) (m : XMatch W α) (i : Nat) :
    s.matchBackwards m = mapOk (extL s) (X.goAfter m (.bwd i) s.start_idx s.ll_line.val) := by
  unfold LLSelection.matchBackwards X.goAfter Dir.after
  by_cases h : s.start_idx = 0
  · simp [h, mapOk]
  · have h' : s.start_idx > 0 := by omega
    simp only [if_neg h, if_pos h']
    cases m.go (.bwd (s.start_idx - 1)) s.ll_line.val <;> rfl

theorem flatMap_congr' {γ δ : Type} {l : List γ} {f g : γ → List δ} (h : ∀ x ∈ l, f x = g x) :
    l.flatMap f = l.flatMap g := by
  induction l with
  | nil => rfl
  | cons x xs ih =>
    rw [List.flatMap_cons, List.flatMap_cons, h x (by simp), ih (fun y hy => h y (by simp [hy]))]

theorem sum_once (n i j : Nat) : ∀ (L : List Nat), L.Pairwise (· < ·) →
    (L.map (fun t => (if t = i then n else 0) + (if t = j then n else 0))).sum =
      (if i ∈ L then n else 0) + (if j ∈ L then n else 0) := by
  intro L
  induction L with
  | nil => simp
  | cons t ts ih =>
    intro hp
    rw [List.pairwise_cons] at hp
    have hnt : t ∉ ts := fun h => absurd (hp.1 t h) (by omega)
    rw [List.map_cons, List.sum_cons, ih hp.2]
    have aux : ∀ i : Nat, (if i ∈ t :: ts then n else 0) = (if t = i then n else 0) + (if i ∈ ts then n else 0) := by
      intro i
      by_cases h1 : t = i
      · subst h1; simp [hnt]
      · have : ¬ i = t := fun h => h1 h.symm
        simp [h1, this]
    rw [aux i, aux j]; omega

theorem flatMapR_append_iff {γ δ : Type} {f : γ → R (List δ)} {l1 l2 : List γ} {out : List δ} :
    flatMapR f (l1 ++ l2) = .ok out ↔ ∃ o1 o2, flatMapR f l1 = .ok o1 ∧ flatMapR f l2 = .ok o2 ∧ out = o1 ++ o2 := by
  rw [flatMapR_append]
  cases flatMapR f l1 with
  | error e => simp
  | ok a =>
    cases flatMapR f l2 with
    | error e => simp
    | ok b => simp [eq_comm]

theorem rangeIncl_append {a m b : Nat} (h1 : a ≤ m + 1) (h2 : m ≤ b) :
    rangeIncl a b = rangeIncl a m ++ rangeIncl (m + 1) b := by
  unfold rangeIncl
  rw [show m + 1 = a + (m + 1 - a) by omega, show a + (m + 1 - a) - a = m + 1 - a by omega, List.range'_append_1]
  congr 1; omega

theorem rangeIncl_nil {a b : Nat} (h : b < a) : rangeIncl a b = [] := by
  unfold rangeIncl; rw [show b + 1 - a = 0 by omega]; rfl

end LNlp
