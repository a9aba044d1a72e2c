import Verif.Spec.History
/- Helper lemmas about the eager-iteration functions, `HMap`, lists. -/
namespace LNlp
variable {W : World}

@[simp] theorem flatMapR_nil {α β} (f : α → R (List β)) : flatMapR f [] = .ok [] := rfl

theorem flatMapR_ok {α β} (f : α → R (List β)) (g : α → List β) :
    ∀ (l : List α), (∀ x ∈ l, f x = .ok (g x)) → flatMapR f l = .ok (l.flatMap g)
  | [], _ => rfl
  | x :: xs, h => by
    have h1 := h x (by simp)
    have h2 := flatMapR_ok f g xs (fun y hy => h y (by simp [hy]))
    simp [flatMapR, h1, h2]

theorem flatMapR_append {α β} (f : α → R (List β)) (l1 l2 : List α) :
    flatMapR f (l1 ++ l2) = (match flatMapR f l1 with
      | .error e => .error e
      | .ok a => match flatMapR f l2 with
        | .error e => .error e
        | .ok b => .ok (a ++ b)) := by
  induction l1 with
  | nil => simp [flatMapR]; cases flatMapR f l2 <;> rfl
  | cons x xs ih =>
    simp only [List.cons_append, flatMapR, ih]
    cases f x with
    | error e => rfl
    | ok a =>
      cases flatMapR f xs with
      | error e => rfl
      | ok b => cases flatMapR f l2 <;> simp

/-- inversion: a successful `flatMapR` evaluated `f` successfully everywhere -/
theorem flatMapR_inv {α β} {f : α → R (List β)} : ∀ {l : List α} {out : List β},
    flatMapR f l = .ok out → ∃ g : α → List β, (∀ x ∈ l, f x = .ok (g x)) ∧ out = l.flatMap g := by
  intro l out h
  have key : (∀ x ∈ l, ∃ ys, f x = .ok ys) := by
    induction l generalizing out with
    | nil => simp
    | cons x xs ih =>
      simp only [flatMapR] at h
      cases hx : f x with
      | error e => simp [hx] at h
      | ok ys =>
        cases hxs : flatMapR f xs with
        | error e => simp [hx, hxs] at h
        | ok zs =>
          intro y hy
          rcases List.mem_cons.1 hy with rfl | hy
          · exact ⟨ys, hx⟩
          · exact ih hxs y hy
  let g : α → List β := fun x => match f x with | .ok ys => ys | .error _ => []
  have hg : ∀ x ∈ l, f x = .ok (g x) := by
    intro x hx
    obtain ⟨ys, hy⟩ := key x hx
    simp [g, hy]
  refine ⟨g, hg, ?_⟩
  have := flatMapR_ok f g l hg
  rw [this] at h
  exact (Except.ok.inj h).symm

theorem flatMapR_error_iff {α β} {f : α → R (List β)} {l : List α} :
    (∃ e, flatMapR f l = .error e) ↔ ∃ x ∈ l, ∃ e, f x = .error e := by
  constructor
  · rintro ⟨e, h⟩
    induction l generalizing e with
    | nil => simp [flatMapR] at h
    | cons x xs ih =>
      cases hx : f x with
      | error e' => exact ⟨x, by simp, e', hx⟩
      | ok ys =>
        cases hxs : flatMapR f xs with
        | error e' => obtain ⟨y, hy, e'', h''⟩ := ih e' hxs; exact ⟨y, by simp [hy], e'', h''⟩
        | ok zs => simp [flatMapR, hx, hxs] at h
  · rintro ⟨x, hx, e, he⟩
    cases h : flatMapR f l with
    | error e' => exact ⟨e', rfl⟩
    | ok out =>
      obtain ⟨g, hg, _⟩ := flatMapR_inv h
      rw [hg x hx] at he; cases he

theorem mapR_ok {α β} (f : α → R β) (g : α → β) :
    ∀ (l : List α), (∀ x ∈ l, f x = .ok (g x)) → mapR f l = .ok (l.map g)
  | [], _ => rfl
  | x :: xs, h => by
    have h1 := h x (by simp)
    have h2 := mapR_ok f g xs (fun y hy => h y (by simp [hy]))
    simp [mapR, h1, h2]

theorem mapR_error_iff {α β} {f : α → R β} {l : List α} :
    (∃ e, mapR f l = .error e) ↔ ∃ x ∈ l, ∃ e, f x = .error e := by
  induction l with
  | nil => simp [mapR]
  | cons x xs ih =>
    simp only [mapR, List.mem_cons, exists_eq_or_imp]
    cases hx : f x with
    | error e => simp
    | ok y =>
      cases hxs : mapR f xs with
      | error e =>
        simp only [hxs] at ih
        simp only [Except.error.injEq, exists_eq', reduceCtorEq, exists_false, false_or, true_iff]
        exact ih.1 ⟨e, rfl⟩
      | ok ys =>
        simp only [hxs] at ih
        simp only [reduceCtorEq, exists_false, false_or, false_iff]
        intro h
        obtain ⟨e, he⟩ := ih.2 h
        cases he

theorem foldR_append {σ α} (f : σ → α → R σ) (l1 l2 : List α) (s : σ) :
    foldR f s (l1 ++ l2) = (match foldR f s l1 with
      | .error e => .error e
      | .ok s' => foldR f s' l2) := by
  induction l1 generalizing s with
  | nil => rfl
  | cons x xs ih =>
    simp only [List.cons_append, foldR]
    cases f s x with
    | error e => rfl
    | ok s' => exact ih s'

/-- invariant rule for `foldR`: `P` relates the processed prefix and the state -/
theorem foldR_inv {σ α} {f : σ → α → R σ} (P : List α → σ → Prop) {s : σ} {l : List α} {s' : σ}
    (h0 : P [] s) (hstep : ∀ pre x s1 s2, (∃ suf, l = pre ++ x :: suf) → P pre s1 → f s1 x = .ok s2 →
      P (pre ++ [x]) s2)
    (h : foldR f s l = .ok s') : P l s' := by
  have key : ∀ (suf pre : List α) (s1 : σ), l = pre ++ suf → P pre s1 → foldR f s1 suf = .ok s' →
      P l s' := by
    intro suf
    induction suf with
    | nil => intro pre s1 hl hp hf; simp [foldR] at hf; subst hf; simpa [hl] using hp
    | cons x xs ih =>
      intro pre s1 hl hp hf
      simp only [foldR] at hf
      cases hx : f s1 x with
      | error e => simp [hx] at hf
      | ok s2 =>
        simp only [hx] at hf
        exact ih (pre ++ [x]) s2 (by simp [hl]) (hstep pre x s1 s2 ⟨xs, hl⟩ hp hx) hf
  exact key l [] s rfl h0 h

@[simp] theorem HMap.get?_set {K V} [DecidableEq K] (m : HMap K V) (k k' : K) (v : V) :
    (m.set k v).get? k' = if k' = k then some v else m.get? k' := rfl

@[simp] theorem HMap.get?_empty {K V} (k : K) : (HMap.empty : HMap K V).get? k = none := rfl

theorem mem_rangeIncl {a b i : Nat} : i ∈ rangeIncl a b ↔ a ≤ i ∧ i ≤ b := by
  simp [rangeIncl, List.mem_range'_1]; omega

theorem rangeIncl_pairwise (a b : Nat) : (rangeIncl a b).Pairwise (· < ·) :=
  List.pairwise_lt_range'

/-! ### firsts -/

theorem mem_firsts {α} [DecidableEq α] {x : α} : ∀ {l : List α}, x ∈ firsts l ↔ x ∈ l
  | [] => by simp [firsts]
  | y :: ys => by
    simp only [firsts, List.mem_cons, List.mem_filter, mem_firsts (l := ys), decide_eq_true_eq]
    by_cases h : x = y <;> simp [h]

theorem firsts_append_singleton {α} [DecidableEq α] (x : α) : ∀ (l : List α),
    firsts (l ++ [x]) = if x ∈ l then firsts l else firsts l ++ [x]
  | [] => by simp [firsts]
  | y :: ys => by
    have ih := firsts_append_singleton x ys
    simp only [List.cons_append, firsts, ih, List.mem_cons]
    by_cases hxy : x = y
    · subst hxy
      by_cases hm : x ∈ ys <;> simp [hm, List.filter_append]
    · by_cases hm : x ∈ ys <;> simp [hm, hxy, List.filter_append]

theorem nodup_firsts {α} [DecidableEq α] : ∀ (l : List α), (firsts l).Nodup
  | [] => by simp [firsts]
  | x :: xs => by
    simp only [firsts, List.nodup_cons, List.mem_filter, decide_eq_true_eq]
    exact ⟨by simp, (nodup_firsts xs).filter _⟩

theorem firsts_filter {α} [DecidableEq α] (p : α → Bool) : ∀ (l : List α),
    (firsts l).filter p = firsts (l.filter p)
  | [] => by simp [firsts]
  | x :: xs => by
    have ih := firsts_filter p xs
    simp only [firsts, List.filter_cons]
    by_cases hp : p x
    · simp only [hp, if_true, firsts, List.cons.injEq, true_and]
      rw [← ih, List.filter_filter, List.filter_filter]
      congr 1; funext y; exact Bool.and_comm _ _
    · simp only [hp, Bool.false_eq_true, if_false]
      rw [← ih, List.filter_filter]
      apply List.filter_congr
      intro y _
      by_cases hy : y = x
      · subst hy; simp [hp]
      · simp [hy]

theorem firsts_prefix {α} [DecidableEq α] (l1 l2 : List α) : firsts l1 <+: firsts (l1 ++ l2) := by
  induction l2 generalizing l1 with
  | nil => simp
  | cons x xs ih =>
    have h1 : firsts l1 <+: firsts (l1 ++ [x]) := by
      rw [firsts_append_singleton]; split
      · exact List.prefix_refl _
      · exact List.prefix_append _ _
    have h2 := ih (l1 ++ [x])
    rw [List.append_assoc] at h2
    exact h1.trans h2

end LNlp
