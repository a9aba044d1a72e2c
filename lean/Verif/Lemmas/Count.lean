import Verif.Spec.Count
import Verif.Lemmas.Match
/- Lemmas for C138: how many results an expression has. -/
namespace LNlp
variable {W : World} {T : Ty W → Prop}

theorem length_flatMap_le {α β : Type} (f : α → List β) (n : Nat) : ∀ l : List α, (∀ x ∈ l, (f x).length ≤ n) →
    (l.flatMap f).length ≤ l.length * n
  | [], _ => by simp
  | x :: xs, h => by
    have h1 := h x (by simp)
    have h2 := length_flatMap_le f n xs (fun y hy => h y (by simp [hy]))
    simp only [List.flatMap_cons, List.length_append, List.length_cons, Nat.add_mul, Nat.one_mul]
    omega

/-- the values on distinct ranges are different records -/
theorem values_on_ranges (k : Ty W) (p : LRange → Bool) : ∀ (rs : List LRange), rs.Nodup → (∀ r ∈ rs, p r = true) →
    ∀ h : History W, (rs.flatMap (fun r => valuesOf k r h)).length ≤
      ((h.filter (fun x => p x.range)).filter (fun x => decide (x.ty = k))).length := by
  intro rs hn hp h
  induction h with
  | nil =>
    have : rs.flatMap (fun r => valuesOf k r ([] : History W)) = [] := by
      rw [List.flatMap_eq_nil_iff]
      intro _ _
      rfl
    rw [this]
    exact Nat.zero_le _
  | cons x h ih =>
    have key : ∀ rs : List LRange, rs.Nodup → (rs.flatMap (fun r => valuesOf k r (x :: h))).length ≤
        (rs.flatMap (fun r => valuesOf k r h)).length + (if x.ty = k ∧ x.range ∈ rs then 1 else 0) := by
      intro rs hn
      induction rs with
      | nil => simp
      | cons r rs ihr =>
        have h2 := ihr (List.nodup_cons.1 hn).2
        have hr := (List.nodup_cons.1 hn).1
        have h1 : (valuesOf k r (x :: h)).length = (valuesOf k r h).length + (if x.ty = k ∧ x.range = r then 1 else 0) := by
          by_cases c1 : x.range = r <;> by_cases c2 : x.ty = k <;> simp [valuesOf, Rec.valAs, c1, c2]
        simp only [List.flatMap_cons, List.length_append, h1]
        by_cases c2 : x.ty = k
        · by_cases c1 : x.range = r
          · subst c1
            rw [if_neg (by rintro ⟨_, h⟩; exact hr h)] at h2
            rw [if_pos ⟨c2, rfl⟩, if_pos ⟨c2, by simp⟩]
            omega
          · rw [if_neg (by rintro ⟨_, h⟩; exact c1 h)]
            by_cases c3 : x.range ∈ rs
            · rw [if_pos ⟨c2, c3⟩] at h2
              rw [if_pos ⟨c2, by simp [c3]⟩]
              omega
            · rw [if_neg (by rintro ⟨_, h⟩; exact c3 h)] at h2
              omega
        · simp only [c2, false_and, if_false] at h2 ⊢
          omega
    refine Nat.le_trans (key rs hn) ?_
    by_cases c : x.ty = k ∧ x.range ∈ rs
    · rw [if_pos c, List.filter_cons_of_pos (p := fun x : Rec W => p x.range) (hp _ c.2), List.filter_cons_of_pos (by simpa using c.1)]
      simp only [List.length_cons]
      omega
    · rw [if_neg c, Nat.add_zero]
      refine Nat.le_trans ih ?_
      by_cases c1 : p x.range = true
      · rw [List.filter_cons_of_pos (p := fun x : Rec W => p x.range) c1]
        by_cases c2 : x.ty = k
        · rw [List.filter_cons_of_pos (by simpa using c2)]; simp
        · rw [List.filter_cons_of_neg (by simpa using c2)]; exact Nat.le_refl _
      · rw [List.filter_cons_of_neg (p := fun x : Rec W => p x.range) c1]; exact Nat.le_refl _

/-- as many results as values at most, where some values are dropped -/
theorem results_le (k : Ty W) (p : LRange → Bool) (q : Val k → Bool) {β : Type} (g : LRange → Val k → β) (h : History W) :
    (((rangesOf k h).filter p).flatMap (fun r => ((valuesOf k r h).filter q).map (g r))).length ≤
      ((h.filter (fun x => p x.range)).filter (fun x => decide (x.ty = k))).length := by
  refine Nat.le_trans ?_ (values_on_ranges k p _ ((rangesOf_nodup k h).filter _) (fun r hr => (List.mem_filter.1 hr).2) h)
  generalize (rangesOf k h).filter p = rs
  induction rs with
  | nil => simp
  | cons r rs ih =>
    have : ((valuesOf k r h).filter q).length ≤ (valuesOf k r h).length := List.length_filter_le ..
    simp only [List.flatMap_cons, List.length_append, List.length_map]
    omega

theorem weighs_length {n : Nat} {Out : Type} {m : XMatch W Out} (hm : Weighs T n m) {l : LLLine W} {h : History W}
    (rep : Rep l h) {c : Nat} (hc : 1 ≤ c) (hs : Sparse T c h) :
    ∀ d out, m.go d l = .ok out → out.length ≤ c ^ n := by
  have up : ∀ {a b : Nat}, a ≤ b → c ^ a ≤ c ^ b := fun h => Nat.pow_le_pow_right hc h
  have prod : ∀ {x y a b : Nat}, x ≤ c ^ a → y ≤ c ^ b → x * y ≤ c ^ (a + b) := by
    intro x y a b h1 h2
    rw [Nat.pow_add]
    exact Nat.mul_le_mul h1 h2
  have all2_len : ∀ {n₁ n₂ : Nat} {α β : Type} {a : XMatch W α} {b : XMatch W β},
      (∀ d out, a.go d l = .ok out → out.length ≤ c ^ n₁) → (∀ d out, b.go d l = .ok out → out.length ≤ c ^ n₂) →
      ∀ d out, (X.all2 a b).go d l = .ok out → out.length ≤ c ^ (n₁ + n₂) := by
    intro n₁ n₂ α β a b iha ihb d out hg
    obtain ⟨as, bs, ha, hb, rfl⟩ := all2_ok_iff.1 hg
    exact Nat.le_trans (length_flatMap_le _ bs.length _ (fun x _ => List.length_filterMap_le ..))
      (prod (iha d as ha) (ihb d bs hb))
  have seq2_len : ∀ {n₁ n₂ : Nat} {α β : Type} {a : XMatch W α} {b : XMatch W β},
      (∀ d out, a.go d l = .ok out → out.length ≤ c ^ n₁) → (∀ d out, b.go d l = .ok out → out.length ≤ c ^ n₂) →
      ∀ d out, (X.seq2 a b).go d l = .ok out → out.length ≤ c ^ (n₁ + n₂) := by
    intro n₁ n₂ α β a b iha ihb d out hg
    obtain ⟨as, ha, hok, rfl⟩ := seq2_ok_iff.1 hg
    refine Nat.le_trans (length_flatMap_le _ (c ^ n₂) _ (fun x hx => ?_)) (prod (iha d as ha) (Nat.le_refl _))
    obtain ⟨bs, hb⟩ := hok x hx
    rw [List.length_map, hb]
    change bs.length ≤ _
    unfold X.goAfter at hb
    split at hb
    · exact ihb _ bs hb
    · cases hb; exact Nat.zero_le _
  have anyOf2_len : ∀ {n₁ n₂ : Nat} {α β : Type} {a : XMatch W α} {b : XMatch W β},
      (∀ d out, a.go d l = .ok out → out.length ≤ c ^ n₁) → (∀ d out, b.go d l = .ok out → out.length ≤ c ^ n₂) →
      ∀ d out, (X.anyOf2 a b).go d l = .ok out → out.length ≤ c ^ (max n₁ n₂) := by
    intro n₁ n₂ α β a b iha ihb d out hg
    obtain ⟨as, ha, ⟨_, rfl⟩ | ⟨_, bs, hb, rfl⟩⟩ := anyOf2_ok_iff.1 hg
    · rw [List.length_map]; exact Nat.le_trans (iha d as ha) (up (Nat.le_max_left ..))
    · rw [List.length_map]; exact Nat.le_trans (ihb d bs hb) (up (Nat.le_max_right ..))
  induction hm with
  | attr k t =>
    intro d out hg
    change d.attr k l = .ok out at hg
    rw [Nat.pow_one]
    have e : ∀ (g : LRange → Nat) (r : LRange), (valuesOf k r h).map (fun v => (v, g r)) =
        ((valuesOf k r h).filter (fun _ => true)).map (fun v => (v, g r)) := by
      intro g r
      rw [List.filter_eq_self.2 (fun _ _ => rfl)]
    cases d with
    | fwd i =>
      by_cases hi : i < l.ll_tokens.length
      · rw [rep_attr_fwd rep k hi] at hg
        cases hg
        simp only [e (fun r => r.2)]
        exact Nat.le_trans (results_le k (fun r => decide (r.1 = i)) (fun _ => true) (fun r v => (v, r.2)) h) (hs k t i).1
      · rw [(rep_attr_oob rep k hi).1] at hg; cases hg
    | bwd i =>
      by_cases hi : i < l.ll_tokens.length
      · rw [rep_attr_bwd rep k hi] at hg
        cases hg
        simp only [e (fun r => r.1)]
        exact Nat.le_trans (results_le k (fun r => decide (r.2 = i)) (fun _ => true) (fun r v => (v, r.1)) h) (hs k t i).2
      · rw [(rep_attr_oob rep k hi).2] at hg; cases hg
  | attrEq k t v =>
    intro d out hg
    change d.attrEq k v l = .ok out at hg
    rw [Nat.pow_one]
    cases d with
    | fwd i =>
      by_cases hi : i < l.ll_tokens.length
      · rw [rep_attrEq_fwd rep k v hi] at hg
        cases hg
        exact Nat.le_trans (results_le k (fun r => decide (r.1 = i)) _ (fun r _ => ((), r.2)) h) (hs k t i).1
      · rw [(rep_attrEq_oob rep k v hi).1] at hg; cases hg
    | bwd i =>
      by_cases hi : i < l.ll_tokens.length
      · rw [rep_attrEq_bwd rep k v hi] at hg
        cases hg
        exact Nat.le_trans (results_le k (fun r => decide (r.2 = i)) _ (fun r _ => ((), r.1)) h) (hs k t i).2
      · rw [(rep_attrEq_oob rep k v hi).2] at hg; cases hg
  | tokenHasAny k t set =>
    intro d out hg
    change d.tokenAttrOneOf k set l = .ok out at hg
    rw [Nat.pow_one]
    cases d with
    | fwd i =>
      rw [rep_oneOf_fwd rep] at hg
      split at hg
      · cases hg
        have h1 := values_on_ranges k (fun r => decide (r.1 = i)) [(i, i)] (by simp) (by simp) h
        have h2 := (hs k t i).1
        have h3 : ((valuesOf k (i, i) h).filter (fun x => setContains k set x)).length ≤ (valuesOf k (i, i) h).length :=
          List.length_filter_le ..
        simp only [List.flatMap_cons, List.flatMap_nil, List.append_nil] at h1
        rw [List.length_map]
        exact Nat.le_trans h3 (Nat.le_trans h1 h2)
      · cases hg
    | bwd i =>
      by_cases hi : i < l.ll_tokens.length
      · rw [rep_oneOf_bwd rep k set hi] at hg
        cases hg
        exact Nat.le_trans (results_le k (fun r => decide (r.2 = i)) _ (fun r v => (v, r.1)) h) (hs k t i).2
      · rw [rep_oneOf_bwd_oob rep k set hi] at hg; cases hg
  | tokenText =>
    intro d out hg
    rw [Nat.pow_zero]
    simp only [X.tokenText] at hg
    split at hg
    · cases hg
    · next o _ =>
      cases hg
      cases o <;> simp
  | all2 _ _ iha ihb => exact all2_len iha ihb
  | all3 _ _ _ iha ihb ihc =>
    intro d out hg
    rw [all3_ok_eq] at hg
    exact all2_len iha (all2_len ihb ihc) d out hg
  | anyOf2 _ _ iha ihb => exact anyOf2_len iha ihb
  | @anyOf3 _ _ _ _ _ _ a b c' _ _ _ iha ihb ihc =>
    intro d out hg
    rw [anyOf3_eq] at hg
    cases hq : (X.anyOf2 a (X.anyOf2 b c')).go d l with
    | error e => rw [hq] at hg; cases hg
    | ok out' =>
      rw [hq] at hg
      cases hg
      rw [List.length_map]
      exact anyOf2_len iha (anyOf2_len ihb ihc) d out' hq
  | seq2 _ _ iha ihb => exact seq2_len iha ihb
  | seq3 _ _ _ iha ihb ihc =>
    intro d out hg
    rw [seq3_eq] at hg
    exact seq2_len iha (seq2_len ihb ihc) d out hg

/-- one value of a type per token of a fresh line -/
theorem builtin_sparse (k : Ty W) (i : Nat) (p : Rec W → Bool) (hp : ∀ x, p x = true → x.range = (i, i) → x.ty = k)
    (hr : ∀ x, p x = true → x.range.1 = i ∨ x.range.2 = i) :
    ∀ (toks : List LToken) (n : Nat),
      ((toks.zipIdx n).flatMap (fun q => builtinOf W q.1 q.2)).countP p ≤ if n ≤ i then 1 else 0
  | [], n => by simp
  | t :: ts, n => by
    have ih := builtin_sparse k i p hp hr ts (n + 1)
    have one : (builtinOf W t n).countP p ≤ if n = i then 1 else 0 := by
      by_cases c : n = i
      · rw [if_pos c]
        subst c
        unfold builtinOf
        split
        · rename_i ch tag
          simp only [List.countP_cons, List.countP_nil]
          by_cases c1 : p ⟨.char, (n, n), ch⟩ = true
          · by_cases c2 : p ⟨.textTag, (n, n), tag⟩ = true
            · have h1 := hp _ c1 rfl
              have h2 := hp _ c2 rfl
              rw [← h1] at h2
              cases h2
            · simp [c2]; split <;> omega
          · simp [c1]; split <;> omega
        · simp only [List.countP_cons, List.countP_nil]; split <;> omega
        · simp
      · rw [if_neg c, Nat.le_zero, List.countP_eq_zero]
        intro x hx hpx
        have h1 := builtinOf_range t n x hx
        rcases hr x hpx with h2 | h2 <;> rw [h1] at h2 <;> exact c h2
    rw [List.zipIdx_cons, List.flatMap_cons, List.countP_append]
    simp only
    by_cases c : n = i
    · rw [if_pos c] at one
      rw [if_neg (by omega)] at ih
      rw [if_pos (by omega)]
      omega
    · rw [if_neg c] at one
      split
      · rw [if_pos (by omega)] at ih; omega
      · rw [if_neg (by omega)] at ih; omega

end LNlp
