import Verif.Spec.Refine
import Verif.Props.Amount
/- Helper lemmas: amounts found with more delimiters. -/
namespace LNlp
variable {W : World}

/-- the shape of an amount `s ..= e` whose last group before a fraction is token `last`, over any predicates -/
structure Shape (Num Delim Dec : Nat → Prop) (s e last : Nat) : Prop where
  even : ∃ n, last = s + 2 * n
  num : ∀ k, s + 2 * k ≤ last → Num (s + 2 * k)
  delim : ∀ k, s + 2 * k + 1 < last → Delim (s + 2 * k + 1)
  stop : ¬ (Delim (last + 1) ∧ Num (last + 2))
  tail : (e = last ∧ (Delim (last + 1) ∨ ¬ Dec (last + 1) ∨ ¬ Num (last + 2))) ∨
    (e = last + 2 ∧ ¬ Delim (last + 1) ∧ Dec (last + 1) ∧ Num (last + 2))

section
variable {Num Delim Dec : Nat → Prop}

theorem Shape.mem {s e last : Nat} (h : Shape Num Delim Dec s e last)
    (hd : ∀ p, Num p → ¬ Delim p ∧ ¬ Dec p) {p : Nat} (hp : Num p) (h1 : s ≤ p) (h2 : p ≤ e) :
    (p ≤ last ∧ ∃ k, p = s + 2 * k) ∨ (p = last + 2 ∧ e = last + 2) := by
  obtain ⟨n, hn⟩ := h.even
  by_cases hle : p ≤ last
  · left
    refine ⟨hle, (p - s) / 2, ?_⟩
    rcases Nat.mod_two_eq_zero_or_one (p - s) with hm | hm
    · omega
    · exfalso
      have hk : p = s + 2 * ((p - s) / 2) + 1 := by omega
      have := h.delim ((p - s) / 2) (by omega)
      rw [← hk] at this
      exact (hd p hp).1 this
  · right
    rcases h.tail with ⟨he, _⟩ | ⟨he, _, hdec, _⟩
    · omega
    · by_cases hp1 : p = last + 1
      · rw [hp1] at hp; exact absurd hdec (hd _ hp).2
      · omega

/-- amounts that cover all numbers and do not overlap -/
structure Family (Num Delim Dec : Nat → Prop) (out : List LRange) : Prop where
  shape : ∀ x ∈ out, ∃ last, Shape Num Delim Dec x.1 x.2 last
  apart : ∀ x ∈ out, ∀ y ∈ out, ∀ i, x.1 ≤ i → i ≤ x.2 → y.1 ≤ i → i ≤ y.2 → y = x
  all : ∀ i, Num i → ∃ x ∈ out, x.1 ≤ i ∧ i ≤ x.2
  clean : ∀ p, Num p → ¬ Delim p ∧ ¬ Dec p

/-- `p` is the fraction of an amount -/
def Frac (Num Delim Dec : Nat → Prop) (out : List LRange) (p : Nat) : Prop :=
  ∃ x ∈ out, ∃ last, Shape Num Delim Dec x.1 x.2 last ∧ x.2 = last + 2 ∧ p = last + 2

theorem Shape.num_last {s e last : Nat} (h : Shape Num Delim Dec s e last) : Num last ∧ s ≤ last := by
  obtain ⟨n, hn⟩ := h.even
  have := h.num n (by omega)
  rw [← hn] at this
  exact ⟨this, by omega⟩

theorem Shape.last_le {s e last : Nat} (h : Shape Num Delim Dec s e last) : last ≤ e := by
  rcases h.tail with ⟨he, _⟩ | ⟨he, _⟩ <;> omega

theorem Family.not_frac {out : List LRange} (F : Family Num Delim Dec out) {x : LRange} (hx : x ∈ out) {last p : Nat}
    (h : Shape Num Delim Dec x.1 x.2 last) (h1 : x.1 ≤ p) (h2 : p ≤ last) : ¬ Frac Num Delim Dec out p := by
  rintro ⟨y, hy, lasty, hsy, hey, rfl⟩
  have hl := hsy.num_last.2
  have e := F.apart x hx y hy (lasty + 2) h1 (Nat.le_trans h2 h.last_le) (by omega) (by omega)
  subst e
  have := h.last_le
  -- both shapes are of the same range; the fraction is its end
  have hle : last = y.2 := by omega
  obtain ⟨n, hn⟩ := h.even
  obtain ⟨m, hm⟩ := hsy.even
  rcases hsy.tail with ⟨he, _⟩ | ⟨_, hnd, _, _⟩
  · omega
  · have := h.delim m (by omega)
    rw [← hm] at this
    exact hnd this

/-- a number is a fraction iff a decimal point, that is no delimiter, and a number that is no fraction are before it -/
theorem Family.frac_iff {out : List LRange} (F : Family Num Delim Dec out) (p : Nat) :
    Frac Num Delim Dec out (p + 2) ↔ Num p ∧ Dec (p + 1) ∧ ¬ Delim (p + 1) ∧ Num (p + 2) ∧ ¬ Frac Num Delim Dec out p := by
  constructor
  · rintro ⟨x, hx, last, hs, he, hp⟩
    have e : last = p := by omega
    subst e
    rcases hs.tail with ⟨he', _⟩ | ⟨_, h1, h2, h3⟩
    · omega
    · exact ⟨hs.num_last.1, h2, h1, h3, F.not_frac hx hs hs.num_last.2 (Nat.le_refl _)⟩
  · rintro ⟨hn, hdec, hdel, hn2, hf⟩
    obtain ⟨x, hx, h1, h2⟩ := F.all p hn
    obtain ⟨last, hs⟩ := F.shape x hx
    rcases hs.mem F.clean hn h1 h2 with ⟨hle, k, hk⟩ | ⟨hp, he⟩
    · have e : p = last := by
        obtain ⟨n, hn'⟩ := hs.even
        by_cases h : p = last
        · exact h
        · exfalso
          have := hs.delim k (by omega)
          rw [← hk] at this
          exact hdel this
      subst e
      refine ⟨x, hx, p, hs, ?_, rfl⟩
      rcases hs.tail with ⟨_, ht⟩ | ⟨he, _⟩
      · exfalso
        rcases ht with ht | ht | ht
        · exact hdel ht
        · exact ht hdec
        · exact ht hn2
      · exact he
    · exact absurd ⟨x, hx, last, hs, he, hp⟩ hf

end

section
variable {Num Delim Delim' Dec : Nat → Prop} {out out' : List LRange} (F : Family Num Delim Dec out)
    (F' : Family Num Delim' Dec out') (sub : ∀ i, Delim i → Delim' i)
    (cases : (∀ i, Dec i → Delim' i) ∨ ∀ i, Dec i → ¬ Delim' i)
include F F' sub cases

theorem Family.frac_same (p : Nat) : Frac Num Delim' Dec out' p → Frac Num Delim Dec out p := by
  rcases cases with hc | hc
  · rintro ⟨y, hy, last, hs, he, _⟩
    rcases hs.tail with ⟨he', _⟩ | ⟨_, h1, h2, _⟩
    · omega
    · exact absurd (hc _ h2) h1
  · have : ∀ n p, p ≤ n → (Frac Num Delim' Dec out' p ↔ Frac Num Delim Dec out p) := by
      intro n
      induction n with
      | zero =>
        intro p hp
        constructor <;> rintro ⟨_, _, last, _, _, h⟩ <;> omega
      | succ n ih =>
        intro p hp
        match p with
        | 0 => constructor <;> rintro ⟨_, _, last, _, _, h⟩ <;> omega
        | 1 => constructor <;> rintro ⟨_, _, last, _, _, h⟩ <;> omega
        | p + 2 =>
          rw [F.frac_iff, F'.frac_iff, ih p (by omega)]
          exact and_congr_right fun _ => and_congr_right fun hd => and_congr_left fun _ =>
            ⟨fun _ h => hc _ hd (sub _ h), fun _ => hc _ hd⟩
    exact (this p p (Nat.le_refl _)).1

theorem Family.within (x : LRange) (hx : x ∈ out) : ∃ y ∈ out', Within x y := by
  obtain ⟨last, hs⟩ := F.shape x hx
  have hn : Num x.1 := hs.num 0 hs.num_last.2
  have hle : x.1 ≤ last := hs.num_last.2
  obtain ⟨y, hy, h1, h2⟩ := F'.all _ hn
  obtain ⟨lasty, hsy⟩ := F'.shape y hy
  refine ⟨y, hy, h1, ?_⟩
  rcases hsy.mem F'.clean hn h1 h2 with ⟨hley, k, hk⟩ | ⟨hp, he⟩
  · -- the groups of `x` are groups of `y`
    obtain ⟨n, hn'⟩ := hs.even
    obtain ⟨m, hm⟩ := hsy.even
    have step : ∀ j, j ≤ n → x.1 + 2 * j ≤ lasty := by
      intro j
      induction j with
      | zero => intro _; omega
      | succ j ih =>
        intro hj
        have hprev := ih (by omega)
        rcases Nat.lt_or_ge (x.1 + 2 * j) lasty with hlt | hge
        · omega
        · exfalso
          have e : lasty = x.1 + 2 * j := by omega
          apply hsy.stop
          rw [e]
          exact ⟨sub _ (hs.delim j (by omega)), hs.num (j + 1) (by omega)⟩
    have hll := step n (Nat.le_refl _)
    have hye := hsy.last_le
    rcases hs.tail with ⟨he, _⟩ | ⟨he, hnd, hdec, hnum⟩
    · omega
    · rcases Nat.lt_or_ge last lasty with hlt | hge
      · omega
      · have e : lasty = last := by omega
        subst e
        rcases hsy.tail with ⟨_, ht⟩ | ⟨hey, _⟩
        · exfalso
          rcases ht with ht | ht | ht
          · exact hsy.stop ⟨ht, hnum⟩
          · exact ht hdec
          · exact ht hnum
        · omega
  · exfalso
    have hf : Frac Num Delim' Dec out' x.1 := ⟨y, hy, lasty, hsy, he, hp⟩
    exact F.not_frac hx hs (Nat.le_refl _) hle (Family.frac_same F F' sub cases _ hf)

end

/-- the amounts of a line form a family -/
theorem amounts_family (r : AmountResolver) {l : LLLine W} {h : History W} (hr : Reachable l h) (ne : l.ll_tokens ≠ [])
    (ha : NumbersApart l h) (hclean : ∀ i t, NumAt l h i t → ¬ DelimAt r h i ∧ ¬ DecAt r h i) (ptr : Nat)
    (out : List (LLCursorAssignment W.Decimal)) (ho : r.go (wholeLine l ptr) = .ok out) :
    Family (fun i => ∃ t, NumAt l h i t) (DelimAt r h) (DecAt r h) (out.map (fun x => (x.start_idx, x.end_idx))) := by
  have hi := wholeLine_inside ne ptr
  obtain ⟨c1, c2, _⟩ := C66_partial r (s := wholeLine l ptr) hr hi out ho
  refine ⟨?_, ?_, ?_, fun p ⟨t, ht⟩ => hclean p t ht⟩
  · intro y hy
    obtain ⟨x, hx, rfl⟩ := List.mem_map.1 hy
    obtain ⟨gs, last, tail, hne, hl, hn, hd, hst, _, ht⟩ := C67_value r (s := wholeLine l ptr) hr hi out ho x hx
    have hlen : 0 < gs.length := List.length_pos_iff.2 hne
    refine ⟨last, ⟨gs.length - 1, by simp only; omega⟩, ?_, ?_, hst, ?_⟩
    · intro k hk
      simp only at hk
      exact ⟨_, hn k (by omega)⟩
    · intro k hk
      simp only at hk
      exact hd k (by omega)
    · simp only
      rcases ht with ⟨he, _, ht⟩ | ⟨he, _, _, _, ht⟩ | ⟨t, he, _, h1, h2, h3⟩ | ⟨he, _, _, h3⟩
      · exact .inl ⟨he, ht.imp id (fun h => .inl h.1)⟩
      · exact .inl ⟨he, .inr (.inr (fun ⟨t, h⟩ => ht t h))⟩
      · exact .inr ⟨he, h1, h2, t, h3⟩
      · exfalso
        have := hn (gs.length - 1) (by omega)
        rw [show x.start_idx + 2 * (gs.length - 1) = last by omega] at this
        exact ha _ _ _ this h3
  · intro y hy z hz i h1 h2 h3 h4
    obtain ⟨x, hx, rfl⟩ := List.mem_map.1 hy
    obtain ⟨x', hx', rfl⟩ := List.mem_map.1 hz
    rw [c2 i x hx x' hx' h1 h2 h3 h4]
  · rintro i ⟨t, ht⟩
    obtain ⟨x, hx, h1⟩ := c1 hclean i t ⟨Nat.zero_le _, by
      have := numAt_lt ht
      show i ≤ l.ll_tokens.length - 1
      omega⟩ ht
    exact ⟨_, List.mem_map.2 ⟨x, hx, rfl⟩, h1⟩

section
variable {r r' : AmountResolver} {l : LLLine W} {h : History W} (hd : ∀ i, DelimAt r h i → DelimAt r' h i)
    (hd' : ∀ i, DelimAt r' h i → DelimAt r h i) (hc : ∀ i, DecAt r h i → DecAt r' h i) (hc' : ∀ i, DecAt r' h i → DecAt r h i)
include hd

theorem groups_mono {a e : Nat} {s : Str} (hg : Groups r l h a e s) : Groups r' l h a e s := by
  induction hg with
  | one hn => exact .one hn
  | more _ h1 h2 ih => exact .more ih (hd _ h1) h2

include hd' hc hc'

theorem isAmount_congr {a b next : Nat} {str : Str} (hi : IsAmount r l h a b str next) : IsAmount r' l h a b str next := by
  obtain ⟨e, s, hg, ht, he⟩ := hi
  refine ⟨e, s, groups_mono hd hg, ht, ?_⟩
  have n1 : ∀ {i}, ¬ DelimAt r h i → ¬ DelimAt r' h i := fun hn h => hn (hd' _ h)
  have n2 : ∀ {i}, ¬ DecAt r h i → ¬ DecAt r' h i := fun hn h => hn (hc' _ h)
  cases he with
  | trailing h1 h2 => exact .trailing (hd _ h1) h2
  | fraction h1 h2 h3 => exact .fraction (n1 h1) (hc _ h2) h3
  | point h1 h2 h3 => exact .point (n1 h1) (hc _ h2) h3
  | adjacent h1 h2 h3 => exact .adjacent (n1 h1) (n2 h2) h3
  | plain h1 h2 h3 => exact .plain (n1 h1) (n2 h2) h3

theorem amounts_congr {stop start : Nat} {out : List (LLCursorAssignment W.Decimal)} (ha : Amounts r l h stop start out) :
    Amounts r' l h stop start out := by
  induction ha with
  | done hn => exact .done hn
  | next h1 h2 h3 _ ih => exact .next h1 (isAmount_congr hd hd' hc hc' h2) h3 ih

theorem amountsFail_congr {stop start : Nat} {p : Panic} (ha : AmountsFail r l h stop p start) :
    AmountsFail r' l h stop p start := by
  induction ha with
  | noAttrs h1 h2 h3 => exact .noAttrs h1 (groups_mono hd h2) h3
  | number h1 h2 h3 => exact .number h1 (isAmount_congr hd hd' hc hc' h2) h3
  | later h1 h2 h3 _ ih => exact .later h1 (isAmount_congr hd hd' hc hc' h2) h3 ih

end

end LNlp
