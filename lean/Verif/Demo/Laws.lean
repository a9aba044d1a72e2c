import Verif.Demo.World
import Verif.Spec.Laws
import Verif.Lemmas.Tokens
/- The demo world satisfies all laws used as hypotheses, so those hypotheses are consistent. -/
namespace LNlp.Demo
open LNlp

theorem splitGo_concat : ∀ (rest : Str) (p2 : Option Char) (p : Char) (cur : Str),
    (splitGo p2 p cur rest).flatten = cur ++ rest
  | [], _, _, _ => by simp [splitGo]
  | c :: rest, p2, p, cur => by
    simp only [splitGo]
    split
    · rw [splitGo_concat rest]; simp
    · simp [splitGo_concat rest]

theorem splitGo_nonempty : ∀ (rest : Str) (p2 : Option Char) (p : Char) (cur : Str), cur ≠ [] →
    ∀ w ∈ splitGo p2 p cur rest, w ≠ []
  | [], _, _, cur, h => by simp [splitGo, h]
  | c :: rest, p2, p, cur, h => by
    simp only [splitGo]
    split
    · exact splitGo_nonempty rest _ _ _ (by simp)
    · intro w hw
      rcases List.mem_cons.1 hw with rfl | hw
      · exact h
      · exact splitGo_nonempty rest _ _ _ (by simp) w hw

theorem splitLaws : SplitLaws W where
  concat := by
    intro s
    cases s with
    | nil => rfl
    | cons c rest => exact splitGo_concat rest none c [c]
  nonempty := by
    intro s
    cases s with
    | nil => intro w hw; simp [W, splitWords] at hw
    | cons c rest => exact splitGo_nonempty rest none c [c] (by simp)

theorem digit_toNat {c : Char} : IsDigit c ↔ 48 ≤ c.toNat ∧ c.toNat ≤ 57 := by
  rw [← isAsciiDigit_iff]; simp [isAsciiDigit]

theorem asciiLaws : AsciiLaws W where
  digit_not_alpha := by
    intro c h
    rw [digit_toNat] at h
    simp [W, isLatinLetter]
    omega
  punct_not_alpha := by
    intro c h
    rcases h with h | h | h | h | h | h | h | h <;> subst h <;> rfl
  punct_not_space := by
    intro c h
    rcases h with h | h | h | h | h | h | h | h <;> subst h <;> rfl
  alpha_not_space := by
    intro c h
    simp [W, isLatinLetter] at h
    simp [W, isSpaceChar]
    omega

theorem wbClass_digit {c : Char} (h : IsDigit c) : wbClass c = .Numeric := by
  have h' := digit_toNat.1 h
  unfold wbClass
  rw [if_neg (by omega), if_neg (by omega), if_neg (by omega), if_neg (by
    simp [isLatinLetter]; omega), if_pos (by simp [isAsciiDigit]; omega)]

theorem splitGo_break : ∀ (rest : Str) (p2 : Option Char) (p : Char) (cur : Str),
    cur.getLast? = some p →
    ∀ pre post w1 w2 c d, splitGo p2 p cur rest = pre ++ w1 :: w2 :: post →
      w1.getLast? = some c → w2.head? = some d → ¬ (IsDigit c ∧ IsDigit d)
  | [], p2, p, cur, hl, pre, post, w1, w2, c, d, h, _, _ => by
    simp only [splitGo] at h
    have := congrArg List.length h
    simp at this; omega
  | x :: rest, p2, p, cur, hl, pre, post, w1, w2, c, d, h, h1, h2 => by
    simp only [splitGo] at h
    split at h
    · exact splitGo_break rest _ _ _ (by simp) pre post w1 w2 c d h h1 h2
    · next hj =>
      cases pre with
      | nil =>
        simp only [List.nil_append, List.cons.injEq] at h
        obtain ⟨rfl, h⟩ := h
        have hp : c = p := by rw [hl] at h1; exact (Option.some.inj h1).symm
        have hx : d = x := by
          have : ∀ (rest : Str) (q2 : Option Char) (q : Char) (cur : Str) (y : Char), cur.head? = some y →
              ∀ w ws, splitGo q2 q cur rest = w :: ws → w.head? = some y := by
            intro rest
            induction rest with
            | nil => intro q2 q cur y hc w ws he; simp [splitGo] at he; rw [← he.1]; exact hc
            | cons z zs ih =>
              intro q2 q cur y hc w ws he
              simp only [splitGo] at he
              split at he
              · refine ih _ _ _ y ?_ w ws he
                cases cur with
                | nil => simp at hc
                | cons _ _ => simpa using hc
              · simp at he; rw [← he.1]; exact hc
          have := this rest (some p) x [x] x rfl w2 post h
          rw [h2] at this; exact (Option.some.inj this)
        subst hp; subst hx
        rintro ⟨hc, hd⟩
        apply hj
        simp [joins, wbClass_digit hc, wbClass_digit hd]
      | cons y ys =>
        simp only [List.cons_append, List.cons.injEq] at h
        exact splitGo_break rest _ _ _ (by simp) ys post w1 w2 c d h.2 h1 h2

theorem noDigitBreak : NoDigitBreak W := by
  intro s pre post w1 w2 c d h h1 h2
  cases s with
  | nil => simp [W, splitWords] at h
  | cons x rest => exact splitGo_break rest none x [x] (by simp) pre post w1 w2 c d h h1 h2

end LNlp.Demo
