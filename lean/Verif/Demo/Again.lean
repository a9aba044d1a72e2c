import Verif.Demo.Laws
import Verif.Spec.Again
/- The demo world satisfies the laws about splitting words again. -/
namespace LNlp.Demo
open LNlp

/-- two cuts of a text into non-empty words with the same length of text before the cut are the same -/
theorem flatten_prefix : ∀ (a b c d : List Str), a ++ c = b ++ d → a.flatten = b.flatten →
    (∀ w ∈ a, w ≠ []) → (∀ w ∈ b, w ≠ []) → a = b
  | [], [], _, _, _, _, _, _ => rfl
  | [], w :: b, _, _, _, hf, _, hb => by
    simp only [List.flatten_nil, List.flatten_cons] at hf
    exact absurd (List.append_eq_nil_iff.1 hf.symm).1 (hb w (by simp))
  | w :: a, [], _, _, _, hf, ha, _ => by
    simp only [List.flatten_nil, List.flatten_cons] at hf
    exact absurd (List.append_eq_nil_iff.1 hf).1 (ha w (by simp))
  | w :: a, w' :: b, c, d, h, hf, ha, hb => by
    simp only [List.cons_append, List.cons.injEq] at h
    obtain ⟨rfl, h⟩ := h
    simp only [List.flatten_cons] at hf
    rw [flatten_prefix a b c d h (List.append_cancel_left hf) (fun x hx => ha x (by simp [hx]))
      (fun x hx => hb x (by simp [hx]))]

/-- `joins` on classes -/
def joinsC (P2 : Option WB) (P C : WB) (N : Option WB) : Bool :=
  match P, C with
  | .CR, .LF => true
  | .WSegSpace, .WSegSpace => true
  | .ALetter, .ALetter => true
  | .Numeric, .Numeric => true
  | .ALetter, .Numeric => true
  | .Numeric, .ALetter => true
  | .ALetter, .ExtendNumLet => true
  | .Numeric, .ExtendNumLet => true
  | .ExtendNumLet, .ExtendNumLet => true
  | .ExtendNumLet, .ALetter => true
  | .ExtendNumLet, .Numeric => true
  | .ALetter, m => (isMidNumLetQ m || m == .MidLetter) && N == some .ALetter
  | m, .ALetter => (isMidNumLetQ m || m == .MidLetter) && P2 == some .ALetter
  | .Numeric, m => (isMidNumLetQ m || m == .MidNum) && N == some .Numeric
  | m, .Numeric => (isMidNumLetQ m || m == .MidNum) && P2 == some .Numeric
  | _, _ => false

theorem joins_eq (p2 : Option Char) (p c : Char) (n : Option Char) :
    joins p2 p c n = joinsC (p2.map wbClass) (wbClass p) (wbClass c) (n.map wbClass) := by
  unfold joins joinsC
  rfl

/-- a join that needs the next character also joins the next character -/
theorem joinsC_next (P2 : Option WB) (P C N : WB) (M : Option WB) (h : joinsC P2 P C (some N) = true)
    (h' : joinsC (some P) C N M = false) : joinsC P2 P C none = true := by
  cases P <;> cases C <;> first
    | rfl
    | exact h
    | (cases N <;> simp [joinsC, isMidNumLetQ] at h h')

/-- a join that needs the character before the previous one is inside one word with it -/
theorem joinsC_prev (P2 : Option WB) (P C D : WB) (N : Option WB) (h : joinsC P2 P C (some D) = false)
    (h' : joinsC (some P) C D N = true) : joinsC none C D N = true := by
  cases C <;> cases D <;> first
    | rfl
    | exact h'
    | (cases P <;> simp [joinsC, isMidNumLetQ] at h h')

/-- no boundary inside `p :: s`, when `p2` comes before -/
def Joined : Option Char → Char → Str → Prop
  | _, _, [] => True
  | p2, p, c :: rest => joins p2 p c rest.head? = true ∧ Joined (some p) c rest

theorem splitGo_joined : ∀ (rest : Str) (p2 : Option Char) (p : Char) (cur : Str), Joined p2 p rest →
    splitGo p2 p cur rest = [cur ++ rest]
  | [], _, _, _, _ => by simp [splitGo]
  | c :: rest, p2, p, cur, h => by
    simp only [splitGo, h.1, if_true]
    rw [splitGo_joined rest _ _ _ h.2]
    simp

theorem splitWords_joined {c : Char} {rest : Str} (h : Joined none c rest) : splitWords (c :: rest) = [c :: rest] := by
  simp [splitWords, splitGo_joined rest none c [c] h]

/-- shape of the result: the current word and the words after it; all are without inner boundary -/
theorem splitGo_shape : ∀ (rest : Str) (p2 : Option Char) (p : Char) (cur : Str),
    ∃ t ws, splitGo p2 p cur rest = (cur ++ t) :: ws ∧ Joined p2 p t ∧
      (t = [] ∨ t.head? = rest.head?) ∧
      (t = [] → ∀ c, rest.head? = some c → joins p2 p c (rest.tail).head? = false) ∧
      ∀ w ∈ ws, splitWords w = [w]
  | [], p2, p, cur => ⟨[], [], by simp [splitGo], trivial, .inl rfl, by simp, by simp⟩
  | c :: rest, p2, p, cur => by
    simp only [splitGo]
    obtain ⟨t, ws, e, hj, hh, hn, hw⟩ := splitGo_shape rest (some p) c (if joins p2 p c rest.head? then cur ++ [c] else [c])
    split
    · next hjo =>
      rw [if_pos hjo] at e
      refine ⟨c :: t, ws, by rw [e]; simp, ⟨?_, hj⟩, .inr rfl, by simp, hw⟩
      cases t with
      | cons x xs =>
        rcases hh with hh | hh
        · cases hh
        · rw [hh]; exact hjo
      | nil =>
        cases hr : rest.head? with
        | none => rw [hr] at hjo; exact hjo
        | some n =>
          have hn' := hn rfl n hr
          rw [joins_eq] at hn'
          rw [hr, joins_eq] at hjo
          rw [List.head?_nil, joins_eq]
          exact joinsC_next _ _ _ _ _ hjo hn'
    · next hjo =>
      rw [if_neg hjo] at e
      refine ⟨[], splitGo (some p) c [c] rest, by simp, trivial, .inl rfl, ?_, ?_⟩
      · intro _ d hd
        simp only [List.head?_cons, Option.some.injEq] at hd
        subst hd
        simpa using hjo
      · rw [e]
        intro w hw'
        rcases List.mem_cons.1 hw' with rfl | hw'
        · refine splitWords_joined ?_
          cases t with
          | nil => trivial
          | cons x xs =>
            refine ⟨?_, hj.2⟩
            have h1 := hj.1
            rcases hh with hh | hh
            · cases hh
            · rw [List.head?_cons] at hh
              have hjo' : joins p2 p c rest.head? = false := by simpa using hjo
              rw [← hh, joins_eq] at hjo'
              rw [joins_eq] at h1 ⊢
              exact joinsC_prev _ _ _ _ _ hjo' h1
        · exact hw w hw'

/-- a join without next character is a join with any next character -/
theorem joinsC_more (P2 : Option WB) (P C : WB) (N : Option WB) (h : joinsC P2 P C none = true) :
    joinsC P2 P C N = true := by
  cases P <;> cases C <;> first
    | rfl
    | exact h
    | simp [joinsC, isMidNumLetQ] at h

/-- a join at the start of a text is a join behind any character -/
theorem joinsC_behind (P2 : Option WB) (P C : WB) (N : Option WB) (h : joinsC none P C N = true) :
    joinsC P2 P C N = true := by
  cases P <;> cases C <;> first
    | rfl
    | exact h
    | simp [joinsC, isMidNumLetQ] at h

/-- there is a boundary between `u` and `c :: v`, when `p2, p` come before -/
def Bd : Option Char → Char → Str → Char → Str → Prop
  | p2, p, [], c, v => joins p2 p c v.head? = false
  | _, p, x :: u, c, v => Bd (some p) x u c v

theorem splitGo_behind {p2 : Option Char} {p c : Char} {v : Str} (h : joins p2 p c v.head? = false) (cur : Str) :
    splitGo (some p) c cur v = splitGo none c cur v := by
  cases v with
  | nil => rfl
  | cons d v =>
    simp only [splitGo]
    have : joins (some p) c d v.head? = joins none c d v.head? := by
      rw [joins_eq, List.head?_cons] at h
      rw [joins_eq, joins_eq, Bool.eq_iff_iff]
      exact ⟨fun h' => joinsC_prev _ _ _ _ _ h h', fun h' => joinsC_behind _ _ _ _ h'⟩
    rw [this]

theorem splitGo_cut : ∀ (u : Str) (p2 : Option Char) (p : Char) (cur : Str) (c : Char) (v : Str), Bd p2 p u c v →
    splitGo p2 p cur (u ++ c :: v) = splitGo p2 p cur u ++ splitWords (c :: v)
  | [], p2, p, cur, c, v, h => by
    have h' : joins p2 p c v.head? = false := h
    simp only [List.nil_append, splitGo, h', Bool.false_eq_true, if_false, splitWords, splitGo_behind h']
    rfl
  | x :: u, p2, p, cur, c, v, h => by
    have hj : joins p2 p x (u ++ c :: v).head? = joins p2 p x u.head? := by
      cases u with
      | cons y ys => rfl
      | nil =>
        have h' : joins (some p) x c v.head? = false := h
        rw [joins_eq] at h'
        simp only [List.nil_append, List.head?_cons, List.head?_nil]
        rw [joins_eq, joins_eq, Bool.eq_iff_iff]
        exact ⟨fun h2 => joinsC_next _ _ _ _ _ h2 h', fun h2 => joinsC_more _ _ _ _ h2⟩
    have h' : Bd (some p) x u c v := h
    simp only [List.cons_append, splitGo, hj]
    split
    · exact splitGo_cut u _ _ _ c v h'
    · rw [splitGo_cut u _ _ _ c v h']
      rfl

theorem splitGo_bd : ∀ (rest : Str) (p2 : Option Char) (p : Char) (cur : Str) (a b : List Str),
    splitGo p2 p cur rest = a ++ b → a ≠ [] → b ≠ [] →
    ∃ u c v, rest = u ++ c :: v ∧ cur ++ u = a.flatten ∧ Bd p2 p u c v
  | [], p2, p, cur, a, b, h, ha, hb => by
    simp only [splitGo] at h
    have := congrArg List.length h
    simp only [List.length_cons, List.length_nil, List.length_append] at this
    have h1 := List.length_pos_iff.2 ha
    have h2 := List.length_pos_iff.2 hb
    omega
  | c :: rest, p2, p, cur, a, b, h, ha, hb => by
    simp only [splitGo] at h
    split at h
    · obtain ⟨u, d, v, h1, h2, h3⟩ := splitGo_bd rest _ _ _ a b h ha hb
      exact ⟨c :: u, d, v, by rw [h1]; rfl, by rw [← h2]; simp, h3⟩
    · next hj =>
      cases a with
      | nil => exact absurd rfl ha
      | cons w a =>
        simp only [List.cons_append, List.cons.injEq] at h
        obtain ⟨rfl, h⟩ := h
        cases a with
        | nil => exact ⟨[], c, rest, rfl, by simp, by simpa [Bd] using hj⟩
        | cons w' a =>
          obtain ⟨u, d, v, h1, h2, h3⟩ := splitGo_bd rest _ _ _ (w' :: a) b h (by simp) hb
          exact ⟨c :: u, d, v, by rw [h1]; rfl, by rw [List.flatten_cons, ← h2]; simp, h3⟩

theorem splitWords_cut (s : Str) (a b : List Str) (h : splitWords s = a ++ b) :
    splitWords a.flatten = a ∧ splitWords b.flatten = b := by
  by_cases ha : a = []
  · subst ha
    have := splitLaws.concat s
    change (splitWords s).flatten = s at this
    rw [List.nil_append] at h
    rw [← h, this]
    exact ⟨rfl, rfl⟩
  by_cases hb : b = []
  · subst hb
    have := splitLaws.concat s
    change (splitWords s).flatten = s at this
    rw [List.append_nil] at h
    rw [← h, this]
    exact ⟨rfl, rfl⟩
  cases s with
  | nil =>
    simp only [splitWords] at h
    exact absurd (List.append_eq_nil_iff.1 h.symm).1 ha
  | cons x rest =>
    simp only [splitWords] at h
    obtain ⟨u, c, v, h1, h2, h3⟩ := splitGo_bd rest none x [x] a b h ha hb
    have hcat := splitGo_concat rest none x [x]
    rw [h, List.flatten_append, ← h2, h1] at hcat
    have hcat' : b.flatten = c :: v := by simpa using hcat
    have hcut := splitGo_cut u none x [x] c v h3
    rw [← h1, h] at hcut
    have hA : a.flatten = x :: u := by rw [← h2]; rfl
    rw [hA, hcat']
    have key : splitWords (x :: u) ++ splitWords (c :: v) = a ++ b := hcut.symm
    have hf1 : (splitWords (x :: u)).flatten = x :: u := splitLaws.concat (x :: u)
    have hlen := flatten_prefix (splitWords (x :: u)) a (splitWords (c :: v)) b key (hf1.trans hA.symm)
      (splitLaws.nonempty (x :: u)) (by
        intro w hw
        refine splitLaws.nonempty (x :: rest) w ?_
        show w ∈ splitGo none x [x] rest
        rw [h]; simp [hw])
    exact ⟨hlen, by rw [hlen] at key; exact List.append_cancel_left key⟩

theorem joined_class {C : WB} (hC : ∀ P2 N, joinsC P2 C C N = true) : ∀ (rest : Str) (p2 : Option Char) (p : Char),
    wbClass p = C → (∀ c ∈ rest, wbClass c = C) → Joined p2 p rest
  | [], _, _, _, _ => trivial
  | c :: rest, p2, p, hp, h => by
    refine ⟨?_, joined_class hC rest _ _ (h c (by simp)) (fun d hd => h d (by simp [hd]))⟩
    rw [joins_eq, hp, h c (by simp)]
    exact hC _ _

theorem wbClass_letter {c : Char} (h : isLatinLetter c = true) : wbClass c = .ALetter := by
  have : c.toNat ≠ 13 ∧ c.toNat ≠ 10 ∧ ¬ (c.toNat = 11 ∨ c.toNat = 12) := by
    simp [isLatinLetter] at h
    omega
  unfold wbClass
  rw [if_neg this.1, if_neg this.2.1, if_neg this.2.2, if_pos h]

theorem splitStable : SplitStable W where
  cut := splitWords_cut
  letters := by
    intro w hne h
    cases w with
    | nil => exact absurd rfl hne
    | cons c rest =>
      exact splitWords_joined (joined_class (C := .ALetter) (fun _ _ => rfl) rest none c
        (wbClass_letter (h c (by simp)).2) (fun d hd => wbClass_letter (h d (by simp [hd])).2))
  digits := by
    intro w hne h
    cases w with
    | nil => exact absurd rfl hne
    | cons c rest =>
      exact splitWords_joined (joined_class (C := .Numeric) (fun _ _ => rfl) rest none c
        (wbClass_digit (h c (by simp))) (fun d hd => wbClass_digit (h d (by simp [hd]))))

theorem toNat_lower {c : Char} (h : c.toNat ≤ 90) : (Char.ofNat (c.toNat + 32)).toNat = c.toNat + 32 := by
  unfold Char.ofNat
  rw [dif_pos (Or.inl (by omega))]
  rfl

theorem wbClass_lower (c : Char) : wbClass (lowerChar c) = wbClass c := by
  unfold lowerChar
  split
  · next h =>
    simp only [Bool.and_eq_true, decide_eq_true_eq] at h
    have hn := toNat_lower h.2
    rw [wbClass_letter (c := c) (by simp [isLatinLetter]; omega),
      wbClass_letter (c := Char.ofNat (c.toNat + 32)) (by simp only [isLatinLetter, hn]; simp; omega)]
  · rfl

theorem joined_lower : ∀ (rest : Str) (p2 : Option Char) (p : Char), Joined p2 p rest →
    Joined (p2.map lowerChar) (lowerChar p) (rest.map lowerChar)
  | [], _, _, _ => trivial
  | c :: rest, p2, p, h => by
    refine ⟨?_, joined_lower rest (some p) c h.2⟩
    have h1 := h.1
    rw [joins_eq] at h1 ⊢
    simp only [Option.map_map, wbClass_lower, List.head?_map]
    have hc : (wbClass ∘ lowerChar) = wbClass := funext wbClass_lower
    rw [hc]
    exact h1

theorem joined_of_single {c : Char} {rest : Str} (h : splitWords (c :: rest) = [c :: rest]) : Joined none c rest := by
  simp only [splitWords] at h
  obtain ⟨t, ws, e, hj, _, _, _⟩ := splitGo_shape rest none c [c]
  rw [e] at h
  simp only [List.cons_append, List.nil_append, List.cons.injEq, true_and] at h
  rw [← h.1]
  exact hj

theorem lowerStable : LowerStable W where
  word := by
    intro w _ h
    cases w with
    | nil => exact absurd h (by simp [W, splitWords])
    | cons c rest => exact splitWords_joined (joined_lower rest none c (joined_of_single h))
  digits := by
    intro w h
    show w.map lowerChar = w
    conv => rhs; rw [← List.map_id w]
    apply List.map_congr_left
    intro c hc
    have := digit_toNat.1 (h c hc)
    unfold lowerChar
    rw [if_neg (by simp; omega)]
    rfl
  head := by
    intro w h c hc hd
    cases w with
    | nil => simp [W] at hc
    | cons x xs =>
      have hx : c = lowerChar x := by simpa [W] using hc.symm
      subst hx
      apply h x (by simp)
      unfold lowerChar at hd
      split at hd
      · next hl =>
        simp only [Bool.and_eq_true, decide_eq_true_eq] at hl
        rw [digit_toNat, toNat_lower hl.2] at hd
        omega
      · exact hd

end LNlp.Demo
