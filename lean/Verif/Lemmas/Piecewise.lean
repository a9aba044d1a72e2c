import Verif.Lemmas.Compose
import Verif.Lemmas.AmountLine
import Verif.Lemmas.EndToEnd
import Verif.Lemmas.Currency
import Verif.Spec.Piecewise
/- Resolvers on lines put together from two parts. -/
namespace LNlp
variable {W : World}

/-- line `l` looks like `lx` followed by `ly`, token by token -/
structure Joined (l : LLLine W) (h : History W) (lx : LLLine W) (hx : History W) (ly : LLLine W) (hy : History W) : Prop where
  len : l.ll_tokens.length = lx.ll_tokens.length + ly.ll_tokens.length
  textL : ∀ i, i < lx.ll_tokens.length → textAt l i = textAt lx i
  textR : ∀ i, textAt l (lx.ll_tokens.length + i) = textAt ly i
  valL : ∀ (k : Ty W) i, i < lx.ll_tokens.length → valuesOf k (i, i) h = valuesOf k (i, i) hx
  valR : ∀ (k : Ty W) i, valuesOf k (lx.ll_tokens.length + i, lx.ll_tokens.length + i) h = valuesOf k (i, i) hy

theorem values_at (k : Ty W) (h : History W) (i : Nat) :
    valuesOf k (i, i) h = valuesOf k (i, i) (h.filter (fun x => decide (x.range = (i, i)))) :=
  (valuesOf_filter k h (fun r => decide (r = (i, i))) (by simp)).symm

theorem textAt_token {l : LLLine W} {i : Nat} :
    textAt l i = ((l.ll_tokens.map (·.token))[i]?).bind (fun t => match t with | .Text s _ => some s | .Value => none) := by
  unfold textAt
  rw [List.getElem?_map]
  cases l.ll_tokens[i]? <;> rfl

theorem joined_create {size : Str → Nat} {xs ys : List (InputToken W)} {l lx ly : LLLine W}
    (wf : ∀ t ∈ xs ++ ys, t.WF) (ok : createLineFromInputTokens W (xs ++ ys) size = .ok l)
    (okx : createLineFromInputTokens W xs size = .ok lx) (oky : createLineFromInputTokens W ys size = .ok ly) :
    Joined l (creationHistory W size (xs ++ ys)) lx (creationHistory W size xs) ly (creationHistory W size ys) := by
  have wfx : ∀ t ∈ xs, t.WF := fun t ht => wf t (by simp [ht])
  have wfy : ∀ t ∈ ys, t.WF := fun t ht => wf t (by simp [ht])
  obtain ⟨hg, ht, rep⟩ := create_inv wf ok
  obtain ⟨hgx, htx, repx⟩ := create_inv wfx okx
  obtain ⟨hgy, hty, repy⟩ := create_inv wfy oky
  have hy : ∀ t ∈ ys, tokensOf W size t ≠ [] := fun t ht => (inputTokens_ok size (hgy t ht)).2
  have hn : lx.ll_tokens.length = (xs.flatMap (tokensOf W size)).length := by rw [htx, layoutM_length]
  have hm : ly.ll_tokens.length = (ys.flatMap (tokensOf W size)).length := by rw [hty, layoutM_length]
  have htok : l.ll_tokens.map (·.token) = lx.ll_tokens.map (·.token) ++ ly.ll_tokens.map (·.token) := by
    rw [ht, htx, hty, layoutM_tokens, layoutM_tokens, layoutM_tokens, List.flatMap_append, List.map_append]
  refine ⟨?_, ?_, ?_, ?_, ?_⟩
  · have := congrArg List.length htok
    simpa using this
  · intro i hi
    rw [textAt_token, textAt_token, htok, List.getElem?_append_left (by simpa using hi)]
  · intro i
    rw [textAt_token, textAt_token, htok, List.getElem?_append_right (by simp)]
    simp
  · intro k i hi
    rw [values_at k (creationHistory W size (xs ++ ys)), values_at k (creationHistory W size xs),
      creation_filter_left size xs ys hy (fun r => decide (r = (i, i)))
        (by intro r; apply decide_eq_false; simp only [shiftR, Prod.mk.injEq]; omega)]
  · intro k i
    rw [values_at k (creationHistory W size (xs ++ ys)), values_at k (creationHistory W size ys),
      creation_filter_right size xs ys hy (fun r => decide (r = (lx.ll_tokens.length + i, lx.ll_tokens.length + i))) (by
        intro x hx
        have := (repx.bounds x hx).1
        apply decide_eq_false
        intro he
        rw [he] at this
        simp only at this; omega)]
    have e : (fun x : Rec W => decide (shiftR (xs.flatMap (tokensOf W size)).length x.range =
        (lx.ll_tokens.length + i, lx.ll_tokens.length + i))) = fun x : Rec W => decide (x.range = (i, i)) := by
      funext x
      congr 1
      rw [hn]
      simp only [shiftR, Prod.ext_iff]
      apply propext; omega
    rw [e, hn, show ((xs.flatMap (tokensOf W size)).length + i, (xs.flatMap (tokensOf W size)).length + i) =
      shiftR (xs.flatMap (tokensOf W size)).length (i, i) by simp [shiftR, Nat.add_comm], valuesOf_shift]

theorem create_ne {size : Str → Nat} {xs : List (InputToken W)} {l : LLLine W} (wf : ∀ t ∈ xs, t.WF)
    (ok : createLineFromInputTokens W xs size = .ok l) (ne : xs ≠ []) : l.ll_tokens ≠ [] := by
  obtain ⟨hg, ht, _⟩ := create_inv wf ok
  cases xs with
  | nil => exact absurd rfl ne
  | cons x xs =>
    have h1 := (inputTokens_ok size (hg x (by simp))).2
    have h2 : 0 < l.ll_tokens.length := by
      rw [ht, layoutM_length, List.flatMap_cons, List.length_append]
      have := List.length_pos_iff.2 h1
      omega
    exact List.length_pos_iff.1 h2

section
variable {l lx ly : LLLine W} {h hx hy : History W}

/-! ### one token at a time -/

theorem range_split (n m : Nat) : List.range (n + m) = List.range n ++ (List.range m).map (n + ·) := by
  rw [List.range_eq_range', List.range_eq_range', List.range_eq_range', ← List.range'_append_1, Nat.zero_add,
    List.map_add_range', Nat.add_zero]

theorem joined_tokens {α : Type} (J : Joined l h lx hx ly hy) (nx : lx.ll_tokens ≠ []) (ny : ly.ll_tokens ≠ [])
    (f fx fy : Nat → List α) (hl : ∀ i, i < lx.ll_tokens.length → f i = fx i)
    (hr : ∀ i, f (lx.ll_tokens.length + i) = fy i) :
    (between 0 (l.ll_tokens.length - 1)).flatMap (fun i => (f i).map (fun v => (⟨i, i, v⟩ : LLCursorAssignment α))) =
      (between 0 (lx.ll_tokens.length - 1)).flatMap (fun i => (fx i).map (fun v => ⟨i, i, v⟩)) ++
      ((between 0 (ly.ll_tokens.length - 1)).flatMap (fun i => (fy i).map (fun v => ⟨i, i, v⟩))).map
        (LLCursorAssignment.shift lx.ll_tokens.length) := by
  have ne : l.ll_tokens ≠ [] := by
    have := List.length_pos_iff.2 nx
    exact List.length_pos_iff.1 (by rw [J.len]; omega)
  rw [between_all l ne, between_all lx nx, between_all ly ny, J.len, range_split, List.flatMap_append]
  congr 1
  · refine flatMap_congr_mem (fun i hi => ?_)
    rw [hl i (List.mem_range.1 hi)]
  · rw [List.flatMap_map, List.map_flatMap]
    congr 1
    funext i
    rw [hr, List.map_map]
    apply List.map_congr_left
    intro v _
    simp [LLCursorAssignment.shift, Nat.add_comm]

/-! ### amounts -/

theorem hasAttr_iff {h : History W} {i : Nat} : HasAttr h i ↔ ∃ k : Ty W, valuesOf k (i, i) h ≠ [] := by
  constructor
  · rintro ⟨x, hx, he⟩
    obtain ⟨k, r, v⟩ := x
    simp only at he
    subst he
    exact ⟨k, List.ne_nil_of_mem (mem_valuesOf.2 hx)⟩
  · rintro ⟨k, hk⟩
    obtain ⟨v, hv⟩ := List.exists_mem_of_ne_nil _ hk
    exact ⟨_, mem_valuesOf.1 hv, rfl⟩

variable {r : AmountResolver}

theorem numL (J : Joined l h lx hx ly hy) {i : Nat} {t : Str} (hi : i < lx.ll_tokens.length) :
    NumAt l h i t ↔ NumAt lx hx i t := by
  unfold NumAt tagsOn; rw [J.textL i hi, J.valL _ i hi]
theorem delimL (J : Joined l h lx hx ly hy) {i : Nat} (hi : i < lx.ll_tokens.length) :
    DelimAt r h i ↔ DelimAt r hx i := by
  unfold DelimAt charsOn; rw [J.valL _ i hi]
theorem decL (J : Joined l h lx hx ly hy) {i : Nat} (hi : i < lx.ll_tokens.length) :
    DecAt r h i ↔ DecAt r hx i := by
  unfold DecAt charsOn; rw [J.valL _ i hi]
theorem attrL (J : Joined l h lx hx ly hy) {i : Nat} (hi : i < lx.ll_tokens.length) :
    HasAttr h i ↔ HasAttr hx i := by
  rw [hasAttr_iff, hasAttr_iff]
  constructor
  · rintro ⟨k, hk⟩; exact ⟨k, by rwa [J.valL _ i hi] at hk⟩
  · rintro ⟨k, hk⟩; exact ⟨k, by rwa [J.valL _ i hi]⟩

theorem numR (J : Joined l h lx hx ly hy) {i : Nat} {t : Str} :
    NumAt l h (lx.ll_tokens.length + i) t ↔ NumAt ly hy i t := by
  unfold NumAt tagsOn; rw [J.textR i, J.valR _ i]
theorem delimR (J : Joined l h lx hx ly hy) {i : Nat} :
    DelimAt r h (lx.ll_tokens.length + i) ↔ DelimAt r hy i := by
  unfold DelimAt charsOn; rw [J.valR _ i]
theorem decR (J : Joined l h lx hx ly hy) {i : Nat} :
    DecAt r h (lx.ll_tokens.length + i) ↔ DecAt r hy i := by
  unfold DecAt charsOn; rw [J.valR _ i]
theorem testableR (J : Joined l h lx hx ly hy) {i : Nat} :
    Testable l h (lx.ll_tokens.length + i) ↔ Testable ly hy i := by
  unfold Testable
  rw [hasAttr_iff, hasAttr_iff, J.len]
  simp only [J.valR]
  constructor
  · intro H hi; exact H (by omega)
  · intro H hi; exact H (by omega)

/-- the second part -/
theorem groupsR (J : Joined l h lx hx ly hy) {a e : Nat} {s : Str} (hg : Groups r ly hy a e s) :
    Groups r l h (lx.ll_tokens.length + a) (lx.ll_tokens.length + e) s := by
  induction hg with
  | one hn => exact .one ((numR J).2 hn)
  | more _ hd hn ih => exact .more ih ((delimR J).2 hd) ((numR J).2 hn)

theorem endR (J : Joined l h lx hx ly hy) {e b next : Nat} {s str : Str} (he : AmountEnd r ly hy e s b str next) :
    AmountEnd r l h (lx.ll_tokens.length + e) s (lx.ll_tokens.length + b) str (lx.ll_tokens.length + next) := by
  cases he with
  | trailing hd hn => exact .trailing ((delimR J).2 hd) (fun t ht => hn t ((numR J).1 ht))
  | fraction hd hc hn => exact .fraction (fun x => hd ((delimR J).1 x)) ((decR J).2 hc) ((numR J).2 hn)
  | point hd hc hn => exact .point (fun x => hd ((delimR J).1 x)) ((decR J).2 hc) (fun t ht => hn t ((numR J).1 ht))
  | adjacent hd hc hn => exact .adjacent (fun x => hd ((delimR J).1 x)) (fun x => hc ((decR J).1 x)) ((numR J).2 hn)
  | plain hd hc hn => exact .plain (fun x => hd ((delimR J).1 x)) (fun x => hc ((decR J).1 x)) (fun t ht => hn t ((numR J).1 ht))

theorem isAmountR (J : Joined l h lx hx ly hy) {a b next : Nat} {str : Str} (hi : IsAmount r ly hy a b str next) :
    IsAmount r l h (lx.ll_tokens.length + a) (lx.ll_tokens.length + b) str (lx.ll_tokens.length + next) := by
  obtain ⟨e, s, hg, ht, he⟩ := hi
  exact ⟨_, s, groupsR J hg, (testableR J).2 ht, endR J he⟩

theorem firstR (J : Joined l h lx hx ly hy) {start stop i : Nat} (hf : FirstNum ly hy start stop i) :
    FirstNum l h (lx.ll_tokens.length + start) (lx.ll_tokens.length + stop) (lx.ll_tokens.length + i) := by
  obtain ⟨h1, h2, ⟨t, ht⟩, h4⟩ := hf
  refine ⟨by omega, by omega, ⟨t, (numR J).2 ht⟩, fun j hj1 hj2 t ht => ?_⟩
  obtain ⟨j, rfl⟩ : ∃ j', j = lx.ll_tokens.length + j' := ⟨j - lx.ll_tokens.length, by omega⟩
  exact h4 j (by omega) (by omega) t ((numR J).1 ht)

theorem amountsR (J : Joined l h lx hx ly hy) {stop start : Nat} {out : List (LLCursorAssignment W.Decimal)}
    (ho : Amounts r ly hy stop start out) :
    Amounts r l h (lx.ll_tokens.length + stop) (lx.ll_tokens.length + start)
      (out.map (LLCursorAssignment.shift lx.ll_tokens.length)) := by
  induction ho with
  | done hn =>
    refine .done (fun j hj1 hj2 t ht => ?_)
    obtain ⟨j, rfl⟩ : ∃ j', j = lx.ll_tokens.length + j' := ⟨j - lx.ll_tokens.length, by omega⟩
    exact hn j (by omega) (by omega) t ((numR J).1 ht)
  | @next start i b next str d rest hf hi hp _ ih =>
    have := Amounts.next (firstR J hf) (isAmountR J hi) hp ih
    simpa [LLCursorAssignment.shift, Nat.add_comm] using this

theorem failR (J : Joined l h lx hx ly hy) {stop start : Nat} {p : Panic}
    (ho : AmountsFail r ly hy stop p start) :
    AmountsFail r l h (lx.ll_tokens.length + stop) p (lx.ll_tokens.length + start) := by
  induction ho with
  | noAttrs hf hg ht => exact .noAttrs (firstR J hf) (groupsR J hg) (fun x => ht ((testableR J).1 x))
  | number hf hi hp => exact .number (firstR J hf) (isAmountR J hi) hp
  | later hf hi hp _ ih => exact .later (firstR J hf) (isAmountR J hi) hp ih

/-- the first part -/
theorem groupsL (J : Joined l h lx hx ly hy) {a e : Nat} {s : Str} (hg : Groups r lx hx a e s) :
    Groups r l h a e s ∧ ∃ t, NumAt lx hx e t := by
  induction hg with
  | one hn => exact ⟨.one ((numL J (numAt_lt hn)).2 hn), _, hn⟩
  | more _ hd hn ih =>
    have := numAt_lt hn
    exact ⟨.more ih.1 ((delimL J (by omega)).2 hd) ((numL J this).2 hn), _, hn⟩

variable {n : Nat}

theorem groupsL_lt (hn : lx.ll_tokens.length = n + 1) (hsep : Separator r lx hx n) {e : Nat} {t : Str}
    (h1 : NumAt lx hx e t) : e < n := by
  have := numAt_lt h1
  rcases (show e < n ∨ e = n by omega) with h2 | rfl
  · exact h2
  · exact absurd h1 (hsep.1 t)

theorem isAmountL (J : Joined l h lx hx ly hy) (hn : lx.ll_tokens.length = n + 1) (hsep : Separator r lx hx n)
    {a b next : Nat} {str : Str} (hi : IsAmount r lx hx a b str next) :
    IsAmount r l h a b str next ∧ next ≤ n + 1 := by
  obtain ⟨e, s, hg, ht, he⟩ := hi
  obtain ⟨hg', t, hnum⟩ := groupsL J hg
  have hlt := groupsL_lt hn hsep hnum
  have ht' : Testable l h (e + 1) := fun _ => (attrL J (by omega)).2 (ht (by omega))
  have del : DelimAt r h (e + 1) ↔ DelimAt r hx (e + 1) := delimL J (by omega)
  have dec : DecAt r h (e + 1) ↔ DecAt r hx (e + 1) := decL J (by omega)
  have num : ∀ t, NumAt l h (e + 1) t ↔ NumAt lx hx (e + 1) t := fun t => numL J (by omega)
  have far : (DelimAt r hx (e + 1) ∨ DecAt r hx (e + 1)) → e + 2 ≤ n := by
    intro h1
    rcases (show e + 2 ≤ n ∨ e + 1 = n by omega) with h2 | h2
    · exact h2
    · rw [h2] at h1
      rcases h1 with h1 | h1
      · exact absurd h1 hsep.2.1
      · exact absurd h1 hsep.2.2
  cases he with
  | trailing hd hnn =>
    have := far (Or.inl hd)
    exact ⟨⟨_, _, hg', ht', .trailing (del.2 hd) (fun t h' => hnn t ((numL J (by omega)).1 h'))⟩, by omega⟩
  | fraction hd hc hnn =>
    have := far (Or.inr hc)
    have h3 := groupsL_lt hn hsep hnn
    exact ⟨⟨_, _, hg', ht', .fraction (fun x => hd (del.1 x)) (dec.2 hc) ((numL J (by omega)).2 hnn)⟩, by omega⟩
  | point hd hc hnn =>
    have := far (Or.inr hc)
    exact ⟨⟨_, _, hg', ht', .point (fun x => hd (del.1 x)) (dec.2 hc) (fun t h' => hnn t ((numL J (by omega)).1 h'))⟩, by omega⟩
  | adjacent hd hc hnn =>
    have h3 := groupsL_lt hn hsep hnn
    exact ⟨⟨_, _, hg', ht', .adjacent (fun x => hd (del.1 x)) (fun x => hc (dec.1 x)) ((num _).2 hnn)⟩, by omega⟩
  | plain hd hc hnn =>
    exact ⟨⟨_, _, hg', ht', .plain (fun x => hd (del.1 x)) (fun x => hc (dec.1 x)) (fun t h' => hnn t ((num t).1 h'))⟩, by omega⟩

theorem firstL (J : Joined l h lx hx ly hy) (hn : lx.ll_tokens.length = n + 1) {start stop i : Nat}
    (hs : n ≤ stop) (hf : FirstNum lx hx start n i) : FirstNum l h start stop i := by
  obtain ⟨h1, h2, ⟨t, ht⟩, h4⟩ := hf
  exact ⟨h1, by omega, ⟨t, (numL J (by omega)).2 ht⟩, fun j hj1 hj2 t ht => h4 j hj1 hj2 t ((numL J (by omega)).1 ht)⟩

/-- tokens that are no numbers can be skipped -/
theorem amounts_skip {stop a b : Nat} {out : List (LLCursorAssignment W.Decimal)} (hab : a ≤ b)
    (hn : ∀ j, a ≤ j → j < b → ∀ t, ¬ NumAt l h j t) (ho : Amounts r l h stop b out) : Amounts r l h stop a out := by
  cases ho with
  | done hd =>
    refine .done (fun j h1 h2 => ?_)
    by_cases hj : j < b
    · exact hn j h1 hj
    · exact hd j (by omega) h2
  | next hf hi hp ho =>
    obtain ⟨h1, h2, h3, h4⟩ := hf
    refine .next ⟨by omega, h2, h3, fun j hj1 hj2 => ?_⟩ hi hp ho
    by_cases hj : j < b
    · exact hn j hj1 hj
    · exact h4 j (by omega) hj2

theorem first_skip {stop a b i : Nat} (hab : a ≤ b) (hn : ∀ j, a ≤ j → j < b → ∀ t, ¬ NumAt l h j t)
    (hf : FirstNum l h b stop i) : FirstNum l h a stop i := by
  obtain ⟨h1, h2, h3, h4⟩ := hf
  refine ⟨by omega, h2, h3, fun j hj1 hj2 => ?_⟩
  by_cases hj : j < b
  · exact hn j hj1 hj
  · exact h4 j (by omega) hj2

theorem fail_skip {stop a b : Nat} {p : Panic} (hab : a ≤ b) (hn : ∀ j, a ≤ j → j < b → ∀ t, ¬ NumAt l h j t)
    (ho : AmountsFail r l h stop p b) : AmountsFail r l h stop p a := by
  cases ho with
  | noAttrs hf hg ht => exact .noAttrs (first_skip hab hn hf) hg ht
  | number hf hi hp => exact .number (first_skip hab hn hf) hi hp
  | later hf hi hp ho => exact .later (first_skip hab hn hf) hi hp ho

theorem amountsL (J : Joined l h lx hx ly hy) (hn : lx.ll_tokens.length = n + 1) (hsep : Separator r lx hx n)
    {stop start : Nat} (hs : n ≤ stop) {out rest : List (LLCursorAssignment W.Decimal)}
    (ho : Amounts r lx hx n start out) (hr : Amounts r l h stop (n + 1) rest) :
    start ≤ n + 1 → Amounts r l h stop start (out ++ rest) := by
  induction ho with
  | done hd =>
    intro hle
    exact amounts_skip hle (fun j h1 h2 t ht => hd j h1 (by omega) t ((numL J (by omega)).1 ht)) hr
  | next hf hi hp _ ih =>
    intro _
    obtain ⟨hi', hle⟩ := isAmountL J hn hsep hi
    exact .next (firstL J hn hs hf) hi' hp (ih hle)

theorem failL (J : Joined l h lx hx ly hy) (hn : lx.ll_tokens.length = n + 1) (hsep : Separator r lx hx n)
    {stop start : Nat} (hs : n ≤ stop) {p : Panic} (ho : AmountsFail r lx hx n p start) :
    AmountsFail r l h stop p start := by
  induction ho with
  | @noAttrs start i e s hf hg ht =>
    obtain ⟨hg', t, hnum⟩ := groupsL J hg
    have hlt := groupsL_lt hn hsep hnum
    exact .noAttrs (firstL J hn hs hf) hg' (fun x => ht (fun _ =>
      (attrL J (by omega)).1 (x (by rw [J.len]; omega))))
  | number hf hi hp => exact .number (firstL J hn hs hf) (isAmountL J hn hsep hi).1 hp
  | later hf hi hp _ ih => exact .later (firstL J hn hs hf) (isAmountL J hn hsep hi).1 hp ih

theorem failLR (J : Joined l h lx hx ly hy) (hn : lx.ll_tokens.length = n + 1) (hsep : Separator r lx hx n)
    {stop start : Nat} (hs : n ≤ stop) {out : List (LLCursorAssignment W.Decimal)} {p : Panic}
    (ho : Amounts r lx hx n start out) (hr : AmountsFail r l h stop p (n + 1)) :
    start ≤ n + 1 → AmountsFail r l h stop p start := by
  induction ho with
  | done hd =>
    intro hle
    exact fail_skip hle (fun j h1 h2 t ht => hd j h1 (by omega) t ((numL J (by omega)).1 ht)) hr
  | next hf hi hp _ ih =>
    intro _
    obtain ⟨hi', hle⟩ := isAmountL J hn hsep hi
    exact .later (firstL J hn hs hf) hi' hp (ih hle)

/-! the same if the second part begins with a separator -/

section
variable (J : Joined l h lx hx ly hy) (hn : lx.ll_tokens.length = n + 1) (hsep : Separator r ly hy 0) (hat : HasAttr hy 0)
  (far : ∀ i, n < i → ∀ k : Ty W, valuesOf k (i, i) hx = [])
include J hn hsep hat far

theorem isAmountL' {a b next : Nat} {str : Str} (hi : IsAmount r lx hx a b str next) :
    IsAmount r l h a b str next ∧ next ≤ n + 1 := by
  obtain ⟨e, s, hg, ht, he⟩ := hi
  obtain ⟨hg', t, hnum⟩ := groupsL J hg
  have hlt := numAt_lt hnum
  have fd : ∀ i, DelimAt r hx i → i ≤ n := by
    rintro i ⟨c, hc, _⟩
    refine Nat.le_of_not_lt fun hi => ?_
    rw [charsOn, far i hi] at hc
    cases hc
  have fc : ∀ i, DecAt r hx i → i ≤ n := by
    intro i hc
    refine Nat.le_of_not_lt fun hi => ?_
    rw [DecAt, charsOn, far i hi] at hc
    cases hc
  have z1 : ∀ t, ¬ NumAt l h (lx.ll_tokens.length + 0) t := fun t h' => hsep.1 t ((numR J).1 h')
  have num : ∀ i, i ≤ n + 1 → ∀ t, NumAt l h i t ↔ NumAt lx hx i t := by
    intro i hi t
    by_cases h1 : i < lx.ll_tokens.length
    · exact numL J h1
    · have : i = lx.ll_tokens.length + 0 := by omega
      exact ⟨fun h' => absurd (this ▸ h') (z1 t), fun h' => absurd (numAt_lt h') h1⟩
  have del : DelimAt r h (e + 1) ↔ DelimAt r hx (e + 1) := by
    by_cases h1 : e + 1 < lx.ll_tokens.length
    · exact delimL J h1
    · have : e + 1 = lx.ll_tokens.length + 0 := by omega
      exact ⟨fun h' => absurd ((delimR J).1 (this ▸ h')) hsep.2.1, fun h' => absurd (fd _ h') (by omega)⟩
  have dec : DecAt r h (e + 1) ↔ DecAt r hx (e + 1) := by
    by_cases h1 : e + 1 < lx.ll_tokens.length
    · exact decL J h1
    · have : e + 1 = lx.ll_tokens.length + 0 := by omega
      exact ⟨fun h' => absurd ((decR J).1 (this ▸ h')) hsep.2.2, fun h' => absurd (fc _ h') (by omega)⟩
  have ht' : Testable l h (e + 1) := by
    by_cases h1 : e + 1 < lx.ll_tokens.length
    · exact fun _ => (attrL J h1).2 (ht h1)
    · have : e + 1 = lx.ll_tokens.length + 0 := by omega
      rw [this]
      exact (testableR J).2 (fun _ => hat)
  cases he with
  | trailing hd hnn =>
    have := fd _ hd
    exact ⟨⟨_, _, hg', ht', .trailing (del.2 hd) (fun t h' => hnn t ((num _ (by omega) t).1 h'))⟩, by omega⟩
  | fraction hd hc hnn =>
    have := numAt_lt hnn
    exact ⟨⟨_, _, hg', ht', .fraction (fun x => hd (del.1 x)) (dec.2 hc) ((num _ (by omega) _).2 hnn)⟩, by omega⟩
  | point hd hc hnn =>
    have := fc _ hc
    exact ⟨⟨_, _, hg', ht', .point (fun x => hd (del.1 x)) (dec.2 hc) (fun t h' => hnn t ((num _ (by omega) t).1 h'))⟩, by omega⟩
  | adjacent hd hc hnn =>
    have := numAt_lt hnn
    exact ⟨⟨_, _, hg', ht', .adjacent (fun x => hd (del.1 x)) (fun x => hc (dec.1 x)) ((num _ (by omega) _).2 hnn)⟩, by omega⟩
  | plain hd hc hnn =>
    exact ⟨⟨_, _, hg', ht', .plain (fun x => hd (del.1 x)) (fun x => hc (dec.1 x)) (fun t h' => hnn t ((num _ (by omega) t).1 h'))⟩, by omega⟩

theorem amountsL' {stop start : Nat} (hs : n ≤ stop) {out rest : List (LLCursorAssignment W.Decimal)}
    (ho : Amounts r lx hx n start out) (hr : Amounts r l h stop (n + 1) rest) :
    start ≤ n + 1 → Amounts r l h stop start (out ++ rest) := by
  induction ho with
  | done hd =>
    intro hle
    exact amounts_skip hle (fun j h1 h2 t ht => hd j h1 (by omega) t ((numL J (by omega)).1 ht)) hr
  | next hf hi hp _ ih =>
    intro _
    obtain ⟨hi', hle⟩ := isAmountL' J hn hsep hat far hi
    exact .next (firstL J hn hs hf) hi' hp (ih hle)

theorem failL' {stop start : Nat} (hs : n ≤ stop) {p : Panic} (ho : AmountsFail r lx hx n p start) :
    AmountsFail r l h stop p start := by
  induction ho with
  | @noAttrs start i e s hf hg ht =>
    obtain ⟨hg', t, hnum⟩ := groupsL J hg
    have hlt := numAt_lt hnum
    have h1 : e + 1 < lx.ll_tokens.length := Nat.lt_of_not_le fun hle => ht fun h' => absurd h' (by omega)
    exact .noAttrs (firstL J hn hs hf) hg' (fun x => ht (fun _ => (attrL J h1).1 (x (by rw [J.len]; omega))))
  | number hf hi hp => exact .number (firstL J hn hs hf) (isAmountL' J hn hsep hat far hi).1 hp
  | later hf hi hp _ ih => exact .later (firstL J hn hs hf) (isAmountL' J hn hsep hat far hi).1 hp ih

theorem failLR' {stop start : Nat} (hs : n ≤ stop) {out : List (LLCursorAssignment W.Decimal)} {p : Panic}
    (ho : Amounts r lx hx n start out) (hr : AmountsFail r l h stop p (n + 1)) :
    start ≤ n + 1 → AmountsFail r l h stop p start := by
  induction ho with
  | done hd =>
    intro hle
    exact fail_skip hle (fun j h1 h2 t ht => hd j h1 (by omega) t ((numL J (by omega)).1 ht)) hr
  | next hf hi hp _ ih =>
    intro _
    obtain ⟨hi', hle⟩ := isAmountL' J hn hsep hat far hi
    exact .later (firstL J hn hs hf) hi' hp (ih hle)

end

end

end LNlp
