import Verif.Lemmas.Width
import Verif.Props.Recurse
import Verif.Props.Tokenize
/- Property C137: how far a match reaches, and that only matchers that call themselves can repeat. -/
namespace LNlp
variable {W : World} {T : Ty W → Prop}

/-! ### C137: a match is no longer than its expression -/

/-- C137: if the attributes an expression looks at cover at most `k` tokens each, and it puts at most `n` of them next to
each other, then what it finds from token `i` on ends before token `i + n * k`. -/
theorem C137_forwards {n : Nat} {Out : Type} {m : XMatch W Out} (hm : Spans T n m) {l : LLLine W} {h : History W}
    (hr : Reachable l h) {k : Nat} (hk : 1 ≤ k) (ha : AtMost T k h) (i : Nat) (out : List (Out × Nat))
    (hg : m.go (.fwd i) l = .ok out) : ∀ r ∈ out, r.2 < i + n * k :=
  spans_within hm hr.rep hk ha (.fwd i) out hg

example := C137_forwards (T := fun _ => True) (.seq2 (.attrEq (W := Demo.W) .textTag trivial TextTag.WORD) .tokenText)
  Demo.exReach2 (k := 20) (by decide) (by intro x hx _; revert x; decide) 0 _ rfl

/-- C137: … and backwards as far to the left. -/
theorem C137_backwards {n : Nat} {Out : Type} {m : XMatch W Out} (hm : Spans T n m) {l : LLLine W} {h : History W}
    (hr : Reachable l h) {k : Nat} (hk : 1 ≤ k) (ha : AtMost T k h) (i : Nat) (out : List (Out × Nat))
    (hg : m.go (.bwd i) l = .ok out) : ∀ r ∈ out, i < r.2 + n * k :=
  spans_within hm hr.rep hk ha (.bwd i) out hg

/-- C137: so the selections `find_by` returns cover at most `n * k` tokens. -/
theorem C137_find_by {n : Nat} {Out : Type} {m : XMatch W Out} (hm : Spans T n m) {h : History W} (s : LLSelection W)
    (hr : Reachable s.ll_line.val h) {k : Nat} (hk : 1 ≤ k) (ha : AtMost T k h) (out : List (LLSelection W × Out))
    (hf : s.findBy m = .ok out) : ∀ p ∈ out, p.1.end_idx < p.1.start_idx + n * k := by
  rintro ⟨p, v⟩ hp
  rw [mem_findBy hf] at hp
  obtain ⟨_, _, rs, h3, h4⟩ := hp
  exact C137_forwards hm hr hk ha _ rs h3 _ h4

/-- C137: on a line as it was created from texts without attributes, every attribute covers one token, so an expression
with `n` matches next to each other finds at most `n` tokens. -/
theorem C137_fresh {size : Str → Nat} {input : List (InputToken W)} (hi : ∀ t ∈ input, t.attrList = []) :
    AtMost (fun _ => True) 1 (creationHistory W size input) := by
  intro x hx _
  have hn : NoCustom x.ty input := by
    intro t ht a ha
    rw [hi t ht] at ha
    cases ha
  rw [creation_single hn x hx rfl]
  exact Nat.lt_succ_self _

/-- C137: the bound is attained: `n + 1` times `whitespace()` in sequence finds `n + 1` whitespace tokens in a row. -/
theorem C137_attained {l : LLLine W} {h : History W} (hr : Reachable l h) (ht : PlainTags l h) (n i : Nat)
    (hs : ∀ k, i ≤ k → k ≤ i + n → tagAt l k = some .SPACE) :
    Spans (fun k => k = .textTag) (n + 1) (X.spaces (W := W) n).2 ∧
    ∃ v, (X.spaces (W := W) n).2.go (.fwd i) l = .ok [(v, i + n)] := by
  refine ⟨spaces_spans n, ?_⟩
  have hlen : ∀ k, tagAt l k = some .SPACE → k < l.ll_tokens.length := by
    intro k hk
    unfold tagAt at hk
    cases h2 : l.ll_tokens[k]? with
    | none => rw [h2] at hk; cases hk
    | some t => exact (List.getElem?_eq_some_iff.1 h2).1
  induction n generalizing i with
  | zero =>
    have h1 := hs i (Nat.le_refl _) (Nat.le_refl _)
    have hw := (C97_one_token_partial hr ht (hlen i h1)).1
    rw [if_pos h1] at hw
    exact ⟨(), hw⟩
  | succ n ih =>
    have h1 := hs i (Nat.le_refl _) (by omega)
    have hw := (C97_one_token_partial hr ht (hlen i h1)).1
    rw [if_pos h1] at hw
    obtain ⟨v, hv⟩ := ih (i + 1) (fun k h1 h2 => hs k (by omega) (by omega))
    refine ⟨((), v), ?_⟩
    have hn := hlen (i + 1) (hs (i + 1) (by omega) (by omega))
    have key : (X.seq2 X.whitespace (X.spaces (W := W) n).2).go (.fwd i) l = .ok [(((), v), i + 1 + n)] := by
      simp only [X.seq2, hw, flatMapR, X.goAfter, Dir.after, if_pos hn, hv]
      rfl
    rw [show i + (n + 1) = i + 1 + n by omega]
    exact key

example := C137_attained Demo.gapsReach Demo.gapsPlain 1 0
  (by
    intro k _ hk
    rcases (show k = 0 ∨ k = 1 by omega) with rfl | rfl <;> rfl)

/-! only matchers that call themselves can repeat -/

/-- C137: so no expression of the library, nor one of matchers of the user that do not call themselves, finds whitespace of
any length, as `whitespace()` is documented to do (C97): for every such expression there are texts all of whitespace that a
matcher that calls itself (C134) finds as a whole, and of which the expression finds only a beginning. -/
theorem C137_no_repetition (L : SplitLaws W) (hB : 0 < W.usizeBound) {c : Char} (hc : W.isWhitespace c = true)
    (hd : ¬ IsDigit c) {n : Nat} {Out : Type} {m : XMatch W Out} (hm : Spans (fun _ => True) n m) :
    ∃ l, createLineFromInputTokens W (blanks W c (n + 1)) (fun _ => 0) = .ok l ∧
      l.ll_tokens.map (·.token) = List.replicate (n + 1) (.Text [c] .SPACE) ∧
      (∃ out, (X.many X.whitespace).go (.fwd 0) l = .ok out ∧ (n + 1, l.ll_tokens.length - 1) ∈ out) ∧
      ∀ out, m.go (.fwd 0) l = .ok out → ∀ r ∈ out, r.2 < l.ll_tokens.length - 1 := by
  have hwf := blanks_wf (W := W) c (n + 1)
  cases hl : createLineFromInputTokens W (blanks W c (n + 1)) (fun _ => 0) with
  | error e =>
    exfalso
    rcases (C09_creation_panics_iff L hB _ _ hwf).1 ⟨e, hl⟩ with ⟨t, ht, s, as, rfl, hb⟩ | ⟨_, hb⟩
    · have := (List.mem_replicate.1 ht).2
      cases this
      rcases hb with hb | ⟨w, hw, ⟨x, hx, hx2⟩, _⟩
      · cases hb
      · rw [split_single L] at hw
        cases List.mem_singleton.1 hw
        cases hx
        exact hd hx2
    · rw [blanks_tokens L c hc hd] at hb
      have : totalSize (List.replicate (n + 1) (LToken.Text [c] .SPACE, 0)) = 0 := by simp [totalSize]
      omega
  | ok l =>
    have htok : l.ll_tokens.map (·.token) = List.replicate (n + 1) (.Text [c] .SPACE) := by
      rw [C01_exact_tokens _ _ l hwf hl, blanks_tokens L c hc hd, List.map_replicate]
    have hlen : l.ll_tokens.length = n + 1 := by
      rw [← List.length_map (f := LLToken.token), htok, List.length_replicate]
    have hr : Reachable l _ := .create _ _ _ hwf hl
    have hp := creation_plainTags hwf hl (blanks_noCustom c (n + 1) .textTag)
    have ho := creation_ordered hwf hl
    have htag : ∀ k, k < n + 1 → tagAt l k = some .SPACE := by
      intro k hk
      have h1 : (l.ll_tokens.map (·.token))[k]? = some (.Text [c] .SPACE) := by
        rw [htok, List.getElem?_replicate, if_pos hk]
      rw [List.getElem?_map, Option.map_eq_some_iff] at h1
      obtain ⟨t, h2, h3⟩ := h1
      simp only [tagAt, h2, Option.bind_some, h3]
    refine ⟨l, rfl, htok, ?_, ?_⟩
    · refine ⟨_, C134_spaces_forwards hr ho hp (n + 1) 0 (by omega) (fun k _ hk => htag k (by omega)) ?_, ?_⟩
      · unfold tagAt
        rw [List.getElem?_eq_none (by omega)]
        simp
      · rw [hlen]
        exact List.mem_map.2 ⟨n, by simp, by simp⟩
    · intro out hg r hr'
      have := C137_forwards hm hr (Nat.le_refl 1) (C137_fresh (by
        intro t ht
        rw [(List.mem_replicate.1 ht).2]
        rfl)) 0 out hg r hr'
      omega

example := C137_no_repetition Demo.splitLaws (by decide) (c := '\t') (by decide) (by decide)
  (.seq3 (.attrEq (W := Demo.W) .textTag trivial TextTag.SPACE) (.attrEq .textTag trivial TextTag.SPACE) .tokenText)

/-- C137: nor does `trim_start` with such an expression remove all whitespace: if more than `n` whitespace tokens stand at
the start of the selection, whitespace is left there. -/
theorem C137_trim_start {n : Nat} {Out : Type} {m : XMatch W Out} (hm : Spans T n m) {h : History W} (s : LLSelection W)
    (hr : Reachable s.ll_line.val h) (ho : Ordered h) (ha : AtMost T 1 h)
    (hin : s.start_idx + n ≤ s.end_idx)
    (hs : ∀ k, s.start_idx ≤ k → k ≤ s.start_idx + n → tagAt s.ll_line.val k = some .SPACE)
    (o : Option (LLSelection W)) (ht : s.trimStart m = .ok o) :
    ∃ s', o = some s' ∧ s'.end_idx = s.end_idx ∧ tagAt s.ll_line.val s'.start_idx = some .SPACE := by
  unfold LLSelection.trimStart LLSelection.trimSelection at ht
  cases hg : m.go (.fwd s.start_idx) s.ll_line.val with
  | error e => rw [hg] at ht; cases ht
  | ok rs =>
    rw [hg] at ht
    have h1 := C137_forwards hm hr (Nat.le_refl 1) ha _ rs hg
    have h2 := fun r hr' => (built_results (spans_built hm) hr.rep True (fun _ => ho) _ rs hg r hr').2 trivial
    cases hh : rs.head? with
    | none =>
      simp only [if_true, hh, if_false, Bool.false_eq_true] at ht
      rw [if_pos ⟨by omega, by omega⟩] at ht
      cases ht
      exact ⟨_, rfl, rfl, hs _ (Nat.le_refl _) (by simp only; omega)⟩
    | some r =>
      have h3 := h1 r (List.mem_of_head? hh)
      have h4 := h2 r (List.mem_of_head? hh)
      simp only [Dir.RightWay] at h4
      simp only [if_true, hh, if_false, Bool.false_eq_true] at ht
      rw [if_pos ⟨by omega, by omega⟩] at ht
      cases ht
      exact ⟨_, rfl, rfl, hs _ (by simp only; omega) (by simp only; omega)⟩

example := C137_trim_start (T := fun _ => True) (.attrEq (W := Demo.W) .textTag trivial TextTag.SPACE) (wholeLine Demo.gapsLine 0)
  Demo.gapsReach Demo.gapsOrdered (C137_fresh (by simp [InputToken.attrList])) (by decide)
  (by
    intro k _ hk
    have : (wholeLine Demo.gapsLine 0).start_idx = 0 := rfl
    rcases (show k = 0 ∨ k = 1 by omega) with rfl | rfl <;> rfl) _ rfl

/-- C137: … and `trim_end` leaves whitespace at the end. -/
theorem C137_trim_end {n : Nat} {Out : Type} {m : XMatch W Out} (hm : Spans T n m) {h : History W} (s : LLSelection W)
    (hr : Reachable s.ll_line.val h) (ho : Ordered h) (ha : AtMost T 1 h)
    (hin : s.start_idx + n ≤ s.end_idx)
    (hs : ∀ k, s.end_idx ≤ k + n → k ≤ s.end_idx → tagAt s.ll_line.val k = some .SPACE)
    (o : Option (LLSelection W)) (ht : s.trimEnd m = .ok o) :
    ∃ s', o = some s' ∧ s'.start_idx = s.start_idx ∧ tagAt s.ll_line.val s'.end_idx = some .SPACE := by
  unfold LLSelection.trimEnd LLSelection.trimSelection at ht
  cases hg : m.go (.bwd s.end_idx) s.ll_line.val with
  | error e => rw [hg] at ht; cases ht
  | ok rs =>
    rw [hg] at ht
    have h1 := C137_backwards hm hr (Nat.le_refl 1) ha _ rs hg
    have h2 := fun r hr' => (built_results (spans_built hm) hr.rep True (fun _ => ho) _ rs hg r hr').2 trivial
    cases hh : rs.head? with
    | none =>
      simp only [if_true, hh, if_false, Bool.false_eq_true] at ht
      rw [if_pos ⟨by omega, by omega⟩] at ht
      cases ht
      exact ⟨_, rfl, rfl, hs _ (by simp only; omega) (Nat.le_refl _)⟩
    | some r =>
      have h3 := h1 r (List.mem_of_head? hh)
      have h4 := h2 r (List.mem_of_head? hh)
      simp only [Dir.RightWay] at h4
      simp only [if_true, hh, if_false, Bool.false_eq_true] at ht
      have h5 : (checkedSub r.2 1).getD r.2 = r.2 - 1 := by
        unfold checkedSub
        split <;> simp <;> omega
      rw [h5, if_pos ⟨by omega, by omega⟩] at ht
      cases ht
      exact ⟨_, rfl, rfl, hs _ (by simp only; omega) (by simp only; omega)⟩

example := C137_trim_end (T := fun _ => True) (.attrEq (W := Demo.W) .textTag trivial TextTag.SPACE) (wholeLine Demo.gapsLine 0)
  Demo.gapsReach Demo.gapsOrdered (C137_fresh (by simp [InputToken.attrList])) (by decide)
  (by
    intro k h1 h2
    have : (wholeLine Demo.gapsLine 0).end_idx = 4 := rfl
    rcases (show k = 3 ∨ k = 4 by omega) with rfl | rfl <;> rfl) _ rfl

example := C137_backwards (T := fun _ => True) (.seq2 (.attrEq (W := Demo.W) .textTag trivial TextTag.WORD) .tokenText)
  Demo.exReach2 (k := 20) (by decide) (by intro x hx _; revert x; decide) 2 _ rfl
example := C137_find_by (T := fun _ => True) (.attrEq (W := Demo.W) .textTag trivial TextTag.WORD) (wholeLine Demo.exLine2 0)
  Demo.exReach2 (k := 20) (by decide) (by intro x hx _; revert x; decide) _ rfl

end LNlp
