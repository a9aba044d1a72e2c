import Verif.Spec.Width
import Verif.Lemmas.Recurse
import Verif.Lemmas.Plain
/- Lemmas for C137: how far the results of an expression reach. -/
namespace LNlp
variable {W : World} {T : Ty W → Prop}

/-- no further than `n` tokens, the one at the direction included -/
def Dir.Within (d : Dir) (n : Nat) (e : Nat) : Prop :=
  match d with
  | .fwd i => e < i + n
  | .bwd i => i < e + n

theorem within_mono {d : Dir} {n n' e : Nat} (hn : n ≤ n') (h : d.Within n e) : d.Within n' e := by
  cases d <;> simp only [Dir.Within] at * <;> omega

theorem within_next {d d' : Dir} {a b m e : Nat} {l : LLLine W} (hn : d.Next m l d') (h1 : d.Within a m)
    (h2 : d'.Within b e) : d.Within (a + b) e := by
  cases d with
  | fwd i => obtain ⟨rfl, _⟩ := hn; simp only [Dir.Within] at *; omega
  | bwd i => obtain ⟨j, rfl, rfl⟩ := hn; simp only [Dir.Within] at *; omega

theorem spans_within {n : Nat} {Out : Type} {m : XMatch W Out} (hm : Spans T n m) {l : LLLine W} {h : History W}
    (rep : Rep l h) {k : Nat} (hk : 1 ≤ k) (ha : AtMost T k h) :
    ∀ d out, m.go d l = .ok out → ∀ r ∈ out, d.Within (n * k) r.2 := by
  induction hm with
  | attr y t =>
    intro d out hg r hr
    obtain ⟨v, j⟩ := r
    change d.attr y l = .ok out at hg
    cases d with
    | fwd i =>
      by_cases hi : i < l.ll_tokens.length
      · rw [rep_attr_fwd rep y hi] at hg
        cases hg
        obtain ⟨r, hp, rfl, hm⟩ := (mem_attr_list (p := fun r => r.1 = i) (f := fun r => r.2)).1 hr
        have := ha _ hm t
        simp only [Dir.Within] at *; omega
      · rw [(rep_attr_oob rep y hi).1] at hg; cases hg
    | bwd i =>
      by_cases hi : i < l.ll_tokens.length
      · rw [rep_attr_bwd rep y hi] at hg
        cases hg
        obtain ⟨r, hp, rfl, hm⟩ := (mem_attr_list (p := fun r => r.2 = i) (f := fun r => r.1)).1 hr
        have := ha _ hm t
        simp only [Dir.Within] at *; omega
      · rw [(rep_attr_oob rep y hi).2] at hg; cases hg
  | attrEq y t v =>
    intro d out hg r hr
    obtain ⟨u, j⟩ := r
    change d.attrEq y v l = .ok out at hg
    cases d with
    | fwd i =>
      by_cases hi : i < l.ll_tokens.length
      · rw [rep_attrEq_fwd rep y v hi] at hg
        cases hg
        obtain ⟨r, w, hp, rfl, _, _, hm⟩ := (mem_oneOf_list (p := fun r => r.1 = i) (f := fun r => r.2)
          (g := fun _ => ())).1 hr
        have := ha _ hm t
        simp only [Dir.Within] at *; omega
      · rw [(rep_attrEq_oob rep y v hi).1] at hg; cases hg
    | bwd i =>
      by_cases hi : i < l.ll_tokens.length
      · rw [rep_attrEq_bwd rep y v hi] at hg
        cases hg
        obtain ⟨r, w, hp, rfl, _, _, hm⟩ := (mem_oneOf_list (p := fun r => r.2 = i) (f := fun r => r.1)
          (g := fun _ => ())).1 hr
        have := ha _ hm t
        simp only [Dir.Within] at *; omega
      · rw [(rep_attrEq_oob rep y v hi).2] at hg; cases hg
  | tokenHasAny y t set =>
    intro d out hg r hr
    obtain ⟨u, j⟩ := r
    change d.tokenAttrOneOf y set l = .ok out at hg
    cases d with
    | fwd i =>
      rw [rep_oneOf_fwd rep] at hg
      split at hg
      · cases hg
        simp only [List.mem_map, Prod.mk.injEq] at hr
        obtain ⟨_, _, _, rfl⟩ := hr
        simp only [Dir.Within]; omega
      · cases hg
    | bwd i =>
      by_cases hi : i < l.ll_tokens.length
      · rw [rep_oneOf_bwd rep y set hi] at hg
        cases hg
        obtain ⟨r, w, hp, rfl, _, _, hm⟩ := (mem_oneOf_list (p := fun r => r.2 = i) (f := fun r => r.1)
          (g := id)).1 hr
        have := ha _ hm t
        simp only [Dir.Within] at *; omega
      · rw [rep_oneOf_bwd_oob rep y set hi] at hg; cases hg
  | tokenText =>
    intro d out hg r hr
    have key : ∀ i, d = .fwd i ∨ d = .bwd i → r.2 = i := by
      intro i hd
      cases ht : l.ll_tokens[i]? with
      | none =>
        rcases hd with rfl | rfl
        · rw [textToken_fwd, ht] at hg; cases hg
        · rw [textToken_bwd, ht] at hg; cases hg; cases hr
      | some t =>
        rcases hd with rfl | rfl
        · rw [textToken_fwd, ht] at hg
          simp only at hg
          cases h2 : t.token <;> rw [h2] at hg <;> simp only at hg <;> cases hg
          · simp at hr; simp [hr]
          · cases hr
        · rw [textToken_bwd, ht] at hg
          simp only at hg
          cases h2 : t.token <;> rw [h2] at hg <;> simp only at hg <;> cases hg
          · simp at hr; simp [hr]
          · cases hr
    cases d with
    | fwd i => rw [key i (Or.inl rfl)]; simp only [Dir.Within]; omega
    | bwd i => rw [key i (Or.inr rfl)]; simp only [Dir.Within]; omega
  | @all2 n₁ n₂ _ _ _ _ _ _ iha ihb =>
    intro d out hg r hr
    obtain ⟨⟨x, y⟩, j⟩ := r
    obtain ⟨as, bs, ha, hb, hx, hy⟩ := (mem_all2 hg).1 hr
    have h1 := iha d as ha _ hx
    have h2 := ihb d bs hb _ hy
    rcases Nat.le_total n₁ n₂ with h | h
    · rw [Nat.min_eq_left h]; exact h1
    · rw [Nat.min_eq_right h]; exact h2
  | @all3 n₁ n₂ n₃ _ _ _ _ _ _ _ _ _ iha ihb ihc =>
    intro d out hg r hr
    rw [all3_ok_eq] at hg
    obtain ⟨⟨x, y, z⟩, j⟩ := r
    obtain ⟨as, bs, ha, hb, hx, hy⟩ := (mem_all2 hg).1 hr
    obtain ⟨bs', cs, hb', hc, hy', hz⟩ := (mem_all2 hb).1 hy
    have h1 := iha d as ha _ hx
    have h2 := ihb d bs' hb' _ hy'
    have h3 := ihc d cs hc _ hz
    rcases Nat.le_total n₂ n₃ with h | h
    · rw [Nat.min_eq_left h]
      rcases Nat.le_total n₁ n₂ with h | h
      · rw [Nat.min_eq_left h]; exact h1
      · rw [Nat.min_eq_right h]; exact h2
    · rw [Nat.min_eq_right h]
      rcases Nat.le_total n₁ n₃ with h | h
      · rw [Nat.min_eq_left h]; exact h1
      · rw [Nat.min_eq_right h]; exact h3
  | @anyOf2 n₁ n₂ _ _ _ _ _ _ iha ihb =>
    intro d out hg r hr
    obtain ⟨as, ha, h | h⟩ := anyOf2_ok_iff.1 hg
    · obtain ⟨_, rfl⟩ := h
      obtain ⟨p, hp, rfl⟩ := List.mem_map.1 hr
      exact within_mono (Nat.mul_le_mul_right _ (Nat.le_max_left ..)) (iha d as ha p hp)
    · obtain ⟨_, bs, hb, rfl⟩ := h
      obtain ⟨p, hp, rfl⟩ := List.mem_map.1 hr
      exact within_mono (Nat.mul_le_mul_right _ (Nat.le_max_right ..)) (ihb d bs hb p hp)
  | @anyOf3 n₁ n₂ n₃ α β γ a b c _ _ _ iha ihb ihc =>
    intro d out hg r hr
    have m1 : n₁ ≤ max n₁ (max n₂ n₃) := by omega
    have m2 : n₂ ≤ max n₁ (max n₂ n₃) := by omega
    have m3 : n₃ ≤ max n₁ (max n₂ n₃) := by omega
    rw [anyOf3_eq] at hg
    cases hq : (X.anyOf2 a (X.anyOf2 b c)).go d l with
    | error e => rw [hq] at hg; cases hg
    | ok out' =>
      rw [hq] at hg
      cases hg
      obtain ⟨p, hp, rfl⟩ := List.mem_map.1 hr
      obtain ⟨as, ha, h | h⟩ := anyOf2_ok_iff.1 hq
      · obtain ⟨_, rfl⟩ := h
        obtain ⟨p1, hp1, rfl⟩ := List.mem_map.1 hp
        exact within_mono (Nat.mul_le_mul_right _ m1) (iha d as ha p1 hp1)
      · obtain ⟨_, bs, hb, rfl⟩ := h
        obtain ⟨p1, hp1, rfl⟩ := List.mem_map.1 hp
        obtain ⟨as, ha, h | h⟩ := anyOf2_ok_iff.1 hb
        · obtain ⟨_, rfl⟩ := h
          obtain ⟨p2, hp2, rfl⟩ := List.mem_map.1 hp1
          exact within_mono (Nat.mul_le_mul_right _ m2) (ihb d as ha p2 hp2)
        · obtain ⟨_, cs, hc, rfl⟩ := h
          obtain ⟨p2, hp2, rfl⟩ := List.mem_map.1 hp1
          exact within_mono (Nat.mul_le_mul_right _ m3) (ihc d cs hc p2 hp2)
  | seq2 _ _ iha ihb =>
    intro d out hg r hr
    obtain ⟨⟨x, y⟩, j⟩ := r
    obtain ⟨as, m, d', bs, ha, hx, hn, hb, hy⟩ := (mem_seq2 hg).1 hr
    rw [Nat.add_mul]
    exact within_next hn (iha d as ha _ hx) (ihb d' bs hb _ hy)
  | seq3 _ _ _ iha ihb ihc =>
    intro d out hg r hr
    rw [seq3_eq] at hg
    obtain ⟨⟨x, y, z⟩, j⟩ := r
    obtain ⟨as, m, d', bs, ha, hx, hn, hb, hy⟩ := (mem_seq2 hg).1 hr
    obtain ⟨cs, m2, d2, ds, hc, hy2, hn2, hd, hz⟩ := (mem_seq2 hb).1 hy
    rw [Nat.add_mul, Nat.add_mul]
    exact within_next hn (iha d as ha _ hx) (within_next hn2 (ihb d' cs hc _ hy2) (ihc d2 ds hd _ hz))
  | @user n _ _ _ part t _ ih =>
    intro d out hg r hr
    exact userTree_ends (P := d.Within (n * k)) part t d l (fun i rs h x hx => ih i d rs h x hx) [] (by simp) out hg r hr
  | more hn _ ih => exact fun d out hg r hr => within_mono (Nat.mul_le_mul_right _ hn) (ih d out hg r hr)

theorem spans_built {n : Nat} {Out : Type} {m : XMatch W Out} (hm : Spans T n m) : Built T true m := by
  induction hm with
  | attr k t => exact .attr k t
  | attrEq k t v => exact .attrEq k t v
  | tokenHasAny k t set => exact .tokenHasAny k t rfl set
  | tokenText => exact .tokenText
  | all2 _ _ h1 h2 => exact .all2 h1 h2
  | all3 _ _ _ h1 h2 h3 => exact .all3 h1 h2 h3
  | anyOf2 _ _ h1 h2 => exact .anyOf2 h1 h2
  | anyOf3 _ _ _ h1 h2 h3 => exact .anyOf3 h1 h2 h3
  | seq2 _ _ h1 h2 => exact .seq2 h1 h2
  | seq3 _ _ _ h1 h2 h3 => exact .seq3 h1 h2 h3
  | user part t _ ih => exact .user part t ih
  | more _ _ ih => exact ih

theorem spaces_spans (n : Nat) : Spans (W := W) (fun k => k = .textTag) (n + 1) (X.spaces n).2 := by
  have h : Spans (W := W) (fun k => k = .textTag) 1 X.whitespace :=
    Spans.attrEq (T := fun k => k = .textTag) .textTag rfl TextTag.SPACE
  induction n with
  | zero => exact h
  | succ n ih => rw [Nat.add_comm (n + 1) 1]; exact .seq2 h ih

/-- the word splitter leaves a text of one character alone -/
theorem split_single (L : SplitLaws W) (c : Char) : W.splitWordBounds [c] = [[c]] := by
  have h1 := L.concat [c]
  have h2 := L.nonempty [c]
  generalize W.splitWordBounds [c] = ws at h1 h2
  cases ws with
  | nil => simp at h1
  | cons w ws =>
    cases w with
    | nil => exact absurd rfl (h2 [] (by simp))
    | cons x xs =>
      simp only [List.flatten_cons, List.cons_append, List.cons.injEq, List.append_eq_nil_iff] at h1
      obtain ⟨rfl, rfl, h3⟩ := h1
      cases ws with
      | nil => rfl
      | cons w ws =>
        exfalso
        apply h2 w (by simp)
        simp only [List.flatten_cons, List.append_eq_nil_iff] at h3
        exact h3.1

theorem blanks_tokens (L : SplitLaws W) (c : Char) (hc : W.isWhitespace c = true) (hd : ¬ IsDigit c) (n : Nat) :
    (blanks W c n).flatMap (tokensOf W (fun _ => 0)) = List.replicate n (LToken.Text [c] .SPACE, 0) := by
  have h1 : tokensOf W (fun _ => 0) (.Text [c] []) = [(LToken.Text [c] .SPACE, 0)] := by
    simp [tokensOf, textPieces, split_single L, wordPieces, wordTag, hc, hd]
  unfold blanks
  induction n with
  | zero => rfl
  | succ n ih => rw [List.replicate_succ, List.replicate_succ, List.flatMap_cons, ih, h1]; rfl

theorem blanks_wf (c : Char) (n : Nat) : ∀ t ∈ blanks W c n, t.WF := by
  intro t ht a ha
  rw [(List.mem_replicate.1 ht).2] at ha
  cases ha

theorem blanks_noCustom (c : Char) (n : Nat) (k : Ty W) : NoCustom k (blanks W c n) := by
  intro t ht a ha
  rw [(List.mem_replicate.1 ht).2] at ha
  cases ha

end LNlp
