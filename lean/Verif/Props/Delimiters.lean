import Verif.Lemmas.Delimiters
import Verif.Props.Tokenize
/-
C118: configurations of the amount resolver compared.
-/
namespace LNlp
variable {W : World}

/-! ### C118 -/

/-- C118: two configurations that agree on the characters of the line find the same amounts, or panic alike.  So
the order and repetitions of the delimiters do not matter. -/
theorem C118_same {r r' : AmountResolver} {s : LLSelection W} {h : History W} (hr : Reachable s.ll_line.val h)
    (hs : s.Inside) (agree : ∀ i, ∀ c ∈ charsOn h i, (c ∈ r.delimiters ↔ c ∈ r'.delimiters) ∧ (c = r.decimal ↔ c = r'.decimal)) :
    r.go s = r'.go s := by
  have hd : ∀ i, DelimAt r h i → DelimAt r' h i := fun i ⟨c, hc, hm⟩ => ⟨c, hc, ((agree i c hc).1).1 hm⟩
  have hd' : ∀ i, DelimAt r' h i → DelimAt r h i := fun i ⟨c, hc, hm⟩ => ⟨c, hc, ((agree i c hc).1).2 hm⟩
  have hc : ∀ i, DecAt r h i → DecAt r' h i := fun i hm => by
    have e := (agree i _ hm).2.1 rfl
    unfold DecAt at hm ⊢; rwa [← e]
  have hc' : ∀ i, DecAt r' h i → DecAt r h i := fun i hm => by
    have e := (agree i _ hm).2.2 rfl
    unfold DecAt at hm ⊢; rwa [← e]
  cases e : r.go s with
  | ok out =>
    exact ((C67_amounts r' hr hs out).2 (amounts_congr hd hd' hc hc' ((C67_amounts r hr hs out).1 e))).symm
  | error p =>
    exact ((C68_panics_iff r' hr hs p).1.2 (amountsFail_congr hd hd' hc hc' ((C68_panics_iff r hr hs p).1.1 e))).symm

/-- C118: on lines whose tags and characters are those of the tokenizer and where no two numbers are neighbours, every
amount lies in an amount found with more delimiters, and every amount found with more delimiters contains one found
with fewer: more delimiters join amounts and never cut them. -/
theorem C118_joins {r r' : AmountResolver} (dec : r'.decimal = r.decimal) (sub : ∀ c ∈ r.delimiters, c ∈ r'.delimiters)
    (nd : NoDigits r') {l : LLLine W} {h : History W} (hr : Reachable l h) (hp : PlainTags l h) (hc : PlainChars l h)
    (ap : NumbersApart l h) (ne : l.ll_tokens ≠ []) (ptr ptr' : Nat) (out out' : List (LLCursorAssignment W.Decimal))
    (ho : r.go (wholeLine l ptr) = .ok out) (ho' : r'.go (wholeLine l ptr') = .ok out') :
    (∀ x ∈ out, ∃ y ∈ out', Within (x.start_idx, x.end_idx) (y.start_idx, y.end_idx)) ∧
    ∀ y ∈ out', ∃ x ∈ out, Within (x.start_idx, x.end_idx) (y.start_idx, y.end_idx) := by
  have nd0 : NoDigits r := ⟨dec ▸ nd.1, fun c hc => nd.2 c (sub c hc)⟩
  have F := amounts_family r hr ne ap (plain_noconflict hr hp hc nd0) ptr out ho
  have F' := amounts_family r' hr ne ap (plain_noconflict hr hp hc nd) ptr' out' ho'
  have hdec : DecAt r' h = DecAt r h := by funext i; unfold DecAt; rw [dec]
  rw [hdec] at F'
  have hsub : ∀ i, DelimAt r h i → DelimAt r' h i := fun i ⟨c, h1, h2⟩ => ⟨c, h1, sub c h2⟩
  have hcase : (∀ i, DecAt r h i → DelimAt r' h i) ∨ ∀ i, DecAt r h i → ¬ DelimAt r' h i := by
    by_cases hd : r.decimal ∈ r'.delimiters
    · exact .inl fun i hi => ⟨_, hi, hd⟩
    · refine .inr fun i hi => ?_
      rintro ⟨c, h1, h2⟩
      unfold DecAt charsOn at hi
      unfold charsOn at h1
      rw [hc.1 i] at hi h1
      cases hch : charAt l i with
      | none => rw [hch] at hi; simp at hi
      | some d =>
        rw [hch] at hi h1
        simp at hi h1
        rw [h1, ← hi] at h2
        exact hd h2
  have key : ∀ x ∈ out, ∃ y ∈ out', Within (x.start_idx, x.end_idx) (y.start_idx, y.end_idx) := by
    intro x hx
    obtain ⟨y, hy, hw⟩ := F.within F' hsub hcase _ (List.mem_map.2 ⟨x, hx, rfl⟩)
    obtain ⟨y, hy', rfl⟩ := List.mem_map.1 hy
    exact ⟨y, hy', hw⟩
  refine ⟨key, fun y hy => ?_⟩
  have hym : (y.start_idx, y.end_idx) ∈ out'.map (fun x => (x.start_idx, x.end_idx)) := List.mem_map.2 ⟨y, hy, rfl⟩
  obtain ⟨last, hsy⟩ := F'.shape _ hym
  have hn := hsy.num 0 hsy.num_last.2
  simp only [Nat.mul_zero, Nat.add_zero] at hn
  obtain ⟨x, hx, h1, h2⟩ := F.all _ hn
  obtain ⟨x, hxm, rfl⟩ := List.mem_map.1 hx
  obtain ⟨y', hy', hw⟩ := key x hxm
  have hle : y.start_idx ≤ y.end_idx := Nat.le_trans hsy.num_last.2 hsy.last_le
  have e := F'.apart _ hym _ (List.mem_map.2 ⟨y', hy', rfl⟩) y.start_idx (Nat.le_refl _) hle
    (Nat.le_trans hw.1 h1) (Nat.le_trans h2 hw.2)
  exact ⟨x, hxm, e ▸ hw⟩

/-- C118: in particular on a line made from a string, if the word splitter does not cut between digits. -/
theorem C118_joins_text (NB : NoDigitBreak W) {r r' : AmountResolver} (dec : r'.decimal = r.decimal)
    (sub : ∀ c ∈ r.delimiters, c ∈ r'.delimiters) (nd : NoDigits r') {str : Str} {l : LLLine W}
    (ok : createLineFromString W str = .ok l) (ne : l.ll_tokens ≠ []) (ptr ptr' : Nat)
    (out out' : List (LLCursorAssignment W.Decimal))
    (ho : r.go (wholeLine l ptr) = .ok out) (ho' : r'.go (wholeLine l ptr') = .ok out') :
    (∀ x ∈ out, ∃ y ∈ out', Within (x.start_idx, x.end_idx) (y.start_idx, y.end_idx)) ∧
    ∀ y ∈ out', ∃ x ∈ out, Within (x.start_idx, x.end_idx) (y.start_idx, y.end_idx) := by
  have wf : ∀ t ∈ [InputToken.Text (W := W) str []], t.WF := by simp [InputToken.WF, InputToken.attrList]
  have nc : ∀ k, NoCustom k [InputToken.Text (W := W) str []] := by simp [NoCustom, InputToken.attrList]
  have hr : Reachable l (creationHistory W utf8Len [.Text str []]) := .create _ _ _ wf ok
  have hp := creation_plainTags wf ok (nc _)
  refine C118_joins dec sub nd hr hp (creation_plainChars wf ok (nc _)) ?_ ne ptr ptr' out out' ho ho'
  intro i t u h1 h2
  obtain ⟨before, block, after, hm, hb, hl, hnt⟩ := C08_no_adjacent_numbers NB utf8Len _ l wf ok [] [] str [] rfl
  have e : block = l.ll_tokens.map (·.token) := by
    have hbe : before = [] := by simpa using hb
    have hlen : (l.ll_tokens.map (·.token)).length = block.length := by
      rw [hl]
      obtain ⟨_, ht, _⟩ := create_inv wf ok
      rw [ht, layoutM_tokens]; simp
    rw [hm, hbe] at hlen
    simp at hlen
    rw [hm, hbe, hlen]; simp
  obtain ⟨a1, a2⟩ := h1
  obtain ⟨b1, b2⟩ := h2
  have ht : ∀ {i t}, textAt l i = some t → TextTag.NATN ∈ tagsOn (creationHistory W utf8Len [.Text str []]) i →
      (l.ll_tokens.map (·.token))[i]? = some (.Text t .NATN) := by
    intro i t h1 h2
    have h3 : tagsOn (creationHistory W utf8Len [.Text str []]) i = (tagAt l i).toList := hp.1 i
    rw [h3] at h2
    unfold textAt at h1
    unfold tagAt at h2
    rw [List.getElem?_map]
    cases hg : l.ll_tokens[i]? with
    | none => rw [hg] at h1; simp at h1
    | some tok =>
      rw [hg] at h1 h2
      cases hk : tok.token with
      | Value => simp [hk] at h2
      | Text s tag => simp [hk] at h1 h2 ⊢; exact ⟨h1, h2.symm⟩
  have g1 := ht a1 a2
  have g2 := ht b1 b2
  rw [← e] at g1 g2
  obtain ⟨hi, g1⟩ := List.getElem?_eq_some_iff.1 g1
  obtain ⟨hi', g2⟩ := List.getElem?_eq_some_iff.1 g2
  refine hnt (block.take i) (block.drop (i + 2)) t u .NATN .NATN ?_ ⟨rfl, by simp⟩
  rw [← g1, ← g2, ← List.drop_eq_getElem_cons, ← List.drop_eq_getElem_cons, List.take_append_drop]

/-- `"x 1'234.50, 7. y 8,"` read without delimiters: the apostrophe cuts the first amount -/
def Demo.noDelims : AmountResolver := ⟨[], '.'⟩
def Demo.noDelimsOut : List (LLCursorAssignment Demo.W.Decimal) :=
  [⟨2, 2, ("1".toList : Str)⟩, ⟨4, 6, ("234.50".toList : Str)⟩, ⟨9, 9, ("7".toList : Str)⟩, ⟨14, 14, ("8".toList : Str)⟩]
theorem Demo.noDelimsGo : Demo.noDelims.go (wholeLine Demo.amountLine 0) = .ok Demo.noDelimsOut := rfl

example := C118_joins_text Demo.noDigitBreak (r := Demo.noDelims) (r' := .english) rfl (by simp [Demo.noDelims]) english_noDigits
  (str := "x 1'234.50, 7. y 8,".toList) (l := Demo.amountLine) rfl Demo.amountLine_ne 0 0 _ _ Demo.noDelimsGo Demo.amountGo
example := C118_same (r := .english) (r' := ⟨['\'', ',', '\''], '.'⟩) (s := wholeLine Demo.amountLine 0) Demo.amountReach
  Demo.amountInside (fun i c _ => ⟨by simp [AmountResolver.english, or_comm], Iff.rfl⟩)

/-- C118, the claim for all lines -/
def C118_claim : Prop := ∀ (W : World) (r r' : AmountResolver) (l : LLLine W) (h : History W) (ptr : Nat)
  (out out' : List (LLCursorAssignment W.Decimal)), r'.decimal = r.decimal → (∀ c ∈ r.delimiters, c ∈ r'.delimiters) →
  NoDigits r' → Reachable l h → PlainTags l h → PlainChars l h → l.ll_tokens ≠ [] → r.go (wholeLine l ptr) = .ok out →
  r'.go (wholeLine l ptr) = .ok out' →
  ∀ x ∈ out, ∃ y ∈ out', Within (x.start_idx, x.end_idx) (y.start_idx, y.end_idx)

/-- `"1.2"` and `"3.4"` as two inputs -/
def Demo.twoInputs : List (InputToken Demo.W) := [.Text ['1', '.', '2'] [], .Text ['3', '.', '4'] []]
def Demo.twoInputsLine : LLLine Demo.W := Demo.getOk Demo.emptyLine (createLineFromInputTokens Demo.W Demo.twoInputs utf8Len)
theorem Demo.twoInputs_wf : ∀ t ∈ Demo.twoInputs, t.WF := by simp [Demo.twoInputs, InputToken.WF, InputToken.attrList]

/-- C118: where numbers of two inputs are neighbours a further delimiter can cut an amount: `1.2` `3.4` are two
amounts, with `.` as a delimiter the amounts are `1.23` and `4`. -/
theorem C118_neighbours : ¬ C118_claim := by
  intro claim
  have nc : ∀ k, NoCustom k Demo.twoInputs := by simp [Demo.twoInputs, NoCustom, InputToken.attrList]
  have := claim Demo.W ⟨[], '.'⟩ ⟨['.'], '.'⟩ Demo.twoInputsLine _ 0
    [⟨0, 2, ("1.2".toList : Str)⟩, ⟨3, 5, ("3.4".toList : Str)⟩] [⟨0, 3, ("123".toList : Str)⟩, ⟨5, 5, ("4".toList : Str)⟩] rfl
    (by simp) ⟨by decide, by decide⟩ (.create Demo.twoInputs utf8Len _ Demo.twoInputs_wf rfl)
    (creation_plainTags Demo.twoInputs_wf rfl (nc _)) (creation_plainChars Demo.twoInputs_wf rfl (nc _))
    (by intro h; cases h) rfl rfl ⟨3, 5, ("3.4".toList : Str)⟩ (by simp)
  obtain ⟨y, hy, h1, h2⟩ := this
  rcases List.mem_cons.1 hy with rfl | hy
  · simp at h2
  · rcases List.mem_cons.1 hy with rfl | hy
    · simp at h1
    · cases hy

end LNlp
