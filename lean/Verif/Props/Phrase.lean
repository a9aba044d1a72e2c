import Verif.Lemmas.Phrase
import Verif.Lemmas.SelectApi
import Verif.Props.Resolve
import Verif.Demo.Examples
/-
C106: sequences of any length, and phrases.
-/
namespace LNlp
variable {W : World} {α : Type}

/-! ### C106 -/

/-- C106: an expression nested from `x::seq` in any way gives exactly the chains of adjacent matches of its
parts, in the same order and as often, with the values from left to right. -/
theorem C106_nesting {l : LLLine W} (t : SeqTree W α) (ht : ∀ m ∈ t.leaves, TotalOn l m) (d : Dir) (hd : d.at < l.ll_tokens.length) :
    ∃ rs, t.matcher.go d l = .ok rs ∧ rs.map (fun p => (t.values p.1, p.2)) = chains l d t.leaves := by
  obtain ⟨h1, h2⟩ := seqTree_spec t ht
  obtain ⟨rs, hrs, _⟩ := h1 d hd
  refine ⟨rs, hrs, ?_⟩
  rw [← h2 d hd, resultsOf_of hrs]

/-- C106: so how a sequence is nested makes no difference. -/
theorem C106_rebracketing {l : LLLine W} (t t' : SeqTree W α) (same : t.leaves = t'.leaves) (ht : ∀ m ∈ t.leaves, TotalOn l m)
    (d : Dir) (hd : d.at < l.ll_tokens.length) :
    ∃ rs rs', t.matcher.go d l = .ok rs ∧ t'.matcher.go d l = .ok rs' ∧
      rs.map (fun p => (t.values p.1, p.2)) = rs'.map (fun p => (t'.values p.1, p.2)) := by
  obtain ⟨rs, h1, h2⟩ := C106_nesting t ht d hd
  obtain ⟨rs', h3, h4⟩ := C106_nesting t' (by rw [← same]; exact ht) d hd
  exact ⟨rs, rs', h1, h3, by rw [h2, h4, same]⟩

/-- C106: the library's matchers other than `token_has_any` can be parts, on any line. -/
theorem C106_parts {m : XMatch W α} {T : Ty W → Prop} (hm : Built T false m) {l : LLLine W} {h : History W}
    (hr : Reachable l h) : TotalOn l m := built_totalOn hm hr

/-- seq((a, seq((b, c)))), seq((seq((a, b)), c)) and seq((a, b, c)) with texts -/
def Demo.nestings : List (SeqTree Demo.W Str) :=
  [.two (.leaf X.tokenText) (.two (.leaf X.tokenText) (.leaf X.tokenText)),
   .two (.two (.leaf X.tokenText) (.leaf X.tokenText)) (.leaf X.tokenText),
   .three (.leaf X.tokenText) (.leaf X.tokenText) (.leaf X.tokenText)]
theorem Demo.nestings_total : ∀ t ∈ Demo.nestings, ∀ m ∈ t.leaves, TotalOn Demo.exLine2 m := by
  intro t ht m hm
  have : m = X.tokenText := by
    simp only [Demo.nestings, List.mem_cons, List.not_mem_nil, or_false] at ht
    rcases ht with rfl | rfl | rfl <;> simp only [SeqTree.leaves, List.cons_append, List.nil_append, List.mem_cons, List.not_mem_nil, or_false] at hm <;>
      rcases hm with rfl | rfl | rfl <;> rfl
  rw [this]
  exact C106_parts (T := fun _ => True) .tokenText Demo.exReach2
example := fun t (ht : t ∈ Demo.nestings) => C106_nesting t (Demo.nestings_total t ht) (.fwd 0) (by decide)
example : chains Demo.exLine2 (.fwd 0) [X.tokenText, X.tokenText, X.tokenText] = [([['P', 'a', 'y'], [' '], ['1', '2']], 2)] := rfl
example := C106_rebracketing (l := Demo.exLine2) Demo.nestings[0] Demo.nestings[1] rfl
  (Demo.nestings_total _ (by simp [Demo.nestings])) (.bwd 3) (by decide)

/-- C106, phrases end to end: after a table of words has run, searching for a sequence of word values with
whitespace between them — nested in any way — finds exactly the phrases: the places where the texts of the
tokens have these values in the table and one whitespace token lies between two words. If the table gives no
token more than one value, every phrase is found once, from left to right. -/
theorem C106_phrase {k : Ty W} (r : TextMatchAssignResolver W k) {l : LLLine W} {h : History W} (hr : Reachable l h)
    (plain : PlainTags l h) (ne : l.ll_tokens ≠ []) (hn : ∀ x ∈ h, x.ty ≠ k) (hk : k ≠ .textTag) (ptr ptr' : Nat) :
    ∃ l', l.run ptr r.resolver = .ok l' ∧ ∀ (ws : List (Val k)) (t : SeqTree W Unit), t.leaves = phraseParts ws →
      ∃ found, (wholeLine l' ptr').findBy t.matcher = .ok found ∧
        (∀ i j, (∃ x, (⟨⟨ptr', l'⟩, i, j⟩, x) ∈ found) ↔ PhraseAt r l ws i j) ∧
        ((∀ i, (tableValues r l i).length ≤ 1) → found.Pairwise (fun p q => p.1.start_idx < q.1.start_idx)) := by
  obtain ⟨l', hl, hr'⟩ := C58_run r hr ne ptr
  have htoks : l'.ll_tokens = l.ll_tokens := run_tokens hl
  refine ⟨l', hl, fun ws t ht => ?_⟩
  generalize hh : (h ++ (between 0 (l.ll_tokens.length - 1)).flatMap (fun i =>
      (tableValues r l i).map (fun v => (⟨k, (i, i), v⟩ : Rec W)))) = h' at hr'
  have hsplit : ∀ x ∈ h', x ∈ h ∨ (x.ty = k ∧ x.range.1 = x.range.2) := by
    intro x hx
    rw [← hh] at hx
    rcases List.mem_append.1 hx with hx | hx
    · exact Or.inl hx
    · obtain ⟨i, _, hx⟩ := List.mem_flatMap.1 hx
      obtain ⟨v, _, rfl⟩ := List.mem_map.1 hx
      exact Or.inr ⟨rfl, rfl⟩
  have hlen : l'.ll_tokens.length = l.ll_tokens.length := by rw [htoks]
  have hw : ∀ i, i < l.ll_tokens.length → ∀ w, resultsOf (X.attrEq k w) (.fwd i) l' =
      ((valuesOf k (i, i) h').filter (fun x => valEq k x w)).map (fun _ => ((), i)) := fun i hi w =>
    resultsOf_of (attrEq_single hr' k w (fun x hx e => by
      rcases hsplit x hx with h1 | h1
      · exact absurd e (hn x h1)
      · exact h1.2) (by rw [hlen]; exact hi))
  have htag : ∀ i, (valuesOf .textTag (i, i) h' : List TextTag) = (tagAt l i).toList := by
    intro i
    rw [← plain.1 i, ← hh, valuesOf_append]
    have : valuesOf .textTag (i, i) ((between 0 (l.ll_tokens.length - 1)).flatMap (fun i =>
        (tableValues r l i).map (fun v => (⟨k, (i, i), v⟩ : Rec W)))) = [] := by
      apply List.eq_nil_iff_forall_not_mem.2
      intro v hv
      obtain ⟨i', _, hx⟩ := List.mem_flatMap.1 (mem_valuesOf.1 hv)
      obtain ⟨w, _, e⟩ := List.mem_map.1 hx
      exact hk (congrArg Rec.ty e)
    rw [this, List.append_nil]
  have hs : ∀ i, i < l.ll_tokens.length → resultsOf (X.whitespace (W := W)) (.fwd i) l' =
      ((tagAt l i).toList.filter (fun x => x == .SPACE)).map (fun _ => ((), i)) := fun i hi => by
    refine (resultsOf_of (attrEq_single hr' .textTag .SPACE (fun x hx e => by
      rcases hsplit x hx with h1 | h1
      · exact plain.2 x h1 e
      · exact h1.2) (by rw [hlen]; exact hi))).trans ?_
    rw [← htag i]; rfl
  have hchain := phrase_chains r hlen
    (fun i hi w => ⟨((valuesOf k (i, i) h').filter (fun x => valEq k x w)).length, by rw [hw i hi, List.map_const'], by
      rw [Ne, List.length_eq_zero_iff, ← Ne, List.ne_nil_iff_exists_cons]
      constructor
      · rintro ⟨v, vs, e⟩
        have : v ∈ (valuesOf k (i, i) h').filter (fun x => valEq k x w) := by rw [e]; simp
        obtain ⟨h1, h2⟩ := List.mem_filter.1 this
        rw [← hh, table_valuesOf r l hn hi] at h1
        exact ⟨v, h1, h2⟩
      · rintro ⟨v, h1, h2⟩
        have : v ∈ (valuesOf k (i, i) h').filter (fun x => valEq k x w) :=
          List.mem_filter.2 ⟨by rw [← hh, table_valuesOf r l hn hi]; exact h1, h2⟩
        exact List.ne_nil_iff_exists_cons.1 (List.ne_nil_of_mem this)⟩)
    (fun i hi => ⟨((tagAt l i).toList.filter (fun x => x == .SPACE)).length, by rw [hs i hi, List.map_const'], by
      cases tagAt l i with
      | none => simp
      | some tag => cases tag <;> simp⟩)
  have htotal : ∀ m ∈ t.leaves, TotalOn l' m := by
    intro m hm
    rw [ht] at hm
    rcases phraseParts_mem ws m hm with ⟨w, rfl⟩ | rfl
    · exact built_totalOn (T := fun _ => True) (.attrEq _ trivial _) hr'
    · exact built_totalOn (T := fun _ => True) (.attrEq _ trivial _) hr'
  obtain ⟨htot, hvals⟩ := seqTree_spec t htotal
  have hin : ∀ i, (wholeLine l' ptr').Has i ↔ i < l.ll_tokens.length := by
    intro i
    have : 0 < l.ll_tokens.length := List.length_pos_iff.2 ne
    show 0 ≤ i ∧ i ≤ l'.ll_tokens.length - 1 ↔ _
    rw [hlen]; omega
  have hgo : ∀ i, i < l.ll_tokens.length → t.matcher.go (.fwd i) l' = .ok (resultsOf t.matcher (.fwd i) l') := by
    intro i hi
    obtain ⟨rs, h1, _⟩ := htot (.fwd i) (by rw [hlen]; exact hi)
    rw [resultsOf_of h1]; exact h1
  refine ⟨_, findBy_ok_iff.2 ⟨fun i hi => ⟨_, hgo i ((hin i).1 hi)⟩, rfl⟩, fun i j => ?_, fun h1 => ?_⟩
  · have hpin : PhraseAt r l ws i j → i < l.ll_tokens.length := by
      intro hp
      have ht : ∃ v, v ∈ tableValues r l i := by
        match ws, hp with
        | [w], hp => exact ⟨_, hp.2.choose_spec.1⟩
        | w :: w2 :: ws, hp => exact ⟨_, hp.1.choose_spec.1⟩
      obtain ⟨v, hv⟩ := ht
      unfold tableValues textAt at hv
      cases ht : l.ll_tokens[i]? with
      | none => rw [ht] at hv; cases hv
      | some t => exact (List.getElem?_eq_some_iff.1 ht).1
    have hmem : ∀ i, i < l.ll_tokens.length → ((∃ x, (x, j) ∈ resultsOf t.matcher (.fwd i) l') ↔ PhraseAt r l ws i j) := by
      intro i hi
      rw [← hchain ws i j hi, ← ht, ← hvals (.fwd i) (by rw [hlen]; exact hi)]
      constructor
      · rintro ⟨x, hx⟩; exact ⟨_, List.mem_map.2 ⟨_, hx, rfl⟩⟩
      · rintro ⟨os, hos⟩
        obtain ⟨p, hp, e⟩ := List.mem_map.1 hos
        cases e
        exact ⟨p.1, hp⟩
    constructor
    · rintro ⟨x, hx⟩
      obtain ⟨i', hi', hx⟩ := List.mem_flatMap.1 hx
      obtain ⟨p, hp, e⟩ := List.mem_map.1 hx
      simp only [fwdSel, Prod.mk.injEq, LLSelection.mk.injEq] at e
      obtain ⟨⟨_, rfl, rfl⟩, rfl⟩ := e
      have hi := (hin _).1 (mem_rangeIncl.1 hi')
      replace hp : p ∈ okD (t.matcher.go (.fwd i') l') := hp
      rw [hgo _ hi] at hp
      exact (hmem _ hi).1 ⟨p.1, hp⟩
    · intro hp
      have hi := hpin hp
      obtain ⟨x, hx⟩ := (hmem i hi).2 hp
      refine ⟨x, List.mem_flatMap.2 ⟨i, mem_rangeIncl.2 ((hin i).2 hi), List.mem_map.2 ⟨(x, j), ?_, rfl⟩⟩⟩
      show (x, j) ∈ okD (t.matcher.go (.fwd i) l')
      rw [hgo i hi]
      exact hx
  · rw [List.pairwise_flatMap]
    refine ⟨fun i hi => ?_, ?_⟩
    · have hi := (hin _).1 (mem_rangeIncl.1 hi)
      have hl1 : (resultsOf t.matcher (.fwd i) l').length ≤ 1 := by
        have := chains_le_one t.leaves (.fwd i) (by rw [hlen]; exact hi) htotal ?_ ⟨i, rfl⟩
        · rw [← hvals (.fwd i) (by rw [hlen]; exact hi), List.length_map] at this
          exact this
        · rintro m hm _ hd ⟨i, rfl⟩
          have hi : i < l.ll_tokens.length := by rw [← hlen]; exact hd
          rw [ht] at hm
          rcases phraseParts_mem ws m hm with ⟨w, rfl⟩ | rfl
          · rw [hw i hi, List.length_map]
            refine Nat.le_trans (List.length_filter_le _ _) ?_
            refine Nat.le_trans (Nat.le_of_eq ?_) (h1 i)
            rw [← hh, table_valuesOf r l hn hi]
          · rw [hs i hi, List.length_map]
            refine Nat.le_trans (List.length_filter_le _ _) ?_
            cases tagAt l i <;> simp
      show List.Pairwise _ ((okD (t.matcher.go (.fwd i) l')).map _)
      rw [hgo i hi]
      show List.Pairwise _ ((resultsOf t.matcher (.fwd i) l').map _)
      match resultsOf t.matcher (.fwd i) l', hl1 with
      | [], _ => exact .nil
      | [p], _ => exact List.pairwise_singleton _ _
    · refine (rangeIncl_pairwise _ _).imp ?_
      intro a b hab x hx y hy
      obtain ⟨_, _, rfl⟩ := List.mem_map.1 hx
      obtain ⟨_, _, rfl⟩ := List.mem_map.1 hy
      exact hab

/-- "in New York" and a table for "new" and "york" -/
def Demo.cityText : Str := ['i', 'n', ' ', 'N', 'e', 'w', ' ', 'Y', 'o', 'r', 'k']
def Demo.cityLine : LLLine Demo.W := Demo.getOk Demo.emptyLine (createLineFromString Demo.W Demo.cityText)
theorem Demo.cityLine_ok : createLineFromString Demo.W Demo.cityText = .ok Demo.cityLine := rfl
def Demo.cityTable : TextMatchAssignResolver Demo.W (Ty.user (5 : Nat)) :=
  TextMatchAssignResolver.newCaseInsensitiveStrArr (W := Demo.W) (Ty.user (5 : Nat)) [(['n', 'e', 'w'], (['N'] : Str)), (['Y', 'o', 'r', 'k'], (['Y'] : Str))]
example := C106_phrase Demo.cityTable (.create _ _ _ (string_wf _) Demo.cityLine_ok)
  (creation_plainTags (string_wf _) Demo.cityLine_ok (string_noCustom _ _)) (by intro h; cases h) (by
    intro x hx e
    rcases string_types _ x hx with h | h <;> rw [h] at e <;> cases e) (by intro h; cases h) 0 0
example : PhraseAt Demo.cityTable Demo.cityLine [(['N'] : Str), (['Y'] : Str)] 2 4 :=
  ⟨⟨(['N'] : Str), List.mem_cons_self .., rfl⟩, rfl, rfl, ⟨(['Y'] : Str), List.mem_cons_self .., rfl⟩⟩
example : (SeqTree.three (W := Demo.W) (.leaf (X.attrEq (Ty.user (5 : Nat)) (['N'] : Str))) (.leaf X.whitespace)
    (.leaf (X.attrEq (Ty.user (5 : Nat)) (['Y'] : Str)))).leaves = phraseParts (W := Demo.W) (k := Ty.user (5 : Nat)) [(['N'] : Str), (['Y'] : Str)] := rfl

example := C106_parts (m := X.seq2 (X.attr (W := Demo.W) (Ty.user 2)) X.tokenText) (T := fun _ => True) (.seq2 (.attr _ trivial) .tokenText) Demo.exReach2

end LNlp
