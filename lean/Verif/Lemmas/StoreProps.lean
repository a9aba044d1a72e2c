import Verif.Lemmas.Reach
import Verif.Lemmas.Pieces
import Verif.Model.Display
import Verif.Spec.Store
import Verif.Spec.Laws
/- Helper lemmas for Props/Store.lean. -/
namespace LNlp
variable {W : World}

theorem firsts_of_nodup {α} [DecidableEq α] : ∀ {l : List α}, l.Nodup → firsts l = l
  | [], _ => rfl
  | x :: xs, h => by
    simp only [List.nodup_cons] at h
    simp only [firsts, firsts_of_nodup h.2, List.cons.injEq, true_and]
    rw [List.filter_eq_self]
    intro y hy
    simp only [decide_eq_true_eq]
    rintro rfl; exact h.1 hy

theorem firsts_block {α} [DecidableEq α] (a : α) : ∀ (A B : List α), (∀ x ∈ A, x = a) → a ∉ B →
    firsts (A ++ B) = (if A = [] then [] else [a]) ++ firsts B
  | [], B, _, _ => by simp
  | x :: A, B, hA, hB => by
    have hx := hA x (by simp)
    subst hx
    have ih := firsts_block x A B (fun y hy => hA y (by simp [hy])) hB
    simp only [List.cons_append, firsts, ih, List.filter_append]
    have hf : (firsts B).filter (fun y => decide (y ≠ x)) = firsts B := by
      rw [List.filter_eq_self]
      intro y hy
      simp only [decide_eq_true_eq]
      rintro rfl; exact hB (mem_firsts.1 hy)
    rw [hf]
    by_cases hA' : A = [] <;> simp [hA']

theorem rangesOf_append_of_none (k : Ty W) (h1 h2 : History W) (hn : ∀ x ∈ h1, x.ty ≠ k) :
    rangesOf k (h1 ++ h2) = rangesOf k h2 := by
  have : h1.filter (fun x => decide (x.ty = k)) = [] := by
    rw [List.filter_eq_nil_iff]; intro x hx; simpa using hn x hx
  simp [rangesOf, List.filter_append, this]

theorem rangesOf_append_none (k : Ty W) (h1 h2 : History W) (hn : ∀ x ∈ h2, x.ty ≠ k) :
    rangesOf k (h1 ++ h2) = rangesOf k h1 := by
  have : h2.filter (fun x => decide (x.ty = k)) = [] := by
    rw [List.filter_eq_nil_iff]; intro x hx; simpa using hn x hx
  simp [rangesOf, List.filter_append, this]

theorem valuesOf_none (k : Ty W) (r : LRange) (h : History W) (hn : ∀ x ∈ h, x.ty ≠ k) :
    valuesOf k r h = [] := by
  rw [List.eq_nil_iff_forall_not_mem]
  intro v hv
  exact hn _ (mem_valuesOf.1 hv) rfl

theorem valuesOf_no_range (k : Ty W) (r : LRange) (h : History W) (hn : ∀ x ∈ h, x.range ≠ r) :
    valuesOf k r h = [] := by
  rw [List.eq_nil_iff_forall_not_mem]
  intro v hv
  exact hn _ (mem_valuesOf.1 hv) rfl

/-- a history that assigns block by block, each block on its own range -/
theorem blocks_history {β : Type} (k : Ty W) (ρ : β → LRange) (F : β → History W) : ∀ (L : List β),
    (L.map ρ).Nodup → (∀ x ∈ L, ∀ y ∈ F x, y.range = ρ x) →
    rangesOf k (L.flatMap F) =
      (L.filter (fun x => !(valuesOf k (ρ x) (F x)).isEmpty)).map ρ ∧
    ∀ x ∈ L, valuesOf k (ρ x) (L.flatMap F) = valuesOf k (ρ x) (F x)
  | [], _, _ => by simp [rangesOf, firsts]
  | x :: L, hn, hF => by
    simp only [List.map_cons, List.nodup_cons] at hn
    obtain ⟨ih1, ih2⟩ := blocks_history k ρ F L hn.2 (fun y hy => hF y (by simp [hy]))
    have hFx := hF x (by simp)
    have hrest : ∀ y ∈ L.flatMap F, y.range ≠ ρ x := by
      intro y hy he
      obtain ⟨z, hz, hyz⟩ := List.mem_flatMap.1 hy
      have := hF z (by simp [hz]) y hyz
      exact hn.1 (List.mem_map.2 ⟨z, hz, by rw [← this, he]⟩)
    constructor
    · have e : rangesOf k (F x ++ L.flatMap F) =
          (if (valuesOf k (ρ x) (F x)).isEmpty then [] else [ρ x]) ++ rangesOf k (L.flatMap F) := by
        rw [rangesOf, List.filter_append, List.map_append, firsts_block (ρ x)]
        · congr 1
          have : (valuesOf k (ρ x) (F x)).isEmpty = true ↔
              (List.map (fun x => x.range) (List.filter (fun x => decide (x.ty = k)) (F x))) = [] := by
            rw [List.isEmpty_iff, List.map_eq_nil_iff, List.filter_eq_nil_iff]
            constructor
            · intro he y hy hk
              simp only [decide_eq_true_eq] at hk
              obtain ⟨t, r, v⟩ := y
              simp only at hk; subst hk
              have hr := hFx _ hy
              simp only at hr; subst hr
              have := mem_valuesOf.2 hy
              rw [he] at this; simp at this
            · intro hh
              rw [List.eq_nil_iff_forall_not_mem]
              intro v hv
              exact hh _ (mem_valuesOf.1 hv) (by simp)
          by_cases hc : (valuesOf k (ρ x) (F x)).isEmpty = true
          · rw [if_pos hc, if_pos (this.1 hc)]
          · rw [if_neg hc, if_neg (fun h => hc (this.2 h))]
        · intro y hy
          obtain ⟨z, hz, rfl⟩ := List.mem_map.1 hy
          exact hFx z (List.mem_filter.1 hz).1
        · intro hy
          obtain ⟨z, hz, he⟩ := List.mem_map.1 hy
          exact hrest z (List.mem_filter.1 hz).1 he
      simp only [List.flatMap_cons, e, ih1, List.filter_cons]
      cases (valuesOf k (ρ x) (F x)).isEmpty <;> simp
    · intro y hy
      simp only [List.flatMap_cons, valuesOf_append]
      rcases List.mem_cons.1 hy with rfl | hy
      · rw [valuesOf_no_range k _ _ hrest]; simp
      · rw [ih2 y hy, valuesOf_no_range k (ρ y) (F x)]
        · simp
        · intro z hz he
          rw [hFx z hz] at he
          exact hn.1 (List.mem_map.2 ⟨y, hy, he.symm⟩)

theorem coveredText_tokens (toks : List LLToken) (r : LRange) : coveredText toks r =
    ((((toks.map (·.token)).drop r.1).take (r.2 + 1 - r.1)).map LToken.str).flatten := by
  simp [coveredText, ← List.map_drop, ← List.map_take, Function.comp_def]

theorem coveredText_one {toks : List LLToken} {i : Nat} {t : LLToken} (h : toks[i]? = some t) :
    coveredText toks (i, i) = t.token.str := by
  have hi : i < toks.length := by
    rcases Nat.lt_or_ge i toks.length with hh | hh
    · exact hh
    · rw [List.getElem?_eq_none hh] at h; cases h
  have e : toks.drop i = t :: toks.drop (i + 1) := by
    rw [List.drop_eq_getElem_cons hi]
    rw [List.getElem?_eq_getElem hi] at h
    rw [Option.some.inj h]
  simp [coveredText, e]

theorem builtin_nodup (toks : List LToken) :
    (toks.zipIdx.map (fun p => ((p.2, p.2) : LRange))).Nodup := by
  have : (toks.zipIdx.map (fun p => p.2)).Nodup := by
    rw [show (fun p : LToken × Nat => p.2) = Prod.snd from rfl, List.zipIdx_map_snd]
    exact List.nodup_range'
  have h2 := List.Pairwise.map (S := (· ≠ ·)) (fun i : Nat => ((i, i) : LRange))
    (fun a b hab h => hab (by simpa using h)) this
  rw [List.map_map] at h2
  exact h2

theorem builtinOf_range (t : LToken) (i : Nat) : ∀ x ∈ builtinOf W t i, x.range = (i, i) := by
  intro x hx
  unfold builtinOf at hx
  split at hx <;> simp at hx
  · rcases hx with rfl | rfl <;> rfl
  · subst hx; rfl

theorem builtinHistory_ty (toks : List LToken) :
    ∀ x ∈ builtinHistory W toks, x.ty = .char ∨ x.ty = .textTag := by
  intro x hx
  simp only [builtinHistory, List.mem_flatMap] at hx
  obtain ⟨p, _, hx⟩ := hx
  unfold builtinOf at hx
  split at hx <;> simp at hx
  · rcases hx with rfl | rfl <;> simp
  · subst hx; simp

theorem builtin_blocks (k : Ty W) (toks : List LToken) :
    rangesOf k (builtinHistory W toks) = (toks.zipIdx.filter (fun p =>
      !(valuesOf k (p.2, p.2) (builtinOf W p.1 p.2)).isEmpty)).map (fun p => (p.2, p.2)) ∧
    ∀ p ∈ toks.zipIdx, valuesOf k (p.2, p.2) (builtinHistory W toks) =
      valuesOf k (p.2, p.2) (builtinOf W p.1 p.2) :=
  blocks_history k (fun p : LToken × Nat => (p.2, p.2)) (fun p => builtinOf W p.1 p.2) toks.zipIdx
    (builtin_nodup toks) (fun p _ => builtinOf_range p.1 p.2)

theorem valuesOf_builtinOf_textTag (t : LToken) (i : Nat) :
    valuesOf Ty.textTag (i, i) (builtinOf W t i) =
      (match t with | .Text _ tag => [tag] | .Value => [] : List TextTag) := by
  unfold builtinOf
  split
  · next c tag =>
    have := valuesOf_snoc_self (W := W) Ty.textTag (i, i) [⟨.char, (i, i), c⟩] tag
    rw [valuesOf_none Ty.textTag (i, i) [⟨.char, (i, i), c⟩] (by simp)] at this
    exact this
  · next tag _ => exact valuesOf_snoc_self (W := W) Ty.textTag (i, i) [] tag
  · rfl

theorem valuesOf_builtinOf_char (t : LToken) (i : Nat) :
    valuesOf Ty.char (i, i) (builtinOf W t i) =
      (match t with | .Text [c] _ => [c] | _ => [] : List Char) := by
  unfold builtinOf
  split
  · next c tag =>
    have := valuesOf_snoc_ne_ty (W := W) Ty.char (i, i) [⟨.char, (i, i), c⟩] ⟨.textTag, (i, i), tag⟩
      (by simp)
    refine this.trans ?_
    exact valuesOf_snoc_self (W := W) Ty.char (i, i) [] c
  · next s tag h =>
    rw [valuesOf_none Ty.char (i, i) _ (by simp)]
    split
    · next h2 => simp only [LToken.Text.injEq] at h2; exact absurd h2.1 (h _)
    · rfl
  · rfl

/-! ### inputs -/

theorem inputHistory_eq (size : Str → Nat) : ∀ (input : List (InputToken W)) (i : Nat),
    inputHistory W size i input = (inputSpans W size i input).flatMap
      (fun p => p.2.attrList.map (fun a => ⟨a.value.ty, p.1, a.value.val⟩))
  | [], _ => rfl
  | t :: ts, i => by
    simp only [inputHistory, inputSpans, List.flatMap_cons, inputHistory_eq size ts]

theorem inputSpans_lb (size : Str → Nat) : ∀ (input : List (InputToken W)) (i : Nat),
    ∀ p ∈ inputSpans W size i input, i ≤ p.1.1
  | [], _, p, h => by simp [inputSpans] at h
  | t :: ts, i, p, h => by
    simp only [inputSpans, List.mem_cons] at h
    rcases h with rfl | h
    · exact Nat.le_refl _
    · have := inputSpans_lb size ts _ p h; omega

theorem inputSpans_nodup (size : Str → Nat) : ∀ (input : List (InputToken W)) (i : Nat),
    (∀ t ∈ input, tokensOf W size t ≠ []) → ((inputSpans W size i input).map (·.1)).Nodup
  | [], _, _ => by simp [inputSpans]
  | t :: ts, i, h => by
    simp only [inputSpans, List.map_cons, List.nodup_cons]
    refine ⟨?_, inputSpans_nodup size ts _ (fun t ht => h t (by simp [ht]))⟩
    intro hm
    obtain ⟨p, hp, he⟩ := List.mem_map.1 hm
    have := inputSpans_lb size ts _ p hp
    rw [he] at this
    have h0 : 0 < (tokensOf W size t).length := List.length_pos_iff.2 (h t (by simp))
    simp only at this; omega

theorem valuesOf_attrs (k : Ty W) (r : LRange) (as : List (AnyAttribute W)) :
    valuesOf k r (as.map (fun a => (⟨a.value.ty, r, a.value.val⟩ : Rec W))) =
      as.filterMap (fun a => if h : a.value.ty = k then some (h ▸ a.value.val) else none) := by
  simp only [valuesOf, List.filterMap_map]
  congr 1
  funext a
  simp [Rec.valAs]

theorem input_blocks (k : Ty W) (size : Str → Nat) (input : List (InputToken W)) (i : Nat)
    (hne : ∀ t ∈ input, tokensOf W size t ≠ []) :
    rangesOf k (inputHistory W size i input) = ((inputSpans W size i input).filter (fun p =>
      !(p.2.valuesOf k).isEmpty)).map (·.1) ∧
    ∀ p ∈ inputSpans W size i input, valuesOf k p.1 (inputHistory W size i input) = p.2.valuesOf k := by
  have := blocks_history k (fun p : LRange × InputToken W => p.1)
    (fun p => p.2.attrList.map (fun a => ⟨a.value.ty, p.1, a.value.val⟩)) (inputSpans W size i input)
    (inputSpans_nodup size input i hne)
    (by intro p _ y hy; obtain ⟨a, _, rfl⟩ := List.mem_map.1 hy; rfl)
  rw [← inputHistory_eq] at this
  simp only [valuesOf_attrs] at this
  exact this

theorem inputSpans_text (L : SplitLaws W) (size : Str → Nat) :
    ∀ (input : List (InputToken W)) (pre : List LToken),
    (∀ t ∈ input, tokensOf W size t ≠ []) →
    ∀ p ∈ inputSpans W size pre.length input,
      ((((pre ++ (input.flatMap (tokensOf W size)).map (·.1)).drop p.1.1).take
        (p.1.2 + 1 - p.1.1)).map LToken.str).flatten = p.2.str
  | [], _, _, p, h => by simp [inputSpans] at h
  | t :: ts, pre, hne, p, h => by
    simp only [inputSpans, List.mem_cons] at h
    rcases h with rfl | h
    · have h0 : 0 < (tokensOf W size t).length := List.length_pos_iff.2 (hne t (by simp))
      have e : pre.length + (tokensOf W size t).length - 1 + 1 - pre.length
          = ((tokensOf W size t).map (·.1)).length := by simp; omega
      simp only [List.drop_left', List.flatMap_cons, List.map_append]
      rw [e, List.take_left']
      · cases t with
        | Custom n as => simp [tokensOf, InputToken.str, LToken.str]
        | Text s as =>
          have := textPieces_concat W s
          rw [L.concat] at this
          simpa [tokensOf, Function.comp_def, LToken.str, InputToken.str] using this
      · rfl
    · have := inputSpans_text L size ts (pre ++ (tokensOf W size t).map (·.1))
        (fun t ht => hne t (by simp [ht])) p (by simpa using h)
      simpa [List.append_assoc] using this

/-! ### what matching sees -/

theorem rep_attr_fwd {l : LLLine W} {h : History W} (rep : Rep l h) (k : Ty W) {i : Nat}
    (hi : i < l.ll_tokens.length) : Dir.attr (.fwd i) k l =
      .ok (((rangesOf k h).filter (fun r => decide (r.1 = i))).flatMap
        (fun r => (valuesOf k r h).map (fun v => (v, r.2)))) := by
  have hi' : i < l.attrs.starts_at.length := by rw [rep.lenS]; exact hi
  simp only [Dir.attr, List.getElem?_eq_getElem hi']
  rw [rep.starts i _ (List.getElem?_eq_getElem hi') k]
  apply flatMapR_ok
  intro r hr
  rw [rep_valuesAt rep (List.mem_filter.1 hr).1]

theorem rep_attr_bwd {l : LLLine W} {h : History W} (rep : Rep l h) (k : Ty W) {i : Nat}
    (hi : i < l.ll_tokens.length) : Dir.attr (.bwd i) k l =
      .ok (((rangesOf k h).filter (fun r => decide (r.2 = i))).flatMap
        (fun r => (valuesOf k r h).map (fun v => (v, r.1)))) := by
  have hi' : i < l.attrs.ends_at.length := by rw [rep.lenE]; exact hi
  simp only [Dir.attr, List.getElem?_eq_getElem hi']
  rw [rep.ends i _ (List.getElem?_eq_getElem hi') k]
  apply flatMapR_ok
  intro r hr
  rw [rep_valuesAt rep (List.mem_filter.1 hr).1]

theorem rep_attr_oob {l : LLLine W} {h : History W} (rep : Rep l h) (k : Ty W) {i : Nat}
    (hi : ¬ i < l.ll_tokens.length) :
    Dir.attr (.fwd i) k l = .error .dirOob ∧ Dir.attr (.bwd i) k l = .error .dirOob := by
  have h1 : l.attrs.starts_at[i]? = none := by
    rw [List.getElem?_eq_none_iff, rep.lenS]; omega
  have h2 : l.attrs.ends_at[i]? = none := by
    rw [List.getElem?_eq_none_iff, rep.lenE]; omega
  simp only [Dir.attr, h1, h2]; exact ⟨trivial, trivial⟩

theorem rep_attrEq_fwd {l : LLLine W} {h : History W} (rep : Rep l h) (k : Ty W) (v : Val k) {i : Nat}
    (hi : i < l.ll_tokens.length) : Dir.attrEq (.fwd i) k v l =
      .ok (((rangesOf k h).filter (fun r => decide (r.1 = i))).flatMap
        (fun r => ((valuesOf k r h).filter (fun x => valEq k x v)).map (fun _ => ((), r.2)))) := by
  have hi' : i < l.attrs.starts_at.length := by rw [rep.lenS]; exact hi
  simp only [Dir.attrEq, List.getElem?_eq_getElem hi']
  rw [rep.starts i _ (List.getElem?_eq_getElem hi') k]
  apply flatMapR_ok
  intro r hr
  rw [rep_valuesAt rep (List.mem_filter.1 hr).1]
  simp only
  congr 1
  induction valuesOf k r h with
  | nil => rfl
  | cons x xs ih => simp only [List.filterMap_cons, List.filter_cons]; split <;> simp_all

theorem rep_attrEq_bwd {l : LLLine W} {h : History W} (rep : Rep l h) (k : Ty W) (v : Val k) {i : Nat}
    (hi : i < l.ll_tokens.length) : Dir.attrEq (.bwd i) k v l =
      .ok (((rangesOf k h).filter (fun r => decide (r.2 = i))).flatMap
        (fun r => ((valuesOf k r h).filter (fun x => valEq k x v)).map (fun _ => ((), r.1)))) := by
  have hi' : i < l.attrs.ends_at.length := by rw [rep.lenE]; exact hi
  simp only [Dir.attrEq, List.getElem?_eq_getElem hi']
  rw [rep.ends i _ (List.getElem?_eq_getElem hi') k]
  apply flatMapR_ok
  intro r hr
  rw [rep_valuesAt rep (List.mem_filter.1 hr).1]
  simp only
  congr 1
  induction valuesOf k r h with
  | nil => rfl
  | cons x xs ih => simp only [List.filterMap_cons, List.filter_cons]; split <;> simp_all

theorem rep_attrEq_oob {l : LLLine W} {h : History W} (rep : Rep l h) (k : Ty W) (v : Val k) {i : Nat}
    (hi : ¬ i < l.ll_tokens.length) :
    Dir.attrEq (.fwd i) k v l = .error .dirOob ∧ Dir.attrEq (.bwd i) k v l = .error .dirOob := by
  have h1 : l.attrs.starts_at[i]? = none := by
    rw [List.getElem?_eq_none_iff, rep.lenS]; omega
  have h2 : l.attrs.ends_at[i]? = none := by
    rw [List.getElem?_eq_none_iff, rep.lenE]; omega
  simp only [Dir.attrEq, h1, h2]; exact ⟨trivial, trivial⟩

theorem rep_oneOf_fwd {l : LLLine W} {h : History W} (rep : Rep l h) (k : Ty W) (set : List (Val k))
    (i : Nat) : Dir.tokenAttrOneOf (.fwd i) k set l =
      if ∃ x ∈ h, x.range = (i, i) then
        .ok (((valuesOf k (i, i) h).filter (fun x => setContains k set x)).map (fun v => (v, i)))
      else .error .noTokenAttrs := by
  simp only [Dir.tokenAttrOneOf]
  by_cases hx : ∃ x ∈ h, x.range = (i, i)
  · rw [if_pos hx]
    obtain ⟨x, hx, hr⟩ := hx
    obtain ⟨b, hb⟩ := rep_present rep hx hr
    simp only [hb, rep_bucket_get rep hb k]
    congr 1
    induction valuesOf k (i, i) h with
    | nil => rfl
    | cons x xs ih => simp only [List.filterMap_cons, List.filter_cons]; split <;> simp_all
  · rw [if_neg hx]
    have : l.attrs.values.get? (i, i) = none :=
      (rep.absent (i, i)).2 fun x hxx hr => hx ⟨x, hxx, hr⟩
    simp only [this]

theorem rep_oneOf_bwd {l : LLLine W} {h : History W} (rep : Rep l h) (k : Ty W) (set : List (Val k))
    {i : Nat} (hi : i < l.ll_tokens.length) : Dir.tokenAttrOneOf (.bwd i) k set l =
      .ok (((rangesOf k h).filter (fun r => decide (r.2 = i))).flatMap
        (fun r => ((valuesOf k r h).filter (fun x => setContains k set x)).map (fun v => (v, r.1)))) := by
  have hi' : i < l.attrs.ends_at.length := by rw [rep.lenE]; exact hi
  simp only [Dir.tokenAttrOneOf, List.getElem?_eq_getElem hi']
  rw [rep.ends i _ (List.getElem?_eq_getElem hi') k]
  apply flatMapR_ok
  intro r hr
  rw [rep_valuesAt rep (List.mem_filter.1 hr).1]
  simp only
  congr 1
  induction valuesOf k r h with
  | nil => rfl
  | cons x xs ih => simp only [List.filterMap_cons, List.filter_cons]; split <;> simp_all

theorem rep_oneOf_bwd_oob {l : LLLine W} {h : History W} (rep : Rep l h) (k : Ty W) (set : List (Val k))
    {i : Nat} (hi : ¬ i < l.ll_tokens.length) :
    Dir.tokenAttrOneOf (.bwd i) k set l = .error .dirOob := by
  have h2 : l.attrs.ends_at[i]? = none := by
    rw [List.getElem?_eq_none_iff, rep.lenE]; omega
  simp only [Dir.tokenAttrOneOf, h2]

/-- the result of `query` as a function of the tokens, the ranges and the values -/
theorem rep_query_gen {l : LLLine W} {h : History W} (rep : Rep l h) (k : Ty W) :
    l.query k = mapR (fun r => match sliceIncl l.ll_tokens r.1 r.2 with
      | .error e => .error e
      | .ok toks => .ok (r, (toks.map LLToken.queryText).flatten, valuesOf k r h)) (rangesOf k h) := by
  simp only [LLLine.query]
  rw [rep.ranges k]
  have : ∀ (f g : LRange → R (LRange × Str × List (Val k))) (L : List LRange),
      (∀ r ∈ L, f r = g r) → mapR f L = mapR g L := by
    intro f g L
    induction L with
    | nil => intro _; rfl
    | cons x xs ih =>
      intro hfg
      simp only [mapR, hfg x (by simp), ih (fun r hr => hfg r (by simp [hr]))]
  apply this
  intro r hr
  obtain ⟨b, hb⟩ := rep_present_range rep hr
  cases sliceIncl l.ll_tokens r.1 r.2 with
  | error e => rfl
  | ok toks => simp only [hb, rep_bucket_get rep hb k]

theorem rep_query_congr {l l' : LLLine W} {h h' : History W} (rep : Rep l h) (rep' : Rep l' h')
    (k : Ty W) (ht : l'.ll_tokens = l.ll_tokens) (hr : rangesOf k h' = rangesOf k h)
    (hv : ∀ r, valuesOf k r h' = valuesOf k r h) : l'.query k = l.query k := by
  rw [rep_query_gen rep, rep_query_gen rep', ht, hr]
  simp only [hv]

theorem rep_attr_congr {l l' : LLLine W} {h h' : History W} (rep : Rep l h) (rep' : Rep l' h')
    (k : Ty W) (ht : l'.ll_tokens = l.ll_tokens) (hr : rangesOf k h' = rangesOf k h)
    (hv : ∀ r, valuesOf k r h' = valuesOf k r h) (d : Dir) :
    d.attr k l' = d.attr k l ∧ (∀ v, d.attrEq k v l' = d.attrEq k v l) := by
  cases d with
  | fwd i =>
    by_cases hi : i < l.ll_tokens.length
    · refine ⟨?_, fun v => ?_⟩
      · rw [rep_attr_fwd rep k hi, rep_attr_fwd rep' k (ht ▸ hi), hr]; simp only [hv]
      · rw [rep_attrEq_fwd rep k v hi, rep_attrEq_fwd rep' k v (ht ▸ hi), hr]; simp only [hv]
    · refine ⟨?_, fun v => ?_⟩
      · rw [(rep_attr_oob rep k hi).1, (rep_attr_oob rep' k (ht ▸ hi)).1]
      · rw [(rep_attrEq_oob rep k v hi).1, (rep_attrEq_oob rep' k v (ht ▸ hi)).1]
  | bwd i =>
    by_cases hi : i < l.ll_tokens.length
    · refine ⟨?_, fun v => ?_⟩
      · rw [rep_attr_bwd rep k hi, rep_attr_bwd rep' k (ht ▸ hi), hr]; simp only [hv]
      · rw [rep_attrEq_bwd rep k v hi, rep_attrEq_bwd rep' k v (ht ▸ hi), hr]; simp only [hv]
    · refine ⟨?_, fun v => ?_⟩
      · rw [(rep_attr_oob rep k hi).2, (rep_attr_oob rep' k (ht ▸ hi)).2]
      · rw [(rep_attrEq_oob rep k v hi).2, (rep_attrEq_oob rep' k v (ht ▸ hi)).2]

theorem mem_attr_list {k : Ty W} {h : History W} {f : LRange → Nat} {p : LRange → Prop}
    [DecidablePred p] {v : Val k} {j : Nat} :
    (v, j) ∈ ((rangesOf k h).filter (fun r => decide (p r))).flatMap
      (fun r => (valuesOf k r h).map (fun v => (v, f r))) ↔
    ∃ r, p r ∧ f r = j ∧ (⟨k, r, v⟩ : Rec W) ∈ h := by
  simp only [List.mem_flatMap, List.mem_filter, decide_eq_true_eq, List.mem_map, Prod.mk.injEq]
  constructor
  · rintro ⟨r, ⟨_, hp⟩, v', hv, rfl, rfl⟩
    exact ⟨r, hp, rfl, mem_valuesOf.1 hv⟩
  · rintro ⟨r, hp, rfl, hm⟩
    exact ⟨r, ⟨mem_rangesOf.2 ⟨v, hm⟩, hp⟩, v, mem_valuesOf.2 hm, rfl, rfl⟩

/-- after a successful run on a non-empty line: the resolver's answer and the new history -/
theorem run_rep {l l' : LLLine W} {h : History W} (rep : Rep l h) {ptr : Nat} {r : Resolver W}
    (ne : l.ll_tokens ≠ []) (ok : l.run ptr r = .ok l') :
    ∃ asgs, r.go (wholeLine l ptr) = .ok (asgs, false) ∧ l'.ll_tokens = l.ll_tokens ∧
      (∀ x ∈ asgs, x.start_idx < l.ll_tokens.length ∧ x.end_idx < l.ll_tokens.length) ∧
      Rep l' (h ++ asgs.map (recOf r.attr)) := by
  obtain ⟨asgs, a', hg, hf, rfl⟩ := run_inv ne ok
  obtain ⟨hb, hr⟩ := assign_fold_inv rep hf
  exact ⟨asgs, hg, rfl, hb, hr⟩

theorem recOf_ty (k : Ty W) (asgs : List (LLCursorAssignment (Val k))) :
    ∀ x ∈ asgs.map (recOf k), x.ty = k := by
  intro x hx; obtain ⟨a, _, rfl⟩ := List.mem_map.1 hx; rfl

/-- a run does not change what leaf matchers of other types find -/
theorem run_leaf {l l' : LLLine W} {h : History W} (rep : Rep l h) {ptr : Nat}
    {r : Resolver W} (ok : l.run ptr r = .ok l') (k : Ty W) (hk : k ≠ r.attr) :
    (∀ d, (X.attr k).go d l' = (X.attr k).go d l) ∧
    (∀ v d, (X.attrEq k v).go d l' = (X.attrEq k v).go d l) ∧
    (∀ set d out, (X.tokenHasAny k set).go d l = .ok out → (X.tokenHasAny k set).go d l' = .ok out) := by
  by_cases ne : l.ll_tokens = []
  · rw [run_empty ne] at ok
    have := Except.ok.inj ok
    subst this
    exact ⟨fun _ => rfl, fun _ _ => rfl, fun _ _ _ h => h⟩
  · obtain ⟨asgs, hg, ht, hb, rep'⟩ := run_rep rep ne ok
    have hty : ∀ x ∈ asgs.map (recOf r.attr), x.ty ≠ k := by
      intro x hx hh
      rw [recOf_ty r.attr asgs x hx] at hh
      exact hk hh.symm
    have h1 : rangesOf k (h ++ asgs.map (recOf r.attr)) = rangesOf k h :=
      rangesOf_append_none k _ _ hty
    have h2 : ∀ r', valuesOf k r' (h ++ asgs.map (recOf r.attr)) = valuesOf k r' h := by
      intro r'; rw [valuesOf_append, valuesOf_none k r' _ hty]; simp
    refine ⟨fun d => (rep_attr_congr rep rep' k ht h1 h2 d).1,
      fun v d => (rep_attr_congr rep rep' k ht h1 h2 d).2 v, ?_⟩
    intro set d out ho
    change d.tokenAttrOneOf k set l' = _
    change d.tokenAttrOneOf k set l = _ at ho
    cases d with
    | fwd i =>
      rw [rep_oneOf_fwd rep] at ho
      rw [rep_oneOf_fwd rep']
      split at ho
      · next hx =>
        rw [if_pos, h2]
        · exact ho
        · obtain ⟨x, hx, he⟩ := hx; exact ⟨x, by simp [hx], he⟩
      · cases ho
    | bwd i =>
      by_cases hi : i < l.ll_tokens.length
      · rw [rep_oneOf_bwd rep k set hi] at ho
        rw [rep_oneOf_bwd rep' k set (ht ▸ hi), h1]
        simp only [h2]; exact ho
      · rw [rep_oneOf_bwd_oob rep k set hi] at ho; cases ho

theorem run_query {l l' : LLLine W} {h : History W} (rep : Rep l h) {ptr : Nat}
    {r : Resolver W} (ok : l.run ptr r = .ok l') (k : Ty W) (hk : k ≠ r.attr) :
    l'.query k = l.query k := by
  by_cases ne : l.ll_tokens = []
  · rw [run_empty ne] at ok
    have := Except.ok.inj ok
    subst this
    rfl
  · obtain ⟨asgs, hg, ht, hb, rep'⟩ := run_rep rep ne ok
    have hty : ∀ x ∈ asgs.map (recOf r.attr), x.ty ≠ k := by
      intro x hx hh
      rw [recOf_ty r.attr asgs x hx] at hh
      exact hk hh.symm
    have h1 : rangesOf k (h ++ asgs.map (recOf r.attr)) = rangesOf k h :=
      rangesOf_append_none k _ _ hty
    have h2 : ∀ r', valuesOf k r' (h ++ asgs.map (recOf r.attr)) = valuesOf k r' h := by
      intro r'; rw [valuesOf_append, valuesOf_none k r' _ hty]; simp
    exact rep_query_congr rep rep' k ht h1 h2

/-- every duplicate-free list of ranges containing all of type `k` counts every record once -/
theorem values_count_aux (k : Ty W) : ∀ (h : History W) (R : List LRange), R.Nodup → (∀ x ∈ h, x.ty = k → x.range ∈ R) →
    (R.map (fun r => (valuesOf k r h).length)).sum = (h.filter (fun x => decide (x.ty = k))).length := by
  intro h
  induction h with
  | nil =>
    intro R _ _
    have : ∀ R : List LRange, (R.map (fun r => (valuesOf k r ([] : History W)).length)).sum = 0 := by
      intro R
      induction R with
      | nil => rfl
      | cons x xs ih => simp only [List.map_cons, List.sum_cons, ih]; rfl
    rw [this R]; rfl
  | cons x xs ih =>
    intro R hn hR
    have ih' := ih R hn (fun y hy => hR y (by simp [hy]))
    have hv : ∀ r, (valuesOf k r (x :: xs)).length =
        (valuesOf k r [x]).length + (valuesOf k r xs).length := by
      intro r
      rw [show x :: xs = [x] ++ xs from rfl, valuesOf_append, List.length_append]
    have hsum : ∀ R : List LRange, (R.map (fun r => (valuesOf k r (x :: xs)).length)).sum =
        (R.map (fun r => (valuesOf k r [x]).length)).sum + (R.map (fun r => (valuesOf k r xs).length)).sum := by
      intro R
      induction R with
      | nil => rfl
      | cons r rs ih => simp only [List.map_cons, List.sum_cons] at ih ⊢; rw [ih, hv]; omega
    rw [hsum, ih', List.filter_cons]
    by_cases hk : x.ty = k
    · have hone : ∀ R : List LRange, R.Nodup → x.range ∈ R →
          (R.map (fun r => (valuesOf k r [x]).length)).sum = 1 := by
        obtain ⟨t, rr, v⟩ := x
        simp only at hk; subst hk
        have hself : valuesOf t rr [⟨t, rr, v⟩] = [v] := valuesOf_snoc_self t rr [] v
        have hother : ∀ r, r ≠ rr → valuesOf t r [(⟨t, rr, v⟩ : Rec W)] = [] := by
          intro r hne
          apply valuesOf_no_range
          intro y hy; simp at hy; subst hy; exact fun e => hne e.symm
        intro R
        induction R with
        | nil => intro _ hm; simp at hm
        | cons r rs ihR =>
          intro hn hm
          simp only [List.nodup_cons] at hn
          simp only [List.map_cons, List.sum_cons]
          by_cases he : r = rr
          · subst he
            have h0 : ∀ rs : List LRange, r ∉ rs →
                (rs.map (fun r' => (valuesOf t r' [(⟨t, r, v⟩ : Rec W)]).length)).sum = 0 := by
              intro rs
              induction rs with
              | nil => intro _; rfl
              | cons a as iha =>
                intro hna
                simp only [List.mem_cons, not_or] at hna
                simp only [List.map_cons, List.sum_cons, iha hna.2,
                  hother a (fun e => hna.1 e.symm), List.length_nil]
            rw [hself, h0 rs hn.1]; rfl
          · rw [hother r he]
            simp only [List.length_nil, Nat.zero_add]
            apply ihR hn.2
            simp only [List.mem_cons] at hm
            rcases hm with e | hm
            · exact absurd e.symm he
            · exact hm
      rw [hone R hn (hR x (by simp) hk)]
      simp [hk]; omega
    · have hzero : ∀ R : List LRange, (R.map (fun r => (valuesOf k r [x]).length)).sum = 0 := by
        intro R
        induction R with
        | nil => rfl
        | cons r rs ihR =>
          simp only [List.map_cons, List.sum_cons, ihR]
          rw [valuesOf_none k r [x] (by intro y hy; simp at hy; subst hy; exact hk)]; rfl
      rw [hzero R]
      simp [hk]

theorem values_count (k : Ty W) (h : History W) :
    ((rangesOf k h).map (fun r => (valuesOf k r h).length)).sum = (h.filter (fun x => decide (x.ty = k))).length :=
  values_count_aux k h (rangesOf k h) (rangesOf_nodup k h) (fun x hx hk => by
    subst hk; exact mem_rangesOf.2 ⟨x.val, hx⟩)

end LNlp
