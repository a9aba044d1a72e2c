import Verif.Lemmas.Pipeline
import Verif.Lemmas.Compose
/- Helper lemmas about the currency resolvers. -/
namespace LNlp
variable {W : World}

theorem mapR_ok_of {α β : Type} (f : α → R β) (g : α → β) : ∀ (xs : List α), (∀ x ∈ xs, f x = .ok (g x)) →
    mapR f xs = .ok (xs.map g)
  | [], _ => rfl
  | x :: xs, h => by
    simp only [mapR, h x (by simp), mapR_ok_of f g xs (fun y hy => h y (by simp [hy])), List.map_cons]

theorem flatMapR_error_mem {α β : Type} {f : α → R (List β)} : ∀ {xs : List α} {e : Panic}, flatMapR f xs = .error e →
    ∃ x ∈ xs, f x = .error e
  | [], _, h => by cases h
  | x :: xs, e, h => by
    simp only [flatMapR] at h
    cases hx : f x with
    | error e' => rw [hx] at h; cases h; exact ⟨x, by simp, hx⟩
    | ok a =>
      rw [hx] at h
      simp only at h
      cases hm : flatMapR f xs with
      | error e' =>
        rw [hm] at h; cases h
        obtain ⟨y, hy, he⟩ := flatMapR_error_mem hm
        exact ⟨y, by simp [hy], he⟩
      | ok b => rw [hm] at h; cases h

/-- the closure of `CurrencySymbolResolver::go` -/
def symbolStep {k : Ty W} (usd euro : Val k) (st : LLSelection W × Char) : R (LLCursorAssignment (Val k)) :=
  if st.2 = '$' then .ok (st.1.finishWithAttr usd)
  else if st.2 = '€' then .ok (st.1.finishWithAttr euro)
  else .error .user

theorem symbolGo_found {k : Ty W} (usd euro : Val k) {s : LLSelection W} {found : List (LLSelection W × Char)}
    (hf : s.findBy (X.tokenHasAny (W := W) .char ['€', '$']) = .ok found) :
    currencySymbolGo usd euro s = mapR (symbolStep usd euro) found := by
  unfold currencySymbolGo
  rw [hf]
  rfl

theorem symbol_list {k : Ty W} (usd euro : Val k) (rc : Rc (LLLine W)) (i : Nat) (cs : List Char) :
    (((cs.filter (fun c => decide (c ∈ ['€', '$']))).map (fun c => (c, i))).map (fun r =>
      (({ start_idx := i, end_idx := r.2, ll_line := rc } : LLSelection W), r.1))).map
      (fun st : LLSelection W × Char => st.1.finishWithAttr (if st.2 = '$' then usd else euro)) =
    cs.filterMap (fun c => (symbolOf usd euro c).map (fun v => (⟨i, i, v⟩ : LLCursorAssignment (Val k)))) := by
  induction cs with
  | nil => rfl
  | cons c cs ih =>
    by_cases h1 : c = '$'
    · subst h1
      rw [List.filter_cons_of_pos (by decide), List.filterMap_cons]
      simp only [List.map_cons, ih]
      rfl
    · by_cases h2 : c = '€'
      · subst h2
        rw [List.filter_cons_of_pos (by decide), List.filterMap_cons]
        simp only [List.map_cons, ih]
        rfl
      · rw [List.filter_cons_of_neg (by simp [h1, h2]), List.filterMap_cons, ih]
        simp only [symbolOf, h1, h2, if_false, Option.map_none]

theorem symbolGo_ok {k : Ty W} (usd euro : Val k) {s : LLSelection W} {h : History W} (hr : Reachable s.ll_line.val h)
    (ha : ∀ i, s.Has i → HasAttr h i) :
    currencySymbolGo usd euro s = .ok ((between s.start_idx s.end_idx).flatMap (fun i =>
      (charsOn h i).filterMap (fun c => (symbolOf usd euro c).map (fun v => ⟨i, i, v⟩)))) := by
  have hf := findBy_exact (s := s) (m := X.tokenHasAny (W := W) .char ['€', '$'])
    (f := fun i => ((charsOn h i).filter (fun c => decide (c ∈ ['€', '$']))).map (fun c => (c, i)))
    (fun i hi => char_fwd hr.rep ['€', '$'] (ha i hi))
  refine (symbolGo_found usd euro hf).trans ?_
  refine (mapR_ok_of _ (fun st : LLSelection W × Char => st.1.finishWithAttr (if st.2 = '$' then usd else euro)) _ ?_).trans ?_
  · intro st hst
    obtain ⟨i, _, hm⟩ := List.mem_flatMap.1 hst
    obtain ⟨r, hr, rfl⟩ := List.mem_map.1 hm
    obtain ⟨c, hc, rfl⟩ := List.mem_map.1 hr
    have hc : c ∈ (['€', '$'] : List Char) := of_decide_eq_true (p := c ∈ (['€', '$'] : List Char)) (inst := List.instDecidableMemOfLawfulBEq (α := Char) _ _) (List.mem_filter.1 hc).2
    rcases List.mem_cons.1 hc with rfl | hc
    · rfl
    · rcases List.mem_singleton.1 hc with rfl; rfl
  · congr 1
    refine (List.map_flatMap ..).trans ?_
    congr 1
    funext i
    exact symbol_list usd euro s.ll_line i (charsOn h i)

theorem symbolGo_error {k : Ty W} (usd euro : Val k) {s : LLSelection W} {h : History W} (hr : Reachable s.ll_line.val h)
    {i : Nat} (hi : s.Has i) (ha : ¬ HasAttr h i) : currencySymbolGo usd euro s = .error .noTokenAttrs := by
  have hgo : ∀ j e, (X.tokenHasAny (W := W) .char ['€', '$']).go (.fwd j) s.ll_line.val = .error e → e = .noTokenAttrs := by
    intro j e he
    have := (rep_oneOf_fwd hr.rep .char ['€', '$'] j).symm.trans he
    split at this
    · cases this
    · cases this; rfl
  have he := (rep_oneOf_fwd hr.rep .char ['€', '$'] i).trans (if_neg ha)
  have hfe : ∃ e, s.findBy (X.tokenHasAny (W := W) .char ['€', '$']) = .error e := findBy_error_iff.2 ⟨i, _, hi, he⟩
  obtain ⟨e, hfe⟩ := hfe
  have hk : e = .noTokenAttrs := by
    obtain ⟨j, _, hj⟩ := flatMapR_error_mem hfe
    cases hg : (X.tokenHasAny (W := W) .char ['€', '$']).go (.fwd j) s.ll_line.val with
    | error e' => rw [hg] at hj; cases hj; exact hgo j _ hg
    | ok rs => rw [hg] at hj; cases hj
  subst hk
  unfold currencySymbolGo
  rw [hfe]

/-! ### types with few values -/

theorem flatMap_congr_mem {α β : Type} {f g : α → List β} {xs : List α} (h : ∀ x ∈ xs, f x = g x) :
    xs.flatMap f = xs.flatMap g := by
  rw [List.flatMap_def, List.flatMap_def, List.map_congr_left h]

theorem flatMap_le_one {α β : Type} {f : α → List β} {xs : List α} (hx : xs.length ≤ 1) (hf : ∀ x ∈ xs, (f x).length ≤ 1) :
    (xs.flatMap f).length ≤ 1 := by
  match xs, hx with
  | [], _ => exact Nat.zero_le _
  | [x], _ => simpa using hf x (by simp)

theorem pairwise_le_one {α : Type} {R : α → α → Prop} {xs : List α} (h : xs.length ≤ 1) : xs.Pairwise R := by
  match xs, h with
  | [], _ => exact .nil
  | [x], _ => exact List.pairwise_singleton ..


theorem filter_key {α β : Type} [DecidableEq β] (f : α → β) : ∀ (xs : List α), (xs.map f).Nodup → ∀ a ∈ xs,
    xs.filter (fun x => decide (f x = f a)) = [a]
  | [], _, a, h => by cases h
  | x :: xs, hn, a, h => by
    rw [List.map_cons, List.nodup_cons] at hn
    have hno : ∀ b ∈ xs, f b ≠ f x := fun b hb e => hn.1 (List.mem_map.2 ⟨b, hb, e⟩)
    rcases List.mem_cons.1 h with rfl | h
    · rw [List.filter_cons_of_pos (by simp), List.filter_eq_nil_iff.2]
      intro b hb
      simp [hno b hb]
    · rw [List.filter_cons_of_neg (by simpa using fun e => hno a h e.symm)]
      exact filter_key f xs hn.2 a h

theorem filter_key_le {α β : Type} [DecidableEq β] (f : α → β) (xs : List α) (hn : (xs.map f).Nodup) (b : β) :
    (xs.filter (fun x => decide (f x = b))).length ≤ 1 := by
  by_cases h : ∃ a ∈ xs, f a = b
  · obtain ⟨a, ha, rfl⟩ := h
    rw [filter_key f xs hn a ha]
    exact Nat.le_refl _
  · rw [List.filter_eq_nil_iff.2]
    · exact Nat.zero_le _
    · intro x hx
      simpa using fun e => h ⟨x, hx, e⟩

def asgRange {k : Ty W} (a : LLCursorAssignment (Val k)) : LRange := (a.start_idx, a.end_idx)

/-- the attributes of type `k` in `h` are exactly the assignments `asgs` -/
def OnlyFrom (k : Ty W) (h : History W) (asgs : List (LLCursorAssignment (Val k))) : Prop :=
  h.filter (fun x => decide (x.ty = k)) = asgs.map (recOf k)

section only
variable {k : Ty W} {h : History W} {asgs : List (LLCursorAssignment (Val k))}

theorem values_filter_ty (k : Ty W) (r : LRange) (h : History W) :
    valuesOf k r (h.filter (fun x => decide (x.ty = k))) = valuesOf k r h := by
  induction h with
  | nil => rfl
  | cons x xs ih =>
    have e : x :: xs = [x] ++ xs := rfl
    rw [e, List.filter_append, valuesOf_append, valuesOf_append, ih]
    congr 1
    by_cases hx : x.ty = k
    · rw [List.filter_cons_of_pos (by simpa using hx)]; rfl
    · rw [List.filter_cons_of_neg (by simpa using hx), values_none (h := [x]) (by simpa using hx)]; rfl

theorem only_values (ho : OnlyFrom k h asgs) (r : LRange) :
    valuesOf k r h = (asgs.filter (fun a => decide (asgRange a = r))).map (·.value) := by
  rw [← values_filter_ty, ho]
  clear ho
  induction asgs with
  | nil => rfl
  | cons a as ih =>
    rw [List.map_cons, show recOf k a :: as.map (recOf k) = [recOf k a] ++ as.map (recOf k) from rfl, valuesOf_append, ih]
    by_cases ha : asgRange a = r
    · rw [List.filter_cons_of_pos (by simpa using ha), List.map_cons]
      have : valuesOf k r [recOf k a] = [a.value] := by
        have := valuesOf_snoc_self k r [] a.value
        rw [← ha] at this ⊢
        exact this
      rw [this]; rfl
    · rw [List.filter_cons_of_neg (by simpa using ha)]
      have : valuesOf k r [recOf k a] = [] := by
        apply List.eq_nil_iff_forall_not_mem.2
        intro v hv
        have := mem_valuesOf.1 hv
        rw [List.mem_singleton] at this
        exact ha (congrArg Rec.range this).symm
      rw [this]; rfl

theorem only_ranges (ho : OnlyFrom k h asgs) (hn : (asgs.map asgRange).Nodup) : rangesOf k h = asgs.map asgRange := by
  unfold rangesOf
  rw [ho, List.map_map]
  exact firsts_of_nodup hn

theorem only_value (ho : OnlyFrom k h asgs) (hn : (asgs.map asgRange).Nodup) {a : LLCursorAssignment (Val k)} (ha : a ∈ asgs) :
    valuesOf k (asgRange a) h = [a.value] := by
  rw [only_values ho, filter_key asgRange asgs hn a ha]; rfl

theorem nodup_of_map {α β γ : Type} {f : α → β} {g : β → γ} {xs : List α} (h : (xs.map (fun x => g (f x))).Nodup) :
    (xs.map f).Nodup := by
  rw [List.nodup_iff_pairwise_ne, List.pairwise_map] at *
  exact h.imp (fun hab e => hab (by rw [e]))

theorem only_fwd (ho : OnlyFrom k h asgs) (hn : (asgs.map (·.start_idx)).Nodup) (i : Nat) :
    attrF k h i = (asgs.filter (fun a => decide (a.start_idx = i))).map (fun a => (a.value, a.end_idx)) := by
  have hn' : (asgs.map asgRange).Nodup := nodup_of_map (g := Prod.fst) hn
  unfold attrF
  rw [only_ranges ho hn', List.filter_map, List.flatMap_map, List.map_eq_flatMap]
  refine flatMap_congr_mem ?_
  intro a ha
  rw [only_value ho hn' (List.mem_filter.1 ha).1]
  rfl

theorem only_bwd (ho : OnlyFrom k h asgs) (hn : (asgs.map (·.end_idx)).Nodup) (i : Nat) :
    attrB k h i = (asgs.filter (fun a => decide (a.end_idx = i))).map (fun a => (a.value, a.start_idx)) := by
  have hn' : (asgs.map asgRange).Nodup := nodup_of_map (g := Prod.snd) hn
  unfold attrB
  rw [only_ranges ho hn', List.filter_map, List.flatMap_map, List.map_eq_flatMap]
  refine flatMap_congr_mem ?_
  intro a ha
  rw [only_value ho hn' (List.mem_filter.1 ha).1]
  rfl

theorem only_query {l : LLLine W} (rep : Rep l h) (ho : OnlyFrom k h asgs) (hn : (asgs.map asgRange).Nodup)
    (hle : ∀ a ∈ asgs, a.start_idx ≤ a.end_idx) : l.query k = .ok (asgs.map (fun a =>
      ((a.start_idx, a.end_idx), coveredText l.ll_tokens (a.start_idx, a.end_idx), [a.value]))) := by
  rw [rep_query rep k, only_ranges ho hn, List.map_map]
  · congr 1
    apply List.map_congr_left
    intro a ha
    simp only [Function.comp]
    rw [only_value ho hn ha]
    rfl
  · rw [only_ranges ho hn]
    intro r hr
    obtain ⟨a, ha, rfl⟩ := List.mem_map.1 hr
    have := hle a ha
    show a.start_idx ≤ a.end_idx + 1
    omega

end only

/-! ### symbols next to amounts -/

section money
variable {kS kA : Ty W} {l : LLLine W} {h : History W} {S : List (LLCursorAssignment (Val kS))}
  {A : List (LLCursorAssignment (Val kA))}

/-- what `seq((attr::<S>(), attr::<A>()))` finds forwards -/
def moneyF (S : List (LLCursorAssignment (Val kS))) (A : List (LLCursorAssignment (Val kA))) (i : Nat) :
    List ((Val kS × Val kA) × Nat) :=
  (S.filter (fun s => decide (s.start_idx = i))).flatMap (fun s =>
    (A.filter (fun a => decide (a.start_idx = i + 1))).map (fun a => ((s.value, a.value), a.end_idx)))

/-- what `seq((attr::<S>(), attr::<A>()))` finds backwards -/
def moneyB (S : List (LLCursorAssignment (Val kS))) (A : List (LLCursorAssignment (Val kA))) (i : Nat) :
    List ((Val kS × Val kA) × Nat) :=
  (S.filter (fun s => decide (s.end_idx = i))).flatMap (fun s =>
    (A.filter (fun a => decide (a.end_idx + 1 = i))).map (fun a => ((s.value, a.value), a.start_idx)))

theorem money_fwd (rep : Rep l h) (oS : OnlyFrom kS h S) (oA : OnlyFrom kA h A)
    (nS : (S.map (·.start_idx)).Nodup) (nA : (A.map (·.start_idx)).Nodup) (hS : ∀ s ∈ S, s.start_idx = s.end_idx)
    (bA : ∀ a ∈ A, a.start_idx < l.ll_tokens.length) {i : Nat} (hi : i < l.ll_tokens.length) :
    (X.seq2 (X.attr kS) (X.attr kA)).go (.fwd i) l = .ok (moneyF S A i) := by
  have h1 : (X.attr kS).go (.fwd i) l = .ok (attrF kS h i) := rep_attr_fwd rep kS hi
  have h2 : X.goAfter (X.attr kA) (.fwd i) i l =
      .ok ((A.filter (fun a => decide (a.start_idx = i + 1))).map (fun a => (a.value, a.end_idx))) := by
    unfold X.goAfter Dir.after
    by_cases hlt : i + 1 < l.ll_tokens.length
    · simp only [hlt, if_true]
      exact (rep_attr_fwd rep kA hlt).trans (congrArg Except.ok (only_fwd oA nA (i + 1)))
    · simp only [hlt, if_false]
      rw [List.filter_eq_nil_iff.2]
      · rfl
      · intro a ha he
        have := bA a ha
        have := of_decide_eq_true he
        omega
  refine seq2_ok_iff.2 ⟨_, h1, ?_, ?_⟩
  · rw [only_fwd oS nS]
    intro pa hpa
    obtain ⟨s, hs, rfl⟩ := List.mem_map.1 hpa
    obtain ⟨hs, he⟩ := List.mem_filter.1 hs
    have he := of_decide_eq_true he
    refine ⟨_, Eq.trans ?_ h2⟩
    show X.goAfter (X.attr kA) (.fwd i) s.end_idx l = _
    rw [← hS s hs, he]
  · rw [only_fwd oS nS, List.flatMap_map]
    refine flatMap_congr_mem ?_
    intro s hs
    obtain ⟨hs, he⟩ := List.mem_filter.1 hs
    have he := of_decide_eq_true he
    show _ = (okD (X.goAfter (X.attr kA) (.fwd i) s.end_idx l)).map _
    rw [← hS s hs, he, okD_of h2, List.map_map]
    rfl

theorem money_bwd (rep : Rep l h) (oS : OnlyFrom kS h S) (oA : OnlyFrom kA h A)
    (nS : (S.map (·.end_idx)).Nodup) (nA : (A.map (·.end_idx)).Nodup) (hS : ∀ s ∈ S, s.start_idx = s.end_idx)
    {i : Nat} (hi : i < l.ll_tokens.length) :
    (X.seq2 (X.attr kS) (X.attr kA)).go (.bwd i) l = .ok (moneyB S A i) := by
  have h1 : (X.attr kS).go (.bwd i) l = .ok (attrB kS h i) := rep_attr_bwd rep kS hi
  have h2 : X.goAfter (X.attr kA) (.bwd i) i l =
      .ok ((A.filter (fun a => decide (a.end_idx + 1 = i))).map (fun a => (a.value, a.start_idx))) := by
    unfold X.goAfter Dir.after
    by_cases h0 : i > 0
    · simp only [h0, if_true]
      have hf : A.filter (fun a => decide (a.end_idx + 1 = i)) = A.filter (fun a => decide (a.end_idx = i - 1)) := by
        congr 1; funext a; congr 1; exact propext ⟨fun h => by omega, fun h => by omega⟩
      rw [hf]
      exact (rep_attr_bwd rep kA (show i - 1 < _ by omega)).trans (congrArg Except.ok (only_bwd oA nA (i - 1)))
    · simp only [h0, if_false]
      rw [List.filter_eq_nil_iff.2]
      · rfl
      · intro a _ he
        have := of_decide_eq_true he
        omega
  refine seq2_ok_iff.2 ⟨_, h1, ?_, ?_⟩
  · rw [only_bwd oS nS]
    intro pa hpa
    obtain ⟨s, hs, rfl⟩ := List.mem_map.1 hpa
    obtain ⟨hs, he⟩ := List.mem_filter.1 hs
    have he := of_decide_eq_true he
    refine ⟨_, Eq.trans ?_ h2⟩
    show X.goAfter (X.attr kA) (.bwd i) s.start_idx l = _
    rw [hS s hs, he]
  · rw [only_bwd oS nS, List.flatMap_map]
    refine flatMap_congr_mem ?_
    intro s hs
    obtain ⟨hs, he⟩ := List.mem_filter.1 hs
    have he := of_decide_eq_true he
    show _ = (okD (X.goAfter (X.attr kA) (.bwd i) s.start_idx l)).map _
    rw [hS s hs, he, okD_of h2, List.map_map]
    rfl

theorem mem_moneyF {i j : Nat} {x : Val kS} {y : Val kA} : ((x, y), j) ∈ moneyF S A i ↔
    ∃ s ∈ S, ∃ a ∈ A, s.start_idx = i ∧ a.start_idx = i + 1 ∧ a.end_idx = j ∧ s.value = x ∧ a.value = y := by
  unfold moneyF
  simp only [List.mem_flatMap, List.mem_map, List.mem_filter, decide_eq_true_eq, Prod.mk.injEq]
  constructor
  · rintro ⟨s, ⟨h1, h2⟩, a, ⟨h3, h4⟩, ⟨h5, h6⟩, h7⟩
    exact ⟨s, h1, a, h3, h2, h4, h7, h5, h6⟩
  · rintro ⟨s, h1, a, h3, h2, h4, h7, h5, h6⟩
    exact ⟨s, ⟨h1, h2⟩, a, ⟨h3, h4⟩, ⟨h5, h6⟩, h7⟩

theorem mem_moneyB {i j : Nat} {x : Val kS} {y : Val kA} : ((x, y), j) ∈ moneyB S A i ↔
    ∃ s ∈ S, ∃ a ∈ A, s.end_idx = i ∧ a.end_idx + 1 = i ∧ a.start_idx = j ∧ s.value = x ∧ a.value = y := by
  unfold moneyB
  simp only [List.mem_flatMap, List.mem_map, List.mem_filter, decide_eq_true_eq, Prod.mk.injEq]
  constructor
  · rintro ⟨s, ⟨h1, h2⟩, a, ⟨h3, h4⟩, ⟨h5, h6⟩, h7⟩
    exact ⟨s, h1, a, h3, h2, h4, h7, h5, h6⟩
  · rintro ⟨s, h1, a, h3, h2, h4, h7, h5, h6⟩
    exact ⟨s, ⟨h1, h2⟩, a, ⟨h3, h4⟩, ⟨h5, h6⟩, h7⟩

theorem moneyF_le (nS : (S.map (·.start_idx)).Nodup) (nA : (A.map (·.start_idx)).Nodup) (i : Nat) :
    (moneyF S A i).length ≤ 1 :=
  flatMap_le_one (filter_key_le _ S nS i) (fun s _ => by rw [List.length_map]; exact filter_key_le _ A nA (i + 1))

theorem moneyB_le (nS : (S.map (·.end_idx)).Nodup) (nA : (A.map (·.end_idx)).Nodup) (i : Nat) :
    (moneyB S A i).length ≤ 1 :=
  flatMap_le_one (filter_key_le _ S nS i) (fun s _ => by
    rw [List.length_map]
    refine filter_key_le (fun a : LLCursorAssignment (Val kA) => a.end_idx + 1) A ?_ i
    rw [List.nodup_iff_pairwise_ne, List.pairwise_map] at nA ⊢
    exact nA.imp (fun hab e => hab (by omega)))

/-- all the money of a line: symbols right before or right after amounts -/
theorem money_found (rep : Rep l h) (ne : l.ll_tokens ≠ []) (p : Nat) (oS : OnlyFrom kS h S) (oA : OnlyFrom kA h A)
    (nS : (S.map (·.start_idx)).Nodup) (nA1 : (A.map (·.start_idx)).Nodup) (nA2 : (A.map (·.end_idx)).Nodup)
    (hS : ∀ s ∈ S, s.start_idx = s.end_idx)
    (bS : ∀ s ∈ S, s.start_idx < l.ll_tokens.length) (bA : ∀ a ∈ A, a.start_idx < l.ll_tokens.length)
    (hd : ∀ s ∈ S, ∀ a ∈ A, s.start_idx ≠ a.start_idx) :
    ∃ out, (wholeLine l p).findByForwardsAndBackwards (X.seq2 (X.attr kS) (X.attr kA)) = .ok out ∧
      (out.map (fun q => (q.1.start_idx, q.1.end_idx))).Nodup ∧
      ∀ i j x y, (∃ q ∈ out, q.1.start_idx = i ∧ q.1.end_idx = j ∧ q.2 = (x, y)) ↔
        ∃ s ∈ S, ∃ a ∈ A, s.value = x ∧ a.value = y ∧
          ((s.start_idx = i ∧ a.start_idx = i + 1 ∧ a.end_idx = j) ∨
           (a.start_idx = i ∧ a.end_idx + 1 = j ∧ s.start_idx = j)) := by
  have hpos : 0 < l.ll_tokens.length := List.length_pos_iff.2 ne
  have nS2 : (S.map (·.end_idx)).Nodup := by
    have : S.map (·.end_idx) = S.map (·.start_idx) := List.map_congr_left (fun s hs => (hS s hs).symm)
    rw [this]; exact nS
  have hlt : ∀ i, i ∈ rangeIncl (wholeLine l p).start_idx (wholeLine l p).end_idx → i < l.ll_tokens.length := by
    intro i hi
    have := (mem_rangeIncl.1 hi).2
    have : i ≤ l.ll_tokens.length - 1 := this
    omega
  refine ⟨(rangeIncl (wholeLine l p).start_idx (wholeLine l p).end_idx).flatMap (fun i =>
      (moneyF S A i).map (fun r => ({ start_idx := i, end_idx := r.2, ll_line := ⟨p, l⟩ }, r.1)) ++
      (moneyB S A i).map (fun r => ({ start_idx := r.2, end_idx := i, ll_line := ⟨p, l⟩ }, r.1))), ?_, ?_, ?_⟩
  · refine flatMapR_ok _ _ _ (fun i hi => ?_)
    have hi := hlt i hi
    have hf := money_fwd rep oS oA nS nA1 hS bA hi
    have hb := money_bwd rep oS oA nS2 nA2 hS hi
    have hf' : (X.seq2 (X.attr kS) (X.attr kA)).go (.fwd i) (wholeLine l p).ll_line.val = _ := hf
    have hb' : (X.seq2 (X.attr kS) (X.attr kA)).go (.bwd i) (wholeLine l p).ll_line.val = _ := hb
    rw [hf']
    dsimp only
    rw [hb']
    rfl
  · rw [List.nodup_iff_pairwise_ne, List.pairwise_map, List.pairwise_flatMap]
    constructor
    · intro i _
      rw [List.pairwise_append]
      refine ⟨pairwise_le_one (by rw [List.length_map]; exact moneyF_le nS nA1 i),
        pairwise_le_one (by rw [List.length_map]; exact moneyB_le nS2 nA2 i), ?_⟩
      intro a ha b hb he
      obtain ⟨⟨⟨x, y⟩, j⟩, h1, rfl⟩ := List.mem_map.1 ha
      obtain ⟨⟨⟨x', y'⟩, j'⟩, h2, rfl⟩ := List.mem_map.1 hb
      obtain ⟨s, hs, a, ha', e1, _⟩ := mem_moneyF.1 h1
      obtain ⟨s', hs', a', ha'', _, _, e2, _⟩ := mem_moneyB.1 h2
      simp only [Prod.mk.injEq] at he
      exact hd s hs a' ha'' (by omega)
    · refine List.Pairwise.imp ?_ (rangeIncl_pairwise _ _)
      intro i i' hii a ha b hb he
      rcases List.mem_append.1 ha with ha | ha <;> rcases List.mem_append.1 hb with hb | hb <;>
        obtain ⟨⟨⟨x, y⟩, j⟩, h1, rfl⟩ := List.mem_map.1 ha <;>
        obtain ⟨⟨⟨x', y'⟩, j'⟩, h2, rfl⟩ := List.mem_map.1 hb <;>
        simp only [Prod.mk.injEq] at he
      · omega
      · obtain ⟨s, hs, _, _, e1, _⟩ := mem_moneyF.1 h1
        obtain ⟨_, _, a', ha'', _, _, e2, _⟩ := mem_moneyB.1 h2
        exact hd s hs a' ha'' (by omega)
      · obtain ⟨s, hs, _, _, e1, _⟩ := mem_moneyF.1 h2
        obtain ⟨_, _, a', ha'', _, _, e2, _⟩ := mem_moneyB.1 h1
        exact hd s hs a' ha'' (by omega)
      · omega
  · intro i j x y
    constructor
    · rintro ⟨q, hq, rfl, rfl, hv⟩
      obtain ⟨i, _, hq⟩ := List.mem_flatMap.1 hq
      rcases List.mem_append.1 hq with hq | hq
      · obtain ⟨⟨⟨x', y'⟩, j⟩, h1, rfl⟩ := List.mem_map.1 hq
        cases hv
        obtain ⟨s, hs, a, ha, e1, e2, e3, e4, e5⟩ := mem_moneyF.1 h1
        exact ⟨s, hs, a, ha, e4, e5, .inl ⟨e1, e2, e3⟩⟩
      · obtain ⟨⟨⟨x', y'⟩, j⟩, h1, rfl⟩ := List.mem_map.1 hq
        cases hv
        obtain ⟨s, hs, a, ha, e1, e2, e3, e4, e5⟩ := mem_moneyB.1 h1
        exact ⟨s, hs, a, ha, e4, e5, .inr ⟨e3, e2, (hS s hs).trans e1⟩⟩
    · rintro ⟨s, hs, a, ha, e4, e5, ⟨e1, e2, e3⟩ | ⟨e1, e2, e3⟩⟩
      · refine ⟨_, List.mem_flatMap.2 ⟨i, mem_rangeIncl.2 ⟨Nat.zero_le _, ?_⟩, List.mem_append.2 (.inl (List.mem_map.2
          ⟨((x, y), j), mem_moneyF.2 ⟨s, hs, a, ha, e1, e2, e3, e4, e5⟩, rfl⟩))⟩, rfl, rfl, rfl⟩
        have := bS s hs
        show i ≤ l.ll_tokens.length - 1
        omega
      · refine ⟨_, List.mem_flatMap.2 ⟨j, mem_rangeIncl.2 ⟨Nat.zero_le _, ?_⟩, List.mem_append.2 (.inr (List.mem_map.2
          ⟨((x, y), i), mem_moneyB.2 ⟨s, hs, a, ha, (hS s hs).symm.trans e3, e2, e1, e4, e5⟩, rfl⟩))⟩, rfl, rfl, rfl⟩
        have := bS s hs
        show j ≤ l.ll_tokens.length - 1
        omega

end money

/-! ### symbols of a plain line -/

/-- the currency symbols of tokens `is` -/
def symbolAsgs {k : Ty W} (usd euro : Val k) (l : LLLine W) (is : List Nat) : List (LLCursorAssignment (Val k)) :=
  is.filterMap (fun i => (symbolAt usd euro l i).map (fun v => ⟨i, i, v⟩))

theorem mem_symbolAsgs {k : Ty W} {usd euro : Val k} {l : LLLine W} {is : List Nat} {a : LLCursorAssignment (Val k)} :
    a ∈ symbolAsgs usd euro l is ↔ a.start_idx ∈ is ∧ a.end_idx = a.start_idx ∧ symbolAt usd euro l a.start_idx = some a.value := by
  unfold symbolAsgs
  rw [List.mem_filterMap]
  constructor
  · rintro ⟨i, hi, he⟩
    obtain ⟨v, hv, rfl⟩ := Option.map_eq_some_iff.1 he
    exact ⟨hi, rfl, hv⟩
  · rintro ⟨hi, he, hv⟩
    refine ⟨_, hi, ?_⟩
    rw [hv, Option.map_some]
    cases a
    simp only at he
    rw [he]

theorem symbolAsgs_nodup {k : Ty W} (usd euro : Val k) (l : LLLine W) : ∀ {is : List Nat}, is.Nodup →
    ((symbolAsgs usd euro l is).map (·.start_idx)).Nodup := by
  intro is hn
  rw [List.nodup_iff_pairwise_ne, List.pairwise_map]
  unfold symbolAsgs
  rw [List.pairwise_filterMap]
  refine (List.nodup_iff_pairwise_ne.1 hn).imp ?_
  intro i j hij b hb b' hb'
  obtain ⟨v, _, rfl⟩ := Option.map_eq_some_iff.1 hb
  obtain ⟨v', _, rfl⟩ := Option.map_eq_some_iff.1 hb'
  exact hij

theorem filterMap_flatMap {α β : Type} (f : α → Option β) (xs : List α) : xs.filterMap f = xs.flatMap (fun x => (f x).toList) := by
  induction xs with
  | nil => rfl
  | cons x xs ih =>
    rw [List.filterMap_cons, List.flatMap_cons, ← ih]
    cases f x <;> rfl

theorem symbolGo_plain {k : Ty W} (usd euro : Val k) {s : LLSelection W} {h : History W} (hr : Reachable s.ll_line.val h)
    (hc : PlainChars s.ll_line.val h) (ha : ∀ i, s.Has i → HasAttr h i) :
    currencySymbolGo usd euro s = .ok (symbolAsgs usd euro s.ll_line.val (between s.start_idx s.end_idx)) := by
  rw [symbolGo_ok usd euro hr ha]
  congr 1
  unfold symbolAsgs
  rw [filterMap_flatMap]
  refine flatMap_congr_mem (fun i _ => ?_)
  have : charsOn h i = (charAt s.ll_line.val i).toList := hc.1 i
  rw [this]
  unfold symbolAt
  cases charAt s.ll_line.val i with
  | none => rfl
  | some c =>
    simp only [Option.toList_some, Option.bind_some]
    rw [filterMap_flatMap, List.flatMap_cons, List.flatMap_nil, List.append_nil]

theorem only_new {k : Ty W} {h : History W} (hn : ∀ x ∈ h, x.ty ≠ k) (asgs : List (LLCursorAssignment (Val k))) :
    OnlyFrom k (h ++ asgs.map (recOf k)) asgs := by
  unfold OnlyFrom
  rw [List.filter_append, List.filter_eq_nil_iff.2, List.filter_eq_self.2]
  · rfl
  · intro x hx
    obtain ⟨a, _, rfl⟩ := List.mem_map.1 hx
    exact decide_eq_true rfl
  · intro x hx
    simpa using hn x hx

theorem only_old {k k' : Ty W} {h : History W} {asgs : List (LLCursorAssignment (Val k))} (ho : OnlyFrom k h asgs)
    (hk : k' ≠ k) (new : List (LLCursorAssignment (Val k'))) : OnlyFrom k (h ++ new.map (recOf k')) asgs := by
  unfold OnlyFrom at *
  rw [List.filter_append, ho, List.filter_eq_nil_iff.2, List.append_nil]
  intro x hx
  obtain ⟨a, _, rfl⟩ := List.mem_map.1 hx
  exact fun e => hk (of_decide_eq_true e)

theorem symbol_go_iff {k : Ty W} (usd euro : Val k) {s : LLSelection W} {out : List (LLCursorAssignment (Val k))} :
    (currencySymbolResolver usd euro).go s = .ok (out, false) ↔ currencySymbolGo usd euro s = .ok out := by
  show (match currencySymbolGo usd euro s with
    | .ok as => .ok (as, false)
    | .error e => .error e : R _) = _ ↔ _
  cases currencySymbolGo usd euro s with
  | error e => constructor <;> (intro h; cases h)
  | ok a => constructor <;> (intro h; cases h; rfl)

theorem money_go_iff {kS kA k : Ty W} (mk : Val kS → Val kA → Val k) {s : LLSelection W} {out : List (LLCursorAssignment (Val k))} :
    (currencyAmountResolver mk).go s = .ok (out, false) ↔ currencyAmountGo mk s = .ok out := by
  show (match currencyAmountGo mk s with
    | .ok as => .ok (as, false)
    | .error e => .error e : R _) = _ ↔ _
  cases currencyAmountGo mk s with
  | error e => constructor <;> (intro h; cases h)
  | ok a => constructor <;> (intro h; cases h; rfl)

/-! ### lines made from strings -/

theorem string_wf (str : Str) : ∀ t ∈ [InputToken.Text (W := W) str []], t.WF := by
  simp [InputToken.WF, InputToken.attrList]

theorem string_noCustom (str : Str) (k : Ty W) : NoCustom k [InputToken.Text (W := W) str []] := by
  simp [NoCustom, InputToken.attrList]

theorem string_testable {str : Str} {l : LLLine W} (ok : createLineFromString W str = .ok l) (h : History W) :
    AllTestable l h := by
  intro i hi
  left
  obtain ⟨_, htoks, _⟩ := create_inv (string_wf str) ok
  have hm : (l.ll_tokens.map (·.token)) = ([InputToken.Text (W := W) str []].flatMap (tokensOf W utf8Len)).map (·.1) := by
    rw [htoks, layoutM_tokens]
  have hmem : (l.ll_tokens[i]).token ∈ l.ll_tokens.map (·.token) := List.mem_map.2 ⟨_, List.getElem_mem hi, rfl⟩
  rw [hm] at hmem
  simp only [List.flatMap_cons, List.flatMap_nil, List.append_nil, tokensOf, List.map_map, List.mem_map] at hmem
  obtain ⟨p, _, hp⟩ := hmem
  refine ⟨p.1, ?_⟩
  unfold textAt
  rw [List.getElem?_eq_getElem hi, Option.bind_some, ← hp]
  rfl

theorem string_types (str : Str) : ∀ x ∈ creationHistory W utf8Len [.Text str []], x.ty = .char ∨ x.ty = .textTag := by
  intro x hx
  rcases List.mem_append.1 hx with hx | hx
  · obtain ⟨p, _, hx⟩ := List.mem_flatMap.1 hx
    unfold builtinOf at hx
    split at hx
    · rcases List.mem_cons.1 hx with rfl | hx
      · exact .inl rfl
      · rcases List.mem_singleton.1 hx with rfl; exact .inr rfl
    · rcases List.mem_singleton.1 hx with rfl; exact .inr rfl
    · cases hx
  · simp [inputHistory, InputToken.attrList] at hx

end LNlp
