import Verif.Lemmas.StoreProps
import Verif.Lemmas.DisplayProps
import Verif.Demo.Examples
/-
C11–C22, C24–C26: what a line stores.  `Reachable l h` says that line `l` comes from a creation and
any number of runs of arbitrary resolvers, and that `h` lists all assignments made on the way.
-/
namespace LNlp
variable {W : World}

/-! ### C11, C12: fresh lines -/

/-- C11: without custom attributes, `query` finds for each text token its tag on its own range, for
each one-character token its character, and nothing else. -/
theorem C11_builtin_attributes (size : Str → Nat) (input : List (InputToken W)) (l : LLLine W)
    (noattrs : ∀ t ∈ input, t.attrList = [])
    (h : createLineFromInputTokens W input size = .ok l) :
    l.query .textTag = .ok (l.ll_tokens.zipIdx.filterMap (fun p => match p.1.token with
      | .Text s tag => some ((p.2, p.2), s, [tag])
      | .Value => none)) ∧
    l.query .char = .ok (l.ll_tokens.zipIdx.filterMap (fun p => match p.1.token with
      | .Text [c] _ => some ((p.2, p.2), [c], [c])
      | _ => none)) ∧
    ∀ k, k ≠ .char → k ≠ .textTag → l.query k = .ok [] := by
  have wf : ∀ t ∈ input, t.WF := by
    intro t ht a ha; rw [noattrs t ht] at ha; simp at ha
  obtain ⟨_, htoks, rep⟩ := create_inv wf h
  have hin : ∀ (i : Nat) (input : List (InputToken W)), (∀ t ∈ input, t.attrList = []) →
      inputHistory W size i input = [] := by
    intro i input
    induction input generalizing i with
    | nil => intro _; rfl
    | cons t ts ih =>
      intro hh
      simp [inputHistory, hh t (by simp), ih _ (fun t ht => hh t (by simp [ht]))]
  have hhist : creationHistory W size input = builtinHistory W (l.ll_tokens.map (·.token)) := by
    rw [creationHistory, hin 0 input noattrs, htoks, layoutM_tokens]; simp
  rw [hhist] at rep
  have hq : ∀ k, l.query k = .ok ((l.ll_tokens.zipIdx.filter (fun p =>
      !(valuesOf k (p.2, p.2) (builtinOf W p.1.token p.2)).isEmpty)).map (fun p =>
        ((p.2, p.2), p.1.token.str, valuesOf k (p.2, p.2) (builtinOf W p.1.token p.2)))) := by
    intro k
    obtain ⟨hr, hv⟩ := builtin_blocks k (l.ll_tokens.map (·.token))
    have hz : (l.ll_tokens.map (·.token)).zipIdx = l.ll_tokens.zipIdx.map (fun p => (p.1.token, p.2)) := by
      rw [List.zipIdx_map]; rfl
    rw [rep_query rep k]
    · rw [hr, hz, List.filter_map]
      simp only [List.map_map, Function.comp_def]
      congr 1
      apply List.map_congr_left
      intro p hp
      have hp' := (List.mem_filter.1 hp).1
      have hi : l.ll_tokens[p.2]? = some p.1 := by
        obtain ⟨a, i⟩ := p
        have := List.mem_zipIdx_iff_getElem?.1 hp'
        simpa using this
      rw [coveredText_one hi, hv (p.1.token, p.2)]
      rw [hz]; exact List.mem_map.2 ⟨p, hp', rfl⟩
    · intro r hr'
      rw [hr] at hr'
      obtain ⟨p, _, rfl⟩ := List.mem_map.1 hr'
      simp
  have combine : ∀ {k : Ty W} (L : List (LLToken × Nat))
      (g : LLToken × Nat → Option (LRange × Str × List (Val k))),
      (∀ p ∈ L, g p = if (valuesOf k (p.2, p.2) (builtinOf W p.1.token p.2)).isEmpty then none
        else some ((p.2, p.2), p.1.token.str, valuesOf k (p.2, p.2) (builtinOf W p.1.token p.2))) →
      (L.filter (fun p => !(valuesOf k (p.2, p.2) (builtinOf W p.1.token p.2)).isEmpty)).map (fun p =>
        ((p.2, p.2), p.1.token.str, valuesOf k (p.2, p.2) (builtinOf W p.1.token p.2))) = L.filterMap g := by
    intro k L g
    induction L with
    | nil => intro _; rfl
    | cons x xs ih =>
      intro hg
      rw [List.filterMap_cons, hg x (by simp), List.filter_cons, ← ih (fun p hp => hg p (by simp [hp]))]
      cases (valuesOf k (x.2, x.2) (builtinOf W x.1.token x.2)).isEmpty <;> simp
  refine ⟨?_, ?_, ?_⟩
  · rw [hq]
    congr 1
    apply combine
    intro p _
    rw [valuesOf_builtinOf_textTag]
    cases p.1.token <;> rfl
  · rw [hq]
    congr 1
    apply combine
    intro p _
    rw [valuesOf_builtinOf_char]
    cases p.1.token with
    | Value => rfl
    | Text s tag =>
      cases s with
      | nil => rfl
      | cons c cs => cases cs <;> rfl
  · intro k h1 h2
    rw [hq]
    have : ∀ p ∈ l.ll_tokens.zipIdx,
        (valuesOf k (p.2, p.2) (builtinOf W p.1.token p.2)) = [] := by
      intro p _
      apply valuesOf_none
      intro x hx hk
      unfold builtinOf at hx
      split at hx <;> simp at hx
      · rcases hx with rfl | rfl
        · exact h1 hk.symm
        · exact h2 hk.symm
      · subst hx; exact h2 hk.symm
    rw [List.filter_eq_nil_iff.2 (fun p hp => by simp [this p hp])]
    rfl

example := C11_builtin_attributes (W := Demo.W) List.length
  [.Text ['1','2',',',' ','a','b'] [], .Custom 4 []] _ (by simp [InputToken.attrList]) rfl

/-- C12: for every type other than the built-in two, the attributes of a fresh line are exactly the
given ones: per input that has some, one entry on the whole range of that input's tokens, with the
input's text and the values in the given order. -/
theorem C12_input_attributes (L : SplitLaws W) (size : Str → Nat) (input : List (InputToken W))
    (l : LLLine W) (wf : ∀ t ∈ input, t.WF) (h : createLineFromInputTokens W input size = .ok l)
    (k : Ty W) (h1 : k ≠ .char) (h2 : k ≠ .textTag) :
    l.query k = .ok ((inputSpans W size 0 input).filterMap (fun p =>
      if (p.2.valuesOf k).isEmpty then none else some (p.1, p.2.str, p.2.valuesOf k))) := by
  obtain ⟨hg, htoks, rep⟩ := create_inv wf h
  have hne : ∀ t ∈ input, tokensOf W size t ≠ [] := fun t ht => (inputTokens_ok size (hg t ht)).2
  obtain ⟨hr, hv⟩ := input_blocks k size input 0 hne
  have hb : ∀ x ∈ builtinHistory W ((input.flatMap (tokensOf W size)).map (·.1)), x.ty ≠ k := by
    intro x hx
    rcases builtinHistory_ty _ x hx with e | e <;> rw [e]
    · exact fun hh => h1 hh.symm
    · exact fun hh => h2 hh.symm
  have hr' : rangesOf k (creationHistory W size input) = ((inputSpans W size 0 input).filter
      (fun p => !(p.2.valuesOf k).isEmpty)).map (·.1) := by
    rw [creationHistory, rangesOf_append_of_none _ _ _ hb, hr]
  rw [rep_query rep k, hr']
  · congr 1
    rw [List.map_map]
    have : ∀ (S : List (LRange × InputToken W)),
        (∀ p ∈ S, coveredText l.ll_tokens p.1 = p.2.str ∧
          valuesOf k p.1 (creationHistory W size input) = p.2.valuesOf k) →
        (S.filter (fun p => !(p.2.valuesOf k).isEmpty)).map
          ((fun r => (r, coveredText l.ll_tokens r, valuesOf k r (creationHistory W size input)))
            ∘ fun p => p.1) =
        S.filterMap (fun p =>
          if (p.2.valuesOf k).isEmpty then none else some (p.1, p.2.str, p.2.valuesOf k)) := by
      intro S
      induction S with
      | nil => intro _; rfl
      | cons x xs ih =>
        intro hS
        rw [List.filterMap_cons, List.filter_cons, ← ih (fun p hp => hS p (by simp [hp]))]
        obtain ⟨e1, e2⟩ := hS x (by simp)
        cases (x.2.valuesOf k).isEmpty <;> simp [e1, e2]
    apply this
    intro p hp
    constructor
    · rw [coveredText_tokens, htoks, layoutM_tokens]
      have := inputSpans_text L size input [] hne p (by simpa using hp)
      simpa using this
    · rw [creationHistory, valuesOf_append, hv p hp, valuesOf_none k _ _ hb]; rfl
  · intro r hr2
    rw [hr'] at hr2
    obtain ⟨p, hp, rfl⟩ := List.mem_map.1 hr2
    have hp := (List.mem_filter.1 hp).1
    have : ∀ (input : List (InputToken W)) (i : Nat), ∀ p ∈ inputSpans W size i input, p.1.1 ≤ p.1.2 + 1 := by
      intro input
      induction input with
      | nil => intro i p hp; simp [inputSpans] at hp
      | cons t ts ih =>
        intro i p hp
        simp only [inputSpans, List.mem_cons] at hp
        rcases hp with rfl | hp
        · simp only; omega
        · exact ih _ p hp
    exact this input 0 p hp

example := C12_input_attributes Demo.splitLaws List.length Demo.exInput Demo.exLine Demo.exInput_wf
  Demo.exLine_ok (Ty.user 0) (by simp) (by simp)

/-- C12, `add_attr`: the new value comes after the values of its type given before; the values of other
types, the text and the tokens stay as they are. -/
theorem C12_add_attr (t : InputToken W) (k : Ty W) (v : Val k) (size : Str → Nat) :
    (t.addAttr k v).valuesOf k = t.valuesOf k ++ [v] ∧
    (∀ k', k' ≠ k → (t.addAttr k v).valuesOf k' = t.valuesOf k') ∧
    (t.addAttr k v).str = t.str ∧ tokensOf W size (t.addAttr k v) = tokensOf W size t ∧
    (t.WF → (t.addAttr k v).WF) := by
  have ha : (t.addAttr k v).attrList = t.attrList ++ [AnyAttribute.new k v] := by cases t <;> rfl
  refine ⟨?_, fun k' hk => ?_, by cases t <;> rfl, by cases t <;> rfl, ?_⟩
  · unfold InputToken.valuesOf
    rw [ha, List.filterMap_append]
    congr 1
    simp [AnyAttribute.new]
  · unfold InputToken.valuesOf
    rw [ha, List.filterMap_append]
    rw [List.filterMap_cons, dif_neg (fun e => hk e.symm)]
    simp
  · intro wf a hm
    rw [ha, List.mem_append, List.mem_singleton] at hm
    rcases hm with hm | rfl
    · exact wf a hm
    · exact ⟨k, v, rfl⟩

example := C12_add_attr (W := Demo.W) (.Text ['a'] []) (Ty.user 0) (['x'] : Str) utf8Len

/-- C12, for all types: on each range the built-in values come first, then the given ones. -/
theorem C12_values_on_ranges (size : Str → Nat) (input : List (InputToken W))
    (l : LLLine W) (wf : ∀ t ∈ input, t.WF) (h : createLineFromInputTokens W input size = .ok l)
    (k : Ty W) (p : LRange × InputToken W) (hp : p ∈ inputSpans W size 0 input)
    (hv : p.2.valuesOf k ≠ []) :
    ∃ q text vs, l.query k = .ok q ∧ (p.1, text, vs ++ p.2.valuesOf k) ∈ q ∧
      (k ≠ .char → k ≠ .textTag → vs = []) := by
  obtain ⟨hg, htoks, rep⟩ := create_inv wf h
  have hne : ∀ t ∈ input, tokensOf W size t ≠ [] := fun t ht => (inputTokens_ok size (hg t ht)).2
  obtain ⟨hr, hvs⟩ := input_blocks k size input 0 hne
  have hin : p.1 ∈ rangesOf k (creationHistory W size input) := by
    rw [mem_rangesOf_iff_values, creationHistory, valuesOf_append, hvs p hp]
    simp [hv]
  have hord : ∀ r ∈ rangesOf k (creationHistory W size input), r.1 ≤ r.2 + 1 := by
    intro r hr2
    obtain ⟨v, hv⟩ := mem_rangesOf.1 hr2
    rw [creationHistory, List.mem_append] at hv
    rcases hv with hv | hv
    · simp only [builtinHistory, List.mem_flatMap] at hv
      obtain ⟨q, _, hq⟩ := hv
      have := builtinOf_range _ _ _ hq
      simp only at this; rw [this]; simp
    · rw [inputHistory_eq, List.mem_flatMap] at hv
      obtain ⟨q, hq, hv⟩ := hv
      obtain ⟨a, _, ha⟩ := List.mem_map.1 hv
      have hq1 : q.1 = r := by
        have := congrArg Rec.range ha; simpa using this
      have : ∀ (input : List (InputToken W)) (i : Nat), ∀ p ∈ inputSpans W size i input, p.1.1 ≤ p.1.2 + 1 := by
        intro input
        induction input with
        | nil => intro i p hp; simp [inputSpans] at hp
        | cons t ts ih =>
          intro i p hp
          simp only [inputSpans, List.mem_cons] at hp
          rcases hp with rfl | hp
          · simp only; omega
          · exact ih _ p hp
      rw [← hq1]; exact this input 0 q hq
  refine ⟨_, coveredText l.ll_tokens p.1,
    valuesOf k p.1 (builtinHistory W ((input.flatMap (tokensOf W size)).map (·.1))),
    rep_query rep k hord, ?_, ?_⟩
  · rw [List.mem_map]
    refine ⟨p.1, hin, ?_⟩
    rw [creationHistory, valuesOf_append, hvs p hp]
  · intro h1 h2
    apply valuesOf_none
    intro x hx
    rcases builtinHistory_ty _ x hx with e | e <;> rw [e]
    · exact fun hh => h1 hh.symm
    · exact fun hh => h2 hh.symm

example := C12_values_on_ranges List.length Demo.exInput Demo.exLine Demo.exInput_wf
  Demo.exLine_ok (Ty.user 0)
  ((0, 5), .Text ['P','a','y',' ','1','2','a','b',',',' '] [AnyAttribute.new (Ty.user 0) (['A'] : Str)])
  (by exact List.mem_cons_self ..)
  (by intro h; cases h)

/-! ### C13: query -/

/-- C13: `query` returns the whole history, grouped by range. -/
theorem C13_query_is_history {l : LLLine W} {h : History W} (hr : Reachable l h) (k : Ty W)
    (ordered : ∀ r ∈ rangesOf k h, r.1 ≤ r.2 + 1) :
    l.query k = .ok ((rangesOf k h).map (fun r => (r, coveredText l.ll_tokens r, valuesOf k r h))) :=
  rep_query hr.rep k ordered

example := C13_query_is_history Demo.exReach2 (Ty.user 2) (by decide)

/-- C13: exactly when `query` panics: some range of that type ends before the token before its
start. -/
theorem C13_query_panics_iff {l : LLLine W} {h : History W} (hr : Reachable l h) (k : Ty W) :
    (∃ e, l.query k = .error e) ↔ ∃ r ∈ rangesOf k h, r.2 + 1 < r.1 := by
  constructor
  · rintro ⟨e, he⟩
    apply Classical.byContradiction
    intro hn
    have := rep_query hr.rep k (fun r hr2 => Nat.le_of_not_lt fun hc => hn ⟨r, hr2, hc⟩)
    rw [this] at he; cases he
  · rintro ⟨r, h1, h2⟩
    exact rep_query_error hr.rep k ⟨r, h1, by omega⟩

example := C13_query_panics_iff Demo.exReach2 (Ty.user 2)

/-- C13: what a query result means, record by record. -/
theorem C13_query_complete {l : LLLine W} {h : History W} (hr : Reachable l h) (k : Ty W)
    (q : List (LRange × Str × List (Val k))) (hq : l.query k = .ok q) :
    (q.map (·.1)).Nodup ∧
    (∀ r v, (∃ text vs, (r, text, vs) ∈ q ∧ v ∈ vs) ↔ (⟨k, r, v⟩ : Rec W) ∈ h) ∧
    (∀ e ∈ q, e.2.2 ≠ [] ∧ e.2.1 = coveredText l.ll_tokens e.1) := by
  have ordered : ∀ r ∈ rangesOf k h, r.1 ≤ r.2 + 1 := by
    intro r hr2
    apply Nat.le_of_not_lt
    intro hc
    obtain ⟨e, he⟩ := (C13_query_panics_iff hr k).2 ⟨r, hr2, by omega⟩
    rw [hq] at he; cases he
  rw [C13_query_is_history hr k ordered] at hq
  have hq := Except.ok.inj hq
  subst hq
  refine ⟨?_, ?_, ?_⟩
  · rw [List.map_map]
    have : ((fun (e : LRange × Str × List (Val k)) => e.1) ∘
        fun r => (r, coveredText l.ll_tokens r, valuesOf k r h)) = id := rfl
    rw [this, List.map_id]
    exact rangesOf_nodup k h
  · intro r v
    constructor
    · rintro ⟨text, vs, hm, hv⟩
      obtain ⟨r', _, he⟩ := List.mem_map.1 hm
      simp only [Prod.mk.injEq] at he
      obtain ⟨rfl, rfl, rfl⟩ := he
      exact mem_valuesOf.1 hv
    · intro hm
      exact ⟨_, _, List.mem_map.2 ⟨r, mem_rangesOf.2 ⟨v, hm⟩, rfl⟩, mem_valuesOf.2 hm⟩
  · intro e he
    obtain ⟨r, hr2, rfl⟩ := List.mem_map.1 he
    exact ⟨mem_rangesOf_iff_values.1 hr2, rfl⟩

example := C13_query_complete Demo.exReach2 (Ty.user 2) _ rfl

/-! ### C14, C15: matching an attribute type -/

/-- C14: forwards at token `i`, `x::attr` yields `(v, j)` exactly when `v` was assigned on `(i, j)`. -/
theorem C14_attr_forwards {l : LLLine W} {h : History W} (hr : Reachable l h) (k : Ty W) (i : Nat)
    (hi : i < l.ll_tokens.length) :
    ∃ out, (X.attr k).go (.fwd i) l = .ok out ∧
      ∀ v j, (v, j) ∈ out ↔ (⟨k, (i, j), v⟩ : Rec W) ∈ h := by
  refine ⟨_, rep_attr_fwd hr.rep k hi, ?_⟩
  intro v j
  rw [mem_attr_list (p := fun r => r.1 = i) (f := fun r => r.2)]
  constructor
  · rintro ⟨r, rfl, rfl, hm⟩; exact hm
  · intro hm; exact ⟨(i, j), rfl, rfl, hm⟩

example := C14_attr_forwards Demo.exReach2 (Ty.user 2) 0 (by decide)

/-- C14, with order and multiplicity: ranges in order of first assignment, and on each range the
values in order of assignment. -/
theorem C14_attr_forwards_exact {l : LLLine W} {h : History W} (hr : Reachable l h) (k : Ty W) (i : Nat)
    (hi : i < l.ll_tokens.length) :
    (X.attr k).go (.fwd i) l = .ok (((rangesOf k h).filter (fun r => decide (r.1 = i))).flatMap
        (fun r => (valuesOf k r h).map (fun v => (v, r.2)))) := rep_attr_fwd hr.rep k hi

example := C14_attr_forwards_exact Demo.exReach2 (Ty.user 2) 0 (by decide)

/-- C15: backwards at token `j`, `x::attr` yields `(v, i)` exactly when `v` was assigned on `(i, j)`. -/
theorem C15_attr_backwards {l : LLLine W} {h : History W} (hr : Reachable l h) (k : Ty W) (j : Nat)
    (hj : j < l.ll_tokens.length) :
    ∃ out, (X.attr k).go (.bwd j) l = .ok out ∧
      ∀ v i, (v, i) ∈ out ↔ (⟨k, (i, j), v⟩ : Rec W) ∈ h := by
  refine ⟨_, rep_attr_bwd hr.rep k hj, ?_⟩
  intro v i
  rw [mem_attr_list (p := fun r => r.2 = j) (f := fun r => r.1)]
  constructor
  · rintro ⟨r, rfl, rfl, hm⟩; exact hm
  · intro hm; exact ⟨(i, j), rfl, rfl, hm⟩

example := C15_attr_backwards Demo.exReach2 (Ty.user 2) 2 (by decide)

/-- C15, with order and multiplicity. -/
theorem C15_attr_backwards_exact {l : LLLine W} {h : History W} (hr : Reachable l h) (k : Ty W) (j : Nat)
    (hj : j < l.ll_tokens.length) :
    (X.attr k).go (.bwd j) l = .ok (((rangesOf k h).filter (fun r => decide (r.2 = j))).flatMap
        (fun r => (valuesOf k r h).map (fun v => (v, r.1)))) := rep_attr_bwd hr.rep k hj

example := C15_attr_backwards_exact Demo.exReach2 (Ty.user 2) 2 (by decide)

/-! ### C16: the indexes agree -/

/-- C16: the four indexes list the same ranges for each type, none of them twice; a range is listed exactly if it has a
value of the type. -/
theorem C16_indexes_agree {l : LLLine W} {h : History W} (hr : Reachable l h) (k : Ty W) (r : LRange) :
    (r ∈ l.attrs.ranges.get k ↔ ∃ m, l.attrs.starts_at[r.1]? = some m ∧ r ∈ m.get k) ∧
    (r ∈ l.attrs.ranges.get k ↔ ∃ m, l.attrs.ends_at[r.2]? = some m ∧ r ∈ m.get k) ∧
    (r ∈ l.attrs.ranges.get k ↔ ∃ b vs, l.attrs.values.get? r = some b ∧ b.get k = .ok vs ∧ vs ≠ []) ∧
    (l.attrs.ranges.get k).Nodup ∧
    (∀ (i : Nat) (m : TypeIdToMany W LRange), l.attrs.starts_at[i]? = some m → (m.get k).Nodup ∧ ∀ s ∈ m.get k, s.1 = i) ∧
    (∀ (i : Nat) (m : TypeIdToMany W LRange), l.attrs.ends_at[i]? = some m → (m.get k).Nodup ∧ ∀ s ∈ m.get k, s.2 = i) := by
  have rep := hr.rep
  have hR := rep.ranges k
  refine ⟨?_, ?_, ?_, ?_, ?_, ?_⟩
  · rw [hR]
    constructor
    · intro hm
      obtain ⟨v, hv⟩ := mem_rangesOf.1 hm
      have hb := (rep.bounds _ hv).1
      simp only at hb
      rw [← rep.lenS] at hb
      refine ⟨_, List.getElem?_eq_getElem hb, ?_⟩
      rw [rep.starts _ _ (List.getElem?_eq_getElem hb) k]
      exact List.mem_filter.2 ⟨hm, by simp⟩
    · rintro ⟨m, hm, hr2⟩
      rw [rep.starts _ _ hm k] at hr2
      exact (List.mem_filter.1 hr2).1
  · rw [hR]
    constructor
    · intro hm
      obtain ⟨v, hv⟩ := mem_rangesOf.1 hm
      have hb := (rep.bounds _ hv).2
      simp only at hb
      rw [← rep.lenE] at hb
      refine ⟨_, List.getElem?_eq_getElem hb, ?_⟩
      rw [rep.ends _ _ (List.getElem?_eq_getElem hb) k]
      exact List.mem_filter.2 ⟨hm, by simp⟩
    · rintro ⟨m, hm, hr2⟩
      rw [rep.ends _ _ hm k] at hr2
      exact (List.mem_filter.1 hr2).1
  · rw [hR]
    constructor
    · intro hm
      obtain ⟨b, hb⟩ := rep_present_range rep hm
      exact ⟨b, _, hb, rep_bucket_get rep hb k, mem_rangesOf_iff_values.1 hm⟩
    · rintro ⟨b, vs, hb, hg, hne⟩
      rw [rep_bucket_get rep hb k] at hg
      have := Except.ok.inj hg
      subst this
      exact mem_rangesOf_iff_values.2 hne
  · rw [hR]; exact rangesOf_nodup k h
  · intro i m hm
    rw [rep.starts _ _ hm k]
    exact ⟨(rangesOf_nodup k h).filter _, fun s hs => by simpa using (List.mem_filter.1 hs).2⟩
  · intro i m hm
    rw [rep.ends _ _ hm k]
    exact ⟨(rangesOf_nodup k h).filter _, fun s hs => by simpa using (List.mem_filter.1 hs).2⟩

example := C16_indexes_agree Demo.exReach2 (Ty.user 2) (0, 2)

/-! ### C17–C19: running a resolver -/

/-- C17: a run only adds. -/
theorem C17_run_only_adds {l l' : LLLine W} {h : History W} (hr : Reachable l h) (ptr : Nat)
    (r : Resolver W) (ok : l.run ptr r = .ok l') (k : Ty W)
    (q q' : List (LRange × Str × List (Val k))) (hq : l.query k = .ok q) (hq' : l'.query k = .ok q') :
    q.map (·.1) <+: q'.map (·.1) ∧
    (∀ e ∈ q, ∃ vs', (e.1, e.2.1, vs') ∈ q' ∧ e.2.2 <+: vs') ∧
    (∀ v j i out out', (X.attr k).go (.fwd i) l = .ok out → (X.attr k).go (.fwd i) l' = .ok out' →
      (v, j) ∈ out → (v, j) ∈ out') := by
  by_cases ne : l.ll_tokens = []
  · rw [run_empty ne] at ok
    have := Except.ok.inj ok
    subst this
    rw [hq] at hq'
    have := Except.ok.inj hq'
    subst this
    refine ⟨List.prefix_refl _, fun e he => ⟨e.2.2, he, List.prefix_refl _⟩, ?_⟩
    intro v j i out out' h1 h2 hm
    rw [h1] at h2
    have := Except.ok.inj h2
    rw [← this]; exact hm
  · obtain ⟨asgs, hg, ht, hb, rep'⟩ := run_rep hr.rep ne ok
    have hr' : Reachable l' (h ++ asgs.map (recOf r.attr)) := .run l h ptr r asgs false l' hr ne hg ok
    have get : ∀ {l : LLLine W} {h : History W}, Reachable l h → ∀ {q}, l.query k = .ok q →
        q = (rangesOf k h).map (fun r => (r, coveredText l.ll_tokens r, valuesOf k r h)) := by
      intro l h hr q hq
      have ordered : ∀ r ∈ rangesOf k h, r.1 ≤ r.2 + 1 := by
        intro r hr2
        apply Nat.le_of_not_lt
        intro hc
        obtain ⟨e, he⟩ := (C13_query_panics_iff hr k).2 ⟨r, hr2, by omega⟩
        rw [hq] at he; cases he
      rw [C13_query_is_history hr k ordered] at hq
      exact (Except.ok.inj hq).symm
    rw [get hr hq, get hr' hq']
    refine ⟨?_, ?_, ?_⟩
    · simp only [List.map_map, Function.comp_def, List.map_id']
      exact rangesOf_prefix k h _
    · intro e he
      obtain ⟨r0, hr0, rfl⟩ := List.mem_map.1 he
      refine ⟨valuesOf k r0 h ++ valuesOf k r0 (asgs.map (recOf r.attr)), ?_, List.prefix_append _ _⟩
      rw [List.mem_map]
      exact ⟨r0, (rangesOf_prefix k h _).subset hr0, by simp [ht, valuesOf_append]⟩
    · intro v j i out out' h1 h2 hm
      by_cases hi : i < l.ll_tokens.length
      · obtain ⟨o1, e1, m1⟩ := C14_attr_forwards hr k i hi
        obtain ⟨o2, e2, m2⟩ := C14_attr_forwards hr' k i (by rw [ht]; exact hi)
        rw [h1] at e1; rw [h2] at e2
        have := Except.ok.inj e1; subst this
        have := Except.ok.inj e2; subst this
        rw [m2, List.mem_append]
        exact Or.inl ((m1 v j).1 hm)
      · have := (rep_attr_oob hr.rep k hi).1
        change (X.attr k).go (.fwd i) l = _ at this
        rw [h1] at this; cases this

example := C17_run_only_adds Demo.exReach 7 Demo.exRes Demo.exLine2_ok (Ty.user 0) _ _ rfl rfl

/-- C18: a run at type `A` changes nothing at another type. -/
theorem C18_types_independent {l l' : LLLine W} {h : History W} (hr : Reachable l h) (ptr : Nat)
    (r : Resolver W) (ok : l.run ptr r = .ok l') (k : Ty W) (hk : k ≠ r.attr) :
    l'.query k = l.query k ∧
    (∀ d, (X.attr k).go d l' = (X.attr k).go d l) ∧
    (∀ v d, (X.attrEq k v).go d l' = (X.attrEq k v).go d l) ∧
    (∀ set d out, (X.tokenHasAny k set).go d l = .ok out → (X.tokenHasAny k set).go d l' = .ok out) := 
  ⟨run_query hr.rep ok k hk, run_leaf hr.rep ok k hk⟩

example := C18_types_independent Demo.exReach 7 Demo.exRes Demo.exLine2_ok (Ty.user 0)
  (by simp [Demo.exRes])

/-- a line with one custom token without attributes, and a resolver that gives the token a `Ty.user 2` -/
def Demo.bareLine : LLLine Demo.W :=
  Demo.getOk Demo.emptyLine (createLineFromInputTokens Demo.W [.Custom 4 []] List.length)
def Demo.bareRes : Resolver Demo.W where
  attr := Ty.user 2
  go := fun _ => .ok ([⟨0, 0, (['x'] : Str)⟩], false)

/-- C18, the full claim for matches including their panics -/
def C18_panics_claim : Prop :=
  ∀ (W : World) (l l' : LLLine W) (h : History W), Reachable l h → ∀ ptr (r : Resolver W),
    l.run ptr r = .ok l' → ∀ k, k ≠ r.attr → ∀ set d,
    (X.tokenHasAny k set).go d l' = (X.tokenHasAny k set).go d l

/-- C18 stops at panics: `token_has_any` at a token without any attribute panics, and assigning an
attribute of another type to that token removes the panic (x.rs:135-147). -/
theorem C18_has_any_panics_interfere_false : ¬ C18_panics_claim := by
  intro claim
  have := claim Demo.W Demo.bareLine (Demo.getOk Demo.emptyLine (Demo.bareLine.run 0 Demo.bareRes)) _
    (.create [.Custom 4 []] List.length _ (by simp [InputToken.WF, InputToken.attrList]) rfl) 0
    Demo.bareRes rfl .char (by intro h; cases h) [] (.fwd 0)
  have h1 : (X.tokenHasAny (W := Demo.W) .char []).go (.fwd 0) Demo.bareLine = .error .noTokenAttrs := rfl
  have h2 : (X.tokenHasAny (W := Demo.W) .char []).go (.fwd 0)
    (Demo.getOk Demo.emptyLine (Demo.bareLine.run 0 Demo.bareRes)) = .ok [] := rfl
  rw [h1, h2] at this
  cases this

/-- C19: on every range a run appends exactly the values it assigned there, duplicates included,
while the range is listed once; and a query returns as many values as there were assignments. -/
theorem C19_values_accumulate {l l' : LLLine W} {h : History W} (hr : Reachable l h) (ptr : Nat)
    (r : Resolver W) (asgs : List (LLCursorAssignment (Val r.attr))) (ne : l.ll_tokens ≠ [])
    (go : r.go (wholeLine l ptr) = .ok (asgs, false)) (ok : l.run ptr r = .ok l')
    (q' : List (LRange × Str × List (Val r.attr))) (hq' : l'.query r.attr = .ok q') :
    (q'.map (·.1)).Nodup ∧
    ∀ a ∈ asgs, ∃ text vs, ((a.start_idx, a.end_idx), text, vs) ∈ q' ∧
      vs = valuesOf r.attr (a.start_idx, a.end_idx) h ++
        (asgs.filter (fun b => decide ((b.start_idx, b.end_idx) = (a.start_idx, a.end_idx)))).map (·.value) := by
  have hr' : Reachable l' (h ++ asgs.map (recOf r.attr)) := .run l h ptr r asgs false l' hr ne go ok
  refine ⟨(C13_query_complete hr' _ q' hq').1, ?_⟩
  have ordered : ∀ x ∈ rangesOf r.attr (h ++ asgs.map (recOf r.attr)), x.1 ≤ x.2 + 1 := by
    intro x hx
    apply Nat.le_of_not_lt
    intro hc
    obtain ⟨e, he⟩ := (C13_query_panics_iff hr' r.attr).2 ⟨x, hx, by omega⟩
    rw [hq'] at he; cases he
  rw [C13_query_is_history hr' _ ordered] at hq'
  have := Except.ok.inj hq'
  subst this
  intro a ha
  refine ⟨_, _, List.mem_map.2 ⟨(a.start_idx, a.end_idx), ?_, rfl⟩, ?_⟩
  · rw [mem_rangesOf]
    exact ⟨a.value, List.mem_append.2 (Or.inr (List.mem_map.2 ⟨a, ha, rfl⟩))⟩
  · rw [valuesOf_append]
    congr 1
    have key : ∀ (R : LRange) (asgs : List (LLCursorAssignment (Val r.attr))),
        valuesOf r.attr R (asgs.map (recOf r.attr)) =
        (asgs.filter (fun b => decide ((b.start_idx, b.end_idx) = R))).map (·.value) := by
      intro R asgs
      induction asgs with
      | nil => rfl
      | cons b bs ih =>
        have := valuesOf_append r.attr R [recOf r.attr b] (bs.map (recOf r.attr))
        simp only [List.map_cons]
        rw [show recOf r.attr b :: List.map (recOf r.attr) bs =
          [recOf r.attr b] ++ List.map (recOf r.attr) bs from rfl, this, ih, List.filter_cons]
        by_cases hb : (b.start_idx, b.end_idx) = R
        · subst hb
          have : valuesOf r.attr (b.start_idx, b.end_idx) [recOf r.attr b] = [b.value] :=
            valuesOf_snoc_self r.attr (b.start_idx, b.end_idx) [] b.value
          rw [this]; simp
        · rw [valuesOf_no_range]
          · simp [hb]
          · intro x hx; simp at hx; subst hx; exact hb
    exact key _ asgs

example := C19_values_accumulate Demo.exReach 7 Demo.exRes _ Demo.exLine_ne rfl Demo.exLine2_ok _ rfl

/-- C19: number of values found by `query` = number of assignments of that type. -/
theorem C19_value_count {l : LLLine W} {h : History W} (hr : Reachable l h) (k : Ty W)
    (q : List (LRange × Str × List (Val k))) (hq : l.query k = .ok q) :
    (q.map (fun e => e.2.2.length)).sum = (h.filter (fun x => decide (x.ty = k))).length := by
  have ordered : ∀ r ∈ rangesOf k h, r.1 ≤ r.2 + 1 := by
    intro r hr2
    apply Nat.le_of_not_lt
    intro hc
    obtain ⟨e, he⟩ := (C13_query_panics_iff hr k).2 ⟨r, hr2, by omega⟩
    rw [hq] at he; cases he
  rw [C13_query_is_history hr k ordered] at hq
  have := Except.ok.inj hq
  subst this
  rw [List.map_map]
  exact values_count k h

example := C19_value_count Demo.exReach2 (Ty.user 2) _ rfl

/-! ### C20, C21: type-erased storage -/

/-- C20: giving a value as an `AnyAttribute` has the same effect (success, panic and resulting line) as
a resolver that assigns it on the same range. -/
theorem C20_any_attribute_like_run {l : LLLine W} {h : History W} (hr : Reachable l h)
    (ne : l.ll_tokens ≠ []) (i j : Nat) (k : Ty W) (v : Val k) (ptr : Nat) :
    l.addAnyAttrs i j [AnyAttribute.new k v] =
      l.run ptr { attr := k, go := fun _ => .ok ([⟨i, j, v⟩], false) } := by
  rw [run_of_go (asgs := [⟨i, j, v⟩]) ne rfl]
  simp only [LLLine.addAnyAttrs, foldR, LLLineAttrs.assign]
  rw [addAny_eq_insert hr.rep]
  cases l.attrs.insert (i, j) k v <;> rfl

example := C20_any_attribute_like_run Demo.exReach2 (by intro h; cases h) 1 3 (Ty.user 5) (['q'] : Str) 3

/-- C21: on a reachable line no operation ever fails a downcast. -/
theorem C21_no_downcast_failure {l : LLLine W} {h : History W} (hr : Reachable l h) (k : Ty W) :
    l.query k ≠ .error .bucketType ∧
    (∀ d, (X.attr k).go d l ≠ .error .bucketType) ∧
    (∀ d v, (X.attrEq k v).go d l ≠ .error .bucketType) ∧
    (∀ d set, (X.tokenHasAny k set).go d l ≠ .error .bucketType) ∧
    (∀ disp : LLLineDisplay W, disp.ll_line = l → ∃ d', disp.include k = .ok d') ∧
    (∀ i j v, l.addAnyAttrs i j [AnyAttribute.new k v] ≠ .error .bucketType) ∧
    (∀ ptr (r : Resolver W), r.go (wholeLine l ptr) ≠ .error .bucketType → l.run ptr r ≠ .error .bucketType) := by
  have rep := hr.rep
  refine ⟨?_, ?_, ?_, ?_, ?_, ?_, ?_⟩
  · rw [rep_query_gen rep]
    generalize rangesOf k h = R
    induction R with
    | nil => intro hh; cases hh
    | cons r rs ih =>
      simp only [mapR]
      cases hs : sliceIncl l.ll_tokens r.1 r.2 with
      | error e =>
        simp only [ne_eq, Except.error.injEq]
        rintro rfl
        unfold sliceIncl at hs
        split at hs <;> cases hs
      | ok toks =>
        simp only
        revert ih
        generalize mapR (fun r => match sliceIncl l.ll_tokens r.1 r.2 with
          | .error e => .error e
          | .ok toks => (.ok (r, (toks.map LLToken.queryText).flatten, valuesOf k r h) :
              R (LRange × Str × List (Val k)))) rs = z
        cases z with
        | error e => intro ih hh; exact ih hh
        | ok ys => intro _ hh; cases hh
  · intro d
    cases d with
    | fwd i =>
      by_cases hi : i < l.ll_tokens.length
      · change Dir.attr (.fwd i) k l ≠ _; rw [rep_attr_fwd rep k hi]; simp
      · change Dir.attr (.fwd i) k l ≠ _; rw [(rep_attr_oob rep k hi).1]; simp
    | bwd i =>
      by_cases hi : i < l.ll_tokens.length
      · change Dir.attr (.bwd i) k l ≠ _; rw [rep_attr_bwd rep k hi]; simp
      · change Dir.attr (.bwd i) k l ≠ _; rw [(rep_attr_oob rep k hi).2]; simp
  · intro d v
    cases d with
    | fwd i =>
      by_cases hi : i < l.ll_tokens.length
      · change Dir.attrEq (.fwd i) k v l ≠ _; rw [rep_attrEq_fwd rep k v hi]; simp
      · change Dir.attrEq (.fwd i) k v l ≠ _; rw [(rep_attrEq_oob rep k v hi).1]; simp
    | bwd i =>
      by_cases hi : i < l.ll_tokens.length
      · change Dir.attrEq (.bwd i) k v l ≠ _; rw [rep_attrEq_bwd rep k v hi]; simp
      · change Dir.attrEq (.bwd i) k v l ≠ _; rw [(rep_attrEq_oob rep k v hi).2]; simp
  · intro d set
    cases d with
    | fwd i =>
      change Dir.tokenAttrOneOf (.fwd i) k set l ≠ _
      rw [rep_oneOf_fwd rep]
      split <;> simp
    | bwd i =>
      by_cases hi : i < l.ll_tokens.length
      · change Dir.tokenAttrOneOf (.bwd i) k set l ≠ _; rw [rep_oneOf_bwd rep k set hi]; simp
      · change Dir.tokenAttrOneOf (.bwd i) k set l ≠ _; rw [rep_oneOf_bwd_oob rep k set hi]; simp
  · intro disp hd
    exact ⟨_, rep_include (hd ▸ rep) k⟩
  · intro i j v
    simp only [LLLine.addAnyAttrs, foldR, addAny_eq_insert rep]
    by_cases hb : i < l.ll_tokens.length ∧ j < l.ll_tokens.length
    · obtain ⟨a', ha, _⟩ := insert_rep rep (i, j) k v hb.1 hb.2
      rw [ha]; simp
    · rcases insert_oob rep (i, j) k v hb with e | e <;> rw [e] <;> simp
  · intro ptr r hgo
    by_cases ne : l.ll_tokens = []
    · rw [run_empty ne]; simp
    · have he : l.ll_tokens.isEmpty = false := by
        cases h' : l.ll_tokens with
        | nil => exact absurd h' ne
        | cons _ _ => rfl
      have hgo' : r.go { ll_line := ⟨ptr, l⟩, start_idx := 0, end_idx := l.ll_tokens.length - 1 }
        ≠ .error .bucketType := hgo
      simp only [LLLine.run, he, Bool.false_eq_true, if_false]
      revert hgo'
      generalize r.go { ll_line := ⟨ptr, l⟩, start_idx := 0, end_idx := l.ll_tokens.length - 1 } = z
      intro hz
      cases z with
      | error e => exact fun hh => hz (by simpa using hh)
      | ok p =>
        obtain ⟨asgs, leaked⟩ := p
        cases leaked with
        | true => simp
        | false =>
          simp only [Bool.false_eq_true, if_false]
          by_cases hb : ∀ x ∈ asgs, x.start_idx < l.ll_tokens.length ∧ x.end_idx < l.ll_tokens.length
          · obtain ⟨a', ha, _⟩ := assign_fold asgs rep hb
            rw [ha]; simp
          · have : ∃ x ∈ asgs, ¬ (x.start_idx < l.ll_tokens.length ∧ x.end_idx < l.ll_tokens.length) := by
              apply Classical.byContradiction
              intro hn2
              exact hb fun x hx => Classical.byContradiction fun hc => hn2 ⟨x, hx, hc⟩
            rcases assign_fold_oob asgs rep this with e | e <;> rw [e] <;> simp

example := C21_no_downcast_failure Demo.exReach2 (Ty.user 2)

/-- C21: `AnyAttribute::extract` succeeds exactly at the stored type, with the stored value, and
otherwise gives the attribute back. -/
theorem C21_extract (k k' : Ty W) (v : Val k) :
    (∀ w, (AnyAttribute.new k v).extract k' = .ok w ↔ ∃ e : k = k', w = e ▸ v) ∧
    (k ≠ k' → (AnyAttribute.new k v).extract k' = .error (AnyAttribute.new k v)) ∧
    (AnyAttribute.new k v).typeId = k := by
  refine ⟨?_, ?_, rfl⟩
  · intro w
    by_cases e : k = k'
    · subst e
      have : (AnyAttribute.new k v).extract k = .ok v := by
        simp [AnyAttribute.extract, AnyAttribute.new, DynAny.downcast_self]
      rw [this]
      constructor
      · intro hh; exact ⟨rfl, (Except.ok.inj hh).symm⟩
      · rintro ⟨_, rfl⟩; rfl
    · simp [AnyAttribute.extract, AnyAttribute.new, DynAny.downcast, e]
  · intro e
    simp [AnyAttribute.extract, AnyAttribute.new, DynAny.downcast, e]

example := C21_extract (W := Demo.W) (Ty.user 1) (Ty.user 2) (['a'] : Str)

/-! ### C22, C24, C25: run -/

/-- C22: exactly when a run panics. -/
theorem C22_run_panics_iff {l : LLLine W} {h : History W} (hr : Reachable l h) (ptr : Nat)
    (r : Resolver W) : (∃ e, l.run ptr r = .error e) ↔
      l.ll_tokens ≠ [] ∧
      ((∃ e, r.go (wholeLine l ptr) = .error e) ∨
       (∃ asgs, r.go (wholeLine l ptr) = .ok (asgs, true)) ∨
       (∃ asgs, r.go (wholeLine l ptr) = .ok (asgs, false) ∧
        ∃ a ∈ asgs, ¬ (a.start_idx < l.ll_tokens.length ∧ a.end_idx < l.ll_tokens.length))) := by
  by_cases ne : l.ll_tokens = []
  · rw [run_empty ne]; simp [ne]
  · have he : l.ll_tokens.isEmpty = false := by
      cases h' : l.ll_tokens with
      | nil => exact absurd h' ne
      | cons _ _ => rfl
    simp only [LLLine.run, he, Bool.false_eq_true, if_false]
    rw [show (⟨⟨ptr, l⟩, 0, l.ll_tokens.length - 1⟩ : LLSelection W) = wholeLine l ptr from rfl]
    cases hg : r.go (wholeLine l ptr) with
    | error e => simp [ne]
    | ok p =>
      obtain ⟨asgs, leaked⟩ := p
      cases leaked with
      | true =>
        simp only [if_true]
        constructor
        · intro _; exact ⟨ne, Or.inr (Or.inl ⟨asgs, rfl⟩)⟩
        · intro _; exact ⟨_, rfl⟩
      | false =>
        simp only [Bool.false_eq_true, if_false]
        constructor
        · rintro ⟨e, hh⟩
          refine ⟨ne, Or.inr (Or.inr ⟨asgs, rfl, ?_⟩)⟩
          apply Classical.byContradiction
          intro hn
          obtain ⟨a', ha, _⟩ := assign_fold asgs hr.rep (fun x hx =>
            Classical.byContradiction fun hc => hn ⟨x, hx, hc⟩)
          rw [ha] at hh; cases hh
        · rintro ⟨_, hh⟩
          rcases hh with ⟨e, hh⟩ | ⟨a, hh⟩ | ⟨a, hh, hx⟩
          · cases hh
          · have := Except.ok.inj hh; simp at this
          · have := Except.ok.inj hh
            simp only [Prod.mk.injEq, and_true] at this
            subst this
            rcases assign_fold_oob _ hr.rep hx with e | e <;> rw [e] <;> exact ⟨_, rfl⟩

example := C22_run_panics_iff Demo.exReach 7 Demo.exRes

/-- C24: on a line without tokens nothing runs and nothing is found. -/
theorem C24_empty_line {l : LLLine W} {h : History W} (hr : Reachable l h) (e : l.ll_tokens = []) :
    (∀ ptr r, l.run ptr r = .ok l) ∧
    (∀ ptr, LLSelection.fromLine ⟨ptr, l⟩ = none) ∧
    (∀ k, l.query k = .ok []) ∧
    (∀ {Out : Type} (m : XMatch W Out), l.find m = .ok []) ∧
    (∀ k, (LLLineDisplay.new l).include k = .ok (LLLineDisplay.new l)) ∧
    (LLLineDisplay.new l).fmt = .ok [] := by
  have hh : h = [] := by
    cases hc : h with
    | nil => rfl
    | cons x xs =>
      have := (hr.rep.bounds x (by simp [hc])).1
      rw [e] at this; simp at this
  have hR : ∀ k, rangesOf k h = [] := by intro k; rw [hh]; rfl
  refine ⟨fun ptr r => run_empty e, fun ptr => by simp [LLSelection.fromLine, e], ?_, ?_, ?_, ?_⟩
  · intro k
    rw [rep_query hr.rep k (by rw [hR k]; simp), hR k]; rfl
  · intro Out m; simp [LLLine.find, e]
  · intro k
    simp only [LLLineDisplay.include, LLLineDisplay.new, hr.rep.ranges k, hR k, flatMapR_nil]
    rfl
  · simp [LLLineDisplay.fmt, LLLineDisplay.new, e]

example := C24_empty_line Demo.emptyReach.choose_spec.1 Demo.emptyReach.choose_spec.2

/-- C25: a run never touches the tokens. -/
theorem C25_tokens_untouched (l l' : LLLine W) (ptr : Nat) (r : Resolver W)
    (ok : l.run ptr r = .ok l') : l'.ll_tokens = l.ll_tokens := by
  by_cases ne : l.ll_tokens = []
  · rw [run_empty ne] at ok
    have := Except.ok.inj ok
    rw [← this]
  · obtain ⟨_, _, _, _, rfl⟩ := run_inv ne ok
    rfl

example := C25_tokens_untouched Demo.exLine Demo.exLine2 7 Demo.exRes Demo.exLine2_ok

/-! ### C26: order of independent resolvers -/

/-- C26: two resolvers of different types whose answers do not depend on each other's run can be run in
either order: the other order succeeds too, and gives the very same line. -/
theorem C26_resolvers_commute {l l1 l12 : LLLine W} {h : History W} (hr : Reachable l h)
    (ne : l.ll_tokens ≠ []) (r1 r2 : Resolver W) (hk : r1.attr ≠ r2.attr)
    (a1 : List (LLCursorAssignment (Val r1.attr))) (a2 : List (LLCursorAssignment (Val r2.attr)))
    (p1 p2 p3 p4 : Nat)
    (g1 : r1.go (wholeLine l p1) = .ok (a1, false)) (ok1 : l.run p1 r1 = .ok l1)
    (g2 : r2.go (wholeLine l1 p2) = .ok (a2, false)) (ok12 : l1.run p2 r2 = .ok l12)
    (g2' : r2.go (wholeLine l p3) = .ok (a2, false))
    (g1' : ∀ l2, l.run p3 r2 = .ok l2 → r1.go (wholeLine l2 p4) = .ok (a1, false)) :
    ∃ l2, l.run p3 r2 = .ok l2 ∧ l2.run p4 r1 = .ok l12 := by
  have rep := hr.rep
  obtain ⟨b1, e1, t1, hb1, rep1⟩ := run_rep rep ne ok1
  rw [g1] at e1
  have := (Prod.mk.inj (Except.ok.inj e1)).1
  subst this
  have ne1 : l1.ll_tokens ≠ [] := by rw [t1]; exact ne
  obtain ⟨b2, e2, t2, hb2, rep12⟩ := run_rep rep1 ne1 ok12
  rw [g2] at e2
  have := (Prod.mk.inj (Except.ok.inj e2)).1
  subst this
  have ex2 : ∃ l2, l.run p3 r2 = .ok l2 := by
    rw [run_of_go ne g2']
    obtain ⟨a', ha, _⟩ := assign_fold a2 rep (fun x hx => by rw [← t1]; exact hb2 x hx)
    rw [ha]; exact ⟨_, rfl⟩
  obtain ⟨l2, ok2⟩ := ex2
  obtain ⟨b3, e3, t3, hb3, rep2⟩ := run_rep rep ne ok2
  rw [g2'] at e3
  have := (Prod.mk.inj (Except.ok.inj e3)).1
  subst this
  have ne2 : l2.ll_tokens ≠ [] := by rw [t3]; exact ne
  have ex21 : ∃ l21, l2.run p4 r1 = .ok l21 := by
    rw [run_of_go ne2 (g1' l2 ok2)]
    obtain ⟨a', ha, _⟩ := assign_fold a1 rep2 (fun x hx => by rw [t3]; exact hb1 x hx)
    rw [ha]; exact ⟨_, rfl⟩
  obtain ⟨l21, ok21⟩ := ex21
  obtain ⟨b4, e4, t4, hb4, rep21⟩ := run_rep rep2 ne2 ok21
  rw [g1' l2 ok2] at e4
  have := (Prod.mk.inj (Except.ok.inj e4)).1
  subst this
  have htok : l21.ll_tokens = l12.ll_tokens := by rw [t4, t3, t2, t1]
  have key : ∀ k, rangesOf k (h ++ a2.map (recOf r2.attr) ++ a1.map (recOf r1.attr)) =
        rangesOf k (h ++ a1.map (recOf r1.attr) ++ a2.map (recOf r2.attr)) ∧
      ∀ r, valuesOf k r (h ++ a2.map (recOf r2.attr) ++ a1.map (recOf r1.attr)) =
        valuesOf k r (h ++ a1.map (recOf r1.attr) ++ a2.map (recOf r2.attr)) := by
   intro k
   have n1 : k ≠ r1.attr → ∀ x ∈ a1.map (recOf r1.attr), x.ty ≠ k := by
     intro hh x hx e; rw [recOf_ty r1.attr a1 x hx] at e; exact hh e.symm
   have n2 : k ≠ r2.attr → ∀ x ∈ a2.map (recOf r2.attr), x.ty ≠ k := by
     intro hh x hx e; rw [recOf_ty r2.attr a2 x hx] at e; exact hh e.symm
   have hR : rangesOf k (h ++ a2.map (recOf r2.attr) ++ a1.map (recOf r1.attr)) =
       rangesOf k (h ++ a1.map (recOf r1.attr) ++ a2.map (recOf r2.attr)) := by
     by_cases k1 : k = r1.attr
     · have k2 : k ≠ r2.attr := fun e => hk (k1 ▸ e)
       rw [rangesOf_append_none k (h ++ a1.map (recOf r1.attr)) _ (n2 k2)]
       have filt : (a2.map (recOf r2.attr)).filter (fun x => decide (x.ty = k)) = [] := by
         rw [List.filter_eq_nil_iff]; intro x hx; simpa using n2 k2 x hx
       simp only [rangesOf, List.filter_append, filt, List.append_nil]
     · rw [rangesOf_append_none k _ _ (n1 k1)]
       have filt : (a1.map (recOf r1.attr)).filter (fun x => decide (x.ty = k)) = [] := by
         rw [List.filter_eq_nil_iff]; intro x hx; simpa using n1 k1 x hx
       simp only [rangesOf, List.filter_append, filt, List.append_nil]
   have hV : ∀ r, valuesOf k r (h ++ a2.map (recOf r2.attr) ++ a1.map (recOf r1.attr)) =
       valuesOf k r (h ++ a1.map (recOf r1.attr) ++ a2.map (recOf r2.attr)) := by
     intro r
     simp only [valuesOf_append]
     by_cases k1 : k = r1.attr
     · have k2 : k ≠ r2.attr := fun e => hk (k1 ▸ e)
       rw [valuesOf_none k r _ (n2 k2)]; simp
     · rw [valuesOf_none k r _ (n1 k1)]; simp
   exact ⟨hR, hV⟩
  have := rep_ext rep21 rep12 htok (fun k => (key k).1) (fun k r => (key k).2 r)
  subst this
  exact ⟨l2, ok2, ok21⟩

/-- another resolver, of a different type than `exRes` -/
def Demo.exRes' : Resolver Demo.W where
  attr := Ty.user 3
  go := fun _ => .ok ([⟨1, 2, (['z'] : Str)⟩], false)

example := C26_resolvers_commute Demo.exReach Demo.exLine_ne Demo.exRes Demo.exRes'
  (by intro h; cases h) _ _ 7 8 9 10 rfl Demo.exLine2_ok rfl rfl rfl (fun _ _ => rfl)

end LNlp
