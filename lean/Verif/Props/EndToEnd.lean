import Verif.Lemmas.EndToEnd
import Verif.Props.Pipeline
/- C92–C96: trimming whitespace, splitting again, and what the resolvers produce from a text. -/
namespace LNlp
variable {W : World} {Out : Type}

/-! ### C92: trimming whitespace -/

/-- C92, full claim: after `trim(whitespace())` no whitespace token is left at either end. -/
def C92_claim : Prop :=
  ∀ (W : World) (str : Str) (l : LLLine W) (ptr : Nat), createLineFromString W str = .ok l →
    ∀ (s p : LLSelection W), s.ll_line = ⟨ptr, l⟩ → s.Inside → s.trim X.whitespace = .ok (some p) →
      tagAt l p.start_idx ≠ some .SPACE ∧ tagAt l p.end_idx ≠ some .SPACE

/-- a tab, a space and a word: two whitespace tokens -/
def Demo.tabLine : LLLine Demo.W := Demo.getOk Demo.emptyLine (createLineFromString Demo.W ['\t', ' ', 'a'])

/-- C92 is false: only one token is removed from each end, and a tab and a space are two tokens. -/
theorem C92_trim_leaves_space : ¬ C92_claim := by
  intro claim
  have := claim Demo.W ['\t', ' ', 'a'] Demo.tabLine 0 rfl (wholeLine Demo.tabLine 0) ⟨⟨0, Demo.tabLine⟩, 1, 2⟩ rfl
    ⟨by decide, by decide⟩ rfl
  exact this.1 rfl

/-- C92: `trim(whitespace())` never panics and removes exactly one whitespace token from each end that has
one; `None` if nothing is left.  Missing: further whitespace tokens stay (`C92_trim_leaves_space`). -/
theorem C92_trim_partial {s : LLSelection W} {h : History W} (hr : Reachable s.ll_line.val h) (ht : PlainTags s.ll_line.val h)
    (hs : s.Inside) : ∃ o, s.trim X.whitespace = .ok o ∧
      ∀ p, o = some p ↔ p.ll_line = s.ll_line ∧ Strip s.ll_line.val s.start_idx s.end_idx p.start_idx p.end_idx := by
  refine ⟨_, trim_plain hr.rep ht.2 hs, fun p => ?_⟩
  have hm : ∀ i, TextTag.SPACE ∈ tagsOn h i ↔ tagAt s.ll_line.val i = some .SPACE := fun i => plain_tag_mem ht
  rw [Option.map_eq_some_iff]
  constructor
  · rintro ⟨⟨i, j⟩, he, rfl⟩
    exact ⟨rfl, (trimmed_strip hm ..).1 he⟩
  · rintro ⟨hl, hst⟩
    refine ⟨(p.start_idx, p.end_idx), (trimmed_strip hm ..).2 hst, ?_⟩
    cases p
    cases hl
    rfl

/-- C92: if no two neighbouring tokens are whitespace, no whitespace is left. -/
theorem C92_single_spaces_partial {s : LLSelection W} {h : History W} (hr : Reachable s.ll_line.val h) (ht : PlainTags s.ll_line.val h)
    (hs : s.Inside) (single : ∀ i, tagAt s.ll_line.val i = some .SPACE → tagAt s.ll_line.val (i + 1) ≠ some .SPACE)
    (p : LLSelection W) (hp : s.trim X.whitespace = .ok (some p)) :
    tagAt s.ll_line.val p.start_idx ≠ some .SPACE ∧ tagAt s.ll_line.val p.end_idx ≠ some .SPACE := by
  obtain ⟨o, ho, hst⟩ := C92_trim_partial hr ht hs
  rw [hp] at ho
  cases ho
  obtain ⟨_, h1, h2, h3⟩ := (hst p).1 rfl
  constructor
  · rw [h1]
    by_cases c : tagAt s.ll_line.val s.start_idx = some .SPACE
    · rw [if_pos c]; exact single _ c
    · rw [if_neg c]; exact c
  · by_cases c : tagAt s.ll_line.val s.end_idx = some .SPACE
    · rw [if_pos c] at h2
      intro he
      refine single _ he ?_
      rw [h2]; exact c
    · rw [if_neg c] at h2
      have : p.end_idx = s.end_idx := by omega
      rw [this]; exact c

/-- a line with a space at both ends -/
def Demo.padLine : LLLine Demo.W := Demo.getOk Demo.emptyLine (createLineFromString Demo.W [' ', 'a', ' '])
theorem Demo.padReach : Reachable Demo.padLine (creationHistory Demo.W utf8Len [.Text [' ', 'a', ' '] []]) :=
  .create _ _ _ (string_wf _) rfl
theorem Demo.padPlain : PlainTags Demo.padLine (creationHistory Demo.W utf8Len [.Text [' ', 'a', ' '] []]) :=
  creation_plainTags (string_wf _) (size := utf8Len) rfl (string_noCustom _ _)

example := C92_trim_partial (s := wholeLine Demo.padLine 0) Demo.padReach Demo.padPlain ⟨by decide, by decide⟩
example := C92_single_spaces_partial (s := wholeLine Demo.padLine 0) Demo.padReach Demo.padPlain ⟨by decide, by decide⟩
  (by
    intro i
    match i with
    | 0 => decide
    | 1 => decide
    | 2 => decide
    | n + 3 =>
      have : tagAt (wholeLine Demo.padLine 0).ll_line.val (n + 3) = none := rfl
      rw [this]; intro h; cases h) ⟨⟨0, Demo.padLine⟩, 1, 1⟩ rfl

/-! ### C93: splitting again -/

/-- C93: the matcher finds nothing in a piece of `split_by`, and splitting a piece again changes nothing. -/
theorem C93_split_again (s : LLSelection W) (m : XMatch W Out) (hs : s.Inside) (hw : WellBehaved s.ll_line.val m)
    (out : List (LLSelection W)) (h : s.splitBy m = .ok out) :
    ∀ p ∈ out, p.findBy m = .ok [] ∧ p.splitBy m = .ok [p] := by
  intro p hp
  obtain ⟨hpart, -⟩ := C47_split_by s m hs hw out h
  obtain ⟨hl, h1, h2, h3⟩ := hpart p hp
  have hno := ((C48_partial s m hs hw out h).1 p hp).1
  have hok : ∀ i, s.Has i → ∃ rs, m.go (.fwd i) s.ll_line.val = .ok rs := by
    intro i hi
    cases hg : m.go (.fwd i) s.ll_line.val with
    | ok rs => exact ⟨rs, rfl⟩
    | error e =>
      obtain ⟨e', he'⟩ := (C47_panics_iff s m).2 ⟨i, e, hi, hg⟩
      rw [h] at he'; cases he'
  have hf : p.findBy m = .ok [] := by
    rw [findBy_ok_iff, hl]
    refine ⟨fun i hi => hok i ⟨Nat.le_trans h1 hi.1, Nat.le_trans hi.2 h3⟩, ?_⟩
    symm
    rw [List.flatMap_eq_nil_iff]
    intro i hi
    have hi' : p.Has i := mem_rangeIncl.1 hi
    have hsi : s.Has i := ⟨Nat.le_trans h1 hi'.1, Nat.le_trans hi'.2 h3⟩
    obtain ⟨rs, hrs⟩ := hok i hsi
    rw [okD_of hrs]
    cases rs with
    | nil => rfl
    | cons r rs => exact absurd hi' (hno i r.2 ⟨hsi, _, r.1, hrs, List.mem_cons_self ..⟩)
  refine ⟨hf, ?_⟩
  unfold LLSelection.splitBy
  rw [hf]

example := C93_split_again (Demo.sel 0 6) (X.attr (Ty.user 2)) ⟨by decide, by decide⟩
  (builtin_wellBehaved (.attr _ trivial) Demo.exReach2.rep Demo.exHist2_ordered) _ rfl

/-- C93: there are at most as many pieces as matches plus one. -/
theorem C93_number_of_pieces (s : LLSelection W) (m : XMatch W Out) (hs : s.Inside)
    (ms : List (LLSelection W × Out)) (hf : s.findBy m = .ok ms) (out : List (LLSelection W)) (h : s.splitBy m = .ok out) :
    out.length ≤ ms.length + 1 := by
  rw [splitBy_eq hf hs.1] at h
  cases h
  exact Nat.le_trans (gaps_length _ _ _) (by rw [List.length_map]; exact Nat.le_refl _)

example := C93_number_of_pieces (Demo.sel 0 6) (X.attr (Ty.user 2)) ⟨by decide, by decide⟩ _ rfl _ rfl

/-- C93: splitting a selection with itself leaves nothing. -/
theorem C93_split_with_self (s : LLSelection W) : s.splitWith s = .ok (none, none) := by
  cases hsp : s.splitWith s with
  | error e => exact absurd rfl ((C46_split_with_panics_iff s s).1 ⟨e, hsp⟩)
  | ok ab =>
    obtain ⟨a, b⟩ := ab
    obtain ⟨h1, h2, h3, _⟩ := C45_split_with s s a b hsp
    have ha : a = none := by
      cases a with
      | none => rfl
      | some p =>
        obtain ⟨_, q1, q2, q3⟩ := h3 p (.inl rfl)
        have := (h1 p.start_idx).1 ⟨p, rfl, Nat.le_refl _, q2⟩
        have h4 := this.1.1; have h5 := this.2; omega
    have hb : b = none := by
      cases b with
      | none => rfl
      | some p =>
        obtain ⟨_, q1, q2, q3⟩ := h3 p (.inr rfl)
        have := (h2 p.start_idx).1 ⟨p, rfl, Nat.le_refl _, q2⟩
        have h4 := this.1.2; have h5 := this.2; omega
    rw [ha, hb]

example := C93_split_with_self (Demo.sel 0 6)

/-! ### C94: clauses of a text -/

/-- C94: create a line from any input without attributes of the types tag, keyword and clause, run the
keyword resolver and the clause resolver and query the clauses: they are exactly the parts between
keywords and punctuation, without a space at either end, each with its one kind, in order. -/
theorem C94_clauses_of_input {size : Str → Nat} {input : List (InputToken W)} {l : LLLine W} (wf : ∀ t ∈ input, t.WF)
    (ok : createLineFromInputTokens W input size = .ok l) (n1 : NoCustom .textTag input) (n2 : NoCustom .clauseKeyword input)
    (n3 : NoCustom .clause input) (ne : l.ll_tokens ≠ []) (r : ClauseKeywordResolver) (p1 p2 : Nat) :
    ∃ l1 l2 q, l.run p1 (r.resolver W) = .ok l1 ∧ l1.run p2 (clauseResolver W) = .ok l2 ∧ l2.query .clause = .ok q ∧
      q.Pairwise (fun x y => x.1.2 < y.1.1) ∧
      ∀ i j text vs, ((i, j), text, vs) ∈ q ↔
        text = coveredText l.ll_tokens (i, j) ∧ ∃ kind, vs = [kind] ∧ ClauseAt r l i j kind := by
  obtain ⟨l1, l2, h1, ps, e1, e2, htag, hkws, hps, hq⟩ := C62_pipeline size _ l wf ok ne n1 n2 n3 r p1 p2
  have hlen : 0 < l.ll_tokens.length := List.length_pos_iff.2 ne
  have hmt : ∀ i tag, tag ∈ tagsOn h1 i ↔ tagAt l i = some tag := by
    intro i tag; rw [htag, Option.mem_toList]
  have hD : ∀ i, Delim h1 i ↔ Separates r l i := by
    intro i
    unfold Delim Separates
    rw [hmt, List.ne_nil_iff_exists_cons]
    constructor
    · rintro (⟨k, ks, he⟩ | hx)
      · exact .inl ⟨k, (hkws i k).1 (by rw [he]; exact List.mem_cons_self ..)⟩
      · exact .inr hx
    · rintro (⟨k, hk⟩ | hx)
      · left
        have := (hkws i k).2 hk
        cases he : keywordsOn h1 i with
        | nil => rw [he] at this; cases this
        | cons a as => exact ⟨a, as, rfl⟩
      · exact .inr hx
  have hrun : ∀ a b, (a, b) ∈ ps ↔ IsRun r l a b := by
    intro a b
    rw [hps.2 a b]
    simp only [hD]
    constructor
    · rintro ⟨_, h2, h3, h4, h5, h6⟩
      exact ⟨h2, by omega, h4, h5, h6.imp_left (fun e => by omega)⟩
    · rintro ⟨h2, h3, h4, h5, h6⟩
      exact ⟨Nat.zero_le _, h2, by omega, h4, h5, h6.imp_left (fun e => by omega)⟩
  have hkb : ∀ a b k, keywordBefore h1 (a, b) = some k ↔ Follows r l a k := by
    intro a b k
    unfold keywordBefore Follows
    by_cases h0 : a = 0
    · simp [h0]
    · rw [if_neg h0]
      constructor
      · intro hk
        exact ⟨Nat.pos_of_ne_zero h0, (hkws _ _).1 (List.mem_of_head? hk)⟩
      · rintro ⟨_, hk⟩
        have hm := (hkws _ _).2 hk
        cases he : keywordsOn h1 (a - 1) with
        | nil => rw [he] at hm; cases hm
        | cons k' ks =>
          obtain ⟨t', ht', hk'⟩ := (hkws (a - 1) k').1 (by rw [he]; exact List.mem_cons_self ..)
          obtain ⟨t, ht, hk⟩ := hk
          rw [ht] at ht'; cases ht'
          rw [isKeyword_unique hk hk']; simp
  have hmem := clausesOf_mem hps.1 hrun (trimmed_strip (fun i => hmt i .SPACE)) hkb
  refine ⟨l1, l2, _, e1, e2, hq, ?_, ?_⟩
  · have hr : ((clausesOf h1 ps).map (fun a => (a.start_idx, a.end_idx))).Pairwise (fun x y => x.2 < y.1) := by
      rw [clausesOf_ranges, List.pairwise_filterMap]
      refine hps.1.imp_of_mem ?_
      rintro ⟨a, b⟩ ⟨a', b'⟩ hp hp' hlt ⟨i, j⟩ hs ⟨i', j'⟩ hs'
      have s1 := (trimmed_strip (fun i => hmt i .SPACE) a b i j).1 hs
      have s2 := (trimmed_strip (fun i => hmt i .SPACE) a' b' i' j').1 hs'
      have hj := s1.last
      have hi := s2.first
      have : j ≤ b := by split at hj <;> omega
      have : a' ≤ i' := by split at hi <;> omega
      simp only at hlt
      show j < i'
      omega
    rw [List.pairwise_map] at hr ⊢
    exact hr
  · intro i j text vs
    rw [List.mem_map]
    constructor
    · rintro ⟨⟨i', j', v⟩, hm, he⟩
      cases he
      exact ⟨rfl, v, rfl, (hmem ..).1 hm⟩
    · rintro ⟨rfl, v, rfl, hc⟩
      exact ⟨⟨i, j, v⟩, (hmem ..).2 hc, rfl⟩

theorem Demo.exNoBuiltin (k : Ty Demo.W) (hk : ∀ t : Nat, k ≠ Ty.user t) : NoCustom (W := Demo.W) k Demo.exInput := by
  simp only [NoCustom, Demo.exInput, InputToken.attrList, AnyAttribute.new, List.mem_cons, List.not_mem_nil, or_false,
    forall_eq_or_imp, forall_eq, false_imp_iff, implies_true, and_true]
  exact ⟨(hk _ ·.symm), (hk _ ·.symm), (hk _ ·.symm)⟩

example := C94_clauses_of_input (W := Demo.W) Demo.exInput_wf Demo.exLine_ok (Demo.exNoBuiltin _ (nofun))
  (Demo.exNoBuiltin _ (nofun)) (Demo.exNoBuiltin _ (nofun)) Demo.exLine_ne Demo.kws 0 1

/-- C94: the same for a line made from a text. -/
theorem C94_clauses_of_text {str : Str} {l : LLLine W} (ok : createLineFromString W str = .ok l) (ne : l.ll_tokens ≠ [])
    (r : ClauseKeywordResolver) (p1 p2 : Nat) :
    ∃ l1 l2 q, l.run p1 (r.resolver W) = .ok l1 ∧ l1.run p2 (clauseResolver W) = .ok l2 ∧ l2.query .clause = .ok q ∧
      q.Pairwise (fun x y => x.1.2 < y.1.1) ∧
      ∀ i j text vs, ((i, j), text, vs) ∈ q ↔
        text = coveredText l.ll_tokens (i, j) ∧ ∃ kind, vs = [kind] ∧ ClauseAt r l i j kind :=
  C94_clauses_of_input (string_wf str) ok (string_noCustom _ _) (string_noCustom _ _) (string_noCustom _ _) ne r p1 p2

example := C94_clauses_of_text (W := Demo.W) (str := "x IF a, then b".toList) (l := Demo.clauseLine0) rfl Demo.clauseLine0_ne Demo.kws 0 1

/-- C94: without keywords and punctuation the whole text is one independent clause. -/
theorem C94_plain_text {str : Str} {l : LLLine W} (ok : createLineFromString W str = .ok l)
    (r : ClauseKeywordResolver) (p1 p2 : Nat) (hs : ∀ i, ¬ Separates r l i) {i j : Nat}
    (hst : Strip l 0 (l.ll_tokens.length - 1) i j) (ne : l.ll_tokens ≠ []) :
    ∃ l1 l2, l.run p1 (r.resolver W) = .ok l1 ∧ l1.run p2 (clauseResolver W) = .ok l2 ∧
      l2.query .clause = .ok [((i, j), coveredText l.ll_tokens (i, j), [Clause.Independent])] := by
  obtain ⟨l1, l2, q, e1, e2, hq, hpw, hm⟩ := C94_clauses_of_text ok ne r p1 p2
  have hlen : 0 < l.ll_tokens.length := List.length_pos_iff.2 ne
  have run : IsRun r l 0 (l.ll_tokens.length - 1) :=
    ⟨Nat.zero_le _, by omega, fun t _ _ => hs t, .inl rfl, .inl (by omega)⟩
  have runs : ∀ a b, IsRun r l a b → a = 0 ∧ b = l.ll_tokens.length - 1 := by
    intro a b h
    refine ⟨h.left.elim id (fun h' => absurd h' (hs _)), ?_⟩
    have := h.right.elim id (fun h' => absurd h' (hs _))
    omega
  have strips : ∀ i' j', Strip l 0 (l.ll_tokens.length - 1) i' j' → i' = i ∧ j' = j := by
    intro i' j' h
    have e1 := h.first.trans hst.first.symm
    have e2 := h.last.trans hst.last.symm
    exact ⟨e1, by omega⟩
  have nof : ∀ a k, ¬ Follows r l a k := fun a k h => hs (a - 1) (.inl ⟨k, h.2⟩)
  have only : OnlyRun r l 0 := fun a b h => (runs a b h).1
  have hall : ∀ x ∈ q, x = ((i, j), coveredText l.ll_tokens (i, j), [Clause.Independent]) := by
    rintro ⟨⟨i', j'⟩, text, vs⟩ hx
    obtain ⟨rfl, kind, rfl, hc⟩ := (hm ..).1 hx
    cases hc with
    | condition _ _ kw => exact absurd kw (nof _ _)
    | independent run' strip =>
      obtain ⟨rfl, rfl⟩ := runs _ _ run'
      obtain ⟨rfl, rfl⟩ := strips _ _ strip
      rfl
    | then_ _ _ kw => exact absurd kw (nof _ _)
    | trailing run' _ _ sev => obtain ⟨rfl, rfl⟩ := runs _ _ run'; exact absurd only sev
    | leading run' _ _ _ sev => obtain ⟨rfl, rfl⟩ := runs _ _ run'; exact absurd only sev
  have hin : ((i, j), coveredText l.ll_tokens (i, j), [Clause.Independent]) ∈ q :=
    (hm ..).2 ⟨rfl, _, rfl, .independent run hst (nof _ _) only⟩
  refine ⟨l1, l2, e1, e2, hq.trans ?_⟩
  congr 1
  match q, hpw, hall, hin with
  | [x], _, hall, _ => exact congrArg (fun y => [y]) (hall x (List.mem_singleton.2 rfl))
  | x :: y :: rest, hpw, hall, _ =>
    have hx := hall x (List.mem_cons_self ..)
    have hy := hall y (List.mem_cons_of_mem _ (List.mem_cons_self ..))
    have := (List.pairwise_cons.1 hpw).1 y (List.mem_cons_self ..)
    rw [hx, hy] at this
    have h3 := hst.le
    have h4 : j < i := this
    omega

example := C94_plain_text (W := Demo.W) (str := [' ', 'a', ' ']) (l := Demo.padLine) rfl
  { cond_start := [], and := [], then_ := [] } 0 1
  (by
    rintro i (⟨kw, t, _, hk⟩ | hp)
    · cases kw <;> simp [IsKeyword] at hk
    · match i, hp with
      | 0, hp => cases hp
      | 1, hp => cases hp
      | 2, hp => cases hp
      | n + 3, hp => cases hp) (i := 1) (j := 1) ⟨rfl, rfl, by decide⟩ (by intro h; cases h)

/-! ### C95: what the resolvers of single tokens produce -/

/-- C95: after a table resolver, querying its type yields exactly one entry per text token found in the
table, in order, with all values of that text. -/
theorem C95_table {k : Ty W} (r : TextMatchAssignResolver W k) {l : LLLine W} {h : History W} (hr : Reachable l h)
    (ne : l.ll_tokens ≠ []) (hn : ∀ x ∈ h, x.ty ≠ k) (ptr : Nat) :
    ∃ l', l.run ptr r.resolver = .ok l' ∧ l'.query k = .ok (tokenEntries l (tableValues r l)) := by
  obtain ⟨l', hl, hr'⟩ := C58_run r hr ne ptr
  have ht := run_tokens hl
  refine ⟨l', hl, ?_⟩
  rw [← ht] at hr'
  rw [query_tokens (tableValues r l) (by rw [ht]; exact ne) hr'.rep hn, tokenEntries_tokens ht]

theorem Demo.exNoFive : NoCustom (W := Demo.W) (Ty.user (5 : Nat)) Demo.exInput := by
  simp only [NoCustom, Demo.exInput, InputToken.attrList, AnyAttribute.new, List.mem_cons, List.not_mem_nil, or_false,
    forall_eq_or_imp, forall_eq, false_imp_iff, implies_true, and_true]
  exact ⟨(nomatch ·), (nomatch ·), (nomatch ·)⟩

example := C95_table Demo.table Demo.exReach Demo.exLine_ne (by
  intro x hx e
  rcases List.mem_append.1 hx with hx | hx
  · rcases builtinHistory_ty _ _ hx with h | h <;> rw [h] at e <;> cases e
  · exact noCustom_history (k := Ty.user (5 : Nat)) Demo.exNoFive 0 _ hx e) 3

/-- C95: after POSTagResolver, querying the tags of a text yields exactly one entry per word, in order. -/
theorem C95_parts_of_speech {str : Str} {l : LLLine W} (ok : createLineFromString W str = .ok l) (ne : l.ll_tokens ≠ []) (ptr : Nat) :
    ∃ l', l.run ptr (posTagResolver W) = .ok l' ∧ l'.query .tag = .ok (tokenEntries l (wordTags l)) := by
  have hr : Reachable l _ := .create _ _ _ (string_wf str) ok
  obtain ⟨l', hl, hr'⟩ := C63_run hr ne ptr
  have ht := run_tokens hl
  refine ⟨l', hl, ?_⟩
  have hplain := creation_plainTags (string_wf str) ok (string_noCustom _ _)
  have hp : ∀ i, posTags l (creationHistory W utf8Len [.Text str []]) i = wordTags l i := by
    intro i
    have h1 := hplain.1 i
    unfold posTags wordTags tagsOn
    rw [h1]
    unfold textAt tagAt
    cases l.ll_tokens[i]? with
    | none => rfl
    | some t =>
      simp only [Option.bind_some]
      cases ht : t.token with
      | Value => rfl
      | Text s tag => cases tag <;> simp
  have hn : ∀ x ∈ creationHistory W utf8Len [.Text str []], x.ty ≠ .tag := by
    intro x hx e
    rcases string_types str x hx with h | h <;> rw [h] at e <;> cases e
  simp only [hp] at hr'
  rw [← ht] at hr'
  exact (query_tokens (k := .tag) (wordTags l) (by rw [ht]; exact ne) hr'.rep hn).trans
    (congrArg Except.ok (tokenEntries_tokens ht (wordTags l)))

example := C95_parts_of_speech (W := Demo.W) (str := "x IF a, then b".toList) (l := Demo.clauseLine0) rfl Demo.clauseLine0_ne 0

/-- C95: after ClauseKeywordResolver, querying the keywords of a text yields exactly one entry per keyword, in
order, with one value. -/
theorem C95_keywords {str : Str} {l : LLLine W} (ok : createLineFromString W str = .ok l) (ne : l.ll_tokens ≠ [])
    (r : ClauseKeywordResolver) (ptr : Nat) :
    ∃ (l' : LLLine W) (f : Nat → List ClauseKeyword), l.run ptr (r.resolver W) = .ok l' ∧
      l'.query .clauseKeyword = .ok (tokenEntries l f) ∧
      (∀ i kw, f i = [kw] ↔ KeywordAt r l i kw) ∧ ∀ i, f i = [] ∨ ∃ kw, f i = [kw] := by
  have hr : Reachable l _ := .create _ _ _ (string_wf str) ok
  obtain ⟨l', hl, hr'⟩ := run_reachable (k := .clauseKeyword) (f := (r.resolver W).go) hr ne
    (keyword_resolver r (keywordGo_eq r (wholeLine_inside ne ptr))) (token_bounds ne)
  have ht := run_tokens hl
  generalize hf : (fun i => ((textAt l i).bind (fun t => r.classify (W.toLowercase t))).toList) = f
  have hfi : ∀ i, f i = ((textAt l i).bind (fun t => r.classify (W.toLowercase t))).toList := fun i => by rw [← hf]
  refine ⟨l', f, hl, ?_, ?_, ?_⟩
  · have hn : ∀ x ∈ creationHistory W utf8Len [.Text str []], x.ty ≠ .clauseKeyword := by
      intro x hx e
      rcases string_types str x hx with h | h <;> rw [h] at e <;> cases e
    have e := token_records f
      (fun i v => (⟨i, i, v⟩ : LLCursorAssignment ClauseKeyword)) (between 0 (l.ll_tokens.length - 1)) (recOf (W := W) .clauseKeyword)
    rw [← hf] at e
    have hr2 : Reachable l' (_ ++ _) := Eq.mp (congrArg (fun x => Reachable l' (creationHistory W utf8Len [.Text str []] ++ x)) e) hr'
    rw [← ht] at hr2
    rw [← hf]
    exact (query_tokens (k := .clauseKeyword) _ (by rw [ht]; exact ne) hr2.rep hn).trans
      (congrArg Except.ok (tokenEntries_tokens ht _))
  · intro i kw
    rw [hfi]
    unfold KeywordAt
    cases textAt l i with
    | none => simp
    | some t =>
      simp only [Option.bind_some, Option.some.injEq, exists_eq_left']
      rw [← classify_iff]
      cases r.classify (W.toLowercase t) <;> simp
  · intro i
    rw [hfi]
    cases (textAt l i).bind (fun t => r.classify (W.toLowercase t)) with
    | none => exact .inl rfl
    | some kw => exact .inr ⟨kw, rfl⟩

example := C95_keywords (W := Demo.W) (str := "x IF a, then b".toList) (l := Demo.clauseLine0) rfl Demo.clauseLine0_ne Demo.kws 0

/-! ### C96: amounts of a text -/

/-- C96: after AmountResolver, querying the amounts yields exactly those of C67, in order, with their text and
one value each; the texts of different amounts are disjoint parts of the line. -/
theorem C96_amounts_of_text {str : Str} {l : LLLine W} (ok : createLineFromString W str = .ok l) (ne : l.ll_tokens ≠ [])
    (r : AmountResolver) (ptr : Nat) (as : List (LLCursorAssignment W.Decimal))
    (ha : Amounts r l (creationHistory W utf8Len [.Text str []]) (l.ll_tokens.length - 1) 0 as) :
    ∃ l', l.run ptr (r.resolver W) = .ok l' ∧ l'.query .amount = .ok (as.map (fun a =>
      ((a.start_idx, a.end_idx), coveredText l.ll_tokens (a.start_idx, a.end_idx), [a.value]))) ∧
      as.Pairwise (fun a b => a.end_idx < b.start_idx) := by
  have hr : Reachable l _ := .create _ _ _ (string_wf str) ok
  have hin : (wholeLine l ptr).Inside := wholeLine_inside ne ptr
  have hg : r.go (wholeLine l ptr) = .ok as := (C67_amounts r (s := wholeLine l ptr) hr hin as).2 ha
  have hd := C65_disjoint r (s := wholeLine l ptr) hr hin as hg
  obtain ⟨l', hl, hr'⟩ := run_reachable (k := .amount) (f := (r.resolver W).go) hr ne (ptr := ptr)
    (amount_resolver r hg) (fun a h => ⟨Nat.lt_of_le_of_lt (hd.2 a h).2.1 (hd.2 a h).2.2, (hd.2 a h).2.2⟩)
  refine ⟨l', hl, ?_, hd.1⟩
  have hn : ∀ x ∈ creationHistory W utf8Len [.Text str []], x.ty ≠ .amount := by
    intro x hx e
    rcases string_types str x hx with h | h <;> rw [h] at e <;> cases e
  have := query_new (k := .amount) hr'.rep hn hd.1 (fun a h => (hd.2 a h).2.1)
  exact this.trans (by rw [run_tokens hl]; rfl)

example := C96_amounts_of_text (W := Demo.W) (str := "x 1'234.50, 7. y 8,".toList) (l := Demo.amountLine) rfl Demo.amountLine_ne .english 0 _
  ((C67_amounts .english (s := wholeLine Demo.amountLine 0) Demo.amountReach Demo.amountInside _).1 Demo.amountGo)

/-- C96: so whenever AmountResolver runs without panic, the amounts of the grammar all have values, and these are what the
query yields. -/
theorem C96_whenever_it_runs {str : Str} {l l' : LLLine W} (ok : createLineFromString W str = .ok l) (ne : l.ll_tokens ≠ [])
    (r : AmountResolver) (ptr : Nat) (run : l.run ptr (r.resolver W) = .ok l') :
    ∃ as, Amounts r l (creationHistory W utf8Len [.Text str []]) (l.ll_tokens.length - 1) 0 as ∧
      l'.query .amount = .ok (as.map (fun a =>
        ((a.start_idx, a.end_idx), coveredText l.ll_tokens (a.start_idx, a.end_idx), [a.value]))) ∧
      as.Pairwise (fun a b => a.end_idx < b.start_idx) := by
  have hr : Reachable l _ := .create _ _ _ (string_wf str) ok
  obtain ⟨as, hg⟩ : ∃ as, r.go (wholeLine l ptr) = .ok as := by
    cases hg : r.go (wholeLine l ptr) with
    | ok as => exact ⟨as, rfl⟩
    | error e =>
      obtain ⟨_, _, h, _⟩ := run_inv ne run
      rw [amount_resolver_error r hg] at h
      cases h
  have ha := (C67_amounts r (s := wholeLine l ptr) hr (wholeLine_inside ne ptr) as).1 hg
  obtain ⟨l2, h2, hq, hp⟩ := C96_amounts_of_text ok ne r ptr as ha
  rw [run] at h2
  cases h2
  exact ⟨as, ha, hq, hp⟩

example := C96_whenever_it_runs (W := Demo.W) (str := "x 1'234.50, 7. y 8,".toList) (l := Demo.amountLine)
  (l' := Demo.runOk Demo.amountLine 0 (AmountResolver.english.resolver Demo.W)) rfl Demo.amountLine_ne .english 0 rfl

end LNlp
