import Verif.Lemmas.Honest
/- C58–C63, C71: the resolvers for tables, keywords, clauses and parts of speech. -/
namespace LNlp
variable {W : World}

/-! ### C58: TextMatchAssignResolver -/

/-- C58: for every text token of the selection, in order, exactly the values of the table entry of its
text (lowercased if case-insensitive) are assigned to that one token, and nothing else. -/
theorem C58_table {k : Ty W} (r : TextMatchAssignResolver W k) (s : LLSelection W) (hs : s.Inside) :
    r.go s = .ok ((between s.start_idx s.end_idx).flatMap (fun i =>
      (tableValues r s.ll_line.val i).map (fun v => ⟨i, i, v⟩))) := by
  unfold TextMatchAssignResolver.go
  rw [findBy_tokenText hs]
  simp only [List.flatMap_assoc]
  congr 2
  funext i
  unfold tableValues
  cases textAt s.ll_line.val i with
  | none => rfl
  | some t =>
    simp only [Option.toList_some, List.map_cons, List.map_nil, List.flatMap_cons, List.flatMap_nil, List.append_nil,
      HMap.get?]
    by_cases hc : r.case_sensitive = true
    · rw [if_pos hc, if_pos hc]; cases r.lookup t <;> rfl
    · rw [if_neg hc, if_neg hc]; cases r.lookup (W.toLowercase t) <;> rfl

/-- a case-insensitive table for the example line (“Pay 12ab, …”) -/
def Demo.table : TextMatchAssignResolver Demo.W (Ty.user 5) :=
  .newCaseInsensitive (W := Demo.W) (Ty.user 5) [(['P', 'A', 'Y'], [(['p'] : Str), (['q'] : Str)]), ([','], [(['c'] : Str)])]

example := C58_table Demo.table (wholeLine Demo.exLine 0) (wholeLine_inside Demo.exLine_ne 0)
example : Demo.table.go (wholeLine Demo.exLine 0) =
    .ok [⟨0, 0, (['p'] : Str)⟩, ⟨0, 0, (['q'] : Str)⟩, ⟨4, 4, (['c'] : Str)⟩] := rfl

/-- C58 for `run`: running the resolver on a non-empty line succeeds and adds exactly these records. -/
theorem C58_run {k : Ty W} (r : TextMatchAssignResolver W k) {l : LLLine W} {h : History W} (hr : Reachable l h)
    (ne : l.ll_tokens ≠ []) (ptr : Nat) :
    ∃ l', l.run ptr r.resolver = .ok l' ∧ Reachable l' (h ++ (between 0 (l.ll_tokens.length - 1)).flatMap (fun i =>
      (tableValues r l i).map (fun v => ⟨k, (i, i), v⟩))) := by
  obtain ⟨l', hl', hr'⟩ := run_reachable (k := k) (f := r.resolver.go) hr ne
    (table_resolver r (C58_table r (wholeLine l ptr) (wholeLine_inside ne ptr))) (token_bounds ne)
  refine ⟨l', hl', ?_⟩
  rw [token_records] at hr'
  exact hr'

example := C58_run Demo.table Demo.exReach Demo.exLine_ne 3

/-! ### C59: case-insensitive construction -/

/-- C59, full claim: every entry can be found by its lowercase key, and the order in which the `HashMap`
yields its entries does not matter. -/
def C59_claim : Prop :=
  ∀ (W : World) (k : Ty W) (entries : List (Str × List (Val k))), (entries.map (·.1)).Nodup →
    (∀ e ∈ entries, (TextMatchAssignResolver.newCaseInsensitive k entries).lookup (W.toLowercase e.1) = some e.2) ∧
    (∀ entries', entries.Perm entries' → TextMatchAssignResolver.newCaseInsensitive k entries =
      TextMatchAssignResolver.newCaseInsensitive k entries')

/-- C59 is false: of the entries for `a` and `A` one is lost. -/
theorem C59_keeps_entries_false : ¬ C59_claim := by
  intro claim
  have := (claim Demo.W (Ty.user 5) [(['a'], [(['x'] : Str)]), (['A'], [(['y'] : Str)])] (by decide)).1
    (['a'], [(['x'] : Str)]) (by simp)
  have h2 : (TextMatchAssignResolver.newCaseInsensitive (W := Demo.W) (Ty.user 5)
    [(['a'], [(['x'] : Str)]), (['A'], [(['y'] : Str)])]).lookup (Demo.W.toLowercase ['a']) = some [(['y'] : Str)] := rfl
  rw [h2] at this
  exact absurd this (by intro h; injection h with h; injection h with h; cases h)

/-- C59 is false: which entry is lost depends on the iteration order. -/
theorem C59_order_matters : ∃ (e1 e2 : List (Str × List (Val (W := Demo.W) (Ty.user 5)))), e1.Perm e2 ∧
    (e1.map (·.1)).Nodup ∧
    (TextMatchAssignResolver.newCaseInsensitive (W := Demo.W) (Ty.user 5) e1).lookup ['a'] = some [(['y'] : Str)] ∧
    (TextMatchAssignResolver.newCaseInsensitive (W := Demo.W) (Ty.user 5) e2).lookup ['a'] = some [(['x'] : Str)] :=
  ⟨[(['a'], [(['x'] : Str)]), (['A'], [(['y'] : Str)])], [(['A'], [(['y'] : Str)]), (['a'], [(['x'] : Str)])],
    List.Perm.swap _ _ _, by decide, rfl, rfl⟩

/-- C59, what holds: if no two keys have the same lowercase form, every entry is kept and the order does
not matter.  In any case a lowercase key has the value of the last entry with that lowercase form. -/
theorem C59_partial (k : Ty W) (entries : List (Str × List (Val k))) :
    (∀ t, (TextMatchAssignResolver.newCaseInsensitive k entries).lookup t =
      ((entries.filter (fun e => decide (W.toLowercase e.1 = t))).getLast?).map (·.2)) ∧
    ((entries.map (fun e => W.toLowercase e.1)).Nodup →
      (∀ e ∈ entries, (TextMatchAssignResolver.newCaseInsensitive k entries).lookup (W.toLowercase e.1) = some e.2) ∧
      (∀ entries', entries.Perm entries' → TextMatchAssignResolver.newCaseInsensitive k entries =
        TextMatchAssignResolver.newCaseInsensitive k entries')) := by
  have hlook : ∀ (entries : List (Str × List (Val k))) t, (TextMatchAssignResolver.newCaseInsensitive k entries).lookup t =
      ((entries.filter (fun e => decide (W.toLowercase e.1 = t))).getLast?).map (·.2) := by
    intro entries t
    show collectMap _ t = _
    rw [collectMap_get, List.filter_map, List.getLast?_map, Option.map_map]
    rfl
  refine ⟨hlook entries, fun hn => ⟨fun e he => ?_, fun entries' hp => ?_⟩⟩
  · rw [hlook, filter_unique hn he]; rfl
  · have : (TextMatchAssignResolver.newCaseInsensitive k entries).lookup =
        (TextMatchAssignResolver.newCaseInsensitive k entries').lookup := by
      funext t
      rw [hlook, hlook]
      by_cases hx : ∃ e ∈ entries, W.toLowercase e.1 = t
      · obtain ⟨e, he, rfl⟩ := hx
        rw [filter_unique hn he, filter_unique ((hp.map _).nodup_iff.1 hn) (hp.mem_iff.1 he)]
      · have e1 : entries.filter (fun e => decide (W.toLowercase e.1 = t)) = [] := by
          rw [List.filter_eq_nil_iff]; intro e he hc; exact hx ⟨e, he, by simpa using hc⟩
        have e2 : entries'.filter (fun e => decide (W.toLowercase e.1 = t)) = [] := by
          rw [List.filter_eq_nil_iff]; intro e he hc; exact hx ⟨e, hp.mem_iff.2 he, by simpa using hc⟩
        rw [e1, e2]
    simp only [TextMatchAssignResolver.newCaseInsensitive] at this ⊢
    rw [this]

example := (C59_partial (W := Demo.W) (Ty.user 5) [(['a'], [(['x'] : Str)]), (['B'], [(['y'] : Str)])]).2 (by decide)

/-- C59 for the array constructor: the order is the order of the array, and the last entry with a given
lowercase form wins. -/
theorem C59_str_arr (k : Ty W) (arr : List (Str × Val k)) (t : Str) :
    (TextMatchAssignResolver.newCaseInsensitiveStrArr k arr).lookup t =
      ((arr.filter (fun e => decide (W.toLowercase e.1 = t))).getLast?).map (fun e => [e.2]) := by
  show collectMap _ t = _
  rw [collectMap_get, List.filter_map, List.getLast?_map, Option.map_map]
  rfl

example := C59_str_arr (W := Demo.W) (Ty.user 5) [(['a'], (['x'] : Str)), (['A'], (['y'] : Str))] ['a']

/-- C58 for the case-sensitive constructor `new`: the values of a text token are those of its exact text. -/
theorem C58_new (k : Ty W) (lookup : HMap Str (List (Val k))) (s : LLSelection W) (hs : s.Inside) :
    (TextMatchAssignResolver.new k lookup).go s = .ok ((between s.start_idx s.end_idx).flatMap (fun i =>
      ((textAt s.ll_line.val i).toList.flatMap (fun t => (lookup t).getD [])).map (fun v => ⟨i, i, v⟩))) := by
  rw [C58_table _ s hs]
  congr 2
  funext i
  unfold tableValues
  cases textAt s.ll_line.val i with
  | none => rfl
  | some t => simp [TextMatchAssignResolver.new]

/-- a case-sensitive table: `pay` is not `Pay` -/
def Demo.sensitive : HMap Str (List (Val (W := Demo.W) (Ty.user 5))) :=
  (HMap.empty.set ['p', 'a', 'y'] [(['n'] : Str)]).set ['P', 'a', 'y'] [(['p'] : Str)]
example := C58_new (W := Demo.W) (Ty.user 5) Demo.sensitive (wholeLine Demo.exLine 0) (wholeLine_inside Demo.exLine_ne 0)
example : (TextMatchAssignResolver.new (W := Demo.W) (Ty.user 5) Demo.sensitive).go (wholeLine Demo.exLine 0) =
    .ok [⟨0, 0, (['p'] : Str)⟩] := rfl

/-- C58 for `new_case_insensitive`: the values of a text token are those of the last entry whose key agrees
with its text up to case. -/
theorem C58_new_case_insensitive (k : Ty W) (entries : List (Str × List (Val k))) (s : LLSelection W) (hs : s.Inside) :
    (TextMatchAssignResolver.newCaseInsensitive k entries).go s = .ok ((between s.start_idx s.end_idx).flatMap (fun i =>
      ((textAt s.ll_line.val i).toList.flatMap (fun t =>
        (entries.filter (fun e => decide (W.toLowercase e.1 = W.toLowercase t))).getLast?.toList.flatMap (·.2))).map
          (fun v => ⟨i, i, v⟩))) := by
  rw [C58_table _ s hs]
  congr 2
  funext i
  unfold tableValues
  cases textAt s.ll_line.val i with
  | none => rfl
  | some t =>
    simp only [Option.toList_some, List.flatMap_cons, List.flatMap_nil, List.append_nil]
    rw [(C59_partial k entries).1]
    have hc : (TextMatchAssignResolver.newCaseInsensitive k entries).case_sensitive = false := rfl
    simp only [hc, Bool.false_eq_true, if_false]
    cases (entries.filter (fun e => decide (W.toLowercase e.1 = W.toLowercase t))).getLast? <;> simp

example := C58_new_case_insensitive (W := Demo.W) (Ty.user 5) [(['P', 'A', 'y'], [(['n'] : Str)])] (wholeLine Demo.exLine 0)
  (wholeLine_inside Demo.exLine_ne 0)
example : (TextMatchAssignResolver.newCaseInsensitive (W := Demo.W) (Ty.user 5) [(['P', 'A', 'y'], [(['n'] : Str)])]).go
    (wholeLine Demo.exLine 0) = .ok [⟨0, 0, (['n'] : Str)⟩] := rfl

/-- C58 for `new_case_insensitive_str_arr`: a text token gets the value of the last pair whose word agrees with
its text up to case, and only that. -/
theorem C58_new_case_insensitive_str_arr (k : Ty W) (arr : List (Str × Val k)) (s : LLSelection W) (hs : s.Inside) :
    (TextMatchAssignResolver.newCaseInsensitiveStrArr k arr).go s = .ok ((between s.start_idx s.end_idx).flatMap (fun i =>
      ((textAt s.ll_line.val i).toList.flatMap (fun t =>
        (arr.filter (fun e => decide (W.toLowercase e.1 = W.toLowercase t))).getLast?.toList.map (·.2))).map
          (fun v => ⟨i, i, v⟩))) := by
  rw [C58_table _ s hs]
  congr 2
  funext i
  unfold tableValues
  cases textAt s.ll_line.val i with
  | none => rfl
  | some t =>
    simp only [Option.toList_some, List.flatMap_cons, List.flatMap_nil, List.append_nil]
    rw [C59_str_arr k arr]
    have hc : (TextMatchAssignResolver.newCaseInsensitiveStrArr k arr).case_sensitive = false := rfl
    simp only [hc, Bool.false_eq_true, if_false]
    cases (arr.filter (fun e => decide (W.toLowercase e.1 = W.toLowercase t))).getLast? <;> simp

example := C58_new_case_insensitive_str_arr (W := Demo.W) (Ty.user 5) [(['P', 'A', 'y'], (['n'] : Str))] (wholeLine Demo.exLine 0)
  (wholeLine_inside Demo.exLine_ne 0)

/-! ### C60: clause keywords -/

/-- C60: exactly the text tokens whose lowercase form is configured get a keyword, one each, in order, with
condition words before then words before and words. -/
theorem C60_keywords (r : ClauseKeywordResolver) (s : LLSelection W) (hs : s.Inside) :
    ∃ out, r.go s = .ok out ∧ out.Pairwise (fun a b => a.start_idx < b.start_idx) ∧
      ∀ a, a ∈ out ↔ a.start_idx = a.end_idx ∧ s.Has a.start_idx ∧
        ∃ t, textAt s.ll_line.val a.start_idx = some t ∧ IsKeyword r (W.toLowercase t) a.value := by
  have hcl := classify_iff r
  refine ⟨_, keywordGo_eq r hs, ?_, ?_⟩
  · rw [List.pairwise_flatMap]
    refine ⟨fun i _ => ?_, (between_pairwise _ _).imp ?_⟩
    · cases (textAt s.ll_line.val i).bind (fun t => r.classify (W.toLowercase t)) <;> simp
    · intro i j hij x hx y hy
      obtain ⟨_, _, rfl⟩ := List.mem_map.1 hx
      obtain ⟨_, _, rfl⟩ := List.mem_map.1 hy
      exact hij
  · rintro ⟨i, j, kw⟩
    simp only [List.mem_flatMap, List.mem_map, Option.mem_toList, Option.bind_eq_some_iff, LLCursorAssignment.mk.injEq]
    constructor
    · rintro ⟨n, hn, kw', ⟨t, ht, hc⟩, rfl, rfl, rfl⟩
      exact ⟨rfl, mem_between.1 hn, t, ht, (hcl _ _).1 hc⟩
    · rintro ⟨rfl, hi, t, ht, hc⟩
      exact ⟨i, mem_between.2 hi, kw, ⟨t, ht, (hcl _ _).2 hc⟩, rfl, rfl, rfl⟩

/-- keywords for the examples: `if`, `then`, `and`, and a condition word that is also a then word -/
def Demo.kws : ClauseKeywordResolver :=
  { cond_start := [['i', 'f'], ['o', 'n']], and := [['a', 'n', 'd']], then_ := [['t', 'h', 'e', 'n'], ['o', 'n'], ['S', 'O']] }

def Demo.clauseLine0 : LLLine Demo.W :=
  Demo.getOk Demo.emptyLine (createLineFromString Demo.W "x IF a, then b".toList)
theorem Demo.clauseHonest0 : Honest Demo.clauseLine0 (creationHistory Demo.W utf8Len [.Text "x IF a, then b".toList []]) :=
  .create [.Text "x IF a, then b".toList []] utf8Len _ (by simp [InputToken.WF, InputToken.attrList]) rfl
theorem Demo.clauseLine0_ne : Demo.clauseLine0.ll_tokens ≠ [] := by intro h; cases h

example := C60_keywords Demo.kws (wholeLine Demo.clauseLine0 0) (wholeLine_inside Demo.clauseLine0_ne 0)
example : Demo.kws.go (wholeLine Demo.clauseLine0 0) = .ok [⟨2, 2, .ConditionStart⟩, ⟨7, 7, .Then⟩] := rfl

/-- C60: configured words that are not lowercase never match: removing them changes nothing. -/
theorem C60_lowercase_only (L : LowerIdem W) (r : ClauseKeywordResolver) (s : LLSelection W) (hs : s.Inside) :
    r.go s = ClauseKeywordResolver.go
      { cond_start := r.cond_start.filter (fun w => W.toLowercase w = w)
        and := r.and.filter (fun w => W.toLowercase w = w)
        then_ := r.then_.filter (fun w => W.toLowercase w = w) } s := by
  rw [keywordGo_eq r hs, keywordGo_eq _ hs]
  have : ∀ t, r.classify (W.toLowercase t) = ClauseKeywordResolver.classify
      { cond_start := r.cond_start.filter (fun w => W.toLowercase w = w)
        and := r.and.filter (fun w => W.toLowercase w = w)
        then_ := r.then_.filter (fun w => W.toLowercase w = w) } (W.toLowercase t) := by
    intro t
    simp [ClauseKeywordResolver.classify, L t]
  simp only [this]

theorem Demo.lowerIdem : LowerIdem Demo.W := by
  intro s
  show (s.map Demo.lowerChar).map Demo.lowerChar = s.map Demo.lowerChar
  rw [List.map_map]
  congr 1
  funext c
  simp only [Function.comp, Demo.lowerChar]
  by_cases h : decide (65 ≤ c.toNat) && decide (c.toNat ≤ 90)
  · simp only [h, if_true]
    simp only [Bool.and_eq_true, decide_eq_true_eq] at h
    have : (Char.ofNat (c.toNat + 32)).toNat = c.toNat + 32 := by
      unfold Char.ofNat
      rw [dif_pos (by left; omega)]
      rfl
    rw [if_neg]; rw [this]; simp; omega
  · simp only [if_neg h]

example := C60_lowercase_only Demo.lowerIdem Demo.kws (wholeLine Demo.clauseLine0 0) (wholeLine_inside Demo.clauseLine0_ne 0)

/-! ### C61, C62: clauses -/

/-- the line of the examples after the keyword resolver -/
def Demo.clauseLine : LLLine Demo.W := Demo.getOk Demo.emptyLine (Demo.clauseLine0.run 0 (Demo.kws.resolver Demo.W))

/-- C61: the clauses are, in order, the maximal runs of tokens of the selection that carry neither a clause
keyword nor punctuation, without one leading and one trailing whitespace token (dropped if nothing is
left).  The resolver does not panic. -/
theorem C61_clause_ranges {s : LLSelection W} {h : History W} (hr : Reachable s.ll_line.val h) (h1 : OneToken h)
    (hs : s.Inside) : ∃ ps out, MaximalRuns (Delim h) s.start_idx s.end_idx ps ∧ clauseGo s = .ok out ∧
      out.map (fun a => (a.start_idx, a.end_idx)) = ps.filterMap (trimmed h) := by
  obtain ⟨ps, hps, hgo⟩ := clauseGo_eq hr.rep h1 hs
  exact ⟨ps, _, hps, hgo, clausesOf_ranges h ps⟩

/-- C61: the clauses are disjoint, ordered, lie in the selection and contain no delimiter. -/
theorem C61_disjoint {s : LLSelection W} {h : History W} (hr : Reachable s.ll_line.val h) (h1 : OneToken h)
    (hs : s.Inside) (out : List (LLCursorAssignment Clause)) (ho : clauseGo s = .ok out) :
    out.Pairwise (fun a b => a.end_idx < b.start_idx) ∧
    (∀ a ∈ out, s.start_idx ≤ a.start_idx ∧ a.start_idx ≤ a.end_idx ∧ a.end_idx ≤ s.end_idx ∧
      ∀ t, a.start_idx ≤ t → t ≤ a.end_idx → ¬ Delim h t) ∧
    (∀ t, s.Has t → ¬ Delim h t → TextTag.SPACE ∉ tagsOn h t → ∃ a ∈ out, a.start_idx ≤ t ∧ t ≤ a.end_idx) := by
  obtain ⟨ps, out', hps, hgo, hmap⟩ := C61_clause_ranges hr h1 hs
  rw [ho] at hgo; cases hgo
  have hsub : ∀ p r, trimmed h p = some r → p.1 ≤ r.1 ∧ r.1 ≤ r.2 ∧ r.2 ≤ p.2 := by
    intro p r hpr
    simp only [trimmed] at hpr
    by_cases c1 : TextTag.SPACE ∈ tagsOn h p.1 <;> by_cases c2 : TextTag.SPACE ∈ tagsOn h p.2 <;>
      simp only [c1, c2, if_true, if_false] at hpr <;> split at hpr <;> cases hpr <;> simp only <;> omega
  have hmem : ∀ a ∈ out, ∃ p ∈ ps, trimmed h p = some (a.start_idx, a.end_idx) := by
    intro a ha
    have : (a.start_idx, a.end_idx) ∈ ps.filterMap (trimmed h) := by
      rw [← hmap]; exact List.mem_map.2 ⟨a, ha, rfl⟩
    rw [List.mem_filterMap] at this
    exact this
  refine ⟨?_, ?_, ?_⟩
  · have hp : (ps.filterMap (trimmed h)).Pairwise (fun a b => a.2 < b.1) := by
      rw [List.pairwise_filterMap]
      apply hps.1.imp
      intro p q hpq r hr r' hr'
      have := hsub p r hr; have := hsub q r' hr'
      omega
    rw [← hmap, List.pairwise_map] at hp
    exact hp
  · intro a ha
    obtain ⟨⟨i, j⟩, hp, ht⟩ := hmem a ha
    have hb := hsub _ _ ht
    obtain ⟨h2, h3, h4, h5, _⟩ := (hps.2 i j).1 hp
    simp only at hb
    exact ⟨by omega, hb.2.1, by omega, fun t ht1 ht2 => h5 t (by omega) (by omega)⟩
  · intro t ht hd hsp
    obtain ⟨p, hp, hpt⟩ := maximalRuns_cover hps ht.1 ht.2 hd
    have htr : ∃ r, trimmed h p = some r ∧ r.1 ≤ t ∧ t ≤ r.2 := by
      simp only [trimmed]
      have c1 : TextTag.SPACE ∈ tagsOn h p.1 → p.1 ≠ t := by rintro h rfl; exact hsp h
      have c2 : TextTag.SPACE ∈ tagsOn h p.2 → p.2 ≠ t := by rintro h rfl; exact hsp h
      by_cases d1 : TextTag.SPACE ∈ tagsOn h p.1 <;> by_cases d2 : TextTag.SPACE ∈ tagsOn h p.2
      · have := c1 d1; have := c2 d2
        simp only [d1, d2, if_true]
        rw [if_pos (by omega)]; exact ⟨_, rfl, by simp only; omega, by simp only; omega⟩
      · have := c1 d1
        simp only [d1, d2, if_true, if_false]
        rw [if_pos (by omega)]; exact ⟨_, rfl, by simp only; omega, by simp only; omega⟩
      · have := c2 d2
        simp only [d1, d2, if_true, if_false]
        rw [if_pos (by omega)]; exact ⟨_, rfl, by simp only; omega, by simp only; omega⟩
      · simp only [d1, d2, if_false]
        rw [if_pos (by omega)]; exact ⟨_, rfl, by simp only; omega, by simp only; omega⟩
    obtain ⟨r, hr1, hr2⟩ := htr
    have : r ∈ out.map (fun a => (a.start_idx, a.end_idx)) := by
      rw [hmap]; exact List.mem_filterMap.2 ⟨p, hp, hr1⟩
    obtain ⟨a, ha, rfl⟩ := List.mem_map.1 this
    exact ⟨a, ha, hr2⟩

/-- C61 without the hypothesis that tags and keywords sit on single tokens: on every line with well-formed
ranges the resolver does not panic and its clauses are non-empty, lie in the selection, and any two are
separated by at least one token. -/
theorem C61_any_line {s : LLSelection W} {h : History W} (hr : Reachable s.ll_line.val h) (ho : Ordered h)
    (hs : s.Inside) : ∃ out, clauseGo s = .ok out ∧ out.Pairwise (fun a b => a.end_idx + 1 < b.start_idx) ∧
      ∀ a ∈ out, s.start_idx ≤ a.start_idx ∧ a.start_idx ≤ a.end_idx ∧ a.end_idx ≤ s.end_idx := by
  obtain ⟨ps, out, _, h1, h2, h3⟩ := clauseGo_general hr.rep ho hs
  refine ⟨out, h1, h2, fun a ha => ?_⟩
  obtain ⟨p, _, t, v, _, ⟨_, h4, h5, h6⟩, ⟨_, h7, h8, h9⟩, rfl⟩ := h3 a ha
  show s.start_idx ≤ t.start_idx ∧ t.start_idx ≤ t.end_idx ∧ t.end_idx ≤ s.end_idx
  omega

example := C61_any_line (s := wholeLine Demo.exLine2 0) Demo.exReach2 Demo.exHist2_ordered (wholeLine_inside (by intro h; cases h) 0)

/-- C62: the kinds.  `clausesOf` lists the trimmed runs with their kinds; the kind of a run among several
depends on the keyword just before it and on whether an earlier run is a condition. -/
theorem C62_clause_kinds {s : LLSelection W} {h : History W} (hr : Reachable s.ll_line.val h) (h1 : OneToken h)
    (hs : s.Inside) : ∃ ps, MaximalRuns (Delim h) s.start_idx s.end_idx ps ∧ clauseGo s = .ok (clausesOf h ps) :=
  clauseGo_eq hr.rep h1 hs

theorem Demo.clauseOne0 : OneToken (creationHistory Demo.W utf8Len [.Text "x IF a, then b".toList []]) :=
  creation_oneToken (by simp [NoCustom, InputToken.attrList]) (by simp [NoCustom, InputToken.attrList])

def Demo.clauseHist : History Demo.W := creationHistory Demo.W utf8Len [.Text "x IF a, then b".toList []] ++
  ([⟨2, 2, .ConditionStart⟩, ⟨7, 7, .Then⟩] : List (LLCursorAssignment ClauseKeyword)).map (recOf (W := Demo.W) .clauseKeyword)
theorem Demo.clauseReach : Reachable Demo.clauseLine Demo.clauseHist :=
  .run Demo.clauseLine0 _ 0 (Demo.kws.resolver Demo.W) [⟨2, 2, .ConditionStart⟩, ⟨7, 7, .Then⟩] false Demo.clauseLine
    Demo.clauseHonest0.spec.1 Demo.clauseLine0_ne rfl rfl
theorem Demo.clauseOne : OneToken Demo.clauseHist := oneToken_run (k := .clauseKeyword) Demo.clauseOne0 _
  (.inr (show ∀ a ∈ ([⟨2, 2, .ConditionStart⟩, ⟨7, 7, .Then⟩] : List (LLCursorAssignment ClauseKeyword)), a.start_idx = a.end_idx by simp))
theorem Demo.clauseLine_ne : Demo.clauseLine.ll_tokens ≠ [] := by intro h; cases h

example := C61_clause_ranges (s := wholeLine Demo.clauseLine 0) Demo.clauseReach Demo.clauseOne (wholeLine_inside Demo.clauseLine_ne 0)
example := C61_disjoint (s := wholeLine Demo.clauseLine 0) Demo.clauseReach Demo.clauseOne (wholeLine_inside Demo.clauseLine_ne 0) _ rfl
example := C62_clause_kinds (s := wholeLine Demo.clauseLine 0) Demo.clauseReach Demo.clauseOne (wholeLine_inside Demo.clauseLine_ne 0)

/-- C61 and C62 for the whole pipeline: create a line, run the keyword resolver, run the clause resolver,
query the clauses.  The tags are those of the tokenizer and the keywords those of C60. -/
theorem C62_pipeline (size : Str → Nat) (input : List (InputToken W)) (l : LLLine W) (wf : ∀ t ∈ input, t.WF)
    (ok : createLineFromInputTokens W input size = .ok l) (ne : l.ll_tokens ≠ [])
    (n1 : NoCustom .textTag input) (n2 : NoCustom .clauseKeyword input) (n3 : NoCustom .clause input)
    (kw : ClauseKeywordResolver) (ptr1 ptr2 : Nat) :
    ∃ (l1 l2 : LLLine W) (h1 : History W) (ps : List LRange), l.run ptr1 (kw.resolver W) = .ok l1 ∧ l1.run ptr2 (clauseResolver W) = .ok l2 ∧
      (∀ i, tagsOn h1 i = (tagAt l i).toList) ∧
      (∀ i k, k ∈ keywordsOn h1 i ↔ ∃ t, textAt l i = some t ∧ IsKeyword kw (W.toLowercase t) k) ∧
      MaximalRuns (Delim h1) 0 (l.ll_tokens.length - 1) ps ∧
      l2.query .clause = .ok ((clausesOf h1 ps).map (fun a =>
        ((a.start_idx, a.end_idx), coveredText l.ll_tokens (a.start_idx, a.end_idx), [a.value]))) := by
  have hr : Reachable l (creationHistory W size input) := .create input size l wf ok
  have hplain := creation_plainTags wf ok n1
  obtain ⟨kws, hg, hpw, hkw⟩ := C60_keywords kw (wholeLine l ptr1) (wholeLine_inside ne ptr1)
  have hlen : 0 < l.ll_tokens.length := List.length_pos_iff.2 ne
  obtain ⟨l1, hrun1, hr1⟩ := run_reachable (k := .clauseKeyword) (f := (kw.resolver W).go) hr ne
    (keyword_resolver kw hg) (by
      intro a ha
      obtain ⟨h1, h2, _⟩ := (hkw a).1 ha
      have h3 := h2.2
      have : (wholeLine l ptr1).end_idx = l.ll_tokens.length - 1 := rfl
      omega)
  have htok1 := run_tokens hrun1
  have ne1 : l1.ll_tokens ≠ [] := by rw [htok1]; exact ne
  have hplain1 := plainTags_run htok1 hplain (k := .clauseKeyword) (by intro h; cases h) kws
  have hone1 := oneToken_run (k := .clauseKeyword) (creation_oneToken (size := size) n1 n2) kws
    (.inr fun a ha => ((hkw a).1 ha).1)
  obtain ⟨ps, hps, hcl⟩ := C62_clause_kinds (s := wholeLine l1 ptr2) hr1 hone1 (wholeLine_inside ne1 ptr2)
  have hd := C61_disjoint (s := wholeLine l1 ptr2) hr1 hone1 (wholeLine_inside ne1 ptr2) _ hcl
  have hlast : (wholeLine l1 ptr2).end_idx = l1.ll_tokens.length - 1 := rfl
  obtain ⟨l2, hrun2, hr2⟩ := run_reachable (k := .clause) (f := (clauseResolver W).go) hr1 ne1
    (clause_resolver hcl) (by
      intro a ha
      obtain ⟨_, h1, h2, _⟩ := hd.2.1 a ha
      rw [htok1] at *
      omega)
  refine ⟨l1, l2, creationHistory W size input ++ kws.map (recOf (W := W) .clauseKeyword), ps, hrun1, hrun2, ?_, ?_, ?_, ?_⟩
  · exact fun i => (hplain1.1 i).trans (by rw [tagAt_tokens htok1])
  · intro i k
    refine (mem_valuesOf (W := W) (k := .clauseKeyword) (v := k)).trans ?_
    rw [List.mem_append]
    constructor
    · rintro (hx | hx)
      · rw [creationHistory, List.mem_append] at hx
        rcases hx with hx | hx
        · rcases builtinHistory_ty _ _ hx with e | e <;> cases e
        · exact absurd rfl (noCustom_history n2 0 _ hx)
      · obtain ⟨a, ha, he⟩ := List.mem_map.1 hx
        obtain ⟨h1, h2, t, h3, h4⟩ := (hkw a).1 ha
        have he1 : a.start_idx = i := congrArg (fun x : Rec W => x.range.1) he
        have he2 : a.value = k := by
          have : (some a.value : Option ClauseKeyword) = some k :=
            (Rec.valAs_self ..).symm.trans ((congrArg (fun x : Rec W => x.valAs .clauseKeyword) he).trans (Rec.valAs_self ..))
          exact Option.some.inj this
        rw [← he1]
        rw [← he2]
        exact ⟨t, h3, h4⟩
    · rintro ⟨t, h3, h4⟩
      right
      have hi : i < l.ll_tokens.length := by
        unfold textAt at h3
        cases he : l.ll_tokens[i]? with
        | none => rw [he] at h3; cases h3
        | some _ => exact (List.getElem?_eq_some_iff.1 he).1
      exact List.mem_map.2 ⟨⟨i, i, k⟩, (hkw _).2 ⟨rfl, ⟨Nat.zero_le _, (show i ≤ l.ll_tokens.length - 1 by omega)⟩, t, h3, h4⟩, rfl⟩
  · rw [hlast, htok1] at hps; exact hps
  · have hnone : ∀ x ∈ creationHistory W size input ++ kws.map (recOf .clauseKeyword), x.ty ≠ .clause := by
      intro x hx
      rcases List.mem_append.1 hx with hx | hx
      · rw [creationHistory, List.mem_append] at hx
        rcases hx with hx | hx
        · rcases builtinHistory_ty _ _ hx with e | e <;> rw [e] <;> intro h <;> cases h
        · exact noCustom_history n3 0 _ hx
      · obtain ⟨a, _, rfl⟩ := List.mem_map.1 hx
        intro h; cases h
    rw [query_new hr2.rep hnone hd.1 (fun a ha => (hd.2.1 a ha).2.1), run_tokens hrun2, htok1]
    rfl

example := C62_pipeline utf8Len [.Text "x IF a, then b".toList []] Demo.clauseLine0 (by simp [InputToken.WF, InputToken.attrList]) rfl
  Demo.clauseLine0_ne (by simp [NoCustom, InputToken.attrList]) (by simp [NoCustom, InputToken.attrList])
  (by simp [NoCustom, InputToken.attrList]) Demo.kws 0 1

example : clauseGo (wholeLine Demo.clauseLine 0) =
    .ok [⟨0, 0, .LeadingEffect⟩, ⟨4, 4, .Condition⟩, ⟨9, 9, .TrailingEffect⟩] := rfl

/-! ### C63: parts of speech -/


/-- C63: every text token gets, for each `WORD` tag on it, its dictionary tags, or `Noun` if it has none;
other tokens get nothing. -/
theorem C63_pos {s : LLSelection W} {h : History W} (hr : Reachable s.ll_line.val h) (hs : s.Inside) :
    posTagGo s = .ok ((between s.start_idx s.end_idx).flatMap (fun i =>
      (posTags s.ll_line.val h i).map (fun v => ⟨i, i, v⟩))) := by
  unfold posTagGo
  rw [findBy_exact (fun i hi => tagText_fwd hr.rep .WORD (Nat.lt_of_le_of_lt hi.2 hs.2))]
  simp only [List.flatMap_assoc]
  congr 2
  funext i
  unfold posTags
  cases textAt s.ll_line.val i with
  | none => rfl
  | some t =>
    simp only [Option.toList_some, List.flatMap_cons, List.flatMap_nil, List.append_nil, List.map_replicate,
      List.flatMap_replicate, List.map_flatten, fwdSel]
    rfl

example := C63_pos (s := wholeLine Demo.clauseLine0 0) Demo.clauseHonest0.spec.1 (wholeLine_inside Demo.clauseLine0_ne 0)
example : posTagGo (wholeLine (Demo.getOk Demo.emptyLine (createLineFromString Demo.W "Run, x 1".toList)) 0) =
    .ok [⟨0, 0, (['V', 'e', 'r', 'b'] : Str)⟩, ⟨0, 0, (['N', 'o', 'u', 'n'] : Str)⟩, ⟨3, 3, (['N', 'o', 'u', 'n'] : Str)⟩] := rfl

/-- C63 on a line whose tags are those of the tokenizer: exactly the words of the selection are tagged. -/
theorem C63_words {s : LLSelection W} {h : History W} (hr : Reachable s.ll_line.val h) (ht : PlainTags s.ll_line.val h)
    (hs : s.Inside) : posTagGo s = .ok ((between s.start_idx s.end_idx).flatMap (fun i =>
      if tagAt s.ll_line.val i = some .WORD then
        ((W.tagLookup (W.toLowercase ((textAt s.ll_line.val i).getD []))).getD [W.nounTag]).map (fun v => ⟨i, i, v⟩)
      else [])) := by
  rw [C63_pos hr hs]
  congr 2
  funext i
  have h1 := ht.1 i
  unfold posTags tagsOn
  rw [h1]
  unfold textAt tagAt
  cases s.ll_line.val.ll_tokens[i]? with
  | none => rfl
  | some t =>
    simp only [Option.bind_some]
    cases t.token with
    | Value => rfl
    | Text str tag => cases tag <;> simp

/-- C63 for `run`. -/
theorem C63_run {l : LLLine W} {h : History W} (hr : Reachable l h) (ne : l.ll_tokens ≠ []) (ptr : Nat) :
    ∃ l', l.run ptr (posTagResolver W) = .ok l' ∧ Reachable l' (h ++ (between 0 (l.ll_tokens.length - 1)).flatMap (fun i =>
      (posTags l h i).map (fun v => ⟨.tag, (i, i), v⟩))) := by
  obtain ⟨l', hl', hr'⟩ := run_reachable (k := .tag) (f := (posTagResolver W).go) hr ne
    (pos_resolver (C63_pos (s := wholeLine l ptr) hr (wholeLine_inside ne ptr))) (token_bounds ne)
  refine ⟨l', hl', ?_⟩
  have e := token_records (posTags l h) (fun i v => (⟨i, i, v⟩ : LLCursorAssignment W.Tag))
    (between 0 (l.ll_tokens.length - 1)) (recOf (W := W) .tag)
  exact Eq.mp (congrArg (fun x => Reachable l' (h ++ x)) e) hr'

/-- C63: on a fresh line without custom tags the hypothesis of `C63_words` holds, and runs of resolvers of
other types keep it. -/
theorem C63_plain_tags (size : Str → Nat) (input : List (InputToken W)) (l : LLLine W) (wf : ∀ t ∈ input, t.WF)
    (ok : createLineFromInputTokens W input size = .ok l) (h : NoCustom .textTag input) :
    PlainTags l (creationHistory W size input) ∧
    ∀ (l1 l2 : LLLine W) (h1 : History W) (ptr : Nat) (r : Resolver W) (asgs : List (LLCursorAssignment (Val r.attr))),
      PlainTags l1 h1 → r.attr ≠ .textTag → l1.run ptr r = .ok l2 → PlainTags l2 (h1 ++ asgs.map (recOf r.attr)) :=
  ⟨creation_plainTags wf ok h, fun _ _ _ _ _ asgs hp hk hrun => plainTags_run (run_tokens hrun) hp hk asgs⟩

theorem Demo.clausePlain0 : PlainTags Demo.clauseLine0 (creationHistory Demo.W utf8Len [.Text "x IF a, then b".toList []]) :=
  (C63_plain_tags utf8Len [.Text "x IF a, then b".toList []] _ (by simp [InputToken.WF, InputToken.attrList]) rfl
    (by simp [NoCustom, InputToken.attrList])).1
example := C63_words (s := wholeLine Demo.clauseLine0 0) Demo.clauseHonest0.spec.1 Demo.clausePlain0 (wholeLine_inside Demo.clauseLine0_ne 0)
example := C63_run Demo.clauseHonest0.spec.1 Demo.clauseLine0_ne 0

/-! ### C71: the built-in resolvers are honest -/

/-- C71: on a line of honest resolvers, the table, part-of-speech, keyword and clause resolvers run without
panicking, and the new line is again a line of honest resolvers. -/
theorem C71_builtin_resolvers {l : LLLine W} {h : History W} (hh : Honest l h) (ne : l.ll_tokens ≠ []) (ptr : Nat)
    (r : Resolver W) (hr : (∃ k, ∃ t : TextMatchAssignResolver W k, r = t.resolver) ∨ r = posTagResolver W ∨
      (∃ kw : ClauseKeywordResolver, r = kw.resolver W) ∨ r = clauseResolver W) :
    ∃ asgs l', r.go (wholeLine l ptr) = .ok (asgs, false) ∧ l.run ptr r = .ok l' ∧
      Honest l' (h ++ asgs.map (recOf r.attr)) := by
  have hs := wholeLine_inside ne ptr
  have fin : ∀ asgs, HonestRun l ptr r asgs → ∃ asgs l', r.go (wholeLine l ptr) = .ok (asgs, false) ∧ l.run ptr r = .ok l' ∧
      Honest l' (h ++ asgs.map (recOf r.attr)) := by
    intro asgs ha
    obtain ⟨l', h1, h2⟩ := C23_honest_run_ok hh ne ptr r asgs ha
    exact ⟨asgs, l', ha.1, h1, h2⟩
  rcases hr with ⟨k, t, rfl⟩ | rfl | ⟨kw, rfl⟩ | rfl
  · have hg := C58_table t _ hs
    exact fin _ ⟨table_resolver t hg, table_honest t hg⟩
  · have hg := C63_pos (s := wholeLine l ptr) hh.spec.1 hs
    exact fin _ ⟨pos_resolver hg, pos_honest hg⟩
  · have hg := keywordGo_eq kw hs
    exact fin _ ⟨keyword_resolver kw hg, keyword_honest kw hg⟩
  · obtain ⟨_, _, _, hg, _⟩ := clauseGo_general (s := wholeLine l ptr) hh.spec.1.rep hh.spec.2 hs
    exact fin _ ⟨clause_resolver hg, clause_honest (s := wholeLine l ptr) hh.spec.1.rep hh.spec.2 hs hg⟩

example := C71_builtin_resolvers Demo.clauseHonest0 Demo.clauseLine0_ne 0 (clauseResolver Demo.W) (by simp)

example := C63_plain_tags utf8Len [.Text "x IF a, then b".toList []] Demo.clauseLine0 (by simp [InputToken.WF, InputToken.attrList]) rfl (by simp [NoCustom, InputToken.attrList])

end LNlp
