import Verif.Props.EndToEnd
import Verif.Lemmas.Show
/- C111: the rendering of a line shows what the queries return; renderings of the library's resolvers end to end. -/
namespace LNlp
variable {W : World}

/-- C111: clauses, keywords and text tags are shown by their names, and the names are different. -/
theorem C111_names :
    (∀ c : Clause, valDbg (W := W) .clause c = c.kindName.toList) ∧
    (∀ c : ClauseKeyword, valDbg (W := W) .clauseKeyword c = c.kindName.toList) ∧
    (∀ c : TextTag, valDbg (W := W) .textTag c = c.kindName.toList) ∧
    (∀ a b : Clause, a.kindName = b.kindName → a = b) ∧ (∀ a b : ClauseKeyword, a.kindName = b.kindName → a = b) ∧
    ∀ a b : TextTag, a.kindName = b.kindName → a = b := by
  refine ⟨fun c => ?_, fun c => ?_, fun c => ?_, fun a b => ?_, fun a b => ?_, fun a b => ?_⟩
  · cases c <;> rfl
  · cases c <;> rfl
  · cases c <;> rfl
  · cases a <;> cases b <;> decide
  · cases a <;> cases b <;> decide
  · cases a <;> cases b <;> decide

/-- C111: a line rendered with some types shows the token texts and, type by type, a line for every value the
queries of these types return, in the order of the queries. -/
theorem C111_rendering_of_queries {l : LLLine W} {h : History W} (hr : Reachable l h) (ho : Ordered h) (L : WidthLaws W)
    (ks : List (Ty W)) :
    (∀ k, ∃ q, l.query k = .ok q) ∧
    Shows l ks (headerOf l.ll_tokens ++
      (ks.flatMap (fun k => entryLines k (queried l k))).flatMap (attrLine W l.ll_tokens)) := by
  have hq : ∀ k, l.query k = .ok ((rangesOf k h).map (fun r => (r, coveredText l.ll_tokens r, valuesOf k r h))) := by
    intro k
    refine C13_query_is_history hr k (fun r hm => ?_)
    obtain ⟨v, hv⟩ := mem_rangesOf.1 hm
    exact Nat.le_succ_of_le (ho _ hv)
  refine ⟨fun k => ⟨_, hq k⟩, ?_⟩
  obtain ⟨d, h1, h2⟩ := C55_display hr ho L ks
  refine ⟨d, h1, ?_⟩
  rw [h2]
  have : ∀ k, entryLines k (queried l k) = shownValues k h := by
    intro k
    unfold queried
    rw [hq k]
    simp only [entryLines, shownValues, List.flatMap_map]
  simp only [this]

example := C111_rendering_of_queries Demo.exReach2 Demo.exHist2_ordered (additive_mono Demo.additive) [Ty.user 2, .textTag]

theorem shows_one {l : LLLine W} {h : History W} (hr : Reachable l h) (ho : Ordered h) (L : WidthLaws W) {k : Ty W}
    {q : List (LRange × Str × List (Val k))} (hq : l.query k = .ok q) :
    Shows l [k] (headerOf l.ll_tokens ++ (entryLines k q).flatMap (attrLine W l.ll_tokens)) := by
  have := (C111_rendering_of_queries hr ho L [k]).2
  have e : queried l k = q := by unfold queried; rw [hq]
  simpa only [List.flatMap_cons, List.flatMap_nil, List.append_nil, e] using this

/-- C111: a text's clauses are rendered one per line, from left to right, each under its tokens and with the name of
its kind. -/
theorem C111_clauses {str : Str} {l : LLLine W} (ok : createLineFromString W str = .ok l) (ne : l.ll_tokens ≠ [])
    (L : WidthLaws W) (r : ClauseKeywordResolver) (p1 p2 : Nat) :
    ∃ l1 l2, ∃ cs : List (LRange × Clause), l.run p1 (r.resolver W) = .ok l1 ∧ l1.run p2 (clauseResolver W) = .ok l2 ∧
      cs.Pairwise (fun x y => x.1.2 < y.1.1) ∧ (∀ i j kind, ((i, j), kind) ∈ cs ↔ ClauseAt r l i j kind) ∧
      Shows l2 [.clause] (headerOf l.ll_tokens ++
        cs.flatMap (fun c => attrLine W l.ll_tokens (c.1, c.2.kindName.toList))) := by
  obtain ⟨l1, l2, q, e1, e2, hq, hpw, hm⟩ := C94_clauses_of_text ok ne r p1 p2
  have hh : Honest l _ := .create _ _ _ (string_wf str) ok
  obtain ⟨_, l1', _, f1, hh1⟩ := C71_builtin_resolvers hh ne p1 (r.resolver W) (.inr (.inr (.inl ⟨r, rfl⟩)))
  obtain rfl : l1 = l1' := Except.ok.inj (e1.symm.trans f1)
  have t1 := run_tokens e1
  obtain ⟨_, l2', _, f2, hh2⟩ := C71_builtin_resolvers hh1 (by rw [t1]; exact ne) p2 (clauseResolver W) (.inr (.inr (.inr rfl)))
  obtain rfl : l2 = l2' := Except.ok.inj (e2.symm.trans f2)
  have t2 := run_tokens e2
  have one : ∀ e ∈ q, ∃ kind, e.2.2 = [kind] := by
    rintro ⟨⟨i, j⟩, text, vs⟩ he
    obtain ⟨_, kind, hv, _⟩ := (hm _ _ _ _).1 he
    exact ⟨kind, hv⟩
  have hs := shows_one hh2.spec.1 hh2.spec.2 L hq
  rw [t2, t1, singles_lines one, List.flatMap_map] at hs
  have hn : ∀ c : Clause, c.kindName.toList = valDbg (W := W) .clause c := fun c => ((C111_names (W := W)).1 c).symm
  refine ⟨l1, l2, singles q, e1, e2, singles_sorted one hpw, ?_, ?_⟩
  · intro i j kind
    refine Iff.trans (mem_singles (α := Clause)) ?_
    constructor
    · rintro ⟨text, vs, he, hv⟩
      obtain ⟨_, kind', hv', hc⟩ := (hm _ _ _ _).1 he
      subst hv'
      obtain rfl : kind = kind' := List.mem_singleton.1 hv
      exact hc
    · intro hc
      exact ⟨_, _, (hm _ _ _ _).2 ⟨rfl, kind, rfl, hc⟩, List.mem_singleton.2 rfl⟩
  · simp only [hn]
    exact hs

example := C111_clauses (W := Demo.W) (str := "x IF a, then b".toList) (l := Demo.clauseLine0) rfl Demo.clauseLine0_ne
  (additive_mono Demo.additive) Demo.kws 0 1

theorem shows_tokens {l l' : LLLine W} {h : History W} (hr : Reachable l' h) (ho : Ordered h) (L : WidthLaws W) {k : Ty W}
    {f : Nat → List (Val k)} (hq : l'.query k = .ok (tokenEntries l f)) (ht : l'.ll_tokens = l.ll_tokens) :
    Shows l' [k] (headerOf l.ll_tokens ++ (List.range l.ll_tokens.length).flatMap (fun i =>
      (f i).reverse.flatMap (fun v => attrLine W l.ll_tokens ((i, i), valDbg k v)))) := by
  have hs := shows_one hr ho L hq
  rw [tokenEntries_lines, ht, List.flatMap_assoc] at hs
  simp only [List.flatMap_map] at hs
  exact hs

/-- C111: the parts of speech of a text are rendered one per line, from left to right, for every token that is a
word, the last tag of a word first. -/
theorem C111_parts_of_speech {str : Str} {l : LLLine W} (ok : createLineFromString W str = .ok l) (ne : l.ll_tokens ≠ [])
    (L : WidthLaws W) (ptr : Nat) :
    ∃ l', l.run ptr (posTagResolver W) = .ok l' ∧ Shows l' [.tag] (headerOf l.ll_tokens ++
      (List.range l.ll_tokens.length).flatMap (fun i => (wordTags l i).reverse.flatMap (fun v =>
        attrLine W l.ll_tokens ((i, i), W.tagDbg v)))) := by
  obtain ⟨l', e, hq⟩ := C95_parts_of_speech ok ne ptr
  have hh : Honest l _ := .create _ _ _ (string_wf str) ok
  obtain ⟨_, l1, _, f1, hh1⟩ := C71_builtin_resolvers hh ne ptr (posTagResolver W) (.inr (.inl rfl))
  obtain rfl : l' = l1 := Except.ok.inj (e.symm.trans f1)
  exact ⟨l', e, shows_tokens (k := .tag) hh1.spec.1 hh1.spec.2 L hq (run_tokens e)⟩

example := C111_parts_of_speech (W := Demo.W) (str := "x IF a, then b".toList) (l := Demo.clauseLine0) rfl Demo.clauseLine0_ne
  (additive_mono Demo.additive) 1

/-- C111: the values of a table are rendered one per line, from left to right, for every token whose text is in the
table, the last value first. -/
theorem C111_table {k : Ty W} (r : TextMatchAssignResolver W k) {l : LLLine W} {h : History W} (hh : Honest l h)
    (ne : l.ll_tokens ≠ []) (hn : ∀ x ∈ h, x.ty ≠ k) (L : WidthLaws W) (ptr : Nat) :
    ∃ l', l.run ptr r.resolver = .ok l' ∧ Shows l' [k] (headerOf l.ll_tokens ++
      (List.range l.ll_tokens.length).flatMap (fun i => (tableValues r l i).reverse.flatMap (fun v =>
        attrLine W l.ll_tokens ((i, i), valDbg k v)))) := by
  obtain ⟨l', e, hq⟩ := C95_table r hh.spec.1 ne hn ptr
  obtain ⟨_, l1, _, f1, hh1⟩ := C71_builtin_resolvers hh ne ptr r.resolver (.inl ⟨k, r, rfl⟩)
  obtain rfl : l' = l1 := Except.ok.inj (e.symm.trans f1)
  exact ⟨l', e, shows_tokens hh1.spec.1 hh1.spec.2 L hq (run_tokens e)⟩

example := C111_table Demo.table Demo.clauseHonest0 Demo.clauseLine0_ne (by
  intro x hx e
  rcases string_types _ x hx with h | h <;> rw [h] at e <;> cases e) (additive_mono Demo.additive) 3

end LNlp
