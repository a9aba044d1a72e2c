import Verif.Lemmas.EditDocument
import Verif.Props.DocumentShow
/- C161: editing some of the lines of a document, or some of the sentences of a text. -/
namespace LNlp
variable {W : World}

/-- C161: the parts `M` in the midst of a text are replaced by the parts `M'` (none of them, if parts are added; by none, if
parts are deleted). If the pipeline ran on the text, it runs on the new text exactly if it runs on the new parts; and what
queries return before the edited parts stays, what they return behind only moves. -/
theorem C161_parts (L : SplitLaws W) (S : SplitStable W) {ss : List (Stage W)} (fresh : FreshTypes ([] : List (InputToken W)) ss)
    {A M M' B : List Str} (ne : A ++ M ++ B ≠ []) (ne' : A ++ M' ++ B ≠ []) (cut : CutInto W ss (A ++ M ++ B))
    (cut' : CutInto W ss (A ++ M' ++ B)) (fits : utf8Len (A ++ M ++ B).flatten < W.usizeBound)
    (fits' : utf8Len (A ++ M' ++ B).flatten < W.usizeBound) (p : Nat → Nat) {l : LLLine W}
    (hl : Analysed p ss (A ++ M ++ B).flatten l) :
    ((∃ l', Analysed p ss (A ++ M' ++ B).flatten l') ↔ ∀ t ∈ M', ∃ x, Analysed p ss t x) ∧
    ∀ l', Analysed p ss (A ++ M' ++ B).flatten l' → ∃ xa xm xm' xb,
      AnalysedAll p ss A xa ∧ AnalysedAll p ss M xm ∧ AnalysedAll p ss M' xm' ∧ AnalysedAll p ss B xb ∧
      ∀ k,
        queried l k = queriedAll k 0 xa ++ queriedAll k (tokenCount xa) xm ++
          (queriedAll k 0 xb).map (shiftEntry (tokenCount xa + tokenCount xm)) ∧
        queried l' k = queriedAll k 0 xa ++ queriedAll k (tokenCount xa) xm' ++
          (queriedAll k 0 xb).map (shiftEntry (tokenCount xa + tokenCount xm')) := by
  have h := C157_parts L S fresh _ ne cut fits p p
  have h' := C157_parts L S fresh _ ne' cut' fits' p p
  have old := h.1.1 ⟨l, hl⟩
  refine ⟨h'.1.trans ⟨fun g t ht => g t (by simp [ht]), fun g t ht => ?_⟩, fun l' hl' => ?_⟩
  · simp only [List.mem_append] at ht
    rcases ht with (ht | ht) | ht
    · exact old t (by simp [ht])
    · exact g t ht
    · exact old t (by simp [ht])
  · have new := h'.1.1 ⟨l', hl'⟩
    obtain ⟨xa, ha⟩ := analysedAll_exists (ts := A) (fun t ht => old t (by simp [ht]))
    obtain ⟨xm, hm⟩ := analysedAll_exists (ts := M) (fun t ht => old t (by simp [ht]))
    obtain ⟨xm', hm'⟩ := analysedAll_exists (ts := M') (fun t ht => new t (by simp [ht]))
    obtain ⟨xb, hb⟩ := analysedAll_exists (ts := B) (fun t ht => old t (by simp [ht]))
    have e := (h.2 l _ hl (analysedAll_append (analysedAll_append ha hm) hb)).2
    have e' := (h'.2 l' _ hl' (analysedAll_append (analysedAll_append ha hm') hb)).2
    refine ⟨xa, xm, xm', xb, ha, hm, hm', hb, fun k => ⟨?_, ?_⟩⟩
    · rw [e k, queriedAll_append, queriedAll_append, Nat.zero_add, Nat.zero_add, tokenCount_append, queriedAll_shift, Nat.add_zero]
    · rw [e' k, queriedAll_append, queriedAll_append, Nat.zero_add, Nat.zero_add, tokenCount_append, queriedAll_shift, Nat.add_zero]

theorem docLines_append (A M B : List Str) (last : Str) :
    docLines (A ++ M ++ B) last = A.map (· ++ ['\n']) ++ M.map (· ++ ['\n']) ++ docLines B last := by
  simp [docLines]

/-- C161 for lines of a document (each with the newline that ends it), for resolvers that read no newline as part of a number. -/
theorem C161_document {cls : Char → WBChar} (U : Uax29 W cls) (nl : (cls '\n').cls = .lf) {ss : List (Stage W)}
    (fresh : FreshTypes ([] : List (InputToken W)) ss) (ends : ∀ s ∈ ss, s.EndsAt '\n') {A M M' B : List Str} {last : Str}
    (ne : A ++ B ≠ [] ∨ last ≠ []) (fits : utf8Len (docLines (A ++ M ++ B) last).flatten < W.usizeBound)
    (fits' : utf8Len (docLines (A ++ M' ++ B) last).flatten < W.usizeBound) (p : Nat → Nat) {l : LLLine W}
    (hl : Analysed p ss (docLines (A ++ M ++ B) last).flatten l) :
    ((∃ l', Analysed p ss (docLines (A ++ M' ++ B) last).flatten l') ↔ ∀ t ∈ M', ∃ x, Analysed p ss (t ++ ['\n']) x) ∧
    ∀ l', Analysed p ss (docLines (A ++ M' ++ B) last).flatten l' → ∃ xa xm xm' xb,
      AnalysedAll p ss (A.map (· ++ ['\n'])) xa ∧ AnalysedAll p ss (M.map (· ++ ['\n'])) xm ∧
      AnalysedAll p ss (M'.map (· ++ ['\n'])) xm' ∧ AnalysedAll p ss (docLines B last) xb ∧
      ∀ k,
        queried l k = queriedAll k 0 xa ++ queriedAll k (tokenCount xa) xm ++
          (queriedAll k 0 xb).map (shiftEntry (tokenCount xa + tokenCount xm)) ∧
        queried l' k = queriedAll k 0 xa ++ queriedAll k (tokenCount xa) xm' ++
          (queriedAll k 0 xb).map (shiftEntry (tokenCount xa + tokenCount xm')) := by
  have some : ∀ N : List Str, A.map (· ++ ['\n']) ++ N.map (· ++ ['\n']) ++ docLines B last ≠ [] := by
    intro N h
    rw [List.append_eq_nil_iff, List.append_eq_nil_iff] at h
    obtain ⟨⟨h1, _⟩, h2⟩ := h
    rw [docLines, List.append_eq_nil_iff] at h2
    rcases ne with hne | hne
    · exact hne (by rw [List.map_eq_nil_iff.1 h1, List.map_eq_nil_iff.1 h2.1]; rfl)
    · exact absurd h2.2 (by simp [hne])
  have cut := cutInto_doc U nl ends (A ++ M ++ B) last
  have cut' := cutInto_doc U nl ends (A ++ M' ++ B) last
  rw [docLines_append] at cut cut' fits fits' hl
  rw [docLines_append]
  have := C161_parts (C124_split_laws U) (C124_split_stable U) fresh (some M) (some M') cut cut' fits fits' p hl
  refine ⟨this.1.trans ?_, this.2⟩
  simp only [List.mem_map, forall_exists_index, and_imp, forall_apply_eq_imp_iff₂]

/-- in the document `I pay 1⏎⏎234 now` the empty line is replaced by `5⏎6` -/
example := C161_document Demo.demoUax rfl (Demo.partStages_fresh _ (fun k t ht => by cases ht)) Demo.partStages_end
  (A := ["I pay 1".toList]) (M := [[]]) (M' := ["5".toList, "6".toList]) (B := []) (last := "234 now".toList) (.inr (by decide))
  (by decide) (by decide) id (l := Demo.analysed (docLines ["I pay 1".toList, []] "234 now".toList).flatten)
  ⟨_, Demo.getOk_eq rfl, Demo.getOk_eq rfl⟩

/-! ### clauses -/

theorem claused_inside {r : ClauseKeywordResolver} {ts : List Str} {ps : List (WithClauses W)}
    (parts : ClausedAll (fun t => createLineFromString W t) r ts ps) : ClausesInside ps := by
  intro p hp i j text k hm
  obtain ⟨t, _, okt, hne, hqt⟩ := claused_mem parts p hp
  have := ((clauses_are (string_wf _) okt (string_plain _ _) (string_plain _ _) (string_plain _ _) hne hqt) i j text k).1 hm
  obtain ⟨a, b, hr, hs, _⟩ := clauseAt_iff.1 this.2
  have := strip_bounds hs
  have := hr.lt
  omega

/-- C161: some sentences of a text are replaced by others. Clauses before them stay, if there is something besides separators
in the new sentences just if there was in the old; clauses behind them only move, if moreover there is a condition in the new
sentences just if there was in the old. -/
theorem C161_sentences (L : SplitLaws W) (S : SplitStable W) {ts ts' : List Str} (ne : ts ≠ []) (ne' : ts' ≠ [])
    (cut : CutInto W ([] : List (Stage W)) ts) (cut' : CutInto W ([] : List (Stage W)) ts')
    (fits : utf8Len ts.flatten < W.usizeBound) (fits' : utf8Len ts'.flatten < W.usizeBound) {l l' : LLLine W}
    (ok : createLineFromString W ts.flatten = .ok l) (ok' : createLineFromString W ts'.flatten = .ok l')
    {r : ClauseKeywordResolver} {A M M' B : List (WithClauses W)}
    (parts : ClausedAll (fun t => createLineFromString W t) r ts (A ++ M ++ B))
    (parts' : ClausedAll (fun t => createLineFromString W t) r ts' (A ++ M' ++ B))
    (ends : SentencesEnd r ((A ++ M ++ B).map (·.1))) (ends' : SentencesEnd r ((A ++ M' ++ B).map (·.1)))
    {q q' : List (LRange × Str × List Clause)} (hq : ClauseQuery r l q) (hq' : ClauseQuery r l' q')
    (same : (∃ o ∈ M, HasPart r o.1) ↔ ∃ o ∈ M', HasPart r o.1) :
    (∀ i j text kind, j < tokenCount (A.map (·.1)) → (((i, j), text, [kind]) ∈ q ↔ ((i, j), text, [kind]) ∈ q')) ∧
    (((∃ o ∈ M, HasCondition o) ↔ ∃ o ∈ M', HasCondition o) → ∀ i j text kind,
      (((tokenCount ((A ++ M).map (·.1)) + i, tokenCount ((A ++ M).map (·.1)) + j), text, [kind]) ∈ q ↔
        ((tokenCount ((A ++ M').map (·.1)) + i, tokenCount ((A ++ M').map (·.1)) + j), text, [kind]) ∈ q')) := by
  have key := C160_text L S ne cut fits ok parts ends hq
  have key' := C160_text L S ne' cut' fits' ok' parts' ends' hq'
  have app : ∀ {Q : WithClauses W → Prop} {xs ys : List (WithClauses W)},
      (∃ o ∈ xs ++ ys, Q o) = ((∃ o ∈ xs, Q o) ∨ ∃ o ∈ ys, Q o) := by
    intro Q xs ys
    simp only [List.mem_append, or_and_right, exists_or]
  constructor
  · intro i j text kind hj
    rw [key, key', List.append_assoc, List.append_assoc, fromPart_front hj, fromPart_front hj,
      app (Q := fun o => HasPart r o.1) (xs := M), app (Q := fun o => HasPart r o.1) (xs := M'), propext same]
  · intro cond i j text kind
    rw [key, key', fromPart_back, fromPart_back, app (Q := fun o => HasPart r o.1) (xs := A) (ys := M),
      app (Q := fun o => HasPart r o.1) (xs := A) (ys := M'), app (Q := HasCondition) (xs := A) (ys := M),
      app (Q := HasCondition) (xs := A) (ys := M'), propext same, propext cond]
    · intro p hp; exact claused_inside parts' p (List.mem_append_left _ hp)
    · intro p hp; exact claused_inside parts p (List.mem_append_left _ hp)

def Demo.sents' : List Str := ["if a.".toList, " b,c.".toList, " b,c.".toList, " d".toList]
def Demo.withQ (s : Str) : WithClauses Demo.W := (Demo.ofText s, Demo.clauseQ (Demo.ofText s))
def Demo.sentsLine' : LLLine Demo.W := Demo.ofText Demo.sents'.flatten
theorem Demo.sentsLine'_q : ClauseQuery Demo.kws Demo.sentsLine' (Demo.clauseQ Demo.sentsLine') := ⟨0, 0, _, _, rfl, rfl, rfl⟩
theorem Demo.sents'_claused : ClausedAll (fun t => createLineFromString Demo.W t) Demo.kws Demo.sents' (Demo.sents'.map Demo.withQ) :=
  ⟨rfl, (by intro h; cases h), ⟨0, 0, _, _, rfl, rfl, rfl⟩, rfl, (by intro h; cases h), ⟨0, 0, _, _, rfl, rfl, rfl⟩, rfl,
    (by intro h; cases h), ⟨0, 0, _, _, rfl, rfl, rfl⟩, rfl, (by intro h; cases h), ⟨0, 0, _, _, rfl, rfl, rfl⟩, trivial⟩
theorem Demo.sents_cut : CutInto Demo.W ([] : List (Stage Demo.W)) Demo.sents :=
  ⟨by decide, .inr (.inr ⟨["if".toList, " ".toList, "a".toList, ".".toList],
      [" ".toList, "b".toList, ",".toList, "c".toList, ".".toList, " ".toList, "d".toList], by decide, by decide⟩),
    ⟨'.', by decide, by intro s hs; cases hs⟩, by decide,
    .inr (.inr ⟨[" ".toList, "b".toList, ",".toList, "c".toList, ".".toList], [" ".toList, "d".toList], by decide, by decide⟩),
    ⟨'.', by decide, by intro s hs; cases hs⟩, by intro h; cases h⟩
theorem Demo.sents'_cut : CutInto Demo.W ([] : List (Stage Demo.W)) Demo.sents' :=
  ⟨by decide, .inr (.inr ⟨["if".toList, " ".toList, "a".toList, ".".toList],
      [" ".toList, "b".toList, ",".toList, "c".toList, ".".toList, " ".toList, "b".toList, ",".toList, "c".toList, ".".toList,
        " ".toList, "d".toList], by decide, by decide⟩),
    ⟨'.', by decide, by intro s hs; cases hs⟩, by decide,
    .inr (.inr ⟨[" ".toList, "b".toList, ",".toList, "c".toList, ".".toList],
      [" ".toList, "b".toList, ",".toList, "c".toList, ".".toList, " ".toList, "d".toList], by decide, by decide⟩),
    ⟨'.', by decide, by intro s hs; cases hs⟩, by decide,
    .inr (.inr ⟨[" ".toList, "b".toList, ",".toList, "c".toList, ".".toList], [" ".toList, "d".toList], by decide, by decide⟩),
    ⟨'.', by decide, by intro s hs; cases hs⟩, by intro h; cases h⟩

/-- in the text `if a. b,c. d` the second sentence is doubled -/
example := C161_sentences Demo.splitLaws Demo.splitStable (ts := Demo.sents) (ts' := Demo.sents') (by intro h; cases h)
  (by intro h; cases h) Demo.sents_cut Demo.sents'_cut (by decide) (by decide) (l := Demo.sentsLine) (l' := Demo.sentsLine') rfl rfl
  (A := [Demo.withQ "if a.".toList]) (M := [Demo.withQ " b,c.".toList]) (M' := [Demo.withQ " b,c.".toList, Demo.withQ " b,c.".toList])
  (B := [Demo.withQ " d".toList]) Demo.sents_claused Demo.sents'_claused Demo.sents_end
  ⟨Demo.ends_dot (by decide) rfl rfl, Demo.ends_dot (by decide) rfl rfl, Demo.ends_dot (by decide) rfl rfl, trivial⟩
  (q := Demo.clauseQ Demo.sentsLine) (q' := Demo.clauseQ Demo.sentsLine') Demo.sentsLine_q Demo.sentsLine'_q (by simp)

end LNlp
