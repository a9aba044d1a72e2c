import Verif.Props.Steps
import Verif.Props.EditDocument
/- C164: editing lines of a document that resolvers of the library and rules ran on. -/
namespace LNlp
variable {W : World}

theorem analysedEach_exists {p : Nat → Nat} {ss : List (Step W)} : ∀ {ts : List Str}, (∀ t ∈ ts, ∃ l, AnalysedBy p ss t l) →
    ∃ ls, AnalysedEach p ss ts ls
  | [], _ => ⟨[], trivial⟩
  | t :: ts, h => by
    obtain ⟨l, hl⟩ := h t (by simp)
    obtain ⟨ls, hls⟩ := analysedEach_exists (ts := ts) (fun u hu => h u (by simp [hu]))
    exact ⟨l :: ls, hl, hls⟩

theorem analysedEach_append {p : Nat → Nat} {ss : List (Step W)} : ∀ {ts us : List Str} {ls ms : List (LLLine W)},
    AnalysedEach p ss ts ls → AnalysedEach p ss us ms → AnalysedEach p ss (ts ++ us) (ls ++ ms)
  | [], _, [], _, _, h => h
  | [], _, _ :: _, _, h, _ => h.elim
  | _ :: _, _, [], _, h, _ => h.elim
  | _ :: _, _, _ :: _, _, h, h' => ⟨h.1, analysedEach_append h.2 h'⟩

/-- C164: the parts `M` in the midst of a text are replaced by the parts `M'` (none of them, if parts are added; by none, if
parts are deleted). If the pipeline ran on the text, it runs on the new text exactly if it runs on the new parts; and what
queries return before the edited parts stays, what they return behind only moves. -/
theorem C164_parts (L : SplitLaws W) (S : SplitStable W) {ss : List (Step W)} (own : OwnSteps ss) (p : Nat → Nat)
    {A M M' B : List Str} (ne : A ++ M ++ B ≠ []) (ne' : A ++ M' ++ B ≠ []) (cut : CutSteps W p ss (A ++ M ++ B))
    (cut' : CutSteps W p ss (A ++ M' ++ B)) (fits : utf8Len (A ++ M ++ B).flatten < W.usizeBound)
    (fits' : utf8Len (A ++ M' ++ B).flatten < W.usizeBound) {l : LLLine W}
    (hl : AnalysedBy p ss (A ++ M ++ B).flatten l) :
    ((∃ l', AnalysedBy p ss (A ++ M' ++ B).flatten l') ↔ ∀ t ∈ M', ∃ x, AnalysedBy p ss t x) ∧
    ∀ l', AnalysedBy p ss (A ++ M' ++ B).flatten l' → ∃ xa xm xm' xb,
      AnalysedEach p ss A xa ∧ AnalysedEach p ss M xm ∧ AnalysedEach p ss M' xm' ∧ AnalysedEach p ss B xb ∧
      ∀ k,
        (queried l k).Perm (queriedAll k 0 xa ++ queriedAll k (tokenCount xa) xm ++
          (queriedAll k 0 xb).map (shiftEntry (tokenCount xa + tokenCount xm))) ∧
        (queried l' k).Perm (queriedAll k 0 xa ++ queriedAll k (tokenCount xa) xm' ++
          (queriedAll k 0 xb).map (shiftEntry (tokenCount xa + tokenCount xm'))) := by
  have h := C163_parts L S own p _ ne cut fits p
  have h' := C163_parts L S own p _ ne' cut' fits' p
  have old := h.1.1 ⟨l, hl⟩
  refine ⟨h'.1.trans ⟨fun g t ht => g t (by simp [ht]), fun g t ht => ?_⟩, fun l' hl' => ?_⟩
  · simp only [List.mem_append] at ht
    rcases ht with (ht | ht) | ht
    · exact old t (by simp [ht])
    · exact g t ht
    · exact old t (by simp [ht])
  · have new := h'.1.1 ⟨l', hl'⟩
    obtain ⟨xa, ha⟩ := analysedEach_exists (ts := A) (fun t ht => old t (by simp [ht]))
    obtain ⟨xm, hm⟩ := analysedEach_exists (ts := M) (fun t ht => old t (by simp [ht]))
    obtain ⟨xm', hm'⟩ := analysedEach_exists (ts := M') (fun t ht => new t (by simp [ht]))
    obtain ⟨xb, hb⟩ := analysedEach_exists (ts := B) (fun t ht => old t (by simp [ht]))
    have e := (h.2 l _ hl (analysedEach_append (analysedEach_append ha hm) hb)).2
    have e' := (h'.2 l' _ hl' (analysedEach_append (analysedEach_append ha hm') hb)).2
    refine ⟨xa, xm, xm', xb, ha, hm, hm', hb, fun k => ⟨?_, ?_⟩⟩
    · have := e k
      rw [queriedAll_append, queriedAll_append, Nat.zero_add, Nat.zero_add, tokenCount_append] at this
      rw [queriedAll_shift, Nat.add_zero]
      exact this
    · have := e' k
      rw [queriedAll_append, queriedAll_append, Nat.zero_add, Nat.zero_add, tokenCount_append] at this
      rw [queriedAll_shift, Nat.add_zero]
      exact this

/-- C164 for lines of a document (each with the newline that ends it): it is enough that no resolver of the library goes over a
newline and that, when the pipeline runs on a text that is just a newline, each rule stops at it when its turn comes. -/
theorem C164_document {cls : Char → WBChar} (U : Uax29 W cls) (nl : (cls '\n').cls = .lf) {ss : List (Step W)}
    (own : OwnSteps ss) (ends : ∀ s ∈ ss, s.EndsAt '\n') (r : Nat → Nat)
    (stop : ∀ l, createLineFromString W ['\n'] = .ok l → StopWhenRun 0 r ss l) {A M M' B : List Str} {last : Str}
    (hcr : ∀ s ∈ A ++ M ++ B, ∀ d, s.getLast? = some d → (cls d).cls ≠ .cr)
    (hcr' : ∀ s ∈ A ++ M' ++ B, ∀ d, s.getLast? = some d → (cls d).cls ≠ .cr)
    (ne : A ++ B ≠ [] ∨ last ≠ []) (fits : utf8Len (docLines (A ++ M ++ B) last).flatten < W.usizeBound)
    (fits' : utf8Len (docLines (A ++ M' ++ B) last).flatten < W.usizeBound) (p : Nat → Nat) {l : LLLine W}
    (hl : AnalysedBy p ss (docLines (A ++ M ++ B) last).flatten l) :
    ((∃ l', AnalysedBy p ss (docLines (A ++ M' ++ B) last).flatten l') ↔ ∀ t ∈ M', ∃ x, AnalysedBy p ss (t ++ ['\n']) x) ∧
    ∀ l', AnalysedBy p ss (docLines (A ++ M' ++ B) last).flatten l' → ∃ xa xm xm' xb,
      AnalysedEach p ss (A.map (· ++ ['\n'])) xa ∧ AnalysedEach p ss (M.map (· ++ ['\n'])) xm ∧
      AnalysedEach p ss (M'.map (· ++ ['\n'])) xm' ∧ AnalysedEach p ss (docLines B last) xb ∧
      ∀ k,
        (queried l k).Perm (queriedAll k 0 xa ++ queriedAll k (tokenCount xa) xm ++
          (queriedAll k 0 xb).map (shiftEntry (tokenCount xa + tokenCount xm))) ∧
        (queried l' k).Perm (queriedAll k 0 xa ++ queriedAll k (tokenCount xa) xm' ++
          (queriedAll k 0 xb).map (shiftEntry (tokenCount xa + tokenCount xm'))) := by
  have some : ∀ N : List Str, A.map (· ++ ['\n']) ++ N.map (· ++ ['\n']) ++ docLines B last ≠ [] := by
    intro N h
    rw [List.append_eq_nil_iff, List.append_eq_nil_iff] at h
    obtain ⟨⟨h1, _⟩, h2⟩ := h
    rw [docLines, List.append_eq_nil_iff] at h2
    rcases ne with hne | hne
    · exact hne (by rw [List.map_eq_nil_iff.1 h1, List.map_eq_nil_iff.1 h2.1]; rfl)
    · exact absurd h2.2 (by simp [hne])
  have cut := cutSteps_doc U nl own ends p r stop (A ++ M ++ B) last hcr fits
  have cut' := cutSteps_doc U nl own ends p r stop (A ++ M' ++ B) last hcr' fits'
  rw [docLines_append] at cut cut' fits fits' hl
  rw [docLines_append]
  have := C164_parts (C124_split_laws U) (C124_split_stable U) own p (some M) (some M') cut cut' fits fits' hl
  refine ⟨this.1.trans ?_, this.2⟩
  simp only [List.mem_map, forall_exists_index, and_imp, forall_apply_eq_imp_iff₂]

theorem Demo.editSteps_cr (ls : List Str) (h : ∀ s ∈ ls, s = "now".toList ∨ s = "pay".toList ∨ s = []) :
    ∀ s ∈ ls, ∀ d, s.getLast? = some d → (Demo.demoCls d).cls ≠ .cr := by
  intro s hs d hd
  rcases h s hs with rfl | rfl | rfl <;> cases hd <;> decide

theorem Demo.editSteps_parts : ∀ t ∈ docLines ["now".toList, []] "pay".toList, ∃ l, AnalysedBy id Demo.steps t l := by
  intro t ht
  simp only [docLines, List.map_cons, List.map_nil, List.cons_append, List.nil_append, List.mem_cons] at ht
  rcases ht with rfl | rfl | ht
  · exact ⟨_, _, Demo.getOk_eq (d := Demo.emptyLine) rfl, Demo.getOk_eq (d := Demo.emptyLine) rfl⟩
  · exact ⟨_, _, Demo.getOk_eq (d := Demo.emptyLine) rfl, Demo.getOk_eq (d := Demo.emptyLine) rfl⟩
  · rw [if_neg (by decide), List.mem_singleton] at ht
    subst ht
    exact ⟨_, _, Demo.getOk_eq (d := Demo.emptyLine) rfl, Demo.getOk_eq (d := Demo.emptyLine) rfl⟩

theorem Demo.editSteps_runs : ∃ l, AnalysedBy id Demo.steps (docLines ["now".toList, []] "pay".toList).flatten l :=
  (C163_document Demo.demoUax rfl Demo.steps_own (Demo.steps_end _) id (Demo.steps_stop id) _ _
    (Demo.editSteps_cr _ (by simp)) (.inr (by decide)) (by decide) id id).1.2 Demo.editSteps_parts

/-- in the document `now⏎⏎pay` the empty line is replaced by `pay⏎now` -/
example := C164_document Demo.demoUax rfl Demo.steps_own (Demo.steps_end _) id (Demo.steps_stop id)
  (A := ["now".toList]) (M := [[]]) (M' := ["pay".toList, "now".toList]) (B := []) (last := "pay".toList)
  (Demo.editSteps_cr _ (by simp)) (Demo.editSteps_cr _ (by simp)) (.inr (by decide)) (by decide) (by decide) id
  Demo.editSteps_runs.choose_spec

end LNlp
