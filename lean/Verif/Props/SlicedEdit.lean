import Verif.Props.SlicedSteps
import Verif.Props.EditSteps
/- Property C170: edits of texts analysed by pipelines that also have other resolvers. -/
namespace LNlp
variable {W : World}

/-- C170: the parts `M` in the midst of a text are replaced by the parts `M'`. The pipelines that ran on the old text and on
the new one may have any resolvers besides the steps `ss`, if these are all that assign the types `T` and look at these
types only. Of these types, what queries return before the edited parts stays, what they return behind only moves, and
what they return in the edited parts is what the steps find in these parts alone. -/
theorem C170_parts (L : SplitLaws W) (S : SplitStable W) {T : Ty W → Prop} {ss : List (Step W)} (own : OwnSteps ss) (p : Nat → Nat)
    {A M M' B : List Str} (ne : A ++ M ++ B ≠ []) (ne' : A ++ M' ++ B ≠ []) (cut : CutSteps W p ss (A ++ M ++ B))
    (cut' : CutSteps W p ss (A ++ M' ++ B)) (fits : utf8Len (A ++ M ++ B).flatten < W.usizeBound)
    (fits' : utf8Len (A ++ M' ++ B).flatten < W.usizeBound) {rs rs' : List (Nat × Resolver W)} (hs : StepsFor T rs ss)
    (hs' : StepsFor T rs' ss) {l l' : LLLine W} (hl : RanOnText rs (A ++ M ++ B).flatten l)
    (hl' : RanOnText rs' (A ++ M' ++ B).flatten l') :
    ∃ xa xm xm' xb,
      AnalysedEach p ss A xa ∧ AnalysedEach p ss M xm ∧ AnalysedEach p ss M' xm' ∧ AnalysedEach p ss B xb ∧
      ∀ k, T k →
        (queried l k).Perm (queriedAll k 0 xa ++ queriedAll k (tokenCount xa) xm ++
          (queriedAll k 0 xb).map (shiftEntry (tokenCount xa + tokenCount xm))) ∧
        (queried l' k).Perm (queriedAll k 0 xa ++ queriedAll k (tokenCount xa) xm' ++
          (queriedAll k 0 xb).map (shiftEntry (tokenCount xa + tokenCount xm'))) := by
  obtain ⟨m, hm, _, hq⟩ := ran_analysed hs hl p
  obtain ⟨m', hm', _, hq'⟩ := ran_analysed hs' hl' p
  obtain ⟨xa, xm, xm', xb, h1, h2, h3, h4, h5⟩ := (C164_parts L S own p ne ne' cut cut' fits fits' hm).2 m' hm'
  refine ⟨xa, xm, xm', xb, h1, h2, h3, h4, fun k hk => ?_⟩
  rw [queried_congr (hq k hk), queried_congr (hq' k hk)]
  exact h5 k

/-- C170: lines in the midst of a document are replaced by other lines. -/
theorem C170_document {cls : Char → WBChar} (U : Uax29 W cls) (nl : (cls '\n').cls = .lf) {T : Ty W → Prop} {ss : List (Step W)}
    (own : OwnSteps ss) (ends : ∀ s ∈ ss, s.EndsAt '\n') (r : Nat → Nat)
    (stop : ∀ l, createLineFromString W ['\n'] = .ok l → StopWhenRun 0 r ss l) {A M M' B : List Str} {last : Str}
    (hcr : ∀ s ∈ A ++ M ++ B, ∀ d, s.getLast? = some d → (cls d).cls ≠ .cr)
    (hcr' : ∀ s ∈ A ++ M' ++ B, ∀ d, s.getLast? = some d → (cls d).cls ≠ .cr)
    (ne : A ++ B ≠ [] ∨ last ≠ []) (fits : utf8Len (docLines (A ++ M ++ B) last).flatten < W.usizeBound)
    (fits' : utf8Len (docLines (A ++ M' ++ B) last).flatten < W.usizeBound) {rs rs' : List (Nat × Resolver W)}
    (hs : StepsFor T rs ss) (hs' : StepsFor T rs' ss) {l l' : LLLine W}
    (hl : RanOnText rs (docLines (A ++ M ++ B) last).flatten l) (hl' : RanOnText rs' (docLines (A ++ M' ++ B) last).flatten l') :
    ∃ xa xm xm' xb,
      AnalysedEach r ss (A.map (· ++ ['\n'])) xa ∧ AnalysedEach r ss (M.map (· ++ ['\n'])) xm ∧
      AnalysedEach r ss (M'.map (· ++ ['\n'])) xm' ∧ AnalysedEach r ss (docLines B last) xb ∧
      ∀ k, T k →
        (queried l k).Perm (queriedAll k 0 xa ++ queriedAll k (tokenCount xa) xm ++
          (queriedAll k 0 xb).map (shiftEntry (tokenCount xa + tokenCount xm))) ∧
        (queried l' k).Perm (queriedAll k 0 xa ++ queriedAll k (tokenCount xa) xm' ++
          (queriedAll k 0 xb).map (shiftEntry (tokenCount xa + tokenCount xm'))) := by
  obtain ⟨m, hm, _, hq⟩ := ran_analysed hs hl r
  obtain ⟨m', hm', _, hq'⟩ := ran_analysed hs' hl' r
  obtain ⟨xa, xm, xm', xb, h1, h2, h3, h4, h5⟩ :=
    (C164_document U nl own ends r stop hcr hcr' ne fits fits' r hm).2 m' hm'
  refine ⟨xa, xm, xm', xb, h1, h2, h3, h4, fun k hk => ?_⟩
  rw [queried_congr (hq k hk), queried_congr (hq' k hk)]
  exact h5 k

/-- in the document `now⏎pay now` the line `pay` is put in; the new document is analysed without the other resolver -/
theorem Demo.ran_edited : RanOnText (stepsAt id Demo.steps) (docLines ["now".toList, "pay".toList] "pay now".toList).flatten
    (Demo.ranText (stepsAt id Demo.steps) (docLines ["now".toList, "pay".toList] "pay now".toList).flatten) :=
  Demo.ran (by decide +kernel) (by decide +kernel)
example := C170_document Demo.demoUax rfl Demo.steps_own (Demo.steps_end _) id (Demo.steps_stop id)
  (A := ["now".toList]) (M := []) (M' := ["pay".toList]) (B := []) (last := "pay now".toList)
  (Demo.editSteps_cr _ (by simp)) (Demo.editSteps_cr _ (by simp)) (.inr (by decide)) (by decide) (by decide)
  Demo.busy_steps Demo.idle_steps Demo.ran_whole Demo.ran_edited

theorem Demo.doc_cut_edited : CutSteps Demo.W id Demo.steps (docLines ["now".toList, "pay".toList] "pay now".toList) :=
  cutSteps_doc Demo.demoUax rfl Demo.steps_own (Demo.steps_end _) id id (Demo.steps_stop id) _ _
    (Demo.editSteps_cr _ (by simp)) (by decide)
example := C170_parts Demo.splitLaws Demo.splitStable Demo.steps_own id (A := ["now\n".toList]) (M := []) (M' := ["pay\n".toList])
  (B := ["pay now".toList]) (by decide) (by decide) Demo.doc_cut Demo.doc_cut_edited (by decide) (by decide)
  Demo.busy_steps Demo.idle_steps Demo.ran_whole Demo.ran_edited

end LNlp
