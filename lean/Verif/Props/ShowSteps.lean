import Verif.Lemmas.ShowSteps
import Verif.Props.EditSteps
import Verif.Props.DocumentShow
/- C165: renderings of texts that resolvers of the library and rules ran on. -/
namespace LNlp
variable {W : World}

/-- C165: if a line has the tokens of several lines one after the other, and queries of the rendered types list the entries of
these lines in some order, then its rendering has the texts side by side and, type by type, the lines of their renderings, moved
to stand under their texts; those under the same tokens stay together and in their order. -/
theorem C165_together (L : AdditiveWidth W) {l : LLLine W} {h : History W} (hr : Reachable l h) (ho : Ordered h) {ls : List (LLLine W)}
    (H : ∀ x ∈ ls, x.ll_tokens ≠ [] ∧ ∃ h, Reachable x h ∧ Ordered h)
    (ht : l.ll_tokens.map (·.token) = ls.flatMap (fun x => x.ll_tokens.map (·.token))) {ks : List (Ty W)}
    (hq : ∀ k ∈ ks, (queried l k).Perm (queriedAll k 0 ls)) : RenderedTogether l ls ks := by
  have one : ∀ {l : LLLine W} {h : History W}, Reachable l h → Ordered h →
      Shows l ks (headerOf l.ll_tokens ++ (ks.flatMap (fun k => (attrBlocks l k).flatten)).flatten) := by
    intro l h hr ho
    have := (C111_rendering_of_queries hr ho (additive_mono L) ks).2
    simp only [attrBlocks_flatten, attrLines]
    rwa [List.flatMap_def (l := ks.flatMap _), List.map_flatMap] at this
  have ht' : l.ll_tokens.map (·.token) = (ls.flatMap (·.ll_tokens)).map (·.token) := by rw [ht, List.map_flatMap]
  refine ⟨fun x hx => ?_, attrBlocks l, fun k hk => ?_, ?_⟩
  · obtain ⟨_, h, hr, ho⟩ := H x hx
    exact one hr ho
  · rw [← attrBlocks_all L k ls H]
    have : attrBlocks l k = (queried l k).map (attrBlock (ls.flatMap (·.ll_tokens)) k) :=
      List.map_congr_left fun e _ => attrBlock_tokens ht' k e
    rw [this]
    exact (hq k hk).map _
  · have h1 := one hr ho
    rwa [headerOf_tokens ht', headerOf_all ls (fun x hx => (H x hx).1)] at h1

/-- C165 for a text cut into parts, after resolvers of the library and rules ran on it. -/
theorem C165_text (L : SplitLaws W) (S : SplitStable W) (A : AdditiveWidth W) {ss : List (Step W)} (own : OwnSteps ss) {q : Nat → Nat}
    {ts : List Str} (ne : ts ≠ []) (cut : CutSteps W q ss ts) (fits : utf8Len ts.flatten < W.usizeBound) {p : Nat → Nat}
    {l : LLLine W} {ls : List (LLLine W)} (hl : AnalysedBy p ss ts.flatten l) (hls : AnalysedEach q ss ts ls) (ks : List (Ty W)) :
    RenderedTogether l ls ks := by
  obtain ⟨_, h, hr, ho⟩ := analysedBy_honest hl
  obtain ⟨ht, hq⟩ := (C163_parts L S own q ts ne cut fits p).2 l ls hl hls
  exact C165_together A hr ho (analysedEach_honest hls) ht (fun k _ => hq k)

/-- C165 for the lines of a document. -/
theorem C165_document {cls : Char → WBChar} (U : Uax29 W cls) (nl : (cls '\n').cls = .lf) (A : AdditiveWidth W) {ss : List (Step W)}
    (own : OwnSteps ss) (ends : ∀ s ∈ ss, s.EndsAt '\n') (r : Nat → Nat)
    (stop : ∀ l, createLineFromString W ['\n'] = .ok l → StopWhenRun 0 r ss l) {ls : List Str} {last : Str}
    (hcr : ∀ s ∈ ls, ∀ d, s.getLast? = some d → (cls d).cls ≠ .cr) (ne : ls ≠ [] ∨ last ≠ [])
    (fits : utf8Len (docLines ls last).flatten < W.usizeBound) {p q : Nat → Nat} {l : LLLine W} {xs : List (LLLine W)}
    (hl : AnalysedBy p ss (docLines ls last).flatten l) (hls : AnalysedEach q ss (docLines ls last) xs) (ks : List (Ty W)) :
    RenderedTogether l xs ks := by
  obtain ⟨_, h, hr, ho⟩ := analysedBy_honest hl
  obtain ⟨ht, hq⟩ := (C163_document U nl own ends r stop ls last hcr ne fits p q).2 l xs hl hls
  exact C165_together A hr ho (analysedEach_honest hls) ht (fun k _ => hq k)

/-- the document `now⏎⏎pay` -/
example := C165_document Demo.demoUax rfl Demo.additive Demo.steps_own (Demo.steps_end _) id (Demo.steps_stop id)
  (Demo.editSteps_cr _ (by simp)) (.inr (by decide)) (by decide) Demo.editSteps_runs.choose_spec
  (analysedEach_exists Demo.editSteps_parts).choose_spec [Ty.user 5, .textTag]

end LNlp
