import Verif.Props.Silent
/- C167: it does not matter how a text is cut into parts. -/
namespace LNlp
variable {W : World}

/-- C167: a text is cut in two ways. A pipeline runs on all the parts of the first cut exactly if it runs on all those of the second,
and then both give the same tokens and the same entries, counted over the whole text, for every type. -/
theorem C167_parts (L : SplitLaws W) (S : SplitStable W) {ss : List (Step W)} (own : OwnSteps ss) (q q' : Nat → Nat) {ts us : List Str}
    (same : ts.flatten = us.flatten) (nt : ts ≠ []) (nu : us ≠ []) (ct : CutSteps W q ss ts) (cu : CutSteps W q' ss us)
    (fits : utf8Len ts.flatten < W.usizeBound) :
    ((∀ t ∈ ts, ∃ l, AnalysedBy q ss t l) ↔ ∀ u ∈ us, ∃ l, AnalysedBy q' ss u l) ∧
    ∀ xs ys, AnalysedEach q ss ts xs → AnalysedEach q' ss us ys →
      xs.flatMap (fun x => x.ll_tokens.map (·.token)) = ys.flatMap (fun y => y.ll_tokens.map (·.token)) ∧
      ∀ k, (queriedAll k 0 xs).Perm (queriedAll k 0 ys) := by
  have A := C163_parts L S own q ts nt ct fits id
  have B := C163_parts L S own q' us nu cu (same ▸ fits) id
  rw [← same] at B
  refine ⟨A.1.symm.trans B.1, fun xs ys hx hy => ?_⟩
  obtain ⟨l, hl⟩ := A.1.2 (fun t ht => analysedEach_mem hx t ht)
  have a := A.2 l xs hl hx
  have b := B.2 l ys hl hy
  exact ⟨a.1.symm.trans b.1, fun k => (a.2 k).symm.trans (b.2 k)⟩

/-- C167 for documents: the parts may be lines or any numbers of lines each. -/
theorem C167_document {cls : Char → WBChar} (U : Uax29 W cls) (nl : (cls '\n').cls = .lf) {ss : List (Step W)}
    (own : OwnSteps ss) (ends : ∀ s ∈ ss, s.EndsAt '\n') (r : Nat → Nat)
    (stop : ∀ l, createLineFromString W ['\n'] = .ok l → StopWhenRun 0 r ss l) {ls ls' : List Str} {last last' : Str}
    (same : (docLines ls last).flatten = (docLines ls' last').flatten)
    (hcr : ∀ s ∈ ls, ∀ d, s.getLast? = some d → (cls d).cls ≠ .cr)
    (hcr' : ∀ s ∈ ls', ∀ d, s.getLast? = some d → (cls d).cls ≠ .cr)
    (ne : ls ≠ [] ∨ last ≠ []) (fits : utf8Len (docLines ls last).flatten < W.usizeBound) (q q' : Nat → Nat) :
    ((∀ t ∈ docLines ls last, ∃ l, AnalysedBy q ss t l) ↔ ∀ t ∈ docLines ls' last', ∃ l, AnalysedBy q' ss t l) ∧
    ∀ xs ys, AnalysedEach q ss (docLines ls last) xs → AnalysedEach q' ss (docLines ls' last') ys →
      xs.flatMap (fun x => x.ll_tokens.map (·.token)) = ys.flatMap (fun y => y.ll_tokens.map (·.token)) ∧
      ∀ k, (queriedAll k 0 xs).Perm (queriedAll k 0 ys) := by
  have some : docLines ls last ≠ [] ∧ (docLines ls last).flatten ≠ [] := by
    cases ls with
    | nil => simp [docLines, ne.resolve_left (fun h => h rfl)]
    | cons a as => simp [docLines]
  exact C167_parts (C124_split_laws U) (C124_split_stable U) own q q' same some.1
    (fun h => some.2 (by rw [same, h]; rfl))
    (cutSteps_doc U nl own ends q r stop ls last hcr fits) (cutSteps_doc U nl own ends q' r stop ls' last' hcr' (same ▸ fits)) fits

/-- `now⏎pay⏎now` as three lines, and as two lines and one -/
example := C167_document Demo.demoUax rfl Demo.silentSteps_own Demo.silentSteps_end id
  (fun _ ok => (C166_stop Demo.demoUax Demo.silentSteps_own Demo.silentSteps_silent ok id).1)
  (ls := ["now".toList, "pay".toList]) (last := "now".toList) (ls' := ["now\npay".toList]) (last' := "now".toList) (by decide)
  (by
    intro s hs d hd
    simp only [List.mem_cons, List.not_mem_nil, or_false] at hs
    rcases hs with rfl | rfl <;> (cases hd; decide))
  (by
    intro s hs d hd
    simp only [List.mem_cons, List.not_mem_nil, or_false] at hs
    subst hs
    cases hd
    decide)
  (.inr (by decide)) (by decide) id id

end LNlp
