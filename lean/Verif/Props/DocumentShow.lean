import Verif.Lemmas.DocumentShow
import Verif.Props.Document
import Verif.Props.Beside
/- C159: renderings of lines put together from many parts. -/
namespace LNlp
variable {W : World}

/-- C159: if a line has the tokens of several lines one after the other, and the attributes of the rendered types too, then
its rendering is the renderings of these lines side by side. -/
theorem C159_parts (L : AdditiveWidth W) {l : LLLine W} {h : History W} (hr : Reachable l h) (ho : Ordered h) {ls : List (LLLine W)}
    (H : ∀ x ∈ ls, x.ll_tokens ≠ [] ∧ ∃ h, Reachable x h ∧ Ordered h)
    (ht : l.ll_tokens.map (·.token) = ls.flatMap (fun x => x.ll_tokens.map (·.token))) {ks : List (Ty W)}
    (hq : ∀ k ∈ ks, queried l k = queriedAll k 0 ls) : RenderedAll l ls ks := by
  have one : ∀ {l : LLLine W} {h : History W}, Reachable l h → Ordered h →
      Shows l ks (headerOf l.ll_tokens ++ (ks.flatMap (attrLines l)).flatten) := by
    intro l h hr ho
    have := (C111_rendering_of_queries hr ho (additive_mono L) ks).2
    unfold attrLines
    rwa [List.flatMap_def (l := ks.flatMap _), List.map_flatMap] at this
  refine ⟨fun x hx => ?_, ?_⟩
  · obtain ⟨_, h, hr, ho⟩ := H x hx
    exact one hr ho
  · have h1 := one hr ho
    have ht' : l.ll_tokens.map (·.token) = (ls.flatMap (·.ll_tokens)).map (·.token) := by rw [ht, List.map_flatMap]
    have h2 : ks.flatMap (attrLines l) = ks.flatMap (fun k => attrLinesAll k 0 ls) := by
      rw [List.flatMap_def, List.flatMap_def]
      congr 1
      refine List.map_congr_left fun k hk => ?_
      rw [← attrLines_all L k ls H]
      unfold attrLines
      rw [hq k hk]
      exact List.map_congr_left fun x _ => attrLine_tokens ht' x
    rwa [headerOf_tokens ht', headerOf_all ls (fun x hx => (H x hx).1), h2] at h1

/-- C159: the rendering of an analysed text that is cut into parts is the renderings of the analysed parts side by side. -/
theorem C159_text (L : SplitLaws W) (S : SplitStable W) (A : AdditiveWidth W) {ss : List (Stage W)}
    (fresh : FreshTypes ([] : List (InputToken W)) ss) {ts : List Str} (ne : ts ≠ []) (cut : CutInto W ss ts)
    (fits : utf8Len ts.flatten < W.usizeBound) {p q : Nat → Nat} {l : LLLine W} {ls : List (LLLine W)}
    (hl : Analysed p ss ts.flatten l) (hls : AnalysedAll q ss ts ls) (ks : List (Ty W)) : RenderedAll l ls ks := by
  obtain ⟨_, h, hr, ho⟩ := analysed_honest hl
  obtain ⟨ht, hq⟩ := (C157_parts L S fresh ts ne cut fits p q).2 l ls hl hls
  exact C159_parts A hr ho (analysedAll_honest hls) ht (fun k _ => hq k)

/-- the parts of `I pay 5 now` -/
def Demo.payParts : List Str := ["I pay ".toList, "5 ".toList, "now".toList]
def Demo.analysed (s : Str) : LLLine Demo.W :=
  Demo.getOk Demo.emptyLine (runAll (Demo.getOk Demo.emptyLine (createLineFromString Demo.W s)) (runsAt id Demo.partStages))
theorem Demo.payParts_cut : CutInto Demo.W Demo.partStages Demo.payParts := by
  have e : ∀ s ∈ Demo.partStages, s.EndsAt ' ' := by
    intro s hs
    simp only [Demo.partStages, List.mem_cons, List.not_mem_nil, or_false] at hs
    rcases hs with rfl | rfl | rfl
    · trivial
    · trivial
    · exact ⟨by decide, by decide, by decide⟩
  exact ⟨by decide, .inr (.inr ⟨["I".toList, " ".toList, "pay".toList, " ".toList], ["5".toList, " ".toList, "now".toList], by decide, by decide⟩),
    ⟨' ', by decide, e⟩, by decide, .inr (.inr ⟨["5".toList, " ".toList], ["now".toList], by decide, by decide⟩),
    ⟨' ', by decide, e⟩, show "now".toList ≠ [] by decide⟩

example := C159_text Demo.splitLaws Demo.splitStable Demo.additive (Demo.partStages_fresh _ (fun k t ht => by cases ht))
  (ts := Demo.payParts) (by decide) Demo.payParts_cut (by decide) (p := id) (q := id) (l := Demo.analysed Demo.payParts.flatten)
  (ls := Demo.payParts.map Demo.analysed) ⟨_, Demo.getOk_eq rfl, Demo.getOk_eq rfl⟩
  ⟨⟨_, Demo.getOk_eq rfl, Demo.getOk_eq rfl⟩, ⟨_, Demo.getOk_eq rfl, Demo.getOk_eq rfl⟩, ⟨_, Demo.getOk_eq rfl, Demo.getOk_eq rfl⟩, trivial⟩
  [.textTag, .amount]

/-- C159: the rendering of an analysed document is the renderings of its analysed lines side by side. -/
theorem C159_document {cls : Char → WBChar} (U : Uax29 W cls) (nl : (cls '\n').cls = .lf) (A : AdditiveWidth W) {ss : List (Stage W)}
    (fresh : FreshTypes ([] : List (InputToken W)) ss) (ends : ∀ s ∈ ss, s.EndsAt '\n') {ls : List Str} {last : Str}
    (ne : ls ≠ [] ∨ last ≠ []) (fits : utf8Len (docLines ls last).flatten < W.usizeBound) {p q : Nat → Nat} {l : LLLine W}
    {xs : List (LLLine W)} (hl : Analysed p ss (docLines ls last).flatten l) (hls : AnalysedAll q ss (docLines ls last) xs)
    (ks : List (Ty W)) : RenderedAll l xs ks := by
  obtain ⟨_, h, hr, ho⟩ := analysed_honest hl
  obtain ⟨ht, hq⟩ := (C157_document U nl fresh ends ls last ne fits p q).2 l xs hl hls
  exact C159_parts A hr ho (analysedAll_honest hls) ht (fun k _ => hq k)

example := C159_document Demo.demoUax rfl Demo.additive (Demo.partStages_fresh _ (fun k t ht => by cases ht)) Demo.partStages_end
  (ls := ["I pay 1".toList, []]) (last := "234 now".toList) (.inr (by decide)) (by decide) (p := id) (q := id)
  (l := Demo.analysed (docLines ["I pay 1".toList, []] "234 now".toList).flatten)
  (xs := (docLines ["I pay 1".toList, []] "234 now".toList).map Demo.analysed) ⟨_, Demo.getOk_eq rfl, Demo.getOk_eq rfl⟩
  ⟨⟨_, Demo.getOk_eq rfl, Demo.getOk_eq rfl⟩, ⟨_, Demo.getOk_eq rfl, Demo.getOk_eq rfl⟩, ⟨_, Demo.getOk_eq rfl, Demo.getOk_eq rfl⟩, trivial⟩
  [.textTag, .amount]

end LNlp
