import Verif.Lemmas.SlicedSteps
import Verif.Props.Steps
import Verif.Props.Sliced
/- Property C169: texts analysed part by part by pipelines that also have other resolvers. -/
namespace LNlp
variable {W : World}

/-! ### C169: part by part, whatever else is in the pipeline -/

/-- C169: the resolvers of the library and rules, also those that look before they assign and those with exceptions,
are programs of the public API, whose matchers are built for the types they look at. -/
theorem C169_steps_are_programs {T : Ty W → Prop} (s : Step W) (own : T s.resolver.attr) (looks : ∀ k, s.Looks k → T k) :
    ByApi (fun m => Built T true m) s.resolver := step_byApi s own looks

example := C169_steps_are_programs (T := fun _ => True) (Step.rule true Demo.twoWords) trivial (fun _ _ => trivial)

/-- C169: a pipeline may have any resolvers besides the steps `ss`, if these are all that assign the types `T` and look at
these types only. A text cut into parts where `ss` allow it (C163), and analysed by such pipelines as a whole and part by
part: the tokens are those of the parts, and of the types `T` the whole has just what the parts have. The other
resolvers need not be the same for the whole and for each part, and may look over the cuts. -/
theorem C169_parts (L : SplitLaws W) (S : SplitStable W) {T : Ty W → Prop} {ss : List (Step W)} (own : OwnSteps ss)
    (q : Nat → Nat) {ts : List Str} (ne : ts ≠ []) (cut : CutSteps W q ss ts) (fits : utf8Len ts.flatten < W.usizeBound)
    {rs : List (Nat × Resolver W)} (hs : StepsFor T rs ss) {l : LLLine W} (whole : RanOnText rs ts.flatten l)
    {ls : List (LLLine W)} (parts : RanOnTexts T ss ts ls) :
    l.ll_tokens.map (·.token) = ls.flatMap (fun x => x.ll_tokens.map (·.token)) ∧
      ∀ k, T k → (queried l k).Perm (queriedAll k 0 ls) := by
  obtain ⟨l', a, ht, hq⟩ := ran_analysed hs whole q
  obtain ⟨ls', b, hts, hqs⟩ := ran_each q parts
  obtain ⟨h1, h2⟩ := (C163_parts L S own q ts ne cut fits q).2 l' ls' a b
  refine ⟨by rw [← ht, h1, hts], fun k hk => ?_⟩
  rw [queried_congr (hq k hk), hqs k hk 0]
  exact h2 k

/-- C169: if a pipeline runs through on the whole text, then its steps for `T` run through on each part. -/
theorem C169_parts_run (L : SplitLaws W) (S : SplitStable W) {T : Ty W → Prop} {ss : List (Step W)} (own : OwnSteps ss)
    (q : Nat → Nat) {ts : List Str} (ne : ts ≠ []) (cut : CutSteps W q ss ts) (fits : utf8Len ts.flatten < W.usizeBound)
    {rs : List (Nat × Resolver W)} (hs : StepsFor T rs ss) {l : LLLine W} (whole : RanOnText rs ts.flatten l) :
    ∀ t ∈ ts, ∃ l', RanOnText (stepsAt q ss) t l' := by
  obtain ⟨l', a, _, _⟩ := ran_analysed hs whole q
  exact (C163_parts L S own q ts ne cut fits q).1.1 ⟨l', a⟩

/-- C169: documents, line by line -/
theorem C169_document {cls : Char → WBChar} (U : Uax29 W cls) (nl : (cls '\n').cls = .lf) {T : Ty W → Prop}
    {ss : List (Step W)} (own : OwnSteps ss) (ends : ∀ s ∈ ss, s.EndsAt '\n') (r : Nat → Nat)
    (stop : ∀ l, createLineFromString W ['\n'] = .ok l → StopWhenRun 0 r ss l) (lines : List Str) (last : Str)
    (hcr : ∀ s ∈ lines, ∀ d, s.getLast? = some d → (cls d).cls ≠ .cr) (ne : lines ≠ [] ∨ last ≠ [])
    (fits : utf8Len (docLines lines last).flatten < W.usizeBound) {rs : List (Nat × Resolver W)} (hs : StepsFor T rs ss)
    {l : LLLine W} (whole : RanOnText rs (docLines lines last).flatten l) {ls : List (LLLine W)}
    (parts : RanOnTexts T ss (docLines lines last) ls) :
    l.ll_tokens.map (·.token) = ls.flatMap (fun x => x.ll_tokens.map (·.token)) ∧
      ∀ k, T k → (queried l k).Perm (queriedAll k 0 ls) := by
  obtain ⟨l', a, ht, hq⟩ := ran_analysed hs whole r
  obtain ⟨ls', b, hts, hqs⟩ := ran_each r parts
  obtain ⟨h1, h2⟩ := (C163_document U nl own ends r stop lines last hcr ne fits r r).2 l' ls' a b
  refine ⟨by rw [← ht, h1, hts], fun k hk => ?_⟩
  rw [queried_congr (hq k hk), hqs k hk 0]
  exact h2 k

/-- the types of the steps of the document in C163, and `char` -/
def Demo.forSteps (k : Ty Demo.W) : Prop := k = .char ∨ k = Ty.user 2 ∨ k = Ty.user 5
/-- a resolver of another type that looks over the ends of lines: it marks the whole text -/
def Demo.marksWhole : Resolver Demo.W where
  attr := Ty.user (3 : Nat)
  go := fun s => .ok ([s.finishWithAttr ['w']], false)
def Demo.busy : List (Nat × Resolver Demo.W) :=
  [(1, (Step.stage (.table Demo.table)).resolver), (2, Demo.marksWhole), (3, (Step.stage (.table Demo.tableNow)).resolver),
    (4, (Step.rule true Demo.twoWords).resolver)]
theorem Demo.busy_steps : StepsFor Demo.forSteps Demo.busy Demo.steps := by
  refine .keep (.inr (.inr rfl)) (fun _ h => h.elim) (.drop (by rintro (h | h | h) <;> cases h)
    (.keep (.inr (.inr rfl)) (fun _ h => h.elim) (.keep (.inr (.inl rfl)) ?_ .nil)))
  rintro k (h | h | h)
  · exact .inr (.inr h)
  · exact .inl h
  · exact .inr (.inr h)
theorem Demo.idle_steps : StepsFor Demo.forSteps (stepsAt id Demo.steps) Demo.steps := by
  refine .keep (.inr (.inr rfl)) (fun _ h => h.elim) (.keep (.inr (.inr rfl)) (fun _ h => h.elim) (.keep (.inr (.inl rfl)) ?_ .nil))
  rintro k (h | h | h)
  · exact .inr (.inr h)
  · exact .inl h
  · exact .inr (.inr h)
def Demo.ranText (rs : List (Nat × Resolver Demo.W)) (s : Str) : LLLine Demo.W :=
  Demo.ranAll (Demo.getOk Demo.emptyLine (createLineFromString Demo.W s)) rs
def Demo.isOk {α : Type} : R α → Bool
  | .ok _ => true
  | .error _ => false
theorem Demo.isOk_eq {α : Type} {d : α} {x : R α} (h : Demo.isOk x = true) : x = .ok (Demo.getOk d x) := by
  cases x with
  | ok a => rfl
  | error e => cases h
theorem Demo.ran {rs : List (Nat × Resolver Demo.W)} {s : Str} (h1 : Demo.isOk (createLineFromString Demo.W s) = true)
    (h2 : Demo.isOk (runAll (Demo.getOk Demo.emptyLine (createLineFromString Demo.W s)) rs) = true) :
    RanOnText rs s (Demo.ranText rs s) := ⟨_, Demo.isOk_eq h1, Demo.isOk_eq h2⟩
theorem Demo.ran_whole : RanOnText Demo.busy (docLines ["now".toList] "pay now".toList).flatten
    (Demo.ranText Demo.busy (docLines ["now".toList] "pay now".toList).flatten) := Demo.ran (by decide +kernel) (by decide +kernel)
theorem Demo.ran_second : RanOnText Demo.busy "pay now".toList (Demo.ranText Demo.busy "pay now".toList) :=
  Demo.ran (by decide +kernel) (by decide +kernel)
theorem Demo.ran_lines : RanOnTexts Demo.forSteps Demo.steps (docLines ["now".toList] "pay now".toList)
    [Demo.ranText (stepsAt id Demo.steps) ("now".toList ++ ['\n']), Demo.ranText Demo.busy "pay now".toList] :=
  ⟨⟨_, Demo.idle_steps, Demo.ran (by decide +kernel) (by decide +kernel)⟩, ⟨_, Demo.busy_steps, Demo.ran_second⟩, trivial⟩

/-- the document `now⏎pay now`; the first line is analysed without the other resolvers -/
example := C169_document Demo.demoUax rfl Demo.steps_own (Demo.steps_end _) id (Demo.steps_stop id) ["now".toList] "pay now".toList
  (by
    intro s hs d hd
    rw [List.mem_singleton.1 hs] at hd
    cases hd
    decide)
  (.inr (by decide)) (by decide) Demo.busy_steps Demo.ran_whole Demo.ran_lines

theorem Demo.doc_cut : CutSteps Demo.W id Demo.steps (docLines ["now".toList] "pay now".toList) :=
  cutSteps_doc Demo.demoUax rfl Demo.steps_own (Demo.steps_end _) id id (Demo.steps_stop id) _ _
    (by
      intro s hs d hd
      rw [List.mem_singleton.1 hs] at hd
      cases hd
      decide) (by decide)
example := C169_parts Demo.splitLaws Demo.splitStable Demo.steps_own id (by decide) Demo.doc_cut (by decide) Demo.busy_steps
  Demo.ran_whole Demo.ran_lines
example := C169_parts_run Demo.splitLaws Demo.splitStable Demo.steps_own id (by decide) Demo.doc_cut (by decide) Demo.busy_steps
  Demo.ran_whole

/-- C169 for all types, not only those of the steps -/
def C169_claim : Prop := ∀ (W : World) (T : Ty W → Prop) (ss : List (Step W)) (ts : List Str) (rs : List (Nat × Resolver W))
  (l : LLLine W) (ls : List (LLLine W)) (k : Ty W), SplitLaws W → SplitStable W → OwnSteps ss → ts ≠ [] → CutSteps W id ss ts →
  StepsFor T rs ss → RanOnText rs ts.flatten l → RanOnTexts T ss ts ls → (queried l k).Perm (queriedAll k 0 ls)

/-- C169 says nothing about other types: a resolver that is not among the steps can see that the text was cut. -/
theorem C169_all_types_false : ¬ C169_claim := by
  intro claim
  have := claim Demo.W Demo.forSteps Demo.steps (docLines ["now".toList] "pay now".toList) Demo.busy _
    [Demo.ranText Demo.busy ("now".toList ++ ['\n']), Demo.ranText Demo.busy "pay now".toList] (Ty.user (3 : Nat))
    Demo.splitLaws Demo.splitStable Demo.steps_own (by decide) Demo.doc_cut Demo.busy_steps Demo.ran_whole
    ⟨⟨_, Demo.busy_steps, Demo.ran (by decide +kernel) (by decide +kernel)⟩, ⟨_, Demo.busy_steps, Demo.ran_second⟩, trivial⟩
  have := this.length_eq
  revert this
  decide +kernel

end LNlp
