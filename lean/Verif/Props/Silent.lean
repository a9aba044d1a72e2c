import Verif.Lemmas.Silent
import Verif.Props.EditSteps
/- C166: steps checked one by one on a text that is just a newline. -/
namespace LNlp
variable {W : World}

/-- C166: if each step by itself does nothing with a text that is just a newline, then all of them, one after the other, do
nothing with it, and each rule stops at it when its turn comes. -/
theorem C166_stop {cls : Char → WBChar} (U : Uax29 W cls) {ss : List (Step W)} (own : OwnSteps ss)
    (silent : ∀ s ∈ ss, s.Silent ['\n']) {l : LLLine W} (ok : createLineFromString W ['\n'] = .ok l) (p : Nat → Nat) :
    StopWhenRun 0 p ss l ∧ ∀ l', runAll l (stepsAt p ss) = .ok l' → l' = l :=
  silent_steps ok (newline_line U ok).1 (newline_line U ok).2 ⟨'\n', by simp, by decide⟩ ss own silent p

/-- C166: so no simulation is needed for C163: it is enough to check the steps one by one. -/
theorem C166_document {cls : Char → WBChar} (U : Uax29 W cls) (nl : (cls '\n').cls = .lf) {ss : List (Step W)}
    (own : OwnSteps ss) (ends : ∀ s ∈ ss, s.EndsAt '\n') (silent : ∀ s ∈ ss, s.Silent ['\n']) (ls : List Str) (last : Str)
    (hcr : ∀ s ∈ ls, ∀ d, s.getLast? = some d → (cls d).cls ≠ .cr)
    (ne : ls ≠ [] ∨ last ≠ []) (fits : utf8Len (docLines ls last).flatten < W.usizeBound) (p q : Nat → Nat) :
    ((∃ l, AnalysedBy p ss (docLines ls last).flatten l) ↔ ∀ t ∈ docLines ls last, ∃ l, AnalysedBy q ss t l) ∧
    ∀ (l : LLLine W) (xs : List (LLLine W)), AnalysedBy p ss (docLines ls last).flatten l → AnalysedEach q ss (docLines ls last) xs →
      l.ll_tokens.map (·.token) = xs.flatMap (fun x => x.ll_tokens.map (·.token)) ∧
      ∀ k, (queried l k).Perm (queriedAll k 0 xs) :=
  C163_document U nl own ends id (fun _ ok => (C166_stop U own silent ok id).1) ls last hcr ne fits p q

/-- tables, parts of speech, keywords, amounts, a rule and a rule with an exception -/
def Demo.silentSteps : List (Step Demo.W) :=
  [.stage (.table Demo.table), .stage .pos, .stage (.keywords Demo.kws), .stage (.amounts ⟨[','], '.'⟩), .rule true Demo.twoWords,
    .erule false Demo.loneWord]

theorem Demo.silentSteps_own : OwnSteps Demo.silentSteps := by
  intro s hs
  simp only [Demo.silentSteps, List.mem_cons, List.not_mem_nil, or_false] at hs
  rcases hs with rfl | rfl | rfl | rfl | rfl | rfl <;> exact ⟨(by intro h; cases h), (by intro h; cases h)⟩

theorem Demo.silentSteps_end : ∀ s ∈ Demo.silentSteps, s.EndsAt '\n' := by
  intro s hs
  simp only [Demo.silentSteps, List.mem_cons, List.not_mem_nil, or_false] at hs
  rcases hs with rfl | rfl | rfl | rfl | rfl | rfl
  · trivial
  · trivial
  · trivial
  · exact ⟨by decide, by decide, by decide⟩
  · trivial
  · trivial

theorem Demo.newline_history : creationHistory Demo.W utf8Len [.Text ['\n'] []] =
    [⟨.char, (0, 0), '\n'⟩, ⟨.textTag, (0, 0), TextTag.SPACE⟩] := rfl

theorem Demo.newline_mem (x : Rec Demo.W) (h : x ∈ creationHistory Demo.W utf8Len [.Text ['\n'] []]) :
    x = ⟨.char, (0, 0), '\n'⟩ ∨ x = ⟨.textTag, (0, 0), TextTag.SPACE⟩ := by
  rw [Demo.newline_history] at h
  simpa using h

theorem Demo.twoWords_stops : Demo.twoWords.StopsOn ['\n'] := by
  intro l _
  have no : ∀ (Q : Str → Prop), (Pat.attr (W := Demo.W) (Ty.user 5)).Stops l
      (· ∈ creationHistory Demo.W utf8Len [.Text ['\n'] []]) 0 Q := by
    intro Q r v hm
    rcases Demo.newline_mem _ hm with hm | hm <;> cases hm
  refine ⟨no _, ?_, no _⟩
  intro r w hv hm
  rcases Demo.newline_mem _ hm with hm | hm
  · cases hm
    exact absurd hv (by decide)
  · cases hm

theorem Demo.silentSteps_silent : ∀ s ∈ Demo.silentSteps, s.Silent ['\n'] := by
  intro s hs
  simp only [Demo.silentSteps, List.mem_cons, List.not_mem_nil, or_false] at hs
  rcases hs with rfl | rfl | rfl | rfl | rfl | rfl
  · exact (rfl : (Demo.table.lookup (if Demo.table.case_sensitive then ['\n'] else Demo.W.toLowercase ['\n'])).getD [] = [])
  · intro l ok
    cases ok
    decide
  · intro kw h
    rw [← classify_iff] at h
    revert h
    cases kw <;> decide
  · trivial
  · exact Demo.twoWords_stops
  · exact fun l _ => Demo.loneWord_stops Demo.newline_mem

/-- the document `now⏎pay now` -/
example := C166_document Demo.demoUax rfl Demo.silentSteps_own Demo.silentSteps_end Demo.silentSteps_silent ["now".toList] "pay now".toList
  (by
    intro s hs d hd
    rw [List.mem_singleton.1 hs] at hd
    cases hd
    decide)
  (.inr (by decide)) (by decide) id id

/-- C166 if only the rules do nothing with a newline -/
def C166_rules_claim : Prop := ∀ (W : World) (cls : Char → WBChar), Uax29 W cls → (cls '\n').cls = .lf → ∀ (ss : List (Step W)),
  OwnSteps ss → (∀ s ∈ ss, s.EndsAt '\n') → (∀ s ∈ ss, (∃ g, s = .stage g) ∨ s.Silent ['\n']) →
  ∀ (s last : Str) (l x y : LLLine W), (∀ d, s.getLast? = some d → (cls d).cls ≠ .cr) →
  AnalysedBy id ss (docLines [s] last).flatten l → AnalysedEach id ss (docLines [s] last) [x, y] →
  ∀ k, (queried l k).Perm (queriedAll k 0 [x, y])

/-- a table that says something about newlines -/
def Demo.tableNewline : TextMatchAssignResolver Demo.W (Ty.user 5) :=
  .new (W := Demo.W) (Ty.user 5) (fun t => if t = ['\n'] ∨ t = ['a'] then some [(['n'] : Str)] else none)
def Demo.twoMarks : Rule Demo.W := ⟨Ty.user 2, _, .seq (.attr (Ty.user 5)) (.attr (Ty.user 5)), fun _ => [("two".toList : Str)]⟩
def Demo.pairSteps : List (Step Demo.W) := [.stage (.table Demo.tableNewline), .rule false Demo.twoMarks]
def Demo.paired (s : Str) : LLLine Demo.W :=
  Demo.getOk Demo.emptyLine (runAll (Demo.getOk Demo.emptyLine (createLineFromString Demo.W s)) (stepsAt id Demo.pairSteps))

/-- A table that says something about newlines lets a rule find something over them: in `a⏎a` two pairs are found, but in `a⏎` and
`a` only one. -/
theorem C166_rules_false : ¬ C166_rules_claim := by
  intro h
  have := h Demo.W _ Demo.demoUax rfl Demo.pairSteps
    (by
      intro s hs
      simp only [Demo.pairSteps, List.mem_cons, List.not_mem_nil, or_false] at hs
      rcases hs with rfl | rfl <;> exact ⟨(by intro h; cases h), (by intro h; cases h)⟩)
    (by
      intro s hs
      simp only [Demo.pairSteps, List.mem_cons, List.not_mem_nil, or_false] at hs
      rcases hs with rfl | rfl <;> trivial)
    (by
      intro s hs
      simp only [Demo.pairSteps, List.mem_cons, List.not_mem_nil, or_false] at hs
      rcases hs with rfl | rfl
      · exact .inl ⟨_, rfl⟩
      · refine .inr fun l _ => ⟨?_, ?_⟩ <;>
        · intro r v hm
          rcases Demo.newline_mem _ hm with hm | hm <;> cases hm)
    ['a'] ['a'] (Demo.paired ['a', '\n', 'a']) (Demo.paired ['a', '\n']) (Demo.paired ['a'])
    (by intro d hd; cases hd; decide)
    ⟨_, Demo.getOk_eq (d := Demo.emptyLine) rfl, Demo.getOk_eq rfl⟩
    ⟨⟨_, Demo.getOk_eq (d := Demo.emptyLine) rfl, Demo.getOk_eq rfl⟩, ⟨_, Demo.getOk_eq (d := Demo.emptyLine) rfl, Demo.getOk_eq rfl⟩, trivial⟩
    (Ty.user 2)
  have := this.length_eq
  revert this
  decide

end LNlp
