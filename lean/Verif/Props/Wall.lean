import Verif.Lemmas.WallText
import Verif.Lemmas.WallExcept
import Verif.Props.Window
import Verif.Demo.Grammar
import Verif.Demo.Uax29
/- C158: nothing is found across a token that all rules stop at. -/
namespace LNlp
variable {W : World}

/-- `New` and `York` with a space between them, not any white space -/
def Demo.city : Rule Demo.W :=
  ⟨Ty.user 2, _, .seq (Demo.is "New") (.seq (.attrEq Ty.char ' ') (Demo.is "York")), fun _ => [("NY".toList : Str)]⟩

theorem Demo.city_stops : ∀ r ∈ [Demo.word, Demo.city], r.StopsOn ['\n'] := by
  have e : creationHistory Demo.W utf8Len [.Text ['\n'] []] = [⟨.char, (0, 0), '\n'⟩, ⟨.textTag, (0, 0), TextTag.SPACE⟩] := rfl
  intro r hr l hl
  cases hl
  simp only [List.mem_cons, List.not_mem_nil, or_false] at hr
  rcases hr with rfl | rfl
  · intro s hs
    cases hs
    rfl
  · have hw : ∀ s (Q : Unit → Prop), (Demo.is s).Stops (Demo.getOk Demo.emptyLine (createLineFromString Demo.W ['\n']))
        (· ∈ creationHistory Demo.W utf8Len [.Text ['\n'] []]) 0 Q := by
      intro s Q r w _ hm
      rw [e] at hm
      simp only [List.mem_cons, List.not_mem_nil, or_false] at hm
      rcases hm with hm | hm <;> cases hm
    refine ⟨hw _ _, ?_, hw _ _⟩
    intro r w hv hm
    rw [e] at hm
    simp only [List.mem_cons, List.not_mem_nil, or_false] at hm
    rcases hm with hm | hm
    · cases hm
      exact absurd hv (by decide)
    · cases hm

/-- `New`, a newline and `York` -/
def Demo.wallInput : List (InputToken Demo.W) := [.Text "New".toList [], .Text ['\n'] [], .Text "York".toList []]
def Demo.wallLine : LLLine Demo.W := Demo.getOk Demo.emptyLine (createLineFromInputTokens Demo.W Demo.wallInput utf8Len)
theorem Demo.wall_wf : ∀ t ∈ Demo.wallInput, t.WF := by
  intro t ht a ha
  simp only [Demo.wallInput, List.mem_cons, List.not_mem_nil, or_false] at ht
  rcases ht with rfl | rfl | rfl <;> cases ha
theorem Demo.wallHonest : Honest Demo.wallLine (creationHistory Demo.W utf8Len Demo.wallInput) := .create _ _ _ Demo.wall_wf rfl
theorem Demo.wall : Wall Demo.wallLine (creationHistory Demo.W utf8Len Demo.wallInput) [Demo.word, Demo.city] 1 := fun r hr =>
  stops_window utf8Len (xs := [.Text "New".toList []]) (ys := [.Text ['\n'] []]) (zs := [.Text "York".toList []])
    Demo.wall_wf rfl rfl rfl (t := 0) (by decide) (Demo.city_stops r hr _ rfl)

/-- C158: if all rules stop at token `t` at the start, then whatever rules are run, in any order and however often, nothing is
assigned over this token: what a query lists for ranges over it stays as it was. -/
theorem C158_wall {l : LLLine W} {h : History W} (hh : Honest l h) (ne : l.ll_tokens ≠ []) (prog : List (Nat × Rule W)) (t : Nat)
    (hw : Wall l h (prog.map (·.2)) t) :
    ∃ l', runAll l (ruleRuns prog) = .ok l' ∧ ∀ k, ∃ q q', l.query k = .ok q ∧ l'.query k = .ok q' ∧
      ∀ e, Over t e.1 → (e ∈ q' ↔ e ∈ q) := by
  obtain ⟨l', new, hl, hh', ht, hn⟩ := wall_run prog hh ne [t] (by simpa using hw)
  exact ⟨l', hl, query_over hh hh' ht (fun x hx => hn x hx t (by simp))⟩

example := C158_wall Demo.wallHonest (by intro h; cases h) [(1, Demo.word), (2, Demo.city), (3, Demo.word)] 1 (fun r hr =>
  Demo.wall r (by
    simp only [List.map_cons, List.map_nil, List.mem_cons, List.not_mem_nil, or_false] at hr ⊢
    rcases hr with h | h | h <;> simp [h]))

/-- C158: and nothing over the token follows from the rules at all, in any number of steps. -/
theorem C158_derivable {l : LLLine W} {h : History W} {rules : List (Rule W)} {t : Nat} (hw : Wall l h rules t) {x : Rec W}
    (hx : Derivable l h rules x) (ho : Over t x.range) : x ∈ h := by
  refine (hx (fun y => y ∈ h ∨ ¬ Over t y.range) (fun y hy => .inl hy) ?_).resolve_right (fun hn => hn ho)
  intro r hr y hy
  exact .inr (Rule.Stops.concludes (Pat.Stops.more rfl (fun z hz => hz) (hw r hr)) hy)

example := @C158_derivable Demo.W _ _ _ _ Demo.wall ⟨Ty.textTag, (1, 1), TextTag.SPACE⟩ (fun _ h _ => h _ (by
  have e : creationHistory Demo.W utf8Len Demo.wallInput = [⟨.textTag, (0, 0), TextTag.WORD⟩, ⟨.char, (1, 1), '\n'⟩,
    ⟨.textTag, (1, 1), TextTag.SPACE⟩, ⟨.textTag, (2, 2), TextTag.WORD⟩] := rfl
  rw [e]
  simp)) (by simp [Over])

/-- C158: between two such tokens the rules find what they find without the rest of the line: in the line of `xs ++ ys ++ zs`, if
all rules stop at the last token of `xs` and at the first of `zs`, then nothing that a query lists reaches over an end of `ys`, and
what it lists inside is, counted from there, what it lists for the line of `ys` alone. -/
theorem C158_between (size : Str → Nat) (xs ys zs : List (InputToken W)) (l lx ly : LLLine W)
    (wf : ∀ t ∈ xs ++ (ys ++ zs), t.WF) (ok : createLineFromInputTokens W (xs ++ (ys ++ zs)) size = .ok l)
    (okx : createLineFromInputTokens W xs size = .ok lx) (oky : createLineFromInputTokens W ys size = .ok ly) (hy : ys ≠ [])
    (prog : List (Nat × Nat × Rule W))
    (wx : xs ≠ [] → Wall l (creationHistory W size (xs ++ (ys ++ zs))) (prog.map (·.2.2)) (lx.ll_tokens.length - 1))
    (wz : zs ≠ [] → Wall l (creationHistory W size (xs ++ (ys ++ zs))) (prog.map (·.2.2)) (lx.ll_tokens.length + ly.ll_tokens.length)) :
    ∃ m m', runAll l (ruleRuns (prog.map (fun p => (p.1, p.2.2)))) = .ok m ∧
      runAll ly (ruleRuns (prog.map (fun p => (p.2.1, p.2.2)))) = .ok m' ∧
      ∀ k, ∃ q q', m.query k = .ok q ∧ m'.query k = .ok q' ∧
        NoneAcross lx.ll_tokens.length ly.ll_tokens.length q ∧ queryIn lx.ll_tokens.length ly.ll_tokens.length q = q' := by
  have ne : l.ll_tokens ≠ [] := create_ne wf ok (by simp [hy])
  have wfx : ∀ t ∈ xs, t.WF := fun t ht => wf t (by simp [ht])
  obtain ⟨m, m', hm, hm', hq⟩ := C145_parts size xs ys zs l lx ly wf ok okx oky hy prog
  let ts : List Nat := (if xs = [] then [] else [lx.ll_tokens.length - 1]) ++ (if zs = [] then [] else [lx.ll_tokens.length + ly.ll_tokens.length])
  have e2 : (prog.map (fun p => (p.1, p.2.2))).map (·.2) = prog.map (·.2.2) := by simp [Function.comp_def]
  obtain ⟨m1, new, h1, hh1, ht1, hn⟩ := wall_run (prog.map (fun p => (p.1, p.2.2))) (.create _ size l wf ok) ne ts (by
    intro t ht
    rw [e2]
    rcases List.mem_append.1 ht with ht | ht
    · by_cases hx : xs = []
      · simp [hx] at ht
      · rw [if_neg hx, List.mem_singleton] at ht
        rw [ht]; exact wx hx
    · by_cases hz : zs = []
      · simp [hz] at ht
      · rw [if_neg hz, List.mem_singleton] at ht
        rw [ht]; exact wz hz)
  cases h1.symm.trans hm
  refine ⟨m, m', hm, hm', fun k => ?_⟩
  obtain ⟨q, q', hq1, hq2, e⟩ := hq k
  refine ⟨q, q', hq1, hq2, ?_, e⟩
  have hd : ∀ r ∈ rangesOf k (creationHistory W size (xs ++ (ys ++ zs)) ++ new), r.1 ≤ r.2 + 1 := fun r hr => by
    obtain ⟨v, hv⟩ := mem_rangesOf.1 hr
    have := hh1.spec.2 _ hv
    simp only at this
    omega
  have hq3 := rep_query hh1.spec.1.rep k hd
  cases hq1.symm.trans hq3
  have mem : ∀ e ∈ (rangesOf k (creationHistory W size (xs ++ (ys ++ zs)) ++ new)).map (fun r =>
      (r, coveredText m.ll_tokens r, valuesOf k r (creationHistory W size (xs ++ (ys ++ zs)) ++ new))),
      ∃ v : Val k, (⟨k, e.1, v⟩ : Rec W) ∈ creationHistory W size (xs ++ (ys ++ zs)) ++ new := by
    intro e he
    obtain ⟨r, hr, rfl⟩ := List.mem_map.1 he
    exact mem_rangesOf.1 hr
  · intro e he ha hb
    obtain ⟨v, hv⟩ := mem e he
    have ho := hh1.spec.2 _ hv
    have hbd := hh1.spec.1.rep.bounds _ hv
    simp only at ho hbd
    rcases List.mem_append.1 hv with hv | hv
    · exact creation_within size wf ok okx oky hv ha hb
    · have hlen : l.ll_tokens.length = lx.ll_tokens.length + ly.ll_tokens.length ∨ zs ≠ [] := by
        by_cases hz : zs = []
        · left
          subst hz
          have wfy : ∀ t ∈ ys, t.WF := fun t ht => wf t (by simp [ht])
          obtain ⟨_, t1, _⟩ := create_inv wf ok
          obtain ⟨_, t2, _⟩ := create_inv wfx okx
          obtain ⟨_, t3, _⟩ := create_inv wfy oky
          rw [t1, t2, t3]
          simp
        · exact .inr hz
      constructor
      · by_cases hx : xs = []
        · subst hx
          cases okx
          exact Nat.zero_le _
        · have hnx : lx.ll_tokens.length ≠ 0 := fun h => create_ne wfx okx hx (List.length_eq_zero_iff.1 h)
          have := hn _ hv (lx.ll_tokens.length - 1) (by simp [ts, hx])
          simp only [Over] at this
          omega
      · rcases hlen with hlen | hz
        · rw [ht1, hlen] at hbd
          omega
        · have := hn _ hv (lx.ll_tokens.length + ly.ll_tokens.length) (by simp [ts, hz])
          simp only [Over] at this
          omega

example := C158_between utf8Len [.Text "New".toList [], .Text ['\n'] []] [.Text "York".toList []] [] _ _ _ Demo.wall_wf rfl rfl rfl (by simp)
  [(1, 1, Demo.word), (2, 2, Demo.city)] (fun _ => Demo.wall) (fun h => absurd rfl h)

/-- a word, a space and a word -/
def Demo.nextWord : EPat Demo.W (Unit × Unit × Unit) :=
  .seq (.attrEq Ty.textTag TextTag.WORD) (.seq (.attrEq Ty.char ' ') (.attrEq Ty.textTag TextTag.WORD))
/-- the last word of a phrase -/
def Demo.lastWord : ERule Demo.W :=
  ⟨Ty.user 2, _, .unless (.attrEq Ty.textTag TextTag.WORD) Demo.nextWord, fun _ => [("last".toList : Str)]⟩
/-- a word that is not before a newline -/
def Demo.brokenWord : ERule Demo.W :=
  ⟨Ty.user 2, _, .unless (.attrEq Ty.textTag TextTag.WORD) (.seq (.attrEq Ty.textTag TextTag.WORD) (.attrEq Ty.char '\n')),
    fun _ => [("last".toList : Str)]⟩

theorem Demo.wall_history : creationHistory Demo.W utf8Len Demo.wallInput = [⟨.textTag, (0, 0), TextTag.WORD⟩, ⟨.char, (1, 1), '\n'⟩,
    ⟨.textTag, (1, 1), TextTag.SPACE⟩, ⟨.textTag, (2, 2), TextTag.WORD⟩] := rfl

theorem Demo.wall_word (Q : Unit → Prop) : (EPat.attrEq (W := Demo.W) Ty.textTag TextTag.WORD).Stops Demo.wallLine
    (· ∈ creationHistory Demo.W utf8Len Demo.wallInput) 1 Q := by
  intro r w hv hm ho
  rw [Demo.wall_history] at hm
  simp only [List.mem_cons, List.not_mem_nil, or_false] at hm
  rcases hm with hm | hm | hm | hm <;> cases hm
  · simp [Over] at ho
  · exact absurd hv (by decide)
  · simp [Over] at ho

theorem Demo.wall_space (Q : Unit → Prop) : (EPat.attrEq (W := Demo.W) Ty.char ' ').Stops Demo.wallLine
    (· ∈ creationHistory Demo.W utf8Len Demo.wallInput) 1 Q := by
  intro r w hv hm ho
  rw [Demo.wall_history] at hm
  simp only [List.mem_cons, List.not_mem_nil, or_false] at hm
  rcases hm with hm | hm | hm | hm <;> cases hm
  exact absurd hv (by decide)

theorem Demo.lastWord_wall : EWall Demo.wallLine (creationHistory Demo.W utf8Len Demo.wallInput) [Demo.lastWord, Demo.brokenWord] 1 := by
  intro r hr
  simp only [List.mem_cons, List.not_mem_nil, or_false] at hr
  rcases hr with rfl | rfl
  · exact Demo.wall_word (fun x => Demo.lastWord.values x = [])
  · exact Demo.wall_word (fun x => Demo.brokenWord.values x = [])

theorem Demo.lastWord_clear : EClear Demo.wallLine (creationHistory Demo.W utf8Len Demo.wallInput) [Demo.lastWord] 1 := by
  intro r hr
  rw [List.mem_singleton.1 hr]
  exact ⟨⟨Demo.wall_word _, Demo.wall_space _, Demo.wall_word _⟩, trivial, trivial, trivial, trivial⟩

/-- C158, with exceptions and choices (C146): rules that all stop at a token assign nothing over it. -/
theorem C158_exceptions {l : LLLine W} {h : History W} (hh : Honest l h) (ne : l.ll_tokens ≠ []) (prog : List (Nat × ERule W)) (t : Nat)
    (hw : EWall l h (prog.map (·.2)) t) :
    ∃ l', runAll l (eruleRuns prog) = .ok l' ∧ ∀ k, ∃ q q', l.query k = .ok q ∧ l'.query k = .ok q' ∧
      ∀ e, Over t e.1 → (e ∈ q' ↔ e ∈ q) := by
  obtain ⟨l', new, hl, hh', ht, hn⟩ := ewall_run prog hh ne t hw
  exact ⟨l', hl, query_over hh hh' ht hn⟩

example := C158_exceptions Demo.wallHonest (by intro h; cases h) [(1, Demo.lastWord), (2, Demo.brokenWord)] 1 Demo.lastWord_wall

/-- C158: between two tokens that they all stop at, rules with exceptions and choices find the same as on that part alone, if none
of the exceptions goes over the second of these tokens. -/
theorem C158_exceptions_between (size : Str → Nat) (xs ys zs : List (InputToken W)) (l lx ly : LLLine W)
    (wf : ∀ t ∈ xs ++ (ys ++ zs), t.WF) (ok : createLineFromInputTokens W (xs ++ (ys ++ zs)) size = .ok l)
    (okx : createLineFromInputTokens W xs size = .ok lx) (oky : createLineFromInputTokens W ys size = .ok ly) (hy : ys ≠ [])
    (prog : List (Nat × Nat × ERule W))
    (wx : xs ≠ [] → EWall l (creationHistory W size (xs ++ (ys ++ zs))) (prog.map (·.2.2)) (lx.ll_tokens.length - 1))
    (wz : zs ≠ [] → EWall l (creationHistory W size (xs ++ (ys ++ zs))) (prog.map (·.2.2)) (lx.ll_tokens.length + ly.ll_tokens.length) ∧
      EClear l (creationHistory W size (xs ++ (ys ++ zs))) (prog.map (·.2.2)) (lx.ll_tokens.length + ly.ll_tokens.length)) :
    ∃ m m', runAll l (eruleRuns (prog.map (fun p => (p.1, p.2.2)))) = .ok m ∧
      runAll ly (eruleRuns (prog.map (fun p => (p.2.1, p.2.2)))) = .ok m' ∧
      ∀ k, ∃ q q', m.query k = .ok q ∧ m'.query k = .ok q' ∧ NoneAcross lx.ll_tokens.length ly.ll_tokens.length q ∧
        ∀ i j v, j < ly.ll_tokens.length →
          ((∃ text vs, ((lx.ll_tokens.length + i, lx.ll_tokens.length + j), text, vs) ∈ q ∧ v ∈ vs) ↔
            ∃ text vs, ((i, j), text, vs) ∈ q' ∧ v ∈ vs) := by
  have wfx : ∀ t ∈ xs, t.WF := fun t ht => wf t (by simp [ht])
  have wfy : ∀ t ∈ ys, t.WF := fun t ht => wf t (by simp [ht])
  obtain ⟨m, g, m', g', h1, h2, h3, h4, h5, A⟩ := erules_apart prog (.create _ size l wf ok) (.create _ size ly wfy oky)
    (create_ne wf ok (by simp [hy])) (create_ne wfy oky hy) (apart_create size wf ok okx oky)
    (by
      by_cases hx : xs = []
      · subst hx
        cases okx
        exact .inl rfl
      · exact .inr (wx hx))
    (by
      by_cases hz : zs = []
      · subst hz
        obtain ⟨_, t1, _⟩ := create_inv wf ok
        obtain ⟨_, t2, _⟩ := create_inv wfx okx
        obtain ⟨_, t3, _⟩ := create_inv wfy oky
        left
        rw [t1, t2, t3]
        simp
      · exact .inr (wz hz))
  refine ⟨m, m', h1, h3, fun k => ?_⟩
  obtain ⟨q, hq, mq⟩ := query_values h2 k
  obtain ⟨q', hq', mq'⟩ := query_values h4 k
  refine ⟨q, q', hq, hq', ?_, ?_⟩
  · rintro ⟨⟨a, b⟩, text, vs⟩ he
    obtain ⟨v, hv⟩ := mq.1 _ he
    rw [← h5]
    exact A.none _ hv
  · intro i j v hj
    rw [mq.2, mq'.2]
    exact A.same k i j v (by rw [h5]; exact hj)

example := C158_exceptions_between utf8Len [] [.Text "New".toList []] [.Text ['\n'] [], .Text "York".toList []] _ _ _ Demo.wall_wf
  rfl rfl rfl (by simp) [(1, 1, Demo.lastWord)] (fun h => absurd rfl h)
  (fun _ => ⟨fun r hr => Demo.lastWord_wall r (by simp only [List.map_cons, List.map_nil, List.mem_cons] at hr ⊢; exact hr.imp_right (fun h => .inl (by cases h))),
    Demo.lastWord_clear⟩)

/-- C158: exceptions over the token do make a difference: a word before a newline is not the word alone. -/
theorem C158_clear_needed : EWall Demo.wallLine (creationHistory Demo.W utf8Len Demo.wallInput) [Demo.brokenWord] 1 ∧
    ∃ m m', runAll Demo.wallLine (eruleRuns [(1, Demo.brokenWord)]) = .ok m ∧
      runAll (Demo.getOk Demo.emptyLine (createLineFromString Demo.W "New".toList)) (eruleRuns [(1, Demo.brokenWord)]) = .ok m' ∧
      m.query (Ty.user 2) = .ok [((2, 2), "York".toList, [("last".toList : Str)])] ∧
      m'.query (Ty.user 2) = .ok [((0, 0), "New".toList, [("last".toList : Str)])] :=
  ⟨fun r hr => Demo.lastWord_wall r (by rw [List.mem_singleton.1 hr]; simp), _, _, rfl, rfl, rfl, rfl⟩

/-- C158: so rules that stop at a newline find on a line of a document what they find on that line alone: in the document of the
lines `before`, `s` and `after`, nothing that a query lists reaches over an end of `s`, and what it lists inside is, counted from
there, what it lists for `s`. -/
theorem C158_document {cls : Char → WBChar} (U : Uax29 W cls) (nl : (cls '\n').cls = .lf) (ws : W.isWhitespace '\n' = true)
    (before : List Str) (s : Str) (after : List Str) (ne : s ≠ [])
    (cr : ∀ t ∈ before ++ s :: after, ∀ c, t.getLast? = some c → (cls c).cls ≠ .cr)
    (fits : utf8Len (joinLines (before ++ s :: after)) < W.usizeBound) (prog : List (Nat × Nat × Rule W))
    (stop : ∀ p ∈ prog, p.2.2.StopsOn ['\n']) {l ls : LLLine W} (ok : createLineFromString W (joinLines (before ++ s :: after)) = .ok l)
    (oks : createLineFromString W s = .ok ls) {T : List LLToken} (hT : TokensIn W (before.map (· ++ ['\n'])).flatten T) :
    ∃ m m', runAll l (ruleRuns (prog.map (fun p => (p.1, p.2.2)))) = .ok m ∧
      runAll ls (ruleRuns (prog.map (fun p => (p.2.1, p.2.2)))) = .ok m' ∧
      ∀ k, ∃ q q', m.query k = .ok q ∧ m'.query k = .ok q' ∧
        NoneAcross T.length ls.ll_tokens.length q ∧ queryIn T.length ls.ll_tokens.length q = q' := by
  have L := C124_split_laws U
  have S := C124_split_stable U
  have crb : ∀ t ∈ before, ∀ c, t.getLast? = some c → (cls c).cls ≠ .cr := fun t ht => cr t (by simp [ht])
  have split := doc_split U nl before (s :: docAfter after) crb
    (docAfter_split U nl s after (fun t ht => cr t (List.mem_append_right _ ht)))
  have ok1 : createLineFromInputTokens W (inputsOf W (docBefore before ++ s :: docAfter after)) utf8Len = .ok l := by
    refine (create_inputsOf L S split ?_ l).1 (by rw [doc_flatten]; exact ok)
    simp [ne]
  have size := inputsOf_size (W := W) L (docBefore before ++ s :: docAfter after)
  rw [doc_flatten] at size
  have es : inputsOf W (docBefore before ++ s :: docAfter after) =
      inputsOf W (docBefore before) ++ ([.Text s []] ++ inputsOf W (docAfter after)) := by
    rw [inputsOf_append]
    congr 1
    cases s with
    | nil => exact absurd rfl ne
    | cons c s => rfl
  have wf := inputsOf_wf (W := W) (docBefore before ++ s :: docAfter after)
  rw [es] at ok1 wf size
  -- any part of the inputs makes a line
  have part : ∀ a b c : List (InputToken W), a ++ (b ++ c) = inputsOf W (docBefore before) ++ ([.Text s []] ++ inputsOf W (docAfter after)) →
      ∃ la lb, createLineFromInputTokens W a utf8Len = .ok la ∧ createLineFromInputTokens W b utf8Len = .ok lb := by
    intro a b c e
    rw [← e] at ok1 wf size
    obtain ⟨la, lbc, h1, h2, _⟩ := C78_concat utf8Len a (b ++ c) l wf ok1 (by rw [size]; exact fits)
    obtain ⟨lb, _, h3, _⟩ := C78_concat utf8Len b c lbc (fun t ht => wf t (List.mem_append_right _ ht)) h2 (by
      have : totalSize ((a ++ (b ++ c)).flatMap (tokensOf W utf8Len)) =
          totalSize (a.flatMap (tokensOf W utf8Len)) + totalSize ((b ++ c).flatMap (tokensOf W utf8Len)) := by
        simp [totalSize]
      omega)
    exact ⟨la, lb, h1, h3⟩
  obtain ⟨lx, ly, okx, oky⟩ := part _ _ _ rfl
  cases oky.symm.trans oks
  -- the tokens before
  have hlen : lx.ll_tokens.length = T.length := by
    cases before with
    | nil =>
      cases okx
      rcases hT with ⟨_, rfl⟩ | ⟨lt, h, rfl⟩
      · rfl
      · rw [text_length h]
        simp [textPieces, (split_nil_iff L []).2 rfl]
    | cons b bs =>
      have hne : ((b :: bs).map (· ++ ['\n'])).flatten ≠ [] := by simp
      rcases hT with ⟨h, _⟩ | ⟨lt, h, rfl⟩
      · exact absurd h hne
      · rw [← docBefore_flatten] at h hne
        have hs := doc_split U nl (b :: bs) [] crb (by simpa using (split_nil_iff L []).2 rfl)
        rw [List.append_nil] at hs
        cases okx.symm.trans ((create_inputsOf L S hs hne lt).1 h)
        rfl
  rw [← hlen]
  -- a newline is one token, and a wall
  have wall : ∀ a c : List (InputToken W), a ++ ([.Text ['\n'] []] ++ c) = inputsOf W (docBefore before) ++ ([.Text s []] ++ inputsOf W (docAfter after)) →
      ∃ la ln, createLineFromInputTokens W a utf8Len = .ok la ∧ createLineFromInputTokens W [.Text ['\n'] []] utf8Len = .ok ln ∧
        ln.ll_tokens.length = 1 ∧
        Wall l (creationHistory W utf8Len (inputsOf W (docBefore before) ++ ([.Text s []] ++ inputsOf W (docAfter after)))) (prog.map (·.2.2)) la.ll_tokens.length := by
    intro a c e
    obtain ⟨la, ln, h1, h2⟩ := part a _ c e
    have h3 : ln.ll_tokens.length = 1 := by rw [text_length h2, newline_pieces U ws]; rfl
    refine ⟨la, ln, h1, h2, h3, ?_⟩
    intro r hr
    obtain ⟨p, hp, rfl⟩ := List.mem_map.1 hr
    have := stops_window utf8Len (by rw [e]; exact wf) (by rw [e]; exact ok1) h1 h2 (t := 0) (by omega) (stop p hp ln h2)
    rw [e] at this
    exact this
  refine C158_between utf8Len (inputsOf W (docBefore before)) [.Text s []] (inputsOf W (docAfter after)) l lx ls wf ok1 okx oks (by simp) prog ?_ ?_
  · intro hx
    have : before ≠ [] := by rintro rfl; exact hx rfl
    obtain ⟨bs, b, rfl⟩ : ∃ bs b, before = bs ++ [b] := ⟨_, _, (List.dropLast_concat_getLast this).symm⟩
    have e : inputsOf W (docBefore (bs ++ [b])) = inputsOf W (docBefore bs ++ [b]) ++ [.Text ['\n'] []] := by
      rw [show docBefore (bs ++ [b]) = docBefore bs ++ [b] ++ [['\n']] by simp [docBefore], inputsOf_append _ [['\n']]]
      rfl
    rw [e] at okx
    obtain ⟨la, ln, h1, h2, h3, hw⟩ := wall (inputsOf W (docBefore bs ++ [b])) ([.Text s []] ++ inputsOf W (docAfter after)) (by
      rw [e]; simp)
    have wfa : ∀ t ∈ inputsOf W (docBefore bs ++ [b]) ++ [.Text ['\n'] []], t.WF := fun t ht => wf t (by rw [e]; exact List.mem_append_left _ ht)
    obtain ⟨_, t1, _⟩ := create_inv wfa okx
    obtain ⟨_, t2, _⟩ := create_inv (fun t ht => wfa t (List.mem_append_left _ ht)) h1
    obtain ⟨_, t3, _⟩ := create_inv (fun t ht => wfa t (List.mem_append_right _ ht)) h2
    have : lx.ll_tokens.length = la.ll_tokens.length + ln.ll_tokens.length := by
      rw [t1, t2, t3]; simp
    rw [this, h3, Nat.add_sub_cancel]
    exact hw
  · intro hz
    cases after with
    | nil => exact absurd rfl hz
    | cons a as =>
      have e : inputsOf W (docAfter (a :: as)) = [.Text ['\n'] []] ++ inputsOf W (a :: docAfter as) := by
        rw [show docAfter (a :: as) = [['\n']] ++ (a :: docAfter as) by simp [docAfter], inputsOf_append]
        rfl
      obtain ⟨la, ln, h1, h2, h3, hw⟩ := wall (inputsOf W (docBefore before) ++ [.Text s []]) (inputsOf W (a :: docAfter as)) (by
        rw [e]; simp)
      have wfa : ∀ t ∈ inputsOf W (docBefore before) ++ [.Text s []], t.WF := fun t ht => wf t (by
        rw [← List.append_assoc]; exact List.mem_append_left _ ht)
      obtain ⟨_, t1, _⟩ := create_inv wfa h1
      obtain ⟨_, t2, _⟩ := create_inv (fun t ht => wfa t (List.mem_append_left _ ht)) okx
      obtain ⟨_, t3, _⟩ := create_inv (fun t ht => wfa t (List.mem_append_right _ ht)) oks
      have : lx.ll_tokens.length + ls.ll_tokens.length = la.ll_tokens.length := by
        rw [t1, t2, t3]; simp
      rw [this]
      exact hw

/-- the document `in New York⏎New⏎York`: its second line has no city -/
example := C158_document Demo.demoUax rfl rfl ["in New York".toList] "New".toList ["York".toList] (by decide)
  (by
    intro t ht c hc
    simp only [List.cons_append, List.nil_append, List.mem_cons, List.not_mem_nil, or_false] at ht
    rcases ht with rfl | rfl | rfl <;> (cases hc; decide))
  (by decide) [(1, 1, Demo.word), (2, 2, Demo.city)]
  (by
    intro p hp
    simp only [List.mem_cons, List.not_mem_nil, or_false] at hp
    rcases hp with rfl | rfl
    · exact Demo.city_stops _ (by simp)
    · exact Demo.city_stops _ (by simp)) rfl rfl (.inr ⟨_, rfl, rfl⟩)

/-- C158 is false of rules that do not stop: with any white space between `New` and `York`, as in `Demo.state`, a state is found
over the lines of `New⏎York`. -/
theorem C158_stop_needed : ∃ m, runAll Demo.wallLine (ruleRuns [(1, Demo.word), (2, Demo.state)]) = .ok m ∧
    ∃ q, m.query (Ty.user 2) = .ok q ∧ ¬ NoneAcross 2 1 q :=
  ⟨_, rfl, [((0, 2), "New\nYork".toList, [("NY".toList : Str), ("NYC".toList : Str)])], rfl,
    fun h => absurd (h _ (.head _) (by decide) (by decide)).1 (by decide)⟩

end LNlp
