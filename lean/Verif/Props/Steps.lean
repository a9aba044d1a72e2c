import Verif.Lemmas.Steps
import Verif.Props.Together
import Verif.Props.Wall
import Verif.Demo.Grammar
/- C163: pipelines of resolvers of the library and of rules, on lines put together from parts. -/
namespace LNlp
variable {W : World}

/-- C163: a pipeline in which resolvers of the library that do not cross the cut between two parts and rules, also with
exceptions and choices, that stop at the last token of the first part, or at the first token of the second, and have no
exception there, follow each other in any order, also if several of them assign the same type, runs on the whole exactly
if it runs on both parts. Then the finished line has the tokens of
the finished parts, and the attributes of the finished parts in some order, those of the second part moved behind the
first. -/
theorem C163_pipeline {size : Str → Nat} {xs ys : List (InputToken W)} {l lx ly : LLLine W}
    (wf : ∀ t ∈ xs ++ ys, t.WF) (ok : createLineFromInputTokens W (xs ++ ys) size = .ok l)
    (okx : createLineFromInputTokens W xs size = .ok lx) (oky : createLineFromInputTokens W ys size = .ok ly)
    (nx : xs ≠ []) (ny : ys ≠ []) {ss : List (Step W)} (own : OwnSteps ss)
    (cut : ∀ s ∈ ss, s.Cut lx (creationHistory W size xs) ly (creationHistory W size ys)) (p px py : Nat → Nat)
    (stop : StopWhenRun (lx.ll_tokens.length - 1) px ss lx ∨ StopWhenRun 0 py ss ly) :
    ((∃ l', runAll l (stepsAt p ss) = .ok l') ↔
      (∃ lx', runAll lx (stepsAt px ss) = .ok lx') ∧ ∃ ly', runAll ly (stepsAt py ss) = .ok ly') ∧
    ∀ l' lx' ly', runAll l (stepsAt p ss) = .ok l' → runAll lx (stepsAt px ss) = .ok lx' → runAll ly (stepsAt py ss) = .ok ly' →
      TokensBeside l' lx' ly' ∧ ∀ k, QueryTogether l' lx' ly' k := by
  rcases mixed_steps ss (mixed_create wf ok okx oky nx ny) own cut p px py stop with
    ⟨l', lx', ly', h', hx', hy', r, rx, ry, M⟩ | ⟨⟨e, he⟩, hxy⟩
  · refine ⟨⟨fun _ => ⟨⟨lx', rx⟩, ⟨ly', ry⟩⟩, fun _ => ⟨l', r⟩⟩, fun a b c ha hb hc => ?_⟩
    cases r.symm.trans ha
    cases rx.symm.trans hb
    cases ry.symm.trans hc
    have hh := M.hl.spec
    have hhx := M.hlx.spec
    have hhy := M.hly.spec
    exact ⟨M.tokens, queryTogether_of_history hh.1 hhx.1 hhy.1 hh.2 hhx.2 hhy.2 M.tokens M.values⟩
  · refine ⟨⟨fun ⟨l', h⟩ => (by rw [he] at h; cases h), fun ⟨⟨lx', h1⟩, ⟨ly', h2⟩⟩ => ?_⟩, fun a b c ha => (by rw [he] at ha; cases ha)⟩
    rcases hxy with ⟨e, h⟩ | ⟨e, h⟩
    · rw [h] at h1; cases h1
    · rw [h] at h2; cases h2

/-- two words of the tables with a space between them -/
def Demo.twoWords : Rule Demo.W :=
  ⟨Ty.user 2, _, .seq (.attr (Ty.user 5)) (.seq (.attrEq Ty.char ' ') (.attr (Ty.user 5))), fun _ => [("two".toList : Str)]⟩
def Demo.steps : List (Step Demo.W) :=
  [.stage (.table Demo.table), .stage (.table Demo.tableNow), .rule true Demo.twoWords]

theorem Demo.steps_own : OwnSteps Demo.steps := by
  intro s hs
  simp only [Demo.steps, List.mem_cons, List.not_mem_nil, or_false] at hs
  rcases hs with rfl | rfl | rfl <;> exact ⟨(by intro h; cases h), (by intro h; cases h)⟩

theorem Demo.steps_end (c : Char) : ∀ s ∈ Demo.steps, s.EndsAt c := by
  intro s hs
  simp only [Demo.steps, List.mem_cons, List.not_mem_nil, or_false] at hs
  rcases hs with rfl | rfl | rfl <;> trivial

theorem Demo.steps_cut (lx ly : LLLine Demo.W) (hx hy : History Demo.W) : ∀ s ∈ Demo.steps, s.Cut lx hx ly hy := by
  intro s hs
  simp only [Demo.steps, List.mem_cons, List.not_mem_nil, or_false] at hs
  rcases hs with rfl | rfl | rfl <;> trivial

/-- on a newline by itself -/
theorem Demo.steps_stop (q : Nat → Nat) : ∀ l, createLineFromString Demo.W ['\n'] = .ok l → StopWhenRun 0 q Demo.steps l := by
  intro l hl
  have e : creationHistory Demo.W utf8Len [.Text ['\n'] []] = [⟨.char, (0, 0), '\n'⟩, ⟨.textTag, (0, 0), TextTag.SPACE⟩] := rfl
  have h0 : Honest l [⟨.char, (0, 0), '\n'⟩, ⟨.textTag, (0, 0), TextTag.SPACE⟩] :=
    e ▸ .create _ _ _ (string_wf _) hl
  cases hl
  refine ⟨trivial, fun l1 r1 => ⟨trivial, fun l2 r2 => ⟨?_, fun _ _ => trivial⟩⟩⟩
  have h1 := Honest.run _ _ (q 0) Demo.table.resolver [] l1 h0 (by intro h; cases h) ⟨rfl, by simp⟩ r1
  cases r1
  have h2 := Honest.run _ _ (q 1) Demo.tableNow.resolver [] l2 h1 (by intro h; cases h) ⟨rfl, by simp⟩ r2
  intro h hh
  have mem : ∀ x ∈ h, x = ⟨.char, (0, 0), '\n'⟩ ∨ x = ⟨.textTag, (0, 0), TextTag.SPACE⟩ := by
    intro x hx
    have := (honest_mem hh h2 x).1 hx
    simpa using this
  have no : ∀ (Q : Str → Prop), (Pat.attr (W := Demo.W) (Ty.user 5)).Stops l2 (· ∈ h) 0 Q := by
    intro Q r v hm
    rcases mem _ hm with hm | hm <;> cases hm
  refine ⟨no _, ?_, no _⟩
  intro r w hv hm
  rcases mem _ hm with hm | hm
  · cases hm
    exact absurd hv (by decide)
  · cases hm

/-- a word of the tables that is not the first of two with a space between them -/
def Demo.loneWord : ERule Demo.W :=
  ⟨Ty.user 2, _, .unless (.attr (Ty.user 5)) (.seq (.attr (Ty.user 5)) (.seq (.attrEq Ty.char ' ') (.attr (Ty.user 5)))),
    fun _ => [("lone".toList : Str)]⟩
def Demo.exceptSteps : List (Step Demo.W) :=
  [.stage (.table Demo.table), .stage (.table Demo.tableNow), .erule true Demo.loneWord]

theorem Demo.exceptSteps_own : OwnSteps Demo.exceptSteps := by
  intro s hs
  simp only [Demo.exceptSteps, List.mem_cons, List.not_mem_nil, or_false] at hs
  rcases hs with rfl | rfl | rfl <;> exact ⟨(by intro h; cases h), (by intro h; cases h)⟩

theorem Demo.exceptSteps_end (c : Char) : ∀ s ∈ Demo.exceptSteps, s.EndsAt c := by
  intro s hs
  simp only [Demo.exceptSteps, List.mem_cons, List.not_mem_nil, or_false] at hs
  rcases hs with rfl | rfl | rfl <;> trivial

theorem Demo.loneWord_stops {l : LLLine Demo.W} {h : History Demo.W}
    (mem : ∀ x ∈ h, x = ⟨.char, (0, 0), '\n'⟩ ∨ x = ⟨.textTag, (0, 0), TextTag.SPACE⟩) :
    Demo.loneWord.Stops l (· ∈ h) 0 ∧ Demo.loneWord.pat.Clear l (· ∈ h) 0 := by
  have no : ∀ (Q : Str → Prop), (EPat.attr (W := Demo.W) (Ty.user 5)).Stops l (· ∈ h) 0 Q := by
    intro Q r v hm
    rcases mem _ hm with hm | hm <;> cases hm
  refine ⟨no _, ⟨no _, ?_, no _⟩, trivial, trivial, trivial, trivial⟩
  intro r w hv hm
  rcases mem _ hm with hm | hm
  · cases hm
    exact absurd hv (by decide)
  · cases hm

/-- on a newline by itself -/
theorem Demo.exceptSteps_stop (q : Nat → Nat) :
    ∀ l, createLineFromString Demo.W ['\n'] = .ok l → StopWhenRun 0 q Demo.exceptSteps l := by
  intro l hl
  have e : creationHistory Demo.W utf8Len [.Text ['\n'] []] = [⟨.char, (0, 0), '\n'⟩, ⟨.textTag, (0, 0), TextTag.SPACE⟩] := rfl
  have h0 : Honest l [⟨.char, (0, 0), '\n'⟩, ⟨.textTag, (0, 0), TextTag.SPACE⟩] :=
    e ▸ .create _ _ _ (string_wf _) hl
  cases hl
  refine ⟨trivial, fun l1 r1 => ⟨trivial, fun l2 r2 => ?_⟩⟩
  have h1 := Honest.run _ _ (q 0) Demo.table.resolver [] l1 h0 (by intro h; cases h) ⟨rfl, by simp⟩ r1
  cases r1
  have h2 := Honest.run _ _ (q 1) Demo.tableNow.resolver [] l2 h1 (by intro h; cases h) ⟨rfl, by simp⟩ r2
  exact ⟨fun h hh => Demo.loneWord_stops fun x hx => (by simpa using (honest_mem hh h2 x).1 hx), fun _ _ => trivial⟩

/-- `pay` and `⏎` -/
example := C163_pipeline (xs := Demo.payY) (ys := [.Text ['\n'] []]) (size := utf8Len) (by
    intro t ht x hx
    simp only [Demo.payY, List.cons_append, List.nil_append, List.mem_cons, List.not_mem_nil, or_false] at ht
    rcases ht with rfl | rfl <;> cases hx) (Demo.getOk_eq (d := Demo.emptyLine) rfl) (Demo.getOk_eq (d := Demo.emptyLine) rfl)
  (Demo.getOk_eq (d := Demo.emptyLine) rfl) (by decide) (by decide) Demo.steps_own (Demo.steps_cut _ _ _ _) id id id
  (.inr (Demo.steps_stop id _ rfl))

/-- C163 also for rules that do not stop -/
def C163_no_stop_claim : Prop := ∀ (W : World) (size : Str → Nat) (xs ys : List (InputToken W)) (l lx ly l' lx' ly' : LLLine W)
  (ss : List (Step W)) (k : Ty W), createLineFromInputTokens W (xs ++ ys) size = .ok l →
  createLineFromInputTokens W xs size = .ok lx → createLineFromInputTokens W ys size = .ok ly →
  (∀ t ∈ xs ++ ys, t.attrList = []) → OwnSteps ss →
  (∀ s ∈ ss, s.Cut lx (creationHistory W size xs) ly (creationHistory W size ys)) →
  runAll l (stepsAt id ss) = .ok l' → runAll lx (stepsAt id ss) = .ok lx' → runAll ly (stepsAt id ss) = .ok ly' →
  QueryTogether l' lx' ly' k

def Demo.spaceNow : List (InputToken Demo.W) := [.Text [' '] [], .Text ['n', 'o', 'w'] []]
def Demo.stepped (input : List (InputToken Demo.W)) : LLLine Demo.W :=
  Demo.getOk Demo.emptyLine (runAll (Demo.made input) (stepsAt id Demo.steps))

/-- The two words of `pay now` are found in the whole, but neither in `pay` nor in ` now`. -/
theorem C163_no_stop_false : ¬ C163_no_stop_claim := by
  intro h
  have := h Demo.W utf8Len Demo.payY Demo.spaceNow (Demo.made (Demo.payY ++ Demo.spaceNow)) (Demo.made Demo.payY) (Demo.made Demo.spaceNow)
    (Demo.stepped (Demo.payY ++ Demo.spaceNow)) (Demo.stepped Demo.payY) (Demo.stepped Demo.spaceNow)
    Demo.steps (Ty.user 2) (Demo.getOk_eq rfl) (Demo.getOk_eq rfl) (Demo.getOk_eq rfl) (by
      intro t ht
      simp only [Demo.payY, Demo.spaceNow, List.cons_append, List.nil_append, List.mem_cons, List.not_mem_nil, or_false] at ht
      rcases ht with rfl | rfl | rfl <;> rfl) Demo.steps_own (Demo.steps_cut _ _ _ _)
    (Demo.getOk_eq rfl) (Demo.getOk_eq rfl) (Demo.getOk_eq rfl)
  have := this.length_eq
  revert this
  decide

/-- C163 also for rules that stop, but have exceptions that do not -/
def C163_exceptions_claim : Prop := ∀ (W : World) (size : Str → Nat) (xs ys : List (InputToken W)) (l lx ly l' lx' ly' : LLLine W)
  (r : ERule W) (k : Ty W), createLineFromInputTokens W (xs ++ ys) size = .ok l →
  createLineFromInputTokens W xs size = .ok lx → createLineFromInputTokens W ys size = .ok ly →
  (∀ t ∈ xs ++ ys, t.attrList = []) → OwnSteps [.erule false r] → r.Stops ly (· ∈ creationHistory W size ys) 0 →
  runAll l (stepsAt id [.erule false r]) = .ok l' → runAll lx (stepsAt id [.erule false r]) = .ok lx' →
  runAll ly (stepsAt id [.erule false r]) = .ok ly' → QueryTogether l' lx' ly' k

def Demo.broken (input : List (InputToken Demo.W)) : LLLine Demo.W :=
  Demo.getOk Demo.emptyLine (runAll (Demo.made input) (stepsAt id [.erule false Demo.brokenWord]))

/-- A rule for words that are not before a newline finds nothing in `pay⏎`, but `pay` in `pay`. -/
theorem C163_exceptions_false : ¬ C163_exceptions_claim := by
  intro h
  have := h Demo.W utf8Len Demo.payY [.Text ['\n'] []] (Demo.made (Demo.payY ++ [.Text ['\n'] []])) (Demo.made Demo.payY)
    (Demo.made [.Text ['\n'] []])
    (Demo.broken (Demo.payY ++ [.Text ['\n'] []])) (Demo.broken Demo.payY) (Demo.broken [.Text ['\n'] []])
    Demo.brokenWord (Ty.user 2) (Demo.getOk_eq rfl) (Demo.getOk_eq rfl) (Demo.getOk_eq rfl) (by
      intro t ht
      simp only [Demo.payY, List.cons_append, List.nil_append, List.mem_cons, List.not_mem_nil, or_false] at ht
      rcases ht with rfl | rfl <;> rfl)
    (by
      intro s hs
      rw [List.mem_singleton.1 hs]
      exact ⟨(by intro h; cases h), (by intro h; cases h)⟩)
    (by
      intro r w hv hm
      rcases List.mem_cons.1 hm with hm | hm
      · cases hm
      · cases List.mem_singleton.1 hm
        exact absurd hv (by decide))
    (Demo.getOk_eq rfl) (Demo.getOk_eq rfl) (Demo.getOk_eq rfl)
  have := this.length_eq
  revert this
  decide

/-- C163 for a text with a word boundary between two parts. -/
theorem C163_text (L : SplitLaws W) (S : SplitStable W) {a b : Str} (na : a ≠ []) (nb : b ≠ []) (brk : WordBreak W a b)
    (fits : utf8Len (a ++ b) < W.usizeBound) {ss : List (Step W)} (own : OwnSteps ss)
    (cut : ∀ la lb, createLineFromString W a = .ok la → createLineFromString W b = .ok lb → ∀ s ∈ ss,
      s.Cut la (creationHistory W utf8Len [.Text a []]) lb (creationHistory W utf8Len [.Text b []])) (p pa pb : Nat → Nat)
    (stop : ∀ la lb, createLineFromString W a = .ok la → createLineFromString W b = .ok lb →
      StopWhenRun (la.ll_tokens.length - 1) pa ss la ∨ StopWhenRun 0 pb ss lb) :
    ((∃ l, AnalysedBy p ss (a ++ b) l) ↔ (∃ la, AnalysedBy pa ss a la) ∧ ∃ lb, AnalysedBy pb ss b lb) ∧
    ∀ l la lb, AnalysedBy p ss (a ++ b) l → AnalysedBy pa ss a la → AnalysedBy pb ss b lb →
      TokensBeside l la lb ∧ ∀ k, QueryTogether l la lb k := by
  have wf : ∀ t ∈ [InputToken.Text (W := W) a []] ++ [.Text b []], t.WF := by
    intro t ht x hx
    simp only [List.cons_append, List.nil_append, List.mem_cons, List.not_mem_nil, or_false] at ht
    rcases ht with rfl | rfl <;> cases hx
  have both := create_both L S na nb brk fits
  have main := fun {l la lb : LLLine W} (ok : createLineFromString W (a ++ b) = .ok l) (oka : createLineFromString W a = .ok la)
      (okb : createLineFromString W b = .ok lb) =>
    C163_pipeline (size := utf8Len) wf ((create_break L S na nb brk l).1 ok) oka okb (by simp) (by simp) own
      (cut la lb oka okb) p pa pb (stop la lb oka okb)
  constructor
  · constructor
    · rintro ⟨l', l, ok, r⟩
      obtain ⟨⟨la, oka⟩, ⟨lb, okb⟩⟩ := both.1 ⟨l, ok⟩
      obtain ⟨⟨la', ra⟩, ⟨lb', rb⟩⟩ := (main ok oka okb).1.1 ⟨l', r⟩
      exact ⟨⟨la', la, oka, ra⟩, ⟨lb', lb, okb, rb⟩⟩
    · rintro ⟨⟨la', la, oka, ra⟩, ⟨lb', lb, okb, rb⟩⟩
      obtain ⟨l, ok⟩ := both.2 ⟨⟨la, oka⟩, ⟨lb, okb⟩⟩
      obtain ⟨l', r⟩ := (main ok oka okb).1.2 ⟨⟨la', ra⟩, ⟨lb', rb⟩⟩
      exact ⟨l', l, ok, r⟩
  · rintro l' la' lb' ⟨l, ok, r⟩ ⟨la, oka, ra⟩ ⟨lb, okb, rb⟩
    exact (main ok oka okb).2 l' la' lb' r ra rb

/-- C163 for a text cut into many parts. -/
theorem C163_parts (L : SplitLaws W) (S : SplitStable W) {ss : List (Step W)} (own : OwnSteps ss) (q : Nat → Nat) :
    ∀ (ts : List Str), ts ≠ [] → CutSteps W q ss ts → utf8Len ts.flatten < W.usizeBound → ∀ (p : Nat → Nat),
    ((∃ l, AnalysedBy p ss ts.flatten l) ↔ ∀ t ∈ ts, ∃ l, AnalysedBy q ss t l) ∧
    ∀ (l : LLLine W) (ls : List (LLLine W)), AnalysedBy p ss ts.flatten l → AnalysedEach q ss ts ls →
      l.ll_tokens.map (·.token) = ls.flatMap (fun x => x.ll_tokens.map (·.token)) ∧ ∀ k, (queried l k).Perm (queriedAll k 0 ls)
  | [], ne, _, _, _ => absurd rfl ne
  | [t], _, ht, fits, p => by
    have e : [t].flatten = t := by simp
    rw [e]
    have same : ∀ l, AnalysedBy p ss t l ↔ AnalysedBy q ss t l := analysedBy_ptr ss t p q
    refine ⟨?_, fun l ls hl hls => ?_⟩
    · simp only [List.mem_singleton, forall_eq, same]
    · cases ls with
      | nil => exact hls.elim
      | cons l' ls =>
        cases ls with
        | cons _ _ => exact hls.2.elim
        | nil =>
          obtain ⟨l0, h0, h1⟩ := (same l).1 hl
          obtain ⟨l0', h0', h1'⟩ := hls.1
          cases h0.symm.trans h0'
          cases h1.symm.trans h1'
          refine ⟨by simp, fun k => ?_⟩
          rw [queriedAll, queriedAll, shiftEntry_zero, List.map_id, List.append_nil]
  | t :: u :: rest, _, ⟨ht, brk, ⟨c, hc, he⟩, hst, hrest⟩, fits, p => by
    have hne : (u :: rest).flatten ≠ [] := by
      cases rest with
      | nil => simpa [CutSteps] using hrest
      | cons v rest => simp [hrest.1]
    have e : (t :: u :: rest).flatten = t ++ (u :: rest).flatten := rfl
    have hu := utf8Len_append t (u :: rest).flatten
    rw [e] at fits ⊢
    have ih := C163_parts L S own q (u :: rest) (by simp) hrest (by omega) p
    have main := C163_text L S ht hne brk fits own
      (fun la lb oka _ s hs => step_cut_of_end L hc (he s hs) oka _) p q p (fun la _ oka _ => .inl (hst la oka))
    constructor
    · rw [List.forall_mem_cons, ← ih.1]
      exact main.1
    · intro l ls hl hls
      cases ls with
      | nil => exact hls.elim
      | cons la ls =>
        obtain ⟨ha, hls⟩ := hls
        obtain ⟨_, ⟨lb, hb⟩⟩ := main.1.1 ⟨l, hl⟩
        obtain ⟨ht', hq'⟩ := main.2 l la lb hl ha hb
        obtain ⟨it, iq⟩ := ih.2 lb ls hb hls
        refine ⟨?_, fun k => (hq' k).trans ?_⟩
        · rw [List.flatMap_cons, ← it]; exact ht'
        · have := ((iq k).map (shiftEntry la.ll_tokens.length)).append_left (queried la k)
          rw [queriedAll_shift] at this
          rw [queriedAll, shiftEntry_zero, List.map_id, Nat.zero_add]
          exact this

/-- C163 for the lines of a document: it is enough that no resolver of the library goes over a newline and that, when the
pipeline runs on a text that is just a newline, each rule stops at it when its turn comes and has no exception over it. -/
theorem C163_document {cls : Char → WBChar} (U : Uax29 W cls) (nl : (cls '\n').cls = .lf) {ss : List (Step W)}
    (own : OwnSteps ss) (ends : ∀ s ∈ ss, s.EndsAt '\n') (r : Nat → Nat)
    (stop : ∀ l, createLineFromString W ['\n'] = .ok l → StopWhenRun 0 r ss l) (ls : List Str) (last : Str)
    (hcr : ∀ s ∈ ls, ∀ d, s.getLast? = some d → (cls d).cls ≠ .cr)
    (ne : ls ≠ [] ∨ last ≠ []) (fits : utf8Len (docLines ls last).flatten < W.usizeBound) (p q : Nat → Nat) :
    ((∃ l, AnalysedBy p ss (docLines ls last).flatten l) ↔ ∀ t ∈ docLines ls last, ∃ l, AnalysedBy q ss t l) ∧
    ∀ (l : LLLine W) (xs : List (LLLine W)), AnalysedBy p ss (docLines ls last).flatten l → AnalysedEach q ss (docLines ls last) xs →
      l.ll_tokens.map (·.token) = xs.flatMap (fun x => x.ll_tokens.map (·.token)) ∧
      ∀ k, (queried l k).Perm (queriedAll k 0 xs) :=
  C163_parts (C124_split_laws U) (C124_split_stable U) own q _
    (by
      rcases ne with h | h
      · cases ls with
        | nil => exact absurd rfl h
        | cons a as => simp [docLines]
      · simp [docLines, h])
    (cutSteps_doc U nl own ends q r stop ls last hcr fits) fits p

/-- the document `now⏎pay now` -/
example := C163_document Demo.demoUax rfl Demo.steps_own (Demo.steps_end _) id (Demo.steps_stop id) ["now".toList] "pay now".toList
  (by
    intro s hs d hd
    rw [List.mem_singleton.1 hs] at hd
    cases hd
    decide)
  (.inr (by decide)) (by decide) id id

/-- and with a rule with an exception -/
example := C163_document Demo.demoUax rfl Demo.exceptSteps_own (Demo.exceptSteps_end _) id (Demo.exceptSteps_stop id)
  ["now".toList] "pay now".toList
  (by
    intro s hs d hd
    rw [List.mem_singleton.1 hs] at hd
    cases hd
    decide)
  (.inr (by decide)) (by decide) id id

end LNlp
