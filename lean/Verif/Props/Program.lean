import Verif.Lemmas.ProgramCareful
import Verif.Lemmas.ProgramLines
import Verif.Props.Compose
import Verif.Props.Pipeline
/- Properties C119–C121: resolvers written against the public API. -/
namespace LNlp
variable {W : World}

/-! ### C119: positions influence nothing but positions -/

/-- C119: creating a line from the same inputs with another size function, and with other sizes of the custom
tokens, succeeds too unless the positions overflow, and gives the same tokens and attributes. -/
theorem C119_creation {input input' : List (InputToken W)} {size size' : Str → Nat} {l : LLLine W}
    (wf : ∀ t ∈ input, t.WF) (wf' : ∀ t ∈ input', t.WF)
    (hi : input.map InputToken.withoutSize = input'.map InputToken.withoutSize)
    (ok : createLineFromInputTokens W input size = .ok l)
    (ho : W.overflowChecks = false ∨ totalSize (input'.flatMap (tokensOf W size')) < W.usizeBound) :
    ∃ l', createLineFromInputTokens W input' size' = .ok l' ∧ SameButPositions l l' := by
  have hg := (create_inv wf ok).1
  have hg' : ∀ t ∈ input', GoodInput W t := by
    intro t ht
    have h1 : t.withoutSize ∈ input.map InputToken.withoutSize := by rw [hi]; exact List.mem_map.2 ⟨t, ht, rfl⟩
    obtain ⟨u, hu, he⟩ := List.mem_map.1 h1
    have h2 := hg u hu
    cases t with
    | Custom _ _ => trivial
    | Text s as =>
      cases u with
      | Custom _ _ => cases he
      | Text s' as' => cases he; exact h2
  obtain ⟨l', h'⟩ := create_ok wf' hg' ho
  exact ⟨l', h', sizes_same hi ok h'⟩

def Demo.sizedA : List (InputToken Demo.W) := [.Text ['d','é',' ','$','1'] [], .Custom 3 [], .Text ['5',' ','x'] []]
def Demo.sizedB : List (InputToken Demo.W) := [.Text ['d','é',' ','$','1'] [], .Custom 70 [], .Text ['5',' ','x'] []]
theorem Demo.sizedA_wf : ∀ t ∈ Demo.sizedA, t.WF := by
  simp [Demo.sizedA, InputToken.WF, InputToken.attrList]
theorem Demo.sizedB_wf : ∀ t ∈ Demo.sizedB, t.WF := by
  simp [Demo.sizedB, InputToken.WF, InputToken.attrList]
def Demo.sizedLineA : LLLine Demo.W := Demo.getOk Demo.emptyLine (createLineFromInputTokens Demo.W Demo.sizedA utf8Len)
def Demo.sizedLineB : LLLine Demo.W := Demo.getOk Demo.emptyLine (createLineFromInputTokens Demo.W Demo.sizedB Demo.utf16Len)
theorem Demo.sizedSame : SameButPositions Demo.sizedLineA Demo.sizedLineB :=
  sizes_same (input := Demo.sizedA) (input' := Demo.sizedB) (size := utf8Len) (size' := Demo.utf16Len) rfl rfl rfl

example := C119_creation (input := Demo.sizedA) (input' := Demo.sizedB) (size := utf8Len) (size' := Demo.utf16Len)
  (l := Demo.sizedLineA) Demo.sizedA_wf Demo.sizedB_wf rfl rfl (.inr (by decide))

/-- the positions of the two example lines do differ -/
example : Demo.sizedLineA.ll_tokens.map (·.pos_starts_at) ≠ Demo.sizedLineB.ll_tokens.map (·.pos_starts_at) := by decide

/-- C119: every resolver written against the public API with the library's matchers assigns the same to both
lines, or panics alike on both, wherever the lines are stored. -/
theorem C119_resolvers {l l' : LLLine W} (s : SameButPositions l l') (ne : l.ll_tokens ≠ []) {r : Resolver W}
    (hr : ByApi (fun m => Builtin m) r) (ptr ptr' : Nat) :
    r.go (wholeLine l ptr) = r.go (wholeLine l' ptr') :=
  (byApi_sim (b := true) s.agree.len ne (fun _ hm => s.agree.built hm) hr ptr ptr').eq

/-- C119: the library's own resolvers and those of the currency example are written against the public API -/
theorem C119_library :
    (∀ st : Stage W, ByApi (fun m => Builtin m) st.resolver) ∧
    (∀ (k : Ty W) (usd euro : Val k), ByApi (fun m => Builtin m) (currencySymbolResolver usd euro)) ∧
    (∀ (kSym kAmt k : Ty W) (mk : Val kSym → Val kAmt → Val k), ByApi (fun m => Builtin m) (currencyAmountResolver mk)) := by
  have weaken : ∀ {T : Ty W → Prop} {r : Resolver W}, ByApi (fun m => Built T true m) r → ByApi (fun m => Builtin m) r := by
    rintro T r ⟨p, hp, he⟩
    exact ⟨p, fun x => (hp x).mono (fun _ hm => built_weaken hm), he⟩
  exact ⟨fun st => weaken (stage_byApi st), fun _ usd euro => weaken (symbol_byApi usd euro), fun _ _ _ mk => weaken (money_byApi mk)⟩

example := C119_resolvers Demo.sizedSame (by decide) (C119_library.1 (.amounts .english)) 3 9

/-- C119: hence so does every sequence of such resolvers: both sequences panic alike, or end in lines that
differ in positions only. -/
theorem C119_pipelines {l l' : LLLine W} (s : SameButPositions l l') (rs rs' : List (Nat × Resolver W))
    (he : rs.map (·.2) = rs'.map (·.2)) (hr : ∀ p ∈ rs, ByApi (fun m => Builtin m) p.2) :
    SameResult (runAll l rs) (runAll l' rs') := runAll_same s he hr

/-- C119: on two lines that differ in positions only, queries, displays and the values found are the same -/
theorem C119_observers {l l' : LLLine W} (s : SameButPositions l l') :
    (∀ k, l.query k = l'.query k) ∧ (∀ ks, shownWith l ks = shownWith l' ks) ∧
    ∀ {Out : Type} (m : XMatch W Out), Builtin m →
      okMap (List.map LLLineFind.found) (l.find m) = okMap (List.map LLLineFind.found) (l'.find m) :=
  ⟨query_same s, display_same s, fun _ hm => find_same s hm⟩

example := C119_pipelines Demo.sizedSame [(1, Stage.pos.resolver), (2, (Stage.table (k := Ty.user (W := Demo.W) (5 : Nat)) ⟨true, fun _ => some [(['y'] : Str)]⟩).resolver)]
  [(8, Stage.pos.resolver), (9, (Stage.table (k := Ty.user (W := Demo.W) (5 : Nat)) ⟨true, fun _ => some [(['y'] : Str)]⟩).resolver)] rfl (by
    intro p hp
    simp only [List.mem_cons, List.not_mem_nil, or_false] at hp
    rcases hp with rfl | rfl <;> exact C119_library.1 _)
example := C119_observers Demo.sizedSame

/-- C119, end to end: from the same inputs measured differently, after the same resolvers, queries, displays and
the values found are the same. -/
theorem C119_end_to_end {input input' : List (InputToken W)} {size size' : Str → Nat} {l l' : LLLine W}
    (hi : input.map InputToken.withoutSize = input'.map InputToken.withoutSize)
    (ok : createLineFromInputTokens W input size = .ok l) (ok' : createLineFromInputTokens W input' size' = .ok l')
    (rs rs' : List (Nat × Resolver W)) (he : rs.map (·.2) = rs'.map (·.2)) (hr : ∀ p ∈ rs, ByApi (fun m => Builtin m) p.2)
    {l1 : LLLine W} (hrun : runAll l rs = .ok l1) :
    ∃ l1', runAll l' rs' = .ok l1' ∧ (∀ k, l1.query k = l1'.query k) ∧ (∀ ks, shownWith l1 ks = shownWith l1' ks) ∧
      ∀ {Out : Type} (m : XMatch W Out), Builtin m →
        okMap (List.map LLLineFind.found) (l1.find m) = okMap (List.map LLLineFind.found) (l1'.find m) := by
  have h := C119_pipelines (sizes_same hi ok ok') rs rs' he hr
  rw [hrun] at h
  cases h2 : runAll l' rs' with
  | error e => rw [h2] at h; exact h.elim
  | ok l1' => rw [h2] at h; exact ⟨l1', rfl, C119_observers h⟩

example := C119_end_to_end (input := Demo.sizedA) (input' := Demo.sizedB) (size := utf8Len) (size' := Demo.utf16Len)
  (l := Demo.sizedLineA) (l' := Demo.sizedLineB) rfl rfl rfl [(1, Stage.pos.resolver)] [(4, Stage.pos.resolver)] rfl
  (by intro p hp; rw [List.mem_singleton.1 hp]; exact C119_library.1 .pos) (l1 := Demo.runOk Demo.sizedLineA 1 Stage.pos.resolver) rfl

/-! ### C120: a resolver is blind to the types it does not mention -/

/-- C120: what a resolver assigns, written against the public API with matchers that mention only the attribute
types in `T`, is not changed by running before it a resolver of an attribute type outside `T`. -/
theorem C120_blind {T : Ty W → Prop} {r : Resolver W} (hr : ByApi (fun m => Built T true m) r) (k : Ty W) (hk : ¬ T k) :
    Blind k r := by
  intro l l' h r' ptr p p' asgs _ ne hk' hrun hgo
  have ha : LineAgree false T l l' := run_agree (by rw [hk']; exact hk) hrun
  exact (byApi_sim (b := false) ha.len ne (fun _ hm => ha.built hm) hr p p').ok hgo

/-- C120: two such resolvers of different attribute types, neither mentioning the type of the other, give the
very same line in either order. -/
theorem C120_commute {l l1 l2 : LLLine W} {h : History W} (hr : Reachable l h) (ne : l.ll_tokens ≠ [])
    {T1 T2 : Ty W → Prop} {r1 r2 : Resolver W} (h1 : ByApi (fun m => Built T1 true m) r1)
    (h2 : ByApi (fun m => Built T2 true m) r2) (hk : r1.attr ≠ r2.attr) (hb1 : ¬ T1 r2.attr) (hb2 : ¬ T2 r1.attr)
    (p1 p2 p3 p4 : Nat) (ok1 : l.run p1 r1 = .ok l1) (ok2 : l.run p3 r2 = .ok l2) :
    ∃ l12, l1.run p2 r2 = .ok l12 ∧ l2.run p4 r1 = .ok l12 :=
  C83_independent_resolvers_commute hr ne r1 r2 hk (C120_blind h1 _ hb1) (C120_blind h2 _ hb2) p1 p2 p3 p4 ok1 ok2

/-- C120: the second run of such a resolver that does not mention its own type repeats the first -/
theorem C120_twice {l l1 : LLLine W} {h : History W} (hr : Reachable l h) (ne : l.ll_tokens ≠ []) {T : Ty W → Prop}
    {r : Resolver W} (hb : ByApi (fun m => Built T true m) r) (hk : ¬ T r.attr) (p1 p2 : Nat) (ok : l.run p1 r = .ok l1) :
    ∃ (l2 : LLLine W) (new : History W), l1.run p2 r = .ok l2 ∧ l2.ll_tokens = l.ll_tokens ∧
      Reachable l1 (h ++ new) ∧ Reachable l2 (h ++ new ++ new) ∧
      (∀ k, k ≠ r.attr → l2.query k = l1.query k) ∧
      ∀ q, l1.query r.attr = .ok q → l2.query r.attr = .ok (q.map (fun e => (e.1, e.2.1, e.2.2 ++ valuesOf r.attr e.1 new))) :=
  C85_twice hr ne r (C120_blind hb _ hk) p1 p2 ok

/-- a resolver as a user might write it: it marks all numbers, or the first if a word follows it and it is the only one -/
def Demo.unitProg : LRange → Api Demo.W (Val (Ty.user (W := Demo.W) (5 : Nat))) := fun _ =>
  .call (.findBy 0 (X.attrEq .textTag .NATN)) (fun rs _ =>
    if rs = [] then .finish [] else
    .call (.matchForwards 1 (X.seq2 X.whitespace (X.attrEq .textTag .WORD))) (fun rs' _ =>
      if rs.length = 1 ∧ rs'.length = 1 then .finish [(1, ['u'])] else .finish ((List.range rs.length).map (fun i => (i + 1, ['n'])))))

theorem Demo.unitProg_plain (x : LRange) : (Demo.unitProg x).Uses (fun m => Built (fun t => t = Ty.textTag) false m) := by
  refine ⟨Built.attrEq (T := fun t => t = Ty.textTag) .textTag rfl _, fun rs _ => ?_⟩
  dsimp only
  split
  · trivial
  refine ⟨Built.seq2 (Built.attrEq (T := fun t => t = Ty.textTag) .textTag rfl _)
    (Built.attrEq (T := fun t => t = Ty.textTag) .textTag rfl _), fun rs' _ => ?_⟩
  dsimp only
  split <;> trivial

theorem Demo.unitProg_uses (x : LRange) : (Demo.unitProg x).Uses (fun m => Built (fun t => t = Ty.textTag) true m) := by
  refine ⟨Built.attrEq (T := fun t => t = Ty.textTag) .textTag rfl _, fun rs _ => ?_⟩
  dsimp only
  split
  · trivial
  refine ⟨Built.seq2 (Built.attrEq (T := fun t => t = Ty.textTag) .textTag rfl _)
    (Built.attrEq (T := fun t => t = Ty.textTag) .textTag rfl _), fun rs' _ => ?_⟩
  dsimp only
  split <;> trivial

theorem Demo.unitProg_byApi : ByApi (fun m => Built (fun t => t = Ty.textTag) true m)
    (apiResolver (W := Demo.W) (.user (5 : Nat)) Demo.unitProg) := ⟨Demo.unitProg, Demo.unitProg_uses, fun _ _ _ => rfl⟩

example := C120_blind Demo.unitProg_byApi .tag (by intro h; cases h)
example := C120_commute Demo.amountReach Demo.amountLine_ne Demo.unitProg_byApi (stage_byApi (W := Demo.W) .pos)
  (by intro h; cases h) (by intro h; cases h) (by intro h; cases h) 0 1 2 3
  (l1 := Demo.runOk Demo.amountLine 0 (apiResolver (W := Demo.W) (.user (5 : Nat)) Demo.unitProg))
  (l2 := Demo.runOk Demo.amountLine 2 Stage.pos.resolver) rfl rfl
example := C120_twice Demo.amountReach Demo.amountLine_ne Demo.unitProg_byApi (by intro h; cases h) 0 1
  (l1 := Demo.runOk Demo.amountLine 0 (apiResolver (W := Demo.W) (.user (5 : Nat)) Demo.unitProg)) rfl

/-- C120 needs matchers that do not mention the type: the claim for matchers of any kind -/
def C120_any_matcher_claim : Prop := ∀ (W : World) (T : Ty W → Prop) (r : Resolver W) (k : Ty W),
  ByApi (fun _ => True) r → ¬ T k → Blind k r

/-- a matcher written by a user can look at everything in the line -/
def Demo.nosy : XMatch Demo.W Unit := ⟨fun d l => match (X.attr (W := Demo.W) .tag).go d l with
  | .error e => .error e
  | .ok xs => .ok (xs.map (fun x => ((), x.2)))⟩

def Demo.nosyProg : LRange → Api Demo.W (Val (Ty.user (W := Demo.W) (5 : Nat))) := fun _ =>
  .call (.findBy 0 Demo.nosy) (fun rs _ => .finish (if rs = [] then [] else [(0, ['n'])]))

theorem C120_any_matcher_false : ¬ C120_any_matcher_claim := by
  intro hc
  have hb := hc Demo.W (fun _ => False) (apiResolver (.user (5 : Nat)) Demo.nosyProg) .tag
    ⟨Demo.nosyProg, fun _ => ⟨trivial, fun _ _ => trivial⟩, fun _ _ _ => rfl⟩ id
  have h1 := hb (Demo.lineOf "me".toList) (Demo.runOk (Demo.lineOf "me".toList) 0 (posTagResolver Demo.W)) _ (posTagResolver Demo.W) 0 0 0 []
    (.create [.Text "me".toList []] utf8Len _ (Demo.textWF _) rfl) (by decide) rfl rfl rfl
  cases h1

/-! ### C121: careful resolvers never panic -/

/-- C121: on a line whose attributes were assigned by well-behaved code, a program that uses only the selections it
has, does not panic by itself, does not call `after`, and uses the library's matchers except `token_has_any`, never
panics, and neither does running it as a resolver; the attributes of the new line are again assigned by well-behaved
code. -/
theorem C121_never_panics {l : LLLine W} {h : History W} (hh : Honest l h) (ne : l.ll_tokens ≠ []) {k : Ty W}
    {p : LRange → Api W (Val k)} (hc : ∀ x, (p x).Careful 1) {T : Ty W → Prop}
    (hu : ∀ x, (p x).Uses (fun m => Built T false m)) (ptr : Nat) :
    ∃ asgs l', (apiResolver k p).go (wholeLine l ptr) = .ok (asgs, false) ∧ l.run ptr (apiResolver k p) = .ok l' ∧
      Honest l' (h ++ asgs.map (recOf k)) := by
  obtain ⟨asgs, hr⟩ := apiResolver_honest hh ne hc (fun x => (hu x).mono (fun _ hm => usable_plain hh.spec.1 hm)) ptr
  obtain ⟨l', hok, hon⟩ := C23_honest_run_ok hh ne ptr _ asgs hr
  exact ⟨asgs, l', hr.1, hok, hon⟩

/-- C121: with `token_has_any` as well if every token of the line is a text or carries an attribute -/
theorem C121_testable {l : LLLine W} {h : History W} (hh : Honest l h) (ht : AllTestable l h) (ne : l.ll_tokens ≠ []) {k : Ty W}
    {p : LRange → Api W (Val k)} (hc : ∀ x, (p x).Careful 1) (hu : ∀ x, (p x).Uses (fun m => Builtin m)) (ptr : Nat) :
    ∃ asgs l', (apiResolver k p).go (wholeLine l ptr) = .ok (asgs, false) ∧ l.run ptr (apiResolver k p) = .ok l' ∧
      Honest l' (h ++ asgs.map (recOf k)) := by
  obtain ⟨asgs, hr⟩ := apiResolver_honest hh ne hc (fun x => (hu x).mono (fun _ hm => usable_testable hh.spec.1 ht hm)) ptr
  obtain ⟨l', hok, hon⟩ := C23_honest_run_ok hh ne ptr _ asgs hr
  exact ⟨asgs, l', hr.1, hok, hon⟩

theorem Demo.unitProg_careful (x : LRange) : (Demo.unitProg x).Careful 1 := by
  refine ⟨Nat.one_pos, fun rs _ _ => ?_⟩
  dsimp only
  split
  · intro v hv; cases hv
  rename_i hne
  have hpos := List.length_pos_iff.2 hne
  refine ⟨show 1 < 1 + rs.length by omega, fun rs' _ _ => ?_⟩
  dsimp only
  split
  · intro v hv
    rw [List.mem_singleton.1 hv]
    show 1 < 1 + rs.length + rs'.length
    omega
  · intro v hv
    obtain ⟨i, hi, rfl⟩ := List.mem_map.1 hv
    have := List.mem_range.1 hi
    show i + 1 < 1 + rs.length + rs'.length
    omega

example := C121_never_panics Demo.amountHonest Demo.amountLine_ne Demo.unitProg_careful Demo.unitProg_plain 7
example := C121_testable Demo.amountHonest (string_testable (str := "x 1'234.50, 7. y 8,".toList) rfl _) Demo.amountLine_ne
  Demo.unitProg_careful (fun x => (Demo.unitProg_uses x).mono (fun _ hm => built_weaken hm)) 7

/-- C121: any sequence of such programs runs through, displays as well, and leaves the tokens alone -/
theorem C121_pipelines {l : LLLine W} {h : History W} (hh : Honest l h) (L : WidthLaws W) (ks : List (Ty W)) :
    ∀ rs : List (Nat × Resolver W),
    (∀ p ∈ rs, ∃ q : LRange → Api W (Val p.2.attr), p.2 = apiResolver p.2.attr q ∧ (∀ x, (q x).Careful 1) ∧
      ((∃ T : Ty W → Prop, ∀ x, (q x).Uses (fun m => Built T false m)) ∨ (AllTestable l h ∧ ∀ x, (q x).Uses (fun m => Builtin m)))) →
    ∃ l' hx d out, runAll l rs = .ok l' ∧ Honest l' (h ++ hx) ∧ l'.ll_tokens = l.ll_tokens ∧
      displayWith l' ks = .ok d ∧ d.fmt = .ok out := by
  intro rs
  induction rs generalizing l h with
  | nil =>
    intro _
    obtain ⟨d, out, h1, h2⟩ := C57_never_panics hh L ks
    exact ⟨l, [], d, out, rfl, by rw [List.append_nil]; exact hh, rfl, h1, h2⟩
  | cons p rs ih =>
    intro hp
    have step : ∃ l1 hx, l.run p.1 p.2 = .ok l1 ∧ Honest l1 (h ++ hx) := by
      by_cases ne : l.ll_tokens = []
      · refine ⟨l, [], run_empty ne, ?_⟩
        rw [List.append_nil]
        exact .runEmpty l h p.1 p.2 l hh ne (run_empty ne)
      · obtain ⟨q, he, hc, ⟨T, hu⟩ | ⟨ht, hu⟩⟩ := hp p (by simp)
        · obtain ⟨asgs, l1, _, h1, h2⟩ := C121_never_panics hh ne hc hu p.1
          rw [he]; exact ⟨l1, _, h1, h2⟩
        · obtain ⟨asgs, l1, _, h1, h2⟩ := C121_testable hh ht ne hc hu p.1
          rw [he]; exact ⟨l1, _, h1, h2⟩
    obtain ⟨l1, hx, hok, hon⟩ := step
    have ht1 := run_tokens hok
    have keep : AllTestable l h → AllTestable l1 (h ++ hx) := by
      intro ht i hi
      rw [ht1] at hi
      rcases ht i hi with ⟨t, h1⟩ | ⟨x, h1, h2⟩
      · exact .inl ⟨t, by rw [textAt_tokens ht1]; exact h1⟩
      · exact .inr ⟨x, List.mem_append.2 (.inl h1), h2⟩
    obtain ⟨l', hx', d, out, h1, h2, h3, h4, h5⟩ := ih hon (fun q hq => by
      obtain ⟨p, he, hc, hu⟩ := hp q (by simp [hq])
      exact ⟨p, he, hc, hu.imp id (fun ⟨a, b⟩ => ⟨keep a, b⟩)⟩)
    refine ⟨l', hx ++ hx', d, out, ?_, by rw [← List.append_assoc]; exact h2, by rw [h3, ht1], h4, h5⟩
    simp only [runAll, hok]
    exact h1

example := C121_pipelines Demo.amountHonest (additive_mono Demo.additive) [.user (5 : Nat), .textTag]
  [(1, apiResolver (.user (5 : Nat)) Demo.unitProg), (2, apiResolver (.user (5 : Nat)) Demo.unitProg)] (by
    intro p hp
    simp only [List.mem_cons, List.not_mem_nil, or_false] at hp
    rcases hp with rfl | rfl <;> exact ⟨Demo.unitProg, rfl, Demo.unitProg_careful, .inl ⟨_, Demo.unitProg_plain⟩⟩)

/-- the program that calls `after` on the whole line and tags what it gets as a word -/
def Demo.afterProg : LRange → Api Demo.W (Val (Ty.textTag (W := Demo.W))) := fun _ =>
  .call (.after 0) (fun rs _ => .finish (rs.map (fun _ => (1, TextTag.WORD))))

/-- C121 needs the condition on `after`: behind a line of three tokens `after` gives a selection beyond the line, and
a program that assigns something to it panics, although the line is made from a string and the program uses
no matcher, no selection it does not have, and does not panic by itself. -/
theorem C121_after_panics : ∃ l h, Honest l h ∧ l.ll_tokens.length = 3 ∧
    l.run 0 (apiResolver .textTag Demo.afterProg) = .error .startsAtOob :=
  ⟨Demo.lineOf "a b".toList, _, .create [.Text "a b".toList []] utf8Len _ (Demo.textWF _) rfl, rfl, rfl⟩

/-- C121 with `token_has_any` but without the condition on the line -/
def C121_has_any_claim : Prop := ∀ (W : World) (l : LLLine W) (h : History W), Honest l h → l.ll_tokens ≠ [] →
  ∀ p : Api W (Val (Ty.textTag (W := W))), p.Careful 1 → p.Uses (fun m => Builtin m) →
  ∃ l', l.run 0 (apiResolver .textTag (fun _ => p)) = .ok l'

/-- `token_has_any` panics on a custom token without attributes -/
theorem C121_has_any_false : ¬ C121_has_any_claim := by
  intro hc
  obtain ⟨l', h'⟩ := hc Demo.W Demo.barredLine _ (.create [.Text ['1'] [], .Custom 1 []] utf8Len _ (by simp [InputToken.WF, InputToken.attrList]) rfl)
    (by decide) (.call (.findBy 0 (X.tokenHasAny .char ['x'])) (fun _ _ => .finish []))
    ⟨Nat.one_pos, fun _ _ _ v hv => nomatch hv⟩ ⟨.tokenHasAny .char trivial rfl _, fun _ _ => trivial⟩
  cases h'

end LNlp
