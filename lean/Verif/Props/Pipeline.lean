import Verif.Lemmas.Currency
import Verif.Props.Display
import Verif.Props.Select
/- Properties C82–C87: pipelines of resolvers. -/
namespace LNlp
variable {W : World}

/-! ### C82: what the library's resolvers look at -/

/-- C82: the table and keyword resolvers look at no attribute, the part-of-speech resolver at `TextTag`s
only, the clause resolver at `TextTag`s and clause keywords only, the amount resolver at `TextTag`s and
`char`s only.  What such a resolver assigns is not changed by a resolver of another attribute type run before it. -/
theorem C82_blind (st : Stage W) (k : Ty W) (hk : ¬ st.Looks k) : Blind k st.resolver := stage_blind st k hk

def Demo.runOk (l : LLLine Demo.W) (p : Nat) (r : Resolver Demo.W) : LLLine Demo.W := Demo.getOk Demo.emptyLine (l.run p r)

example : ∃ l', Demo.amountLine.run 1 (posTagResolver Demo.W) = .ok l' ∧
    (AmountResolver.english.resolver Demo.W).go (wholeLine l' 2) = .ok (Demo.amountOut, false) :=
  have hb : Blind (W := Demo.W) .tag (Stage.amounts .english).resolver := C82_blind _ _ (by rintro (h | h) <;> cases h)
  have ⟨l', ok, _⟩ := C63_run Demo.amountReach Demo.amountLine_ne 1
  ⟨l', ok, hb Demo.amountLine _ _ (posTagResolver Demo.W) 1 0 2 _ Demo.amountReach Demo.amountLine_ne rfl ok
    ((amount_go_iff .english).2 Demo.amountGo)⟩

/-! ### C83: independent resolvers commute -/

/-- C83: if neither of two resolvers of different attribute types looks at the attributes the other
assigns, and both run on a line, then they run in either order, and both orders give the very same line. -/
theorem C83_independent_resolvers_commute {l l1 l2 : LLLine W} {h : History W} (hr : Reachable l h) (ne : l.ll_tokens ≠ [])
    (r1 r2 : Resolver W) (hk : r1.attr ≠ r2.attr) (b1 : Blind r2.attr r1) (b2 : Blind r1.attr r2) (p1 p2 p3 p4 : Nat)
    (ok1 : l.run p1 r1 = .ok l1) (ok2 : l.run p3 r2 = .ok l2) :
    ∃ l12, l1.run p2 r2 = .ok l12 ∧ l2.run p4 r1 = .ok l12 := by
  obtain ⟨a1, _, g1, _, _⟩ := run_inv ne ok1
  obtain ⟨a2, _, g2', _, _⟩ := run_inv ne ok2
  have g2 := b2 l l1 h r1 p1 p3 p2 a2 hr ne rfl ok1 g2'
  have hr1 : Reachable l1 (h ++ a1.map (recOf r1.attr)) := .run l h p1 r1 a1 false l1 hr ne g1 ok1
  have ht1 := run_tokens ok1
  have hb2 := run_bounds hr ne g2' ok2
  rw [← ht1] at hb2
  obtain ⟨l12, ok12, _⟩ := run_reachable (k := r2.attr) (f := r2.go) hr1 (by rw [ht1]; exact ne) g2 hb2
  obtain ⟨l2', e2, ok21⟩ := C26_resolvers_commute hr ne r1 r2 hk a1 a2 p1 p2 p3 p4 g1 ok1 g2 ok12 g2'
    (fun l2' e => b1 l l2' h r2 p3 p1 p4 a1 hr ne rfl e g1)
  rw [ok2] at e2
  cases e2
  exact ⟨l12, ok12, ok21⟩

/-- C83 for the library's resolvers -/
theorem C83_builtin_commute {l l1 l2 : LLLine W} {h : History W} (hr : Reachable l h) (ne : l.ll_tokens ≠ [])
    (s1 s2 : Stage W) (hk : s1.resolver.attr ≠ s2.resolver.attr) (b1 : ¬ s1.Looks s2.resolver.attr)
    (b2 : ¬ s2.Looks s1.resolver.attr) (p1 p2 p3 p4 : Nat)
    (ok1 : l.run p1 s1.resolver = .ok l1) (ok2 : l.run p3 s2.resolver = .ok l2) :
    ∃ l12, l1.run p2 s2.resolver = .ok l12 ∧ l2.run p4 s1.resolver = .ok l12 :=
  C83_independent_resolvers_commute hr ne _ _ hk (stage_blind s1 _ b1) (stage_blind s2 _ b2) p1 p2 p3 p4 ok1 ok2

example := C83_builtin_commute (W := Demo.W) (l := Demo.amountLine) Demo.amountReach Demo.amountLine_ne (.amounts .english) .pos
  (by intro h; cases h) (by rintro (h | h) <;> cases h) (by intro h; cases h) 0 1 0 1
  (l1 := Demo.runOk Demo.amountLine 0 (Stage.amounts .english).resolver) (l2 := Demo.runOk Demo.amountLine 0 Stage.pos.resolver) rfl rfl

/-- C83, without independence: the claim that the order of any two of the library's resolvers does not matter -/
def C83_claim : Prop := ∀ (W : World) (l l1 l2 l12 l21 : LLLine W) (h : History W) (s1 s2 : Stage W), Reachable l h →
  s1.resolver.attr ≠ s2.resolver.attr → l.run 0 s1.resolver = .ok l1 → l1.run 0 s2.resolver = .ok l12 →
  l.run 0 s2.resolver = .ok l2 → l2.run 0 s1.resolver = .ok l21 → ∀ k, l21.query k = l12.query k

/-- C83: clauses have to be resolved after clause keywords. -/
theorem C83_order_matters : ¬ C83_claim := by
  intro claim
  have := claim Demo.W Demo.clauseLine0 Demo.clauseLine (Demo.runOk Demo.clauseLine0 0 (clauseResolver Demo.W))
    (Demo.runOk Demo.clauseLine 0 (clauseResolver Demo.W))
    (Demo.runOk (Demo.runOk Demo.clauseLine0 0 (clauseResolver Demo.W)) 0 (Demo.kws.resolver Demo.W)) _
    (.keywords Demo.kws) .clauses Demo.clauseHonest0.spec.1 (by intro h; cases h) rfl rfl rfl rfl .clause
  have h1 : (okD ((Demo.runOk (Demo.runOk Demo.clauseLine0 0 (clauseResolver Demo.W)) 0 (Demo.kws.resolver Demo.W)).query .clause)).length = 2 := rfl
  have h2 : (okD ((Demo.runOk Demo.clauseLine 0 (clauseResolver Demo.W)).query .clause)).length = 3 := rfl
  rw [this, h2] at h1
  cases h1

/-! ### C84: pipelines do not panic -/

/-- C84: any sequence of table, part-of-speech, keyword and clause resolvers, in any order and with
repetitions, runs without panicking on a line of honest resolvers (in particular on a fresh line), keeps the
tokens, and the result can be displayed with any attribute types. -/
theorem C84_pipelines {l : LLLine W} {h : History W} (hh : Honest l h) (L : WidthLaws W) (ks : List (Ty W)) :
    ∀ (stages : List (Nat × Stage W)), (∀ p ∈ stages, ∀ r, p.2 ≠ .amounts r) →
    ∃ l' h' d out, runAll l (stages.map (fun p => (p.1, p.2.resolver))) = .ok l' ∧ Honest l' h' ∧
      l'.ll_tokens = l.ll_tokens ∧ displayWith l' ks = .ok d ∧ d.fmt = .ok out := by
  intro stages
  induction stages generalizing l h with
  | nil =>
    intro _
    obtain ⟨d, out, hd, ho⟩ := C57_never_panics hh L ks
    exact ⟨l, h, d, out, rfl, hh, rfl, hd, ho⟩
  | cons p ps ih =>
    intro hna
    have step : ∃ l1 h1, l.run p.1 p.2.resolver = .ok l1 ∧ Honest l1 h1 := by
      by_cases ne : l.ll_tokens = []
      · exact ⟨l, h, run_empty ne, .runEmpty l h p.1 p.2.resolver l hh ne (run_empty ne)⟩
      · obtain ⟨asgs, l1, _, hok, hon⟩ := C71_builtin_resolvers hh ne p.1 p.2.resolver (by
          have := hna p (by simp)
          cases hp : p.2 with
          | table t => exact .inl ⟨_, t, rfl⟩
          | pos => exact .inr (.inl rfl)
          | keywords r => exact .inr (.inr (.inl ⟨r, rfl⟩))
          | clauses => exact .inr (.inr (.inr rfl))
          | amounts r => exact absurd hp (this r))
        exact ⟨l1, _, hok, hon⟩
    obtain ⟨l1, h1, hok, hon⟩ := step
    obtain ⟨l', h', d, out, h2, h3, h4, h5, h6⟩ := ih hon (fun q hq => hna q (by simp [hq]))
    refine ⟨l', h', d, out, ?_, h3, by rw [h4, run_tokens hok], h5, h6⟩
    simp only [List.map_cons, runAll, hok]
    exact h2

example := C84_pipelines Demo.clauseHonest0 (additive_mono Demo.additive) [.clause, .tag]
  [(0, .keywords Demo.kws), (1, .clauses), (2, .pos), (3, .clauses)] (by simp)

/-- C84 with amounts: on a line all of whose tokens are texts or carry attributes, the only panic of any
sequence of the library's resolvers is a number the decimal parser rejects: the resolvers before an amount
resolver in the sequence give a line where the grammar of that resolver finds an amount whose text is not
accepted. -/
theorem C84_only_unparseable {l : LLLine W} {h : History W} (hh : Honest l h) (ht : AllTestable l h) :
    ∀ (stages : List (Nat × Stage W)),
    (∃ l' h', runAll l (stages.map (fun p => (p.1, p.2.resolver))) = .ok l' ∧ Honest l' h' ∧ l'.ll_tokens = l.ll_tokens) ∨
    (runAll l (stages.map (fun p => (p.1, p.2.resolver))) = .error .decimal ∧
      ∃ pre ptr r post l' h', stages = pre ++ (ptr, .amounts r) :: post ∧
        runAll l (pre.map (fun p => (p.1, p.2.resolver))) = .ok l' ∧ Honest l' h' ∧ l'.ll_tokens = l.ll_tokens ∧
        ∃ a b str next, a < l.ll_tokens.length ∧ IsAmount r l' h' a b str next ∧ W.parseDecimal str = none) := by
  intro stages
  induction stages generalizing l h with
  | nil => exact .inl ⟨l, h, rfl, hh, rfl⟩
  | cons p ps ih =>
    have step : (∃ l1 hx, l.run p.1 p.2.resolver = .ok l1 ∧ Honest l1 (h ++ hx)) ∨
        (l.run p.1 p.2.resolver = .error .decimal ∧ ∃ r, p.2 = .amounts r ∧
          ∃ a b str next, a < l.ll_tokens.length ∧ IsAmount r l h a b str next ∧ W.parseDecimal str = none) := by
      by_cases ne : l.ll_tokens = []
      · refine .inl ⟨l, [], run_empty ne, ?_⟩
        rw [List.append_nil]
        exact .runEmpty l h p.1 p.2.resolver l hh ne (run_empty ne)
      · have other : ((∃ k, ∃ t : TextMatchAssignResolver W k, p.2.resolver = t.resolver) ∨ p.2.resolver = posTagResolver W ∨
            (∃ kw : ClauseKeywordResolver, p.2.resolver = kw.resolver W) ∨ p.2.resolver = clauseResolver W) →
            ∃ l1 hx, l.run p.1 p.2.resolver = .ok l1 ∧ Honest l1 (h ++ hx) := by
          intro hp
          obtain ⟨asgs, l1, _, hok, hon⟩ := C71_builtin_resolvers hh ne p.1 p.2.resolver hp
          exact ⟨l1, _, hok, hon⟩
        cases hp : p.2 with
        | table t => rw [← hp]; exact .inl (other (.inl ⟨_, t, by rw [hp]; rfl⟩))
        | pos => rw [← hp]; exact .inl (other (.inr (.inl (by rw [hp]; rfl))))
        | keywords r => rw [← hp]; exact .inl (other (.inr (.inr (.inl ⟨r, by rw [hp]; rfl⟩))))
        | clauses => rw [← hp]; exact .inl (other (.inr (.inr (.inr (by rw [hp]; rfl)))))
        | amounts r =>
          cases hg : r.go (wholeLine l p.1) with
          | ok out =>
            obtain ⟨l1, hok, hon⟩ := C71_amount_resolver r hh ne p.1 out hg
            exact .inl ⟨l1, _, hok, hon⟩
          | error e =>
            obtain ⟨rfl, a, b, str, next, ha, hi, hs⟩ := C68_only_unparseable r (s := wholeLine l p.1) hh.spec.1
              (wholeLine_inside ne p.1) ht e hg
            have hlen := List.length_pos_iff.2 ne
            have ha2 : a ≤ l.ll_tokens.length - 1 := ha.2
            exact .inr ⟨C68_run_panics r ne p.1 _ hg, r, rfl, a, b, str, next, by omega, hi, hs⟩
    rcases step with ⟨l1, hx, hok, hon⟩ | ⟨he, r, hr, hs⟩
    · have ht1 := run_tokens hok
      have ht' : AllTestable l1 (h ++ hx) := by
        intro i hi
        rw [ht1] at hi
        rcases ht i hi with ⟨t, h1⟩ | ⟨x, h1, h2⟩
        · exact .inl ⟨t, by rw [textAt_tokens ht1]; exact h1⟩
        · exact .inr ⟨x, List.mem_append.2 (.inl h1), h2⟩
      simp only [List.map_cons, runAll, hok]
      rcases ih hon ht' with ⟨l', h', h2, h3, h4⟩ | ⟨h2, pre, ptr, r, post, l', h', e1, e2, e3, e4, a, b, str, next, e5, e6⟩
      · exact .inl ⟨l', h', h2, h3, by rw [h4, ht1]⟩
      · refine .inr ⟨h2, p :: pre, ptr, r, post, l', h', by rw [e1]; rfl, ?_, e3, by rw [e4, ht1], a, b, str, next,
          by rw [← ht1]; exact e5, e6⟩
        simp only [List.map_cons, runAll, hok]
        exact e2
    · right
      refine ⟨?_, [], p.1, r, ps, l, h, by rw [← hr]; rfl, rfl, hh, rfl, hs⟩
      simp only [List.map_cons, runAll, he]

example := C84_only_unparseable Demo.amountHonest (string_testable (str := "x 1'234.50, 7. y 8,".toList) rfl _)
  [(0, .amounts .english), (1, .pos), (2, .amounts .french)]

/-! ### C85: running a resolver twice -/

/-- C85: a resolver that does not look at its own attributes assigns the same again when run a second time.
The second run keeps the ranges of the first and repeats the values it assigned; the attributes of other types do
not change. -/
theorem C85_twice {l l1 : LLLine W} {h : History W} (hr : Reachable l h) (ne : l.ll_tokens ≠ []) (r : Resolver W)
    (hb : Blind r.attr r) (p1 p2 : Nat) (ok : l.run p1 r = .ok l1) :
    ∃ (l2 : LLLine W) (new : History W), l1.run p2 r = .ok l2 ∧ l2.ll_tokens = l.ll_tokens ∧
      Reachable l1 (h ++ new) ∧ Reachable l2 (h ++ new ++ new) ∧
      (∀ k, k ≠ r.attr → l2.query k = l1.query k) ∧
      ∀ q, l1.query r.attr = .ok q → l2.query r.attr = .ok (q.map (fun e => (e.1, e.2.1, e.2.2 ++ valuesOf r.attr e.1 new))) := by
  obtain ⟨asgs, _, g, _, _⟩ := run_inv ne ok
  have hr1 : Reachable l1 (h ++ asgs.map (recOf r.attr)) := .run l h p1 r asgs false l1 hr ne g ok
  have g2 := hb l l1 h r p1 p1 p2 asgs hr ne rfl ok g
  have ht1 := run_tokens ok
  have hbd := run_bounds hr ne g ok
  rw [← ht1] at hbd
  obtain ⟨l2, ok2, hr2⟩ := run_reachable (k := r.attr) (f := r.go) hr1 (by rw [ht1]; exact ne) g2 hbd
  have ht2 := run_tokens ok2
  refine ⟨l2, asgs.map (recOf r.attr), ok2, ht2.trans ht1, hr1, hr2, ?_, ?_⟩
  · intro k hk
    have hn : ∀ x ∈ asgs.map (recOf r.attr), x.ty ≠ k := by
      intro x hx
      obtain ⟨a, _, rfl⟩ := List.mem_map.1 hx
      exact fun e => hk e.symm
    exact rep_query_congr hr1.rep hr2.rep k ht2 (rangesOf_old (fun x hx => List.mem_append.2 (.inr hx))) (fun r => values_keep hn r)
  · intro q hq
    rw [rep_query_gen hr1.rep] at hq
    rw [rep_query_gen hr2.rep, rangesOf_old (fun x hx => List.mem_append.2 (.inr hx))]
    refine mapR_map _ _ _ _ _ ?_ hq
    intro x _ y hy
    rw [ht2]
    cases hs : sliceIncl l1.ll_tokens x.1 x.2 with
    | error e => rw [hs] at hy; cases hy
    | ok toks =>
      rw [hs] at hy
      cases hy
      simp only [valuesOf_append]

/-- C85 for the library's resolvers: none of them looks at its own attributes. -/
theorem C85_builtin_twice {l l1 : LLLine W} {h : History W} (hr : Reachable l h) (ne : l.ll_tokens ≠ []) (st : Stage W)
    (p1 p2 : Nat) (ok : l.run p1 st.resolver = .ok l1) :
    ∃ (l2 : LLLine W) (new : History W), l1.run p2 st.resolver = .ok l2 ∧ l2.ll_tokens = l.ll_tokens ∧
      Reachable l1 (h ++ new) ∧ Reachable l2 (h ++ new ++ new) ∧
      (∀ k, k ≠ st.resolver.attr → l2.query k = l1.query k) ∧
      ∀ q, l1.query st.resolver.attr = .ok q →
        l2.query st.resolver.attr = .ok (q.map (fun e => (e.1, e.2.1, e.2.2 ++ valuesOf st.resolver.attr e.1 new))) := by
  refine C85_twice hr ne st.resolver (stage_blind st _ ?_) p1 p2 ok
  cases st with
  | table t => exact id
  | pos => intro h; cases h
  | keywords r => exact id
  | clauses => rintro (h | h) <;> cases h
  | amounts r => rintro (h | h) <;> cases h

example := C85_builtin_twice (W := Demo.W) (l := Demo.amountLine) Demo.amountReach Demo.amountLine_ne (.amounts .english) 0 1
  (l1 := Demo.runOk Demo.amountLine 0 (Stage.amounts .english).resolver) rfl

/-- C85: whatever the resolver, a run gives back the very same line exactly if it assigned nothing. -/
theorem C85_unchanged_iff {l l1 : LLLine W} {h : History W} (hr : Reachable l h) (ne : l.ll_tokens ≠ []) (r : Resolver W)
    (p : Nat) (ok : l.run p r = .ok l1) : l1 = l ↔ r.go (wholeLine l p) = .ok ([], false) := by
  obtain ⟨asgs, a', g, hf, rfl⟩ := run_inv ne ok
  have hr1 : Reachable _ (h ++ asgs.map (recOf r.attr)) := .run l h p r asgs false _ hr ne g ok
  constructor
  · intro e
    rw [e] at hr1
    cases asgs with
    | nil => exact g
    | cons a as =>
      exfalso
      have hm : (⟨r.attr, (a.start_idx, a.end_idx), a.value⟩ : Rec W) ∈ (a :: as).map (recOf r.attr) := List.mem_cons_self
      have h1 : (a.start_idx, a.end_idx) ∈ rangesOf r.attr (h ++ (a :: as).map (recOf r.attr)) :=
        mem_rangesOf.2 ⟨a.value, List.mem_append.2 (.inr hm)⟩
      have hpos : valuesOf r.attr (a.start_idx, a.end_idx) ((a :: as).map (recOf r.attr)) ≠ [] :=
        mem_rangesOf_iff_values.1 (mem_rangesOf.2 ⟨a.value, hm⟩)
      have e1 := rep_valuesAt hr1.rep h1
      have h0 : (a.start_idx, a.end_idx) ∈ rangesOf r.attr h := by
        rw [← hr.rep.ranges r.attr, hr1.rep.ranges r.attr]; exact h1
      rw [rep_valuesAt hr.rep h0, valuesOf_append] at e1
      exact hpos (List.self_eq_append_right.1 (Except.ok.inj e1))
  · intro e
    have g' : r.go (wholeLine l p) = .ok (asgs, false) := g
    rw [e] at g'
    cases g'
    cases hf
    rfl

/-- C85: a second run of a resolver that does not look at its own attributes changes the line again, unless the first
assigned nothing. -/
theorem C85_not_idempotent {l l1 : LLLine W} {h : History W} (hr : Reachable l h) (ne : l.ll_tokens ≠ []) (r : Resolver W)
    (hb : Blind r.attr r) (p1 p2 : Nat) (ok : l.run p1 r = .ok l1) (hch : l1 ≠ l) :
    ∃ l2, l1.run p2 r = .ok l2 ∧ l2 ≠ l1 := by
  obtain ⟨l2, new, ok2, _, hr1, _⟩ := C85_twice hr ne r hb p1 p2 ok
  refine ⟨l2, ok2, fun e => hch ?_⟩
  obtain ⟨asgs, _, g, _, _⟩ := run_inv ne ok
  have g2 := hb l l1 h r p1 p1 p2 asgs hr ne rfl ok g
  have g3 := (C85_unchanged_iff hr1 (by rw [run_tokens ok]; exact ne) r p2 ok2).1 e
  have g2' : r.go (wholeLine l1 p2) = .ok (asgs, false) := g2
  rw [g3] at g2'
  cases g2'
  exact (C85_unchanged_iff hr ne r p1 ok).2 g

example := (C85_unchanged_iff (W := Demo.W) (l := Demo.amountLine) Demo.amountReach Demo.amountLine_ne (Stage.amounts .english).resolver 0
  (l1 := Demo.runOk Demo.amountLine 0 (Stage.amounts .english).resolver) rfl)
/-- the amounts of a line with amounts: the first run changes the line, and so does the second -/
example := C85_not_idempotent (W := Demo.W) (l := Demo.amountLine) Demo.amountReach Demo.amountLine_ne (Stage.amounts .english).resolver
  (C82_blind _ _ (by rintro (h | h) <;> cases h)) 0 1 (l1 := Demo.runOk Demo.amountLine 0 (Stage.amounts .english).resolver) rfl
  (by
    intro e
    have h1 := (C85_unchanged_iff (W := Demo.W) (l := Demo.amountLine) Demo.amountReach Demo.amountLine_ne
      (Stage.amounts .english).resolver 0 (l1 := Demo.runOk Demo.amountLine 0 (Stage.amounts .english).resolver) rfl).1 e
    cases h1)

/-! ### C86: currency symbols -/

/-- C86: the symbol resolver marks every `$` and every `€` among the `char`s of the selection, each on its
token, with the value for that symbol, and nothing else.  Its `unreachable!()` is not reached. -/
theorem C86_symbols {k : Ty W} (usd euro : Val k) {s : LLSelection W} {h : History W} (hr : Reachable s.ll_line.val h)
    (ha : ∀ i, s.Has i → HasAttr h i) :
    currencySymbolGo usd euro s = .ok ((between s.start_idx s.end_idx).flatMap (fun i =>
      (charsOn h i).filterMap (fun c => (symbolOf usd euro c).map (fun v => ⟨i, i, v⟩)))) :=
  symbolGo_ok usd euro hr ha

/-- C86 on a line whose `char`s are the tokenizer's: the symbols are the tokens that read `$` or `€`. -/
theorem C86_plain {k : Ty W} (usd euro : Val k) {s : LLSelection W} {h : History W} (hr : Reachable s.ll_line.val h)
    (hc : PlainChars s.ll_line.val h) (ha : ∀ i, s.Has i → HasAttr h i) :
    currencySymbolGo usd euro s = .ok ((between s.start_idx s.end_idx).filterMap (fun i =>
      (symbolAt usd euro s.ll_line.val i).map (fun v => ⟨i, i, v⟩))) :=
  symbolGo_plain usd euro hr hc ha

/-- C86: the symbol resolver panics exactly if a token of the selection carries no attribute at all. -/
theorem C86_panics_iff {k : Ty W} (usd euro : Val k) {s : LLSelection W} {h : History W} (hr : Reachable s.ll_line.val h)
    (e : Panic) : currencySymbolGo usd euro s = .error e ↔ e = .noTokenAttrs ∧ ∃ i, s.Has i ∧ ¬ HasAttr h i := by
  by_cases ha : ∀ i, s.Has i → HasAttr h i
  · rw [symbolGo_ok usd euro hr ha]
    constructor
    · intro h; cases h
    · rintro ⟨_, i, hi, hn⟩; exact absurd (ha i hi) hn
  · have ⟨i, hi, hn⟩ : ∃ i, s.Has i ∧ ¬ HasAttr h i := by
      apply Classical.byContradiction
      intro hn
      exact ha (fun i hi => Classical.byContradiction (fun hx => hn ⟨i, hi, hx⟩))
    rw [symbolGo_error usd euro hr hi hn]
    constructor
    · intro h; cases h; exact ⟨rfl, i, hi, hn⟩
    · rintro ⟨rfl, _⟩; rfl

/-- a custom token that carries a `char`, and one without attributes -/
def Demo.coinInput : List (InputToken Demo.W) :=
  [.Custom 1 [AnyAttribute.new .char ('€' : Char), AnyAttribute.new .char ('$' : Char)], .Custom 1 []]
def Demo.coinLine : LLLine Demo.W := Demo.getOk Demo.emptyLine (createLineFromInputTokens Demo.W Demo.coinInput utf8Len)
theorem Demo.coinReach : Reachable Demo.coinLine (creationHistory Demo.W utf8Len Demo.coinInput) :=
  .create _ _ _ (by intro t ht a ha; simp [Demo.coinInput] at ht; rcases ht with rfl | rfl <;> simp [InputToken.attrList] at ha; rcases ha with rfl | rfl <;> exact ⟨_, _, rfl⟩) rfl

example : currencySymbolGo (W := Demo.W) (k := .user (1 : Nat)) ['U'] ['E'] { wholeLine Demo.coinLine 0 with end_idx := 0 } =
    .ok [⟨0, 0, ['E']⟩, ⟨0, 0, ['U']⟩] :=
  C86_symbols (k := Ty.user (1 : Nat)) _ _ (s := { wholeLine Demo.coinLine 0 with end_idx := 0 }) Demo.coinReach (by
    intro i hi
    have : i = 0 := Nat.le_zero.1 hi.2
    subst this
    exact ⟨⟨.char, (0, 0), ('€' : Char)⟩, by simp [creationHistory, inputHistory, Demo.coinInput, InputToken.attrList, AnyAttribute.new, tokensOf, builtinHistory, builtinOf], rfl⟩)
example : currencySymbolGo (W := Demo.W) (k := .user (1 : Nat)) ['U'] ['E'] (wholeLine Demo.coinLine 0) = .error .noTokenAttrs :=
  (C86_panics_iff (W := Demo.W) (k := Ty.user (1 : Nat)) ['U'] ['E'] (s := wholeLine Demo.coinLine 0) Demo.coinReach _).2 ⟨rfl, 1, ⟨by decide, by decide⟩, by
    rintro ⟨x, hx, he⟩
    simp [creationHistory, inputHistory, Demo.coinInput, InputToken.attrList, tokensOf, builtinHistory, builtinOf] at hx
    rcases hx with rfl | rfl <;> cases he⟩

def Demo.symLine : LLLine Demo.W := Demo.lineOf "$5 a $ 7€".toList

/-- C86 for a line made from any string: in any selection of it, the symbols are the tokens that read `$` or `€`. -/
theorem C86_from_string {k : Ty W} (usd euro : Val k) {str : Str} {s : LLSelection W}
    (ok : createLineFromString W str = .ok s.ll_line.val) (hs : s.Inside) :
    currencySymbolGo usd euro s = .ok ((between s.start_idx s.end_idx).filterMap (fun i =>
      (symbolAt usd euro s.ll_line.val i).map (fun v => ⟨i, i, v⟩))) := by
  have hr : Reachable s.ll_line.val _ := .create _ _ _ (string_wf str) ok
  refine C86_plain usd euro hr (creation_plainChars (string_wf str) ok (string_noCustom _ _)) (fun i hi => ?_)
  rcases string_testable ok (creationHistory W utf8Len [.Text str []]) i (Nat.lt_of_le_of_lt hi.2 hs.2) with ⟨t, h⟩ | h
  · exact text_attr hr h
  · exact h

example : currencySymbolGo (W := Demo.W) (k := .user (1 : Nat)) ['U'] ['E'] (wholeLine Demo.symLine 0) =
    .ok [⟨0, 0, ['U']⟩, ⟨5, 5, ['U']⟩, ⟨8, 8, ['E']⟩] :=
  C86_from_string (str := "$5 a $ 7€".toList) (s := wholeLine Demo.symLine 0) (k := Ty.user (1 : Nat)) _ _ rfl
    (wholeLine_inside (by intro h; cases h) 0)

/-! ### C87: amounts of money -/

/-- C87: the library's example of layering.  On a line whose tags and `char`s are the tokenizer's, and on
which the amount resolver finds the amounts `as`: after the symbol, amount and money resolvers ran, the
amounts of money are exactly the pairs of an amount and a symbol token directly before or directly after it,
each once, over the tokens of both, with the value made of the two. -/
theorem C87_money {l : LLLine W} {h : History W} (hr : Reachable l h) (ne : l.ll_tokens ≠ []) (hp : PlainTags l h)
    (hc : PlainChars l h) (ht : AllTestable l h) {kS kC : Ty W} (usd euro : Val kS) (r : AmountResolver)
    (mk : Val kS → W.Decimal → Val kC) (n1 : kS ≠ .textTag) (n2 : kS ≠ .char) (n3 : kS ≠ .amount) (n4 : kC ≠ kS)
    (n5 : kC ≠ .amount) (hS : ∀ x ∈ h, x.ty ≠ kS) (hC : ∀ x ∈ h, x.ty ≠ kC) (hA : ∀ x ∈ h, x.ty ≠ .amount)
    (p0 p1 p2 p3 : Nat) (as : List (LLCursorAssignment W.Decimal)) (hgo : r.go (wholeLine l p0) = .ok as) :
    ∃ l1 l2 l3 q, l.run p1 (currencySymbolResolver usd euro) = .ok l1 ∧ l1.run p2 (r.resolver W) = .ok l2 ∧
      l2.run p3 (currencyAmountResolver (kAmt := .amount) mk) = .ok l3 ∧ l3.ll_tokens = l.ll_tokens ∧
      l3.query kC = .ok q ∧ (q.map (·.1)).Nodup ∧
      ∀ i j text vs, ((i, j), text, vs) ∈ q ↔ text = coveredText l.ll_tokens (i, j) ∧ ∃ s a, vs = [mk s a] ∧
        ((symbolAt usd euro l i = some s ∧ (⟨i + 1, j, a⟩ : LLCursorAssignment W.Decimal) ∈ as) ∨
         (∃ m, j = m + 1 ∧ (⟨i, m, a⟩ : LLCursorAssignment W.Decimal) ∈ as ∧ symbolAt usd euro l j = some s)) := by
  have hpos : 0 < l.ll_tokens.length := List.length_pos_iff.2 ne
  have hall : ∀ i, i < l.ll_tokens.length → HasAttr h i := by
    intro i hi
    rcases ht i hi with ⟨t, e⟩ | hx
    · exact text_attr hr e
    · exact hx
  -- the symbols
  have g1 : currencySymbolGo usd euro (wholeLine l p1) = _ := symbolGo_plain usd euro (s := wholeLine l p1) hr hc (by
    intro i hi
    have : i ≤ l.ll_tokens.length - 1 := hi.2
    exact hall i (by omega))
  have hlen : ∀ i, i ∈ between (wholeLine l p1).start_idx (wholeLine l p1).end_idx ↔ i < l.ll_tokens.length := by
    intro i
    simp only [between, wholeLine, List.mem_range'_1]
    omega
  generalize hss : symbolAsgs usd euro (wholeLine l p1).ll_line.val (between (wholeLine l p1).start_idx (wholeLine l p1).end_idx) = ss at g1
  have mS : ∀ a : LLCursorAssignment (Val kS), a ∈ ss ↔ a.start_idx < l.ll_tokens.length ∧ a.end_idx = a.start_idx ∧
      symbolAt usd euro l a.start_idx = some a.value := by
    intro a
    rw [← hss, mem_symbolAsgs, hlen]
    rfl
  have nS : (ss.map (·.start_idx)).Nodup := by
    rw [← hss]
    exact symbolAsgs_nodup usd euro _ (List.nodup_range' ..)
  have symbol_lt : ∀ i s, symbolAt usd euro l i = some s → i < l.ll_tokens.length := by
    intro i s hs
    apply Classical.byContradiction
    intro hn
    unfold symbolAt charAt textAt at hs
    rw [List.getElem?_eq_none (by omega)] at hs
    cases hs
  obtain ⟨l1, ok1, hr1⟩ := run_reachable (k := kS) (f := (currencySymbolResolver usd euro).go) hr ne
    ((symbol_go_iff usd euro).2 g1) (fun a ha => by
      have := (mS a).1 ha
      exact ⟨this.1, by rw [this.2.1]; exact this.1⟩)
  have t1 := run_tokens ok1
  have ne1 : l1.ll_tokens ≠ [] := by rw [t1]; exact ne
  -- the amounts
  have g2 : (r.resolver W).go (wholeLine l1 p2) = .ok (as, false) :=
    stage_blind (.amounts r) kS (by rintro (e | e) <;> contradiction) l l1 h (currencySymbolResolver usd euro) p1 p0 p2 as
      hr ne rfl ok1 ((amount_go_iff r).2 hgo)
  obtain ⟨disj, inA⟩ := C65_disjoint r (s := wholeLine l p0) hr (wholeLine_inside ne p0) as hgo
  have numA := (C66_partial r (s := wholeLine l p0) hr (wholeLine_inside ne p0) as hgo).2.2
  obtain ⟨l2, ok2, hr2⟩ := run_reachable (k := Ty.amount) (f := (r.resolver W).go) hr1 ne1 g2 (fun a ha => by
    have h1 := inA a ha
    have h2 : a.end_idx < l.ll_tokens.length := h1.2.2
    have h3 := h1.2.1
    rw [t1]
    exact ⟨by omega, h2⟩)
  have t2 := run_tokens ok2
  have ne2 : l2.ll_tokens ≠ [] := by rw [t2]; exact ne1
  have oS : OnlyFrom kS _ ss := only_old (only_new hS ss) (Ne.symm n3) as
  have oA : OnlyFrom .amount _ as := only_new (h := h ++ ss.map (recOf kS)) (k := .amount) (by
    intro x hx
    rcases List.mem_append.1 hx with hx | hx
    · exact hA x hx
    · obtain ⟨a, _, rfl⟩ := List.mem_map.1 hx
      exact n3) as
  have nA1 : (as.map (·.start_idx)).Nodup := by
    rw [List.nodup_iff_pairwise_ne, List.pairwise_map]
    refine List.Pairwise.imp_of_mem ?_ disj
    intro a b ha _ hab
    have := (inA a ha).2.1
    omega
  have nA2 : (as.map (·.end_idx)).Nodup := by
    rw [List.nodup_iff_pairwise_ne, List.pairwise_map]
    refine List.Pairwise.imp_of_mem ?_ disj
    intro a b _ hb hab
    have := (inA b hb).2.1
    omega
  have hd : ∀ s ∈ ss, ∀ a ∈ as, s.start_idx ≠ a.start_idx := by
    intro s hs a ha he
    obtain ⟨t, hn⟩ := (numA a ha).1
    have hn : NumAt l h a.start_idx t := hn
    obtain ⟨h1, h2, h3⟩ := (plain_num hr hp).1 hn
    obtain ⟨_, _, h4⟩ := (mS s).1 hs
    rw [he] at h4
    unfold symbolAt charAt at h4
    rw [h1] at h4
    match t, h4 with
    | [c], h4 =>
      have hdig := h3 c (by simp)
      have h4 : symbolOf usd euro c = some s.value := h4
      unfold symbolOf at h4
      by_cases e1 : c = '$'
      · subst e1; exact absurd hdig (by decide)
      · by_cases e2 : c = '€'
        · subst e2; exact absurd hdig (by decide)
        · rw [if_neg e1, if_neg e2] at h4; cases h4
  -- the money
  obtain ⟨out, hf, hn, hm⟩ := money_found (kA := .amount) hr2.rep ne2 p3 oS oA nS nA1 nA2 (fun s hs => ((mS s).1 hs).2.1.symm)
    (fun s hs => by rw [t2, t1]; exact ((mS s).1 hs).1)
    (fun a ha => by
      have h1 := inA a ha
      have h2 : a.end_idx < l.ll_tokens.length := h1.2.2
      have h3 := h1.2.1
      rw [t2, t1]; omega) hd
  have g3 : currencyAmountGo (kAmt := .amount) mk (wholeLine l2 p3) = .ok (finishWith out (fun p => mk p.1 p.2)) := by
    unfold currencyAmountGo
    rw [hf]
  generalize hms : finishWith out (fun p => mk p.1 p.2) = ms at g3
  have mM : ∀ i j v, (⟨i, j, v⟩ : LLCursorAssignment (Val kC)) ∈ ms ↔ ∃ s a, v = mk s a ∧
        ((symbolAt usd euro l i = some s ∧ (⟨i + 1, j, a⟩ : LLCursorAssignment W.Decimal) ∈ as) ∨
         (∃ m, j = m + 1 ∧ (⟨i, m, a⟩ : LLCursorAssignment W.Decimal) ∈ as ∧ symbolAt usd euro l j = some s)) := by
    intro i j v
    rw [← hms]
    unfold finishWith
    rw [List.mem_map]
    constructor
    · rintro ⟨⟨p, x, y⟩, hq, he⟩
      have he : (⟨p.start_idx, p.end_idx, mk x y⟩ : LLCursorAssignment (Val kC)) = ⟨i, j, v⟩ := he
      cases he
      obtain ⟨s, hs, a, ha, rfl, rfl, hcase⟩ := (hm p.start_idx p.end_idx x y).1 ⟨_, hq, rfl, rfl, rfl⟩
      obtain ⟨_, _, hs3⟩ := (mS s).1 hs
      obtain ⟨a0, a1, av⟩ := a
      refine ⟨s.value, av, rfl, ?_⟩
      rcases hcase with ⟨e1, e2, e3⟩ | ⟨e1, e2, e3⟩
      · left
        simp only at e2 e3
        subst e2 e3
        exact ⟨e1 ▸ hs3, ha⟩
      · right
        simp only at e1 e2
        subst e1
        exact ⟨a1, e2.symm, ha, e3 ▸ hs3⟩
    · rintro ⟨s, a, rfl, ⟨h1, h2⟩ | ⟨m, rfl, h1, h2⟩⟩
      · obtain ⟨q, hq, e1, e2, e3⟩ := (hm i j s a).2 ⟨⟨i, i, s⟩, (mS _).2 ⟨symbol_lt _ _ h1, rfl, h1⟩, _, h2, rfl, rfl,
          .inl ⟨rfl, rfl, rfl⟩⟩
        refine ⟨q, hq, ?_⟩
        rw [e3]
        subst e1 e2
        rfl
      · obtain ⟨q, hq, e1, e2, e3⟩ := (hm i (m + 1) s a).2 ⟨⟨m + 1, m + 1, s⟩, (mS _).2 ⟨symbol_lt _ _ h2, rfl, h2⟩, _, h1, rfl, rfl,
          .inr ⟨rfl, rfl, rfl⟩⟩
        refine ⟨q, hq, ?_⟩
        rw [e3]
        cases q with
        | mk p v => cases p; simp only at e1 e2; subst e1 e2; rfl
  have nM : (ms.map asgRange).Nodup := by
    rw [← hms]
    unfold finishWith
    rw [List.map_map]
    exact hn
  have bM : ∀ a ∈ ms, a.start_idx ≤ a.end_idx ∧ a.end_idx < l.ll_tokens.length := by
    rintro ⟨i, j, v⟩ ha
    obtain ⟨s, a, _, ⟨h1, h2⟩ | ⟨m, rfl, h1, h2⟩⟩ := (mM i j v).1 ha
    · have h3 := inA _ h2
      have h4 : i + 1 ≤ j := h3.2.1
      have h5 : j < l.ll_tokens.length := h3.2.2
      exact ⟨by show i ≤ j; omega, h5⟩
    · have h4 : i ≤ m := (inA _ h1).2.1
      exact ⟨by show i ≤ m + 1; omega, symbol_lt _ _ h2⟩
  obtain ⟨l3, ok3, hr3⟩ := run_reachable (k := kC) (f := (currencyAmountResolver (kAmt := .amount) mk).go) hr2 ne2
    ((money_go_iff (kA := .amount) mk).2 g3) (fun a ha => by
      have := bM a ha
      rw [t2, t1]
      omega)
  have t3 := run_tokens ok3
  have t : l3.ll_tokens = l.ll_tokens := t3.trans (t2.trans t1)
  have oM : OnlyFrom kC _ ms := only_new (h := h ++ ss.map (recOf kS) ++ as.map (recOf .amount)) (by
    intro x hx
    rcases List.mem_append.1 hx with hx | hx
    · rcases List.mem_append.1 hx with hx | hx
      · exact hC x hx
      · obtain ⟨a, _, rfl⟩ := List.mem_map.1 hx
        exact Ne.symm n4
    · obtain ⟨a, _, rfl⟩ := List.mem_map.1 hx
      exact Ne.symm n5) ms
  have hq := only_query hr3.rep oM nM (fun a ha => (bM a ha).1)
  refine ⟨l1, l2, l3, _, ok1, ok2, ok3, t, hq, ?_, ?_⟩
  · rw [List.map_map]
    exact nM
  · intro i j text vs
    rw [List.mem_map, t]
    constructor
    · rintro ⟨⟨i', j', v⟩, ha, he⟩
      cases he
      obtain ⟨s, a, rfl, hx⟩ := (mM _ _ _).1 ha
      exact ⟨rfl, s, a, rfl, hx⟩
    · rintro ⟨rfl, s, a, rfl, hx⟩
      exact ⟨⟨i, j, mk s a⟩, (mM i j _).2 ⟨s, a, rfl, hx⟩, rfl⟩

/-- C87 for a line made from any string; no hypothesis on the tokens is left. -/
theorem C87_from_string {str : Str} {l : LLLine W} (ok : createLineFromString W str = .ok l) (ne : l.ll_tokens ≠ [])
    {u c : W.Key} (huc : c ≠ u) (usd euro : W.UserVal u) (r : AmountResolver) (mk : W.UserVal u → W.Decimal → W.UserVal c)
    (p0 p1 p2 p3 : Nat) (as : List (LLCursorAssignment W.Decimal)) (hgo : r.go (wholeLine l p0) = .ok as) :
    ∃ l1 l2 l3 q, l.run p1 (currencySymbolResolver (k := .user u) usd euro) = .ok l1 ∧ l1.run p2 (r.resolver W) = .ok l2 ∧
      l2.run p3 (currencyAmountResolver (kSym := .user u) (kAmt := .amount) (k := .user c) mk) = .ok l3 ∧
      l3.ll_tokens = l.ll_tokens ∧ l3.query (.user c) = .ok q ∧ (q.map (·.1)).Nodup ∧
      ∀ i j text vs, ((i, j), text, vs) ∈ q ↔ text = coveredText l.ll_tokens (i, j) ∧ ∃ s a, vs = [mk s a] ∧
        ((symbolAt usd euro l i = some s ∧ (⟨i + 1, j, a⟩ : LLCursorAssignment W.Decimal) ∈ as) ∨
         (∃ m, j = m + 1 ∧ (⟨i, m, a⟩ : LLCursorAssignment W.Decimal) ∈ as ∧ symbolAt usd euro l j = some s)) := by
  have hty : ∀ k : Ty W, k ≠ .char → k ≠ .textTag → ∀ x ∈ creationHistory W utf8Len [.Text str []], x.ty ≠ k := by
    intro k h1 h2 x hx e
    rcases string_types str x hx with h | h
    · exact h1 (e.symm.trans h)
    · exact h2 (e.symm.trans h)
  exact C87_money (kS := .user u) (kC := .user c) (.create _ _ _ (string_wf str) ok) ne
    (creation_plainTags (string_wf str) ok (string_noCustom _ _)) (creation_plainChars (string_wf str) ok (string_noCustom _ _))
    (string_testable ok _) usd euro r mk (by intro h; cases h) (by intro h; cases h) (by intro h; cases h)
    (by intro h; cases h; exact huc rfl) (by intro h; cases h)
    (hty _ (by intro h; cases h) (by intro h; cases h)) (hty _ (by intro h; cases h) (by intro h; cases h))
    (hty _ (by intro h; cases h) (by intro h; cases h)) p0 p1 p2 p3 as hgo

example := C87_from_string (W := Demo.W) (str := "$5 a $ 7€".toList) (l := Demo.symLine) rfl (by intro h; cases h)
  (u := (1 : Nat)) (c := (2 : Nat)) (show (2 : Nat) ≠ 1 by decide) "USD".toList "EUR".toList .english (fun (s a : Str) => s ++ a) 0 1 2 3
  [⟨1, 1, ("5".toList : Str)⟩, ⟨7, 7, ("7".toList : Str)⟩] rfl

example := C83_independent_resolvers_commute (W := Demo.W) (l := Demo.amountLine) Demo.amountReach Demo.amountLine_ne (Stage.amounts .english).resolver
  Stage.pos.resolver (by intro h; cases h) (C82_blind _ _ (by rintro (h | h) <;> cases h)) (C82_blind _ _ (by intro h; cases h)) 0 1 0 1
  (l1 := Demo.runOk Demo.amountLine 0 (Stage.amounts .english).resolver) (l2 := Demo.runOk Demo.amountLine 0 Stage.pos.resolver) rfl rfl
example := C85_twice (W := Demo.W) (l := Demo.amountLine) Demo.amountReach Demo.amountLine_ne Stage.pos.resolver
  (C82_blind _ _ (by intro h; cases h)) 0 1 (l1 := Demo.runOk Demo.amountLine 0 Stage.pos.resolver) rfl
example := C86_plain (W := Demo.W) (k := Ty.user (1 : Nat)) ['U'] ['E'] (s := { wholeLine Demo.symLine 0 with end_idx := 0 })
  (h := creationHistory Demo.W utf8Len [.Text "$5 a $ 7€".toList []])
  (.create _ utf8Len _ (string_wf _) rfl) (creation_plainChars (size := utf8Len) (string_wf _) rfl (string_noCustom _ _)) (by
    intro i hi
    have : i = 0 := Nat.le_zero.1 hi.2
    subst this
    exact text_attr (.create _ utf8Len _ (string_wf _) rfl) (l := Demo.symLine) (t := ['$']) rfl)

end LNlp
