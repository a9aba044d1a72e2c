import Verif.Lemmas.Sliced
import Verif.Props.Layers
import Verif.Props.ManySentences
/- Property C168: what a pipeline has to do with some types of attributes. -/
namespace LNlp
variable {W : World}

/-! ### C168: leaving out what has nothing to do with it -/

/-- C168: whatever resolvers a pipeline has, of the types `T` it finds what is found without the resolvers of other
types, if those of the types `T` look at the types `T` only: without the others the pipeline still runs through, and the
queries for these types, and all matchers of these types, give the same. (Matchers may use `token_has_any` if all tokens
have attributes, as those of texts do.) -/
theorem C168_left_out {T : Ty W → Prop} {has : Bool} {l l1 : LLLine W} {h : History W} (hr : Reachable l h)
    (ne : l.ll_tokens ≠ []) (marked : has = true → EachMarked l h) {rs rs' : List (Nat × Resolver W)}
    (sl : Sliced T has rs rs') (ok : runAll l rs = .ok l1) :
    ∃ l2, runAll l rs' = .ok l2 ∧ (∀ k, T k → l1.query k = l2.query k) ∧
      ∀ {Out : Type} (m : XMatch W Out), Built T has m → ∀ d, m.go d l1 = m.go d l2 := by
  obtain ⟨l2, h1, h2, ok2, r1, r2, t1, t2, hT, hm⟩ := sliced_runs sl hr hr ne rfl (fun _ _ => rfl) (fun e => ⟨marked e, marked e⟩) ok
  refine ⟨l2, ok2, fun k hk => query_ofType r1 r2 (by rw [t1, t2]) (hT k hk), fun m hb d => ?_⟩
  exact (same_agree r1.rep r2.rep (by rw [t1, t2]) hT hm hb d).eq

/-- C168: on any line, if both run through, the queries for these types are the same, and so are the answers of
matchers that answer on both. -/
theorem C168_both_run {T : Ty W → Prop} {l l1 l2 : LLLine W} {h : History W} (hr : Reachable l h)
    (ne : l.ll_tokens ≠ []) {rs rs' : List (Nat × Resolver W)} (sl : Sliced T true rs rs') (ok : runAll l rs = .ok l1)
    (ok' : runAll l rs' = .ok l2) :
    (∀ k, T k → l1.query k = l2.query k) ∧
      ∀ {Out : Type} (m : XMatch W Out), Built T true m → ∀ d a b, m.go d l1 = .ok a → m.go d l2 = .ok b → a = b := by
  obtain ⟨h1, h2, r1, r2, t1, t2, hT⟩ := sliced_both sl hr hr ne rfl (fun _ _ => rfl) ok ok'
  refine ⟨fun k hk => query_ofType r1 r2 (by rw [t1, t2]) (hT k hk), fun m hb d a b ea eb => ?_⟩
  obtain ⟨l3, s1, s2⟩ := common_line r1 r2 (by rw [t1]; exact ne) (by rw [t1, t2]) hT
  have e1 := (s1.built hb d).ok ea
  have e2 := (s2.built hb d).ok eb
  rw [e1] at e2
  injection e2

def Demo.marksAll : Resolver Demo.W where
  attr := Ty.user (2 : Nat)
  go := fun s => .ok ((List.range s.ll_line.val.ll_tokens.length).map (fun i => ⟨i, i, ['x']⟩), false)
def Demo.ranAll (l : LLLine Demo.W) (rs : List (Nat × Resolver Demo.W)) : LLLine Demo.W := Demo.getOk Demo.emptyLine (runAll l rs)
/-- a resolver that is left out, one that stays, and parts of speech, which are left out -/
def Demo.someLeft : List (Nat × Resolver Demo.W) :=
  [(0, Demo.marksAll), (1, apiResolver (.user (5 : Nat)) Demo.unitProg), (2, Stage.pos.resolver)]
theorem Demo.some_sliced : Sliced (fun k => k = Ty.textTag (W := Demo.W) ∨ k = .user (5 : Nat)) true Demo.someLeft
    [(7, apiResolver (.user (5 : Nat)) Demo.unitProg)] :=
  .drop (by rintro (h | h) <;> cases h) (.keep (.inr rfl) (byApi_mono (fun _ h => .inl h) Demo.unitProg_byApi)
    (.drop (by rintro (h | h) <;> cases h) .nil))
example := C168_left_out Demo.amountReach Demo.amountLine_ne (fun _ => text_marked (W := Demo.W) rfl) Demo.some_sliced
  (l1 := Demo.ranAll Demo.amountLine Demo.someLeft) rfl
example := C168_both_run Demo.amountReach Demo.amountLine_ne Demo.some_sliced
  (l1 := Demo.ranAll Demo.amountLine Demo.someLeft)
  (l2 := Demo.ranAll Demo.amountLine [(7, apiResolver (.user (5 : Nat)) Demo.unitProg)]) rfl rfl

/-- the full claim that leaving out resolvers of other types never makes a panic -/
def C168_claim : Prop :=
  ∀ (W : World) (T : Ty W → Prop) (l l1 : LLLine W) (h : History W) (rs rs' : List (Nat × Resolver W)), Reachable l h →
    l.ll_tokens ≠ [] → Sliced T true rs rs' → runAll l rs = .ok l1 → ∃ l2, runAll l rs' = .ok l2

def Demo.anyProg : LRange → Api Demo.W (Val (Ty.user (W := Demo.W) 6)) := fun _ =>
  .call (.findBy 0 (X.tokenHasAny .char [])) (fun rs _ => .finish ((List.range rs.length).map (fun i => (i + 1, ['n']))))
def Demo.anyRes : Resolver Demo.W := apiResolver (.user 6) Demo.anyProg
theorem Demo.anyRes_api : ByApi (fun m => Built (fun k => k = .char ∨ k = Ty.user (W := Demo.W) 6) true m) Demo.anyRes :=
  ⟨Demo.anyProg, fun _ => ⟨.tokenHasAny _ (.inl rfl) rfl _, fun _ _ => trivial⟩, fun _ _ _ => rfl⟩
theorem Demo.bare_sliced : Sliced (fun k => k = .char ∨ k = Ty.user (W := Demo.W) 6) true
    [(0, Demo.bareRes), (0, Demo.anyRes)] [(0, Demo.anyRes)] :=
  .drop (by rintro (h | h) <;> cases h) (.keep (.inr rfl) Demo.anyRes_api .nil)

/-- C168 needs attributes on all tokens for `token_has_any` (x.rs:135-147): a resolver of another type can give a bare
token its first attribute. -/
theorem C168_bare_false : ¬ C168_claim := by
  intro claim
  obtain ⟨l2, e⟩ := claim Demo.W _ Demo.bareLine _ _ _ _
    (.create [.Custom 4 []] List.length _ (by simp [InputToken.WF, InputToken.attrList]) rfl) (by decide)
    Demo.bare_sliced rfl
  cases e

/-- C168 for clauses: in any pipeline in which the keyword resolver and later the clause resolver are the only ones that
assign tags, keywords and clauses, the clauses are those of C94, whatever runs before, between and after. -/
theorem C168_clauses {size : Str → Nat} {input : List (InputToken W)} {l l' : LLLine W} (wf : ∀ t ∈ input, t.WF)
    (ok : createLineFromInputTokens W input size = .ok l) (n1 : NoCustom .textTag input) (n2 : NoCustom .clauseKeyword input)
    (n3 : NoCustom .clause input) (ne : l.ll_tokens ≠ []) (r : ClauseKeywordResolver) (p1 p2 : Nat)
    {before between after : List (Nat × Resolver W)} (nb : ∀ p ∈ before, ¬ ForClauses p.2.attr)
    (nm : ∀ p ∈ between, ¬ ForClauses p.2.attr) (na : ∀ p ∈ after, ¬ ForClauses p.2.attr)
    (run : runAll l (before ++ (p1, r.resolver W) :: (between ++ (p2, clauseResolver W) :: after)) = .ok l') :
    ∃ q, l'.query .clause = .ok q ∧ ClauseQuery r l q ∧ q.Pairwise (fun x y => x.1.2 < y.1.1) ∧
      ∀ i j text vs, ((i, j), text, vs) ∈ q ↔
        text = coveredText l.ll_tokens (i, j) ∧ ∃ kind, vs = [kind] ∧ ClauseAt r l i j kind := by
  have sl : Sliced ForClauses true (before ++ (p1, r.resolver W) :: (between ++ (p2, clauseResolver W) :: after))
      [(p1, r.resolver W), (p2, clauseResolver W)] := by
    refine Sliced.drops (.keep (.inr (.inl rfl)) (byApi_mono (fun k hk => hk.elim) (stage_byApi (.keywords r)))
      (Sliced.drops (.keep (.inr (.inr rfl)) (byApi_mono ?_ (stage_byApi .clauses)) ?_) between nm)) before nb
    · rintro k (hk | hk)
      · exact .inl hk
      · exact .inr (.inl hk)
    · have := (Sliced.nil (T := ForClauses (W := W)) (has := true)).drops after na
      rwa [List.append_nil] at this
  obtain ⟨l1, l2, q, e1, e2, hq, ord, desc⟩ := C94_clauses_of_input wf ok n1 n2 n3 ne r p1 p2
  have run2 : runAll l [(p1, r.resolver W), (p2, clauseResolver W)] = .ok l2 := by simp only [runAll, e1, e2]
  have := (C168_both_run (.create input size l wf ok) ne sl run run2).1 .clause (.inr (.inr rfl))
  exact ⟨q, this.trans hq, ⟨p1, p2, l1, l2, e1, e2, hq⟩, ord, desc⟩

theorem Demo.marks_not : ∀ p ∈ [(0, Demo.marksAll)], ¬ ForClauses p.2.attr := by
  intro p hp
  rw [List.mem_singleton.1 hp]
  rintro (h | h | h) <;> cases h
theorem Demo.pos_not : ∀ p ∈ [(0, Stage.pos.resolver (W := Demo.W))], ¬ ForClauses p.2.attr := by
  intro p hp
  rw [List.mem_singleton.1 hp]
  rintro (h | h | h) <;> cases h
example := C168_clauses Demo.ifABC_wf (l := Demo.ifABCLine) (size := utf8Len) rfl (Demo.ifABC_noCustom _)
  (Demo.ifABC_noCustom _) (Demo.ifABC_noCustom _) (by intro h; cases h) Demo.kws 0 1 Demo.marks_not Demo.pos_not Demo.marks_not
  (l' := Demo.ranAll Demo.ifABCLine ([(0, Demo.marksAll)] ++ (0, Demo.kws.resolver Demo.W) ::
    ([(0, Stage.pos.resolver)] ++ (1, clauseResolver Demo.W) :: [(0, Demo.marksAll)]))) rfl

/-- C168 for amounts: in any pipeline in which AmountResolver is the only one that assigns tags, chars and amounts, the
amounts of a text are those of the grammar (C67, C96), whatever runs before and after. -/
theorem C168_amounts {str : Str} {l l' : LLLine W} (ok : createLineFromString W str = .ok l) (ne : l.ll_tokens ≠ [])
    (r : AmountResolver) (p : Nat) {before after : List (Nat × Resolver W)}
    (nb : ∀ q ∈ before, q.2.attr ≠ .textTag ∧ q.2.attr ≠ .char ∧ q.2.attr ≠ .amount)
    (na : ∀ q ∈ after, q.2.attr ≠ .textTag ∧ q.2.attr ≠ .char ∧ q.2.attr ≠ .amount)
    (run : runAll l (before ++ (p, r.resolver W) :: after) = .ok l') :
    ∃ as, Amounts r l (creationHistory W utf8Len [.Text str []]) (l.ll_tokens.length - 1) 0 as ∧
      l'.query .amount = .ok (as.map (fun a =>
        ((a.start_idx, a.end_idx), coveredText l.ll_tokens (a.start_idx, a.end_idx), [a.value]))) ∧
      as.Pairwise (fun a b => a.end_idx < b.start_idx) := by
  have none : ∀ rs : List (Nat × Resolver W), (∀ q ∈ rs, q.2.attr ≠ .textTag ∧ q.2.attr ≠ .char ∧ q.2.attr ≠ .amount) →
      ∀ q ∈ rs, ¬ (q.2.attr = .textTag ∨ q.2.attr = .char ∨ q.2.attr = .amount) := by
    rintro rs hn q hq (e | e | e)
    · exact (hn q hq).1 e
    · exact (hn q hq).2.1 e
    · exact (hn q hq).2.2 e
  have sl : Sliced (fun k : Ty W => k = .textTag ∨ k = .char ∨ k = .amount) true (before ++ (p, r.resolver W) :: after)
      [(p, r.resolver W)] := by
    refine Sliced.drops (.keep (.inr (.inr rfl)) (byApi_mono ?_ (stage_byApi (.amounts r))) ?_) before (none _ nb)
    · rintro k (hk | hk)
      · exact .inl hk
      · exact .inr (.inl hk)
    · have := (Sliced.nil (T := fun k : Ty W => k = .textTag ∨ k = .char ∨ k = .amount) (has := true)).drops after (none _ na)
      rwa [List.append_nil] at this
  obtain ⟨l2, ok2, hq, _⟩ := C168_left_out (.create _ _ _ (string_wf str) ok) ne (fun _ => text_marked ok) sl run
  simp only [runAll] at ok2
  cases e : l.run p (r.resolver W) with
  | error x => rw [e] at ok2; cases ok2
  | ok l3 =>
    rw [e] at ok2
    cases ok2
    obtain ⟨as, h1, h2, h3⟩ := C96_whenever_it_runs ok ne r p e
    exact ⟨as, h1, (hq .amount (.inr (.inr rfl))).trans h2, h3⟩

theorem Demo.marks_not_amounts : ∀ q ∈ [(0, Demo.marksAll)], q.2.attr ≠ .textTag ∧ q.2.attr ≠ .char ∧ q.2.attr ≠ .amount := by
  intro p hp
  rw [List.mem_singleton.1 hp]
  exact ⟨(by intro h; cases h), (by intro h; cases h), (by intro h; cases h)⟩
example := C168_amounts (str := "x 1'234.50, 7. y 8,".toList) (l := Demo.amountLine) rfl Demo.amountLine_ne .english 0
  Demo.marks_not_amounts Demo.marks_not_amounts
  (l' := Demo.ranAll Demo.amountLine ([(0, Demo.marksAll)] ++ (0, AmountResolver.english.resolver Demo.W) :: [(0, Demo.marksAll)])) rfl

/-- C168 with C160: in any such pipeline the clauses of a text of many sentences are those of its sentences. -/
theorem C168_sentences (L : SplitLaws W) (S : SplitStable W) {ts : List Str} (nts : ts ≠ [])
    (cut : CutInto W ([] : List (Stage W)) ts) (fits : utf8Len ts.flatten < W.usizeBound) {l l' : LLLine W}
    (ok : createLineFromString W ts.flatten = .ok l) {r : ClauseKeywordResolver} {ps : List (WithClauses W)}
    (parts : ClausedAll (fun t => createLineFromString W t) r ts ps) (ends : SentencesEnd r (ps.map (·.1))) (p1 p2 : Nat)
    {before between after : List (Nat × Resolver W)} (nb : ∀ p ∈ before, ¬ ForClauses p.2.attr)
    (nm : ∀ p ∈ between, ¬ ForClauses p.2.attr) (na : ∀ p ∈ after, ¬ ForClauses p.2.attr)
    (run : runAll l (before ++ (p1, r.resolver W) :: (between ++ (p2, clauseResolver W) :: after)) = .ok l') :
    ∃ q, l'.query .clause = .ok q ∧ ∀ i j text kind, ((i, j), text, [kind]) ∈ q ↔ FromPart r ps i j text kind := by
  obtain ⟨q, hq, hc, _⟩ := C168_clauses (string_wf _) ok (string_plain _ _) (string_plain _ _) (string_plain _ _)
    (create_ne (string_wf _) ok (by simp)) r p1 p2 nb nm na run
  exact ⟨q, hq, fun i j text kind => C160_text L S nts cut fits ok parts ends hc i j text kind⟩

/-- the text `if a. b,c. d` -/
example := C168_sentences Demo.splitLaws Demo.splitStable (ts := Demo.sents) (by intro h; cases h)
  ⟨by decide, .inr (.inr ⟨["if".toList, " ".toList, "a".toList, ".".toList],
      [" ".toList, "b".toList, ",".toList, "c".toList, ".".toList, " ".toList, "d".toList], by decide, by decide⟩),
    ⟨'.', by decide, by intro s hs; cases hs⟩, by decide,
    .inr (.inr ⟨[" ".toList, "b".toList, ",".toList, "c".toList, ".".toList], [" ".toList, "d".toList], by decide, by decide⟩),
    ⟨'.', by decide, by intro s hs; cases hs⟩, by intro h; cases h⟩
  (by decide) (l := Demo.sentsLine) rfl Demo.sents_claused Demo.sents_end 0 1 Demo.marks_not Demo.pos_not Demo.marks_not
  (l' := Demo.ranAll Demo.sentsLine ([(0, Demo.marksAll)] ++ (0, Demo.kws.resolver Demo.W) ::
    ([(0, Stage.pos.resolver)] ++ (1, clauseResolver Demo.W) :: [(0, Demo.marksAll)]))) rfl

end LNlp
