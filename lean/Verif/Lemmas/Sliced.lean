import Verif.Spec.Sliced
import Verif.Lemmas.Layers
import Verif.Lemmas.Currency
/- Helper lemmas about pipelines with some resolvers left out. -/
namespace LNlp
variable {W : World}

/-- lines with the same tokens and the same attributes of the types `T` are the same for matchers of these types -/
theorem same_agree {T : Ty W → Prop} {has : Bool} {l l' : LLLine W} {h h' : History W} (rep : Rep l h) (rep' : Rep l' h')
    (ht : l'.ll_tokens = l.ll_tokens) (hT : ∀ k, T k → ofType k h = ofType k h')
    (hm : has = true → EachMarked l h ∧ EachMarked l' h') {Out : Type} {m : XMatch W Out} (hb : Built T has m) :
    Agree true l l' m := by
  have hrg : ∀ k, T k → rangesOf k h' = rangesOf k h := by
    intro k hk
    rw [rangesOf_ofType, rangesOf_ofType, hT k hk]
  have hvs : ∀ k, T k → ∀ r, valuesOf k r h' = valuesOf k r h := by
    intro k hk r
    rw [valuesOf_ofType, ← hT k hk, ← valuesOf_ofType]
  have ha : LineAgree true (fun _ => False) l l' := ⟨by rw [ht], fun _ h => h.elim, fun _ h => h.elim, fun _ h => h.elim⟩
  refine leaves_built (T := T) (by rw [ht]) (fun k hk d => .inl ?_) (fun k hk v d => .inl ?_)
    (fun hh k hk set d => .inl ?_) ha.tokenText hb
  · exact (rep_attr_congr rep rep' k ht (hrg k hk) (hvs k hk) d).1.symm
  · exact ((rep_attr_congr rep rep' k ht (hrg k hk) (hvs k hk) d).2 v).symm
  · change d.tokenAttrOneOf k set l = d.tokenAttrOneOf k set l'
    obtain ⟨m1, m2⟩ := hm hh
    cases d with
    | fwd i =>
      rw [rep_oneOf_fwd rep, rep_oneOf_fwd rep', hvs k hk]
      by_cases hi : i < l.ll_tokens.length
      · rw [if_pos (m1 i hi), if_pos (m2 i (by rw [ht]; exact hi))]
      · rw [if_neg (fun ⟨x, hx, e⟩ => hi (by have := (rep.bounds x hx).1; rw [e] at this; exact this)),
          if_neg (fun ⟨x, hx, e⟩ => hi (by have := (rep'.bounds x hx).1; rw [e, ht] at this; exact this))]
    | bwd i =>
      by_cases hi : i < l.ll_tokens.length
      · rw [rep_oneOf_bwd rep k set hi, rep_oneOf_bwd rep' k set (ht ▸ hi), hrg k hk]
        simp only [hvs k hk]
      · rw [rep_oneOf_bwd_oob rep k set hi, rep_oneOf_bwd_oob rep' k set (ht ▸ hi)]

theorem eachMarked_more {l l' : LLLine W} {h : History W} (hm : EachMarked l h) (ht : l'.ll_tokens = l.ll_tokens)
    (h' : History W) : EachMarked l' (h ++ h') := by
  intro p hp
  rw [ht] at hp
  obtain ⟨x, hx, e⟩ := hm p hp
  exact ⟨x, List.mem_append.2 (.inl hx), e⟩

theorem ofType_ran {T : Ty W → Prop} {ha hb : History W} (hT : ∀ k, T k → ofType k ha = ofType k hb) (a : Ty W)
    (asgs : List (LLCursorAssignment (Val a))) :
    ∀ k, T k → ofType k (ha ++ asgs.map (recOf a)) = ofType k (hb ++ asgs.map (recOf a)) := by
  intro k hk
  rw [ofType_append, ofType_append, hT k hk]

theorem ofType_left_out {T : Ty W → Prop} {ha hb : History W} (hT : ∀ k, T k → ofType k ha = ofType k hb) {a : Ty W}
    (na : ¬ T a) (asgs : List (LLCursorAssignment (Val a))) :
    ∀ k, T k → ofType k (ha ++ asgs.map (recOf a)) = ofType k hb := by
  intro k hk
  rw [ofType_append, ofType_recs_other (fun e => na (by rw [e]; exact hk)), List.append_nil, hT k hk]

/-- what runs through still does so without the resolvers of other types -/
theorem sliced_runs {T : Ty W → Prop} {has : Bool} {rs rs' : List (Nat × Resolver W)} (sl : Sliced T has rs rs') :
    ∀ {a b a' : LLLine W} {ha hb : History W}, Reachable a ha → Reachable b hb → a.ll_tokens ≠ [] →
      b.ll_tokens = a.ll_tokens → (∀ k, T k → ofType k ha = ofType k hb) →
      (has = true → EachMarked a ha ∧ EachMarked b hb) → runAll a rs = .ok a' →
      ∃ (b' : LLLine W) (ha' hb' : History W), runAll b rs' = .ok b' ∧ Reachable a' ha' ∧ Reachable b' hb' ∧
        a'.ll_tokens = a.ll_tokens ∧ b'.ll_tokens = a.ll_tokens ∧ (∀ k, T k → ofType k ha' = ofType k hb') ∧
        (has = true → EachMarked a' ha' ∧ EachMarked b' hb') := by
  induction sl with
  | nil =>
    intro a b a' ha hb hra hrb _ ht hT hm ok
    cases ok
    exact ⟨b, ha, hb, rfl, hra, hrb, rfl, ht, hT, hm⟩
  | @keep p p' r rs rs' hk hapi _ ih =>
    intro a b a' ha hb hra hrb ne ht hT hm ok
    simp only [runAll] at ok
    cases h1 : a.run p r with
    | error e => rw [h1] at ok; cases ok
    | ok a1 =>
      rw [h1] at ok
      obtain ⟨asgs, _, g1, _, _⟩ := run_inv ne h1
      have hra1 : Reachable a1 (ha ++ asgs.map (recOf r.attr)) := .run a ha p r asgs false a1 hra ne g1 h1
      have ta1 := run_tokens h1
      have neb : b.ll_tokens ≠ [] := by rw [ht]; exact ne
      have e := (byApi_sim (b := true) (by rw [ht]) ne (fun _ hm' => same_agree hra.rep hrb.rep ht hT hm hm') hapi p p').eq
      rw [g1] at e
      obtain ⟨b1, ok1, hrb1⟩ := run_reachable (k := r.attr) (f := r.go) hrb neb e.symm (by
        intro x hx
        have := hra1.rep.bounds (recOf r.attr x) (List.mem_append.2 (.inr (List.mem_map.2 ⟨x, hx, rfl⟩)))
        rw [ta1] at this
        rw [ht]
        exact this)
      have tb1 := run_tokens ok1
      obtain ⟨b', ha', hb', okb, r1, r2, t1, t2, hT', hm'⟩ := ih hra1 hrb1 (by rw [ta1]; exact ne) (by rw [tb1, ta1, ht])
        (ofType_ran hT r.attr asgs) (fun hh => ⟨eachMarked_more (hm hh).1 ta1 _, eachMarked_more (hm hh).2 tb1 _⟩) ok
      refine ⟨b', ha', hb', ?_, r1, r2, by rw [t1, ta1], by rw [t2, ta1], hT', hm'⟩
      simp only [runAll]
      rw [show b.run p' r = .ok b1 from ok1]
      exact okb
  | @drop p r rs rs' hk _ ih =>
    intro a b a' ha hb hra hrb ne ht hT hm ok
    simp only [runAll] at ok
    cases h1 : a.run p r with
    | error e => rw [h1] at ok; cases ok
    | ok a1 =>
      rw [h1] at ok
      obtain ⟨asgs, _, g1, _, _⟩ := run_inv ne h1
      have hra1 : Reachable a1 (ha ++ asgs.map (recOf r.attr)) := .run a ha p r asgs false a1 hra ne g1 h1
      have ta1 := run_tokens h1
      obtain ⟨b', ha', hb', okb, r1, r2, t1, t2, hT', hm'⟩ := ih hra1 hrb (by rw [ta1]; exact ne) (by rw [ta1, ht])
        (ofType_left_out hT hk asgs) (fun hh => ⟨eachMarked_more (hm hh).1 ta1 _, (hm hh).2⟩) ok
      exact ⟨b', ha', hb', okb, r1, r2, by rw [t1, ta1], by rw [t2, ta1], hT', hm'⟩

/-- if both run through, they give the same attributes of the types `T` -/
theorem sliced_both {T : Ty W → Prop} {rs rs' : List (Nat × Resolver W)} (sl : Sliced T true rs rs') :
    ∀ {a b a' b' : LLLine W} {ha hb : History W}, Reachable a ha → Reachable b hb → a.ll_tokens ≠ [] →
      b.ll_tokens = a.ll_tokens → (∀ k, T k → ofType k ha = ofType k hb) → runAll a rs = .ok a' → runAll b rs' = .ok b' →
      ∃ ha' hb' : History W, Reachable a' ha' ∧ Reachable b' hb' ∧
        a'.ll_tokens = a.ll_tokens ∧ b'.ll_tokens = a.ll_tokens ∧ ∀ k, T k → ofType k ha' = ofType k hb' := by
  induction sl with
  | nil =>
    intro a b a' b' ha hb hra hrb _ ht hT ok ok'
    cases ok
    cases ok'
    exact ⟨ha, hb, hra, hrb, rfl, ht, hT⟩
  | @keep p p' r rs rs' hk hapi _ ih =>
    intro a b a' b' ha hb hra hrb ne ht hT ok ok'
    simp only [runAll] at ok ok'
    have neb : b.ll_tokens ≠ [] := by rw [ht]; exact ne
    cases h1 : a.run p r with
    | error e => rw [h1] at ok; cases ok
    | ok a1 =>
      cases h2 : b.run p' r with
      | error e => rw [h2] at ok'; cases ok'
      | ok b1 =>
        rw [h1] at ok
        rw [h2] at ok'
        obtain ⟨asgs, _, g1, _, _⟩ := run_inv ne h1
        obtain ⟨asgs', _, g2, _, _⟩ := run_inv neb h2
        have e := answers_agree hra hrb ne ht hT hapi g1 g2
        subst e
        have hra1 : Reachable a1 (ha ++ asgs.map (recOf r.attr)) := .run a ha p r asgs false a1 hra ne g1 h1
        have hrb1 : Reachable b1 (hb ++ asgs.map (recOf r.attr)) := .run b hb p' r asgs false b1 hrb neb g2 h2
        have ta1 := run_tokens h1
        have tb1 := run_tokens h2
        obtain ⟨ha', hb', r1, r2, t1, t2, hT'⟩ := ih hra1 hrb1 (by rw [ta1]; exact ne) (by rw [tb1, ta1, ht])
          (ofType_ran hT r.attr asgs) ok ok'
        exact ⟨ha', hb', r1, r2, by rw [t1, ta1], by rw [t2, ta1], hT'⟩
  | @drop p r rs rs' hk _ ih =>
    intro a b a' b' ha hb hra hrb ne ht hT ok ok'
    simp only [runAll] at ok
    cases h1 : a.run p r with
    | error e => rw [h1] at ok; cases ok
    | ok a1 =>
      rw [h1] at ok
      obtain ⟨asgs, _, g1, _, _⟩ := run_inv ne h1
      have hra1 : Reachable a1 (ha ++ asgs.map (recOf r.attr)) := .run a ha p r asgs false a1 hra ne g1 h1
      have ta1 := run_tokens h1
      obtain ⟨ha', hb', r1, r2, t1, t2, hT'⟩ := ih hra1 hrb (by rw [ta1]; exact ne) (by rw [ta1, ht])
        (ofType_left_out hT hk asgs) ok ok'
      exact ⟨ha', hb', r1, r2, by rw [t1, ta1], by rw [t2, ta1], hT'⟩

/-- queries depend on the tokens and the attributes of their type only -/
theorem query_ofType {l l' : LLLine W} {h h' : History W} (hr : Reachable l h) (hr' : Reachable l' h')
    (ht : l'.ll_tokens = l.ll_tokens) {k : Ty W} (e : ofType k h = ofType k h') : l.query k = l'.query k := by
  rw [rep_query_gen hr.rep, rep_query_gen hr'.rep, ht, rangesOf_ofType, rangesOf_ofType, e]
  simp only [valuesOf_ofType k _ h, valuesOf_ofType k _ h', e]

/-- the tokens of a text all have their tag -/
theorem text_marked {str : Str} {l : LLLine W} (ok : createLineFromString W str = .ok l) :
    EachMarked l (creationHistory W utf8Len [.Text str []]) := by
  intro p hp
  have hr : Reachable l _ := .create [.Text str []] utf8Len l (string_wf str) ok
  have htok : l.ll_tokens.map (·.token) = (textPieces W str).map (fun q => LToken.Text q.1 q.2) := by
    rw [(create_inv (string_wf str) ok).2.1, layoutM_tokens]
    simp [tokensOf, Function.comp_def]
  have hmem : (l.ll_tokens[p]'hp).token ∈ l.ll_tokens.map (·.token) := List.mem_map.2 ⟨_, List.getElem_mem hp, rfl⟩
  rw [htok] at hmem
  obtain ⟨q, _, e⟩ := List.mem_map.1 hmem
  exact ⟨_, text_token_record hr p _ q.1 q.2 (List.getElem?_eq_getElem hp) e.symm, rfl⟩

/-- leaving out several resolvers at once -/
theorem Sliced.drops {T : Ty W → Prop} {has : Bool} {rs rs' : List (Nat × Resolver W)} (sl : Sliced T has rs rs') :
    ∀ pre : List (Nat × Resolver W), (∀ p ∈ pre, ¬ T p.2.attr) → Sliced T has (pre ++ rs) rs'
  | [], _ => sl
  | (p, r) :: pre, h => .drop (h (p, r) (by simp)) (sl.drops pre (fun p hp => h p (by simp [hp])))

end LNlp
