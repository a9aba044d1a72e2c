import Verif.Spec.SlicedSteps
import Verif.Lemmas.Sliced
import Verif.Lemmas.Steps
/- Helper lemmas about the steps of a pipeline that have to do with some types of attributes. -/
namespace LNlp
variable {W : World}

/-! ### rules are programs -/

theorem Pat.looks_built {T : Ty W → Prop} {has : Bool} {α : Type} : ∀ (p : Pat W α), (∀ k, p.Looks k → T k) → Built T has p.matcher
  | .attr k, h => .attr k (h k rfl)
  | .attrEq k v, h => .attrEq k (h k rfl) v
  | .text, _ => .tokenText
  | .seq a b, h => .seq2 (a.looks_built (fun k hk => h k (.inl hk))) (b.looks_built (fun k hk => h k (.inr hk)))
  | .both a b, h => .all2 (a.looks_built (fun k hk => h k (.inl hk))) (b.looks_built (fun k hk => h k (.inr hk)))

theorem EPat.looks_built {T : Ty W → Prop} {has : Bool} {α : Type} : ∀ (p : EPat W α), (∀ k, p.Looks k → T k) → Built T has p.matcher
  | .attr k, h => .attr k (h k rfl)
  | .attrEq k v, h => .attrEq k (h k rfl) v
  | .text, _ => .tokenText
  | .seq a b, h => .seq2 (a.looks_built (fun k hk => h k (.inl hk))) (b.looks_built (fun k hk => h k (.inr hk)))
  | .both a b, h => .all2 (a.looks_built (fun k hk => h k (.inl hk))) (b.looks_built (fun k hk => h k (.inr hk)))
  | .anyOf a b, h => .anyOf2 (a.looks_built (fun k hk => h k (.inl hk))) (b.looks_built (fun k hk => h k (.inr hk)))
  | .unless a b, h => by
    have h1 := a.looks_built (has := has) (fun k hk => h k (.inl hk))
    have h2 := b.looks_built (has := has) (fun k hk => h k (.inr hk))
    exact .user _ _ (fun i => by cases i <;> assumption)

/-- the loop of a resolver that looks first, for candidates with their handles -/
def lookLoop (k : Ty W) : List (Nat × LRange × Val k) → List (Nat × LRange × Val k) → Api W (Val k)
  | [], new => .finish (new.map (fun c => (c.1, c.2.2)))
  | c :: cs, new => .call (.findBy 0 (X.attrEq k c.2.2)) (fun rs _ =>
      if rs.any (fun r => decide (r = c.2.1)) || new.any (fun s => decide (s.2.1 = c.2.1) && valEq k s.2.2 c.2.2)
      then lookLoop k cs new else lookLoop k cs (new ++ [c]))

/-- the candidates of a search, with the handles from `n` on -/
def candidates {Out : Type} {V : Type} (f : Out → List V) : Nat → List LRange → List Out → List (Nat × LRange × V)
  | n, r :: rs, o :: os => (f o).map (fun v => (n, r, v)) ++ candidates f (n + 1) rs os
  | _, _, _ => []

def onceProg {Out : Type} (k : Ty W) (m : XMatch W Out) (f : Out → List (Val k)) : LRange → Api W (Val k) := fun _ =>
  .call (.findBy 0 m) (fun rs outs => lookLoop k (candidates f 1 rs outs) [])

theorem lookLoop_uses {P : {Out : Type} → XMatch W Out → Prop} {k : Ty W} (h : ∀ v, P (X.attrEq k v)) :
    ∀ (cs new : List (Nat × LRange × Val k)), (lookLoop k cs new).Uses P
  | [], _ => trivial
  | c :: cs, new => by
    refine ⟨h _, fun rs _ => ?_⟩
    dsimp only
    split
    · exact lookLoop_uses h cs new
    · exact lookLoop_uses h cs (new ++ [c])

/-- a candidate with its handle is a found selection with its value -/
def Stands {V : Type} (rc : Rc (LLLine W)) (store : List LRange) (c : Nat × LRange × V) (d : LLSelection W × V) : Prop :=
  store[c.1]? = some c.2.1 ∧ d = (selAt rc c.2.1, c.2.2)

inductive StandAll {V : Type} (rc : Rc (LLLine W)) (store : List LRange) : List (Nat × LRange × V) → List (LLSelection W × V) → Prop
  | nil : StandAll rc store [] []
  | cons {c d cs ds} : Stands rc store c d → StandAll rc store cs ds → StandAll rc store (c :: cs) (d :: ds)

theorem StandAll.append {V : Type} {rc : Rc (LLLine W)} {store : List LRange} {cs cs' : List (Nat × LRange × V)} {ds ds'}
    (h : StandAll rc store cs ds) (h' : StandAll rc store cs' ds') : StandAll rc store (cs ++ cs') (ds ++ ds') := by
  induction h with
  | nil => exact h'
  | cons a _ ih => exact .cons a ih

theorem StandAll.more {V : Type} {rc : Rc (LLLine W)} {store : List LRange} (ext : List LRange) {cs : List (Nat × LRange × V)} {ds}
    (h : StandAll rc store cs ds) : StandAll rc (store ++ ext) cs ds := by
  induction h with
  | nil => exact .nil
  | cons a _ ih => exact .cons ⟨get_append a.1, a.2⟩ ih

theorem StandAll.finish {V : Type} {rc : Rc (LLLine W)} {store : List LRange} {cs : List (Nat × LRange × V)} {ds}
    (h : StandAll rc store cs ds) :
    finishAll store (cs.map (fun c => (c.1, c.2.2))) = .ok (ds.map (fun s => s.1.finishWithAttr s.2)) := by
  induction h with
  | nil => rfl
  | cons a _ ih =>
    obtain ⟨a1, rfl⟩ := a
    simp only [List.map_cons, finishAll, a1, ih]
    rfl

theorem selAt_eq (rc : Rc (LLLine W)) (s : LLSelection W) (hs : s.ll_line = rc) (r : LRange) :
    s.eq (selAt rc r) = decide (s.range = r) := by
  subst hs
  obtain ⟨a, b⟩ := r
  simp only [LLSelection.eq, selAt, LLSelection.range, decide_true, Bool.and_true, Prod.mk.injEq]
  by_cases h1 : s.start_idx = a <;> by_cases h2 : s.end_idx = b <;> simp [h1, h2]

theorem StandAll.any {k : Ty W} {rc : Rc (LLLine W)} {store : List LRange} {cs : List (Nat × LRange × Val k)} {ds}
    (h : StandAll rc store cs ds) (r : LRange) (v : Val k) :
    ds.any (fun s => s.1.eq (selAt rc r) && valEq k s.2 v) = cs.any (fun s => decide (s.2.1 = r) && valEq k s.2.2 v) := by
  induction h with
  | nil => rfl
  | cons a _ ih =>
    obtain ⟨_, rfl⟩ := a
    simp only [List.any_cons, ih, selAt_eq rc (selAt rc _) rfl]
    rfl

theorem any_range {Out : Type} {rc : Rc (LLLine W)} {found : List (LLSelection W × Out)} (h : ∀ p ∈ found, p.1.ll_line = rc)
    (r : LRange) : found.any (fun s => s.1.eq (selAt rc r)) = (found.map (·.1.range)).any (fun x => decide (x = r)) := by
  induction found with
  | nil => rfl
  | cons p found ih =>
    simp only [List.any_cons, List.map_cons, ih (fun q hq => h q (by simp [hq])), selAt_eq rc p.1 (h p (by simp))]

theorem lookLoop_run (k : Ty W) (s : LLSelection W) : ∀ {cs new : List (Nat × LRange × Val k)} {ds dnew} {store : List LRange},
    store[0]? = some s.range → StandAll s.ll_line store cs ds → StandAll s.ll_line store new dnew →
    (lookLoop k cs new).run s.ll_line store =
      okMap (fun new => new.map (fun s => s.1.finishWithAttr s.2)) (foldR (lookFirst s k) dnew ds) := by
  intro cs
  induction cs with
  | nil =>
    intro new ds dnew store h0 hc hn
    cases hc
    exact hn.finish
  | cons c cs ih =>
    intro new ds dnew store h0 hc hn
    cases hc with
    | @cons _ d _ ds a hc =>
      obtain ⟨a1, rfl⟩ := a
      simp only [lookLoop, Api.run, Op.exec, onHandle, h0, selAt_range, foldR, lookFirst]
      cases e : s.findBy (X.attrEq k c.2.2) with
      | error x => rfl
      | ok there =>
        simp only [answerPairs, any_range (fun _ hp => findBy_line e hp), hn.any]
        split
        · exact ih (get_append h0) (hc.more _) (hn.more _)
        · exact ih (get_append h0) (hc.more _) ((hn.append (.cons ⟨a1, rfl⟩ .nil)).more _)

theorem candidates_stand {Out V : Type} {rc : Rc (LLLine W)} (f : Out → List V) : ∀ (found : List (LLSelection W × Out))
    (pre : List LRange), (∀ p ∈ found, p.1.ll_line = rc) →
    StandAll rc (pre ++ found.map (·.1.range)) (candidates f pre.length (found.map (·.1.range)) (found.map (·.2)))
      (found.flatMap (fun st => (f st.2).map (fun v => (st.1, v))))
  | [], _, _ => .nil
  | p :: found, pre, h => by
    simp only [List.map_cons, candidates, List.flatMap_cons]
    refine StandAll.append ?_ ?_
    · have hp : p.1 = selAt rc p.1.range := by rw [← h p (by simp)]; rfl
      have hg : (pre ++ p.1.range :: found.map (·.1.range))[pre.length]? = some p.1.range := by simp
      induction f p.2 with
      | nil => exact .nil
      | cons v vs ih => exact .cons ⟨hg, by rw [← hp]⟩ ih
    · have := candidates_stand f found (pre ++ [p.1.range]) (fun q hq => h q (by simp [hq]))
      simpa using this

theorem onceProg_run {Out : Type} (k : Ty W) (m : XMatch W Out) (f : Out → List (Val k)) (s : LLSelection W) :
    (match s.findBy m with
      | .error e => .error e
      | .ok found => okMap (fun new => new.map (fun s => s.1.finishWithAttr s.2))
          (foldR (lookFirst s k) [] (found.flatMap (fun st => (f st.2).map (fun v => (st.1, v)))))) =
      (onceProg k m f s.range).run s.ll_line [s.range] := by
  simp only [onceProg, Api.run, Op.exec, onHandle, List.getElem?_cons_zero, selAt_range]
  cases e : s.findBy m with
  | error x => rfl
  | ok found =>
    simp only [answerPairs]
    exact (lookLoop_run k s (by simp) (candidates_stand f found [s.range] (fun _ hp => findBy_line e hp)) .nil).symm

theorem find_byApi {T : Ty W → Prop} {Out : Type} {k : Ty W} {m : XMatch W Out} (hm : Built T true m) (f : Out → List (Val k))
    (go : LLSelection W → R (List (LLCursorAssignment (Val k)) × Bool))
    (hgo : ∀ sel, go sel = match sel.findBy m with
      | .ok found => .ok (found.flatMap (fun st => (f st.2).map (fun v => st.1.finishWithAttr v)), false)
      | .error e => .error e) : ByApi (fun m => Built T true m) { attr := k, go } := by
  refine ⟨findProg m f, findProg_uses hm f, fun l ptr _ => ?_⟩
  simp only [apiResolver, findProg_run, hgo]
  cases (wholeLine l ptr).findBy m <;> rfl

theorem once_byApi {T : Ty W → Prop} {Out : Type} {k : Ty W} (hk : T k) {m : XMatch W Out} (hm : Built T true m) (f : Out → List (Val k))
    (go : LLSelection W → R (List (LLCursorAssignment (Val k)) × Bool))
    (hgo : ∀ sel, go sel = match sel.findBy m with
      | .error e => .error e
      | .ok found =>
        match foldR (lookFirst sel k) [] (found.flatMap (fun st => (f st.2).map (fun v => (st.1, v)))) with
        | .error e => .error e
        | .ok new => .ok (new.map (fun s => s.1.finishWithAttr s.2), false)) : ByApi (fun m => Built T true m) { attr := k, go } := by
  refine ⟨onceProg k m f, fun x => ⟨hm, fun _ _ => lookLoop_uses (P := fun m => Built T true m) (fun v => .attrEq k hk v) _ _⟩, fun l ptr _ => ?_⟩
  simp only [apiResolver, ← onceProg_run, hgo]
  cases (wholeLine l ptr).findBy m with
  | error x => rfl
  | ok found =>
    dsimp only
    cases foldR (lookFirst (wholeLine l ptr) k) [] (found.flatMap (fun st => (f st.2).map (fun v => (st.1, v)))) <;> rfl

theorem step_byApi {T : Ty W → Prop} (s : Step W) (hk : T s.resolver.attr) (h : ∀ k, s.Looks k → T k) :
    ByApi (fun m => Built T true m) s.resolver := by
  cases s with
  | stage s => exact byApi_mono h (stage_byApi s)
  | rule look r =>
    cases look with
    | true =>
      refine once_byApi (k := r.attr) hk (r.pat.looks_built h) r.values _ (fun sel => ?_)
      cases sel.findBy r.pat.matcher with
      | error x => rfl
      | ok found =>
        dsimp only
        cases foldR (lookFirst sel r.attr) [] (found.flatMap (fun st => (r.values st.2).map (fun v => (st.1, v)))) <;> rfl
    | false => exact find_byApi (k := r.attr) (r.pat.looks_built h) r.values _ (fun sel => by cases sel.findBy r.pat.matcher <;> rfl)
  | erule look r =>
    cases look with
    | true =>
      refine once_byApi (k := r.attr) hk (r.pat.looks_built h) r.values _ (fun sel => ?_)
      cases sel.findBy r.pat.matcher with
      | error x => rfl
      | ok found =>
        dsimp only
        cases foldR (lookFirst sel r.attr) [] (found.flatMap (fun st => (r.values st.2).map (fun v => (st.1, v)))) <;> rfl
    | false => exact find_byApi (k := r.attr) (r.pat.looks_built h) r.values _ (fun sel => by cases sel.findBy r.pat.matcher <;> rfl)

theorem StepsFor.sliced {T : Ty W → Prop} {rs : List (Nat × Resolver W)} {ss : List (Step W)} (h : StepsFor T rs ss) :
    ∀ p, Sliced T true rs (stepsAt p ss) := by
  induction h with
  | nil => exact fun _ => .nil
  | keep hk hl _ ih => exact fun p => .keep hk (step_byApi _ hk hl) (ih _)
  | drop hk _ ih => exact fun p => .drop hk (ih p)

/-- of the types `T`, a pipeline finds in a text what its steps for `T` find -/
theorem ran_analysed {T : Ty W → Prop} {rs : List (Nat × Resolver W)} {ss : List (Step W)} (h : StepsFor T rs ss) {t : Str}
    {l : LLLine W} (ran : RanOnText rs t l) (p : Nat → Nat) :
    ∃ l', AnalysedBy p ss t l' ∧ l'.ll_tokens = l.ll_tokens ∧ ∀ k, T k → l.query k = l'.query k := by
  obtain ⟨l0, ok, run⟩ := ran
  have hr : Reachable l0 _ := .create _ _ _ (string_wf t) ok
  obtain ⟨l2, h1, h2, ok2, r1, r2, t1, t2, hT, _⟩ := sliced_runs (h.sliced p) hr hr (create_ne (string_wf t) ok (by simp)) rfl
    (fun _ _ => rfl) (fun _ => ⟨text_marked ok, text_marked ok⟩) run
  exact ⟨l2, ⟨l0, ok, ok2⟩, by rw [t1, t2], fun k hk => query_ofType r1 r2 (by rw [t1, t2]) (hT k hk)⟩

theorem queried_congr {l l' : LLLine W} {k : Ty W} (h : l.query k = l'.query k) : queried l k = queried l' k := by
  simp only [queried, h]

theorem ran_each {T : Ty W → Prop} {ss : List (Step W)} (p : Nat → Nat) : ∀ {ts : List Str} {ls : List (LLLine W)},
    RanOnTexts T ss ts ls → ∃ ls', AnalysedEach p ss ts ls' ∧
      ls.flatMap (fun x => x.ll_tokens.map (·.token)) = ls'.flatMap (fun x => x.ll_tokens.map (·.token)) ∧
      ∀ k, T k → ∀ n, queriedAll k n ls = queriedAll k n ls'
  | [], [], _ => ⟨[], trivial, rfl, fun _ _ _ => rfl⟩
  | [], _ :: _, h => h.elim
  | _ :: _, [], h => h.elim
  | t :: ts, l :: ls, ⟨⟨rs, hs, hr⟩, h⟩ => by
    obtain ⟨l', a, ht, hq⟩ := ran_analysed hs hr p
    obtain ⟨ls', b, hts, hqs⟩ := ran_each p h
    refine ⟨l' :: ls', ⟨a, b⟩, by simp only [List.flatMap_cons, ht, hts], fun k hk n => ?_⟩
    simp only [queriedAll, queried_congr (hq k hk), hqs k hk, ht]

end LNlp
