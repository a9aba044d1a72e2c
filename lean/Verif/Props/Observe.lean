import Verif.Lemmas.Observe
import Verif.Props.Pipeline
/-
C88–C91: what can be observed of a line and of the containers in it, and how matches change when
resolvers run.
-/
namespace LNlp
variable {W : World}

/-! ### C88: the queries determine the line -/

/-- C88: two lines with the same tokens that answer every `query` alike are the same line: no other read,
no matcher, no display and no further run can tell them apart. -/
theorem C88_queries_determine_the_line {l l' : LLLine W} {h h' : History W} (hr : Reachable l h) (hr' : Reachable l' h')
    (ht : l.ll_tokens = l'.ll_tokens) (hq : ∀ k, ∃ out, l.query k = .ok out ∧ l'.query k = .ok out) : l = l' := by
  have key : ∀ {l : LLLine W} {h : History W} (_ : Reachable l h) {k : Ty W} {out : List (LRange × Str × List (Val k))},
      l.query k = .ok out → out.map (fun p => (p.1, p.2.2)) = (rangesOf k h).map (fun r => (r, valuesOf k r h)) := by
    intro l h hr k out ho
    rw [rep_query_gen hr.rep] at ho
    revert ho
    generalize rangesOf k h = R
    induction R generalizing out with
    | nil => intro ho; cases ho; rfl
    | cons r rs ih =>
      intro ho
      simp only [mapR] at ho
      cases hs : sliceIncl l.ll_tokens r.1 r.2 with
      | error e => rw [hs] at ho; cases ho
      | ok toks =>
        simp only [hs] at ho
        split at ho
        · cases ho
        · next rest hrest => cases ho; rw [List.map_cons, List.map_cons, ih hrest]
  have both : ∀ k, (rangesOf k h).map (fun r => (r, valuesOf k r h)) = (rangesOf k h').map (fun r => (r, valuesOf k r h')) := by
    intro k
    obtain ⟨out, h1, h2⟩ := hq k
    rw [← key hr h1, ← key hr' h2]
  have hR : ∀ k, rangesOf k h = rangesOf k h' := by
    intro k
    have := congrArg (List.map Prod.fst) (both k)
    simpa [List.map_map, Function.comp_def] using this
  refine rep_ext hr.rep hr'.rep ht hR (fun k r => ?_)
  by_cases hm : r ∈ rangesOf k h
  · have hb := both k
    rw [← hR k] at hb
    have := List.map_inj_left.1 hb r hm
    exact (Prod.mk.inj this).2
  · rw [valuesOf_not_mem hm, valuesOf_not_mem (by rw [← hR k]; exact hm)]

/-- C88: what is stored depends on the order of the assignments of each type only, not on how assignments of
different types are interleaved. -/
theorem C88_order_within_types {l l' : LLLine W} {h h' : History W} (hr : Reachable l h) (hr' : Reachable l' h')
    (ht : l.ll_tokens = l'.ll_tokens)
    (hh : ∀ k, h.filter (fun x => decide (x.ty = k)) = h'.filter (fun x => decide (x.ty = k))) : l = l' := by
  have hv : ∀ (h : History W) k r, valuesOf k r h = valuesOf k r (h.filter (fun x => decide (x.ty = k))) := by
    intro h k r
    unfold valuesOf
    induction h with
    | nil => rfl
    | cons x xs ih =>
      rw [List.filter_cons]
      by_cases hx : x.ty = k
      · rw [if_pos (by simpa using hx), List.filterMap_cons, List.filterMap_cons, ih]
      · rw [if_neg (by simpa using hx), List.filterMap_cons, ih]
        have : x.valAs k = none := by simp [Rec.valAs, hx]
        simp [this]
  refine rep_ext hr.rep hr'.rep ht (fun k => ?_) (fun k r => ?_)
  · unfold rangesOf; rw [hh k]
  · rw [hv h, hv h', hh k]

/-- the example line, after a resolver of each of two types, in one order and in the other -/
theorem Demo.obsReach (l1 l12 l2 l21 : LLLine Demo.W) (h1 : Demo.exLine.run 7 Demo.exRes = .ok l1) (h2 : l1.run 1 Demo.exRes' = .ok l12)
    (h3 : Demo.exLine.run 0 Demo.exRes' = .ok l2) (h4 : l2.run 1 Demo.exRes = .ok l21) :
    ∃ h h', Reachable l12 h ∧ Reachable l21 h' ∧ Ordered h ∧ l12.ll_tokens = l21.ll_tokens ∧
      ∀ k, h.filter (fun x => decide (x.ty = k)) = h'.filter (fun x => decide (x.ty = k)) := by
  have n1 : l1.ll_tokens ≠ [] := by rw [run_tokens h1]; exact Demo.exLine_ne
  have n2 : l2.ll_tokens ≠ [] := by rw [run_tokens h3]; exact Demo.exLine_ne
  have r12 : Reachable l12 _ := .run l1 _ 1 Demo.exRes' _ false l12 (.run _ _ 7 Demo.exRes _ false l1 Demo.exReach Demo.exLine_ne rfl h1) n1 rfl h2
  have r21 : Reachable l21 _ := .run l2 _ 1 Demo.exRes _ false l21 (.run _ _ 0 Demo.exRes' _ false l2 Demo.exReach Demo.exLine_ne rfl h3) n2 rfl h4
  refine ⟨_, _, r12, r21, ?_, by rw [run_tokens h2, run_tokens h1, run_tokens h4, run_tokens h3], ?_⟩
  · intro x hx
    rcases List.mem_append.1 hx with hx | hx
    · exact Demo.exHist2_ordered x hx
    · cases hx with
      | head => decide
      | tail _ h => cases h
  · exact fun k => filter_swap (by intro h; cases h) _ _ _ k

example (l1 l12 l2 l21 : LLLine Demo.W) (h1 : Demo.exLine.run 7 Demo.exRes = .ok l1) (h2 : l1.run 1 Demo.exRes' = .ok l12)
    (h3 : Demo.exLine.run 0 Demo.exRes' = .ok l2) (h4 : l2.run 1 Demo.exRes = .ok l21) : l12 = l21 := by
  obtain ⟨h, h', r, r', ord, ht, hf⟩ := Demo.obsReach l1 l12 l2 l21 h1 h2 h3 h4
  have e := C88_order_within_types r r' ht hf
  subst e
  exact C88_queries_determine_the_line r r' ht (fun k => by
    have hok := rep_query r.rep k (fun x hx => by
      obtain ⟨v, hv⟩ := mem_rangesOf.1 hx
      have : x.1 ≤ x.2 := ord _ hv
      omega)
    exact ⟨_, hok, hok⟩)
example : ∃ l1 l12 l2 l21, Demo.exLine.run 7 Demo.exRes = .ok l1 ∧ l1.run 1 Demo.exRes' = .ok l12 ∧
    Demo.exLine.run 0 Demo.exRes' = .ok l2 ∧ l2.run 1 Demo.exRes = .ok l21 := ⟨_, _, _, _, rfl, rfl, rfl, rfl⟩

/-! ### C89: the containers -/

/-- C89: after any sequence of insertions (typed or type-erased) and clearings no operation failed, and for
every type the bucket holds exactly the values of that type inserted since the last `clear`, in order. -/
theorem C89_type_bucket (ops : List (BucketOp W)) : ∃ b, TypeBucket.empty.runOps ops = .ok b ∧
    ∀ k, b.get k = .ok ((sinceClear ops).filterMap (BucketOp.valAs k)) ∧
      b.getDebug k = .ok (((sinceClear ops).filterMap (BucketOp.valAs k)).map (valDbg k)) := by
  obtain ⟨b, hb, hrep⟩ := brep_run ops brep_empty
  refine ⟨b, hb, fun k => ?_⟩
  have := brep_get hrep k
  rw [fold_sinceClear] at this
  exact this

example : (sinceClear (W := Demo.W) [.insert .char 'a', .clear, .insert .char 'b', .insertAny .textTag .WORD, .insertAny .char 'c']).filterMap
    (BucketOp.valAs .char) = ['b', 'c'] := rfl
example := C89_type_bucket (W := Demo.W) [.insert .char 'a', .clear, .insert .char 'b', .insertAny .textTag .WORD, .insertAny .char 'c']

/-- C89: an index lists for every type the distinct values inserted for it, in the order of their first
insertion. -/
theorem C89_type_id_to_many {α : Type} [DecidableEq α] (ops : List (Bool × Ty W × α)) (k : Ty W) :
    (TypeIdToMany.empty.runOps ops).get k = firsts ((ops.filter (fun o => decide (o.2.1 = k))).map (·.2.2)) := by
  have step : ∀ (pre : List α) (x : α), (if x ∈ firsts pre then firsts pre else firsts pre ++ [x]) = firsts (pre ++ [x]) := by
    intro pre x
    rw [firsts_append_singleton]
    simp only [mem_firsts]
  have gen : ∀ (ops : List (Bool × Ty W × α)) (m : TypeIdToMany W α) (pre : List α), m.get k = firsts pre →
      (m.runOps ops).get k = firsts (pre ++ (ops.filter (fun o => decide (o.2.1 = k))).map (·.2.2)) := by
    intro ops
    induction ops with
    | nil => intro m pre h; simpa [TypeIdToMany.runOps] using h
    | cons o os ih =>
      intro m pre h
      obtain ⟨typed, k', x⟩ := o
      have one : (m.runOps ((typed, k', x) :: os)).get k = ((m.insertDistinct k' x).runOps os).get k := by
        cases typed <;> rfl
      rw [one]
      by_cases hk : k' = k
      · subst hk
        rw [ih (m.insertDistinct k' x) (pre ++ [x]) (by rw [TypeIdToMany.get_insertDistinct, if_pos rfl, h, step])]
        simp
      · rw [ih (m.insertDistinct k' x) pre (by rw [TypeIdToMany.get_insertDistinct, if_neg (fun e => hk e.symm), h])]
        simp [hk]
  simpa using gen ops TypeIdToMany.empty [] rfl

example := C89_type_id_to_many (W := Demo.W) [(true, .char, 5), (false, .char, 3), (false, .textTag, 4), (true, .char, 5)] .char
example : firsts (([(true, .char, 5), (false, .char, 3), (false, .textTag, 4), (true, .char, 5)] : List (Bool × Ty Demo.W × Nat)).filter
    (fun o => decide (o.2.1 = .char)) |>.map (·.2.2)) = [5, 3] := rfl

/-! ### C90: runs only add matches -/

/-- C90, as a user would expect it: whatever a matcher found at a position, it still finds after further
resolvers ran. -/
def C90_claim : Prop := ∀ (W : World) (l l' : LLLine W) (h : History W) (ptr : Nat) (r : Resolver W) (Out : Type)
  (m : XMatch W Out) (d : Dir) (out out' : List (Out × Nat)), Builtin m → Reachable l h → l.run ptr r = .ok l' →
  m.go d l = .ok out → m.go d l' = .ok out' → out.Sublist out'

/-- C90 is false for `any_of`: a new attribute for an earlier alternative hides the matches of a later one. -/
theorem C90_any_of_false : ¬ C90_claim := by
  intro claim
  have := claim Demo.W Demo.exLine Demo.exLine2 _ 7 Demo.exRes _
    (X.anyOf2 (X.attr (Ty.user (2 : Nat))) X.tokenText) (.fwd 0) _ _
    (.anyOf2 (.attr _ trivial) .tokenText) Demo.exReach Demo.exLine2_ok rfl rfl
  have h1 := this.subset (a := (.B ['P','a','y'], 0)) (List.mem_singleton.2 rfl)
  revert h1
  show ¬ ((.B ['P','a','y'], 0) : AnyOf2 Str Str × Nat) ∈ [(.A ['x'], 2), (.A ['x'], 2)]
  decide

/-- C90 for matchers without `any_of`: after a run all earlier results are still there, in the same order and
as often as before. Missing: matchers with `any_of` (false, see `C90_any_of_false`). -/
theorem C90_partial {l l' : LLLine W} {h : History W} (hr : Reachable l h) {ptr : Nat} {r : Resolver W}
    (ok : l.run ptr r = .ok l') {has : Bool} {Out : Type} {m : XMatch W Out} (hm : ChoiceFree has m) (d : Dir)
    (out out' : List (Out × Nat)) (h1 : m.go d l = .ok out) (h2 : m.go d l' = .ok out') : out.Sublist out' := by
  by_cases ne : l.ll_tokens = []
  · have := run_empty (r := r) (ptr := ptr) ne
    rw [this] at ok
    cases ok
    rw [h1] at h2
    cases h2
    exact List.Sublist.refl _
  · obtain ⟨asgs, _, ht, _, rep'⟩ := run_rep hr.rep ne ok
    exact grow_go hm ⟨hr.rep, rep', ht⟩ d out out' h1 h2

example := C90_partial (W := Demo.W) Demo.exReach Demo.exLine2_ok (has := false)
  (.seq2 (.attr (Ty.user (0 : Nat))) (.attrEq .textTag .WORD)) (.fwd 0) _ _ rfl rfl

/-- C90 for a choice between two expressions without `any_of`, exactly: the results of the choice are kept by a
run unless there were some, all from the second alternative, and the run brought the first result of the first
alternative. -/
theorem C90_choice {l l' : LLLine W} {h : History W} (hr : Reachable l h) {ptr : Nat} {r : Resolver W}
    (ok : l.run ptr r = .ok l') {has : Bool} {A B : Type} {a : XMatch W A} {b : XMatch W B} (ha : ChoiceFree has a)
    (hb : ChoiceFree has b) (d : Dir) (as as' : List (A × Nat)) (out out' : List (AnyOf2 A B × Nat))
    (g1 : a.go d l = .ok as) (g2 : a.go d l' = .ok as')
    (h1 : (X.anyOf2 a b).go d l = .ok out) (h2 : (X.anyOf2 a b).go d l' = .ok out') :
    out.Sublist out' ↔ ¬ (out ≠ [] ∧ as = [] ∧ as' ≠ []) := by
  have hsub := C90_partial hr ok ha d as as' g1 g2
  simp only [X.anyOf2, g1] at h1
  simp only [X.anyOf2, g2] at h2
  cases as with
  | cons x xs =>
    have ne : as' ≠ [] := by intro e; subst e; cases hsub
    obtain ⟨y, ys, rfl⟩ := List.exists_cons_of_ne_nil ne
    simp only [List.isEmpty_cons, Bool.not_false, if_true, Except.ok.injEq] at h1 h2
    subst h1 h2
    constructor
    · intro _ hc
      cases hc.2.1
    · intro _
      exact hsub.map _
  | nil =>
    simp only [List.isEmpty_nil, Bool.not_true, Bool.false_eq_true, if_false] at h1
    cases gb : b.go d l with
    | error e => rw [gb] at h1; cases h1
    | ok bs =>
      rw [gb] at h1
      injection h1 with h1
      cases as' with
      | nil =>
        simp only [List.isEmpty_nil, Bool.not_true, Bool.false_eq_true, if_false] at h2
        cases gb' : b.go d l' with
        | error e => rw [gb'] at h2; cases h2
        | ok bs' =>
          rw [gb'] at h2
          injection h2 with h2
          subst h1 h2
          constructor
          · intro _ hc
            exact hc.2.2 rfl
          · intro _
            exact (C90_partial hr ok hb d bs bs' gb gb').map _
      | cons y ys =>
        simp only [List.isEmpty_cons, Bool.not_false, if_true, Except.ok.injEq] at h2
        subst h1 h2
        constructor
        · intro hs hc
          obtain ⟨z, zs, hz⟩ := List.exists_cons_of_ne_nil hc.1
          have hm := hs.subset (a := z) (by rw [hz]; simp)
          have hb : z ∈ bs.map (fun p => ((AnyOf2.B p.1 : AnyOf2 A B), p.2)) := by rw [hz]; simp
          obtain ⟨q, _, e1⟩ := List.mem_map.1 hb
          obtain ⟨q', _, e2⟩ := List.mem_map.1 hm
          rw [← e2] at e1
          exact absurd (congrArg Prod.fst e1) (by intro e; cases e)
        · intro hn
          have : bs = [] := by
            cases bs with
            | nil => rfl
            | cons u us => exact absurd ⟨by simp, rfl, by simp⟩ hn
          subst this
          exact List.nil_sublist _

/-- the situation of `C90_any_of_false`, where results are lost -/
example := mt (C90_choice (W := Demo.W) Demo.exReach Demo.exLine2_ok (has := false) (.attr (Ty.user (2 : Nat)))
  .tokenText (.fwd 0) _ _ _ _ rfl rfl rfl rfl).1
  (not_not_intro ⟨List.cons_ne_nil _ _, rfl, List.cons_ne_nil _ _⟩)

/-- C90 for `LLLine::find`: a run keeps all finds, in order. -/
theorem C90_find_partial {l l' : LLLine W} {h : History W} (hr : Reachable l h) {ptr : Nat} {r : Resolver W}
    (ok : l.run ptr r = .ok l') {has : Bool} {Out : Type} {m : XMatch W Out} (hm : ChoiceFree has m)
    (out out' : List (LLLineFind Out)) (h1 : l.find m = .ok out) (h2 : l'.find m = .ok out') : out.Sublist out' := by
  have ht := run_tokens ok
  obtain ⟨f, hf, rfl⟩ := flatMapR_inv h1
  obtain ⟨f', hf', rfl⟩ := flatMapR_inv h2
  rw [ht]
  rw [ht] at hf'
  refine flatMap_sublist (List.Sublist.refl _) (fun i hi => ?_)
  have e1 := hf i hi
  have e2 := hf' i hi
  have hps : l'.posStartAt i = l.posStartAt i := by simp only [LLLine.posStartAt, ht]
  have hpe : ∀ j, l'.posEndAt j = l.posEndAt j := by intro j; simp only [LLLine.posEndAt, ht]
  simp only [hps, hpe] at e2
  cases g1 : m.go (.fwd i) l with
  | error e => rw [g1] at e1; cases e1
  | ok rs =>
    cases g2 : m.go (.fwd i) l' with
    | error e => rw [g2] at e2; cases e2
    | ok rs' =>
      rw [g1] at e1
      rw [g2] at e2
      have hsub := C90_partial hr ok hm (.fwd i) rs rs' g1 g2
      have mono : ∀ {α β : Type} (F : α → R β) {xs ys : List α} {o o' : List β}, xs.Sublist ys → mapR F xs = .ok o → mapR F ys = .ok o' →
          o.Sublist o' := by
        intro α β F xs ys o o' hs
        induction hs generalizing o o' with
        | slnil => intro h1 h2; cases h1; exact List.nil_sublist _
        | cons a _ ih =>
          intro h1 h2
          simp only [mapR] at h2
          split at h2
          · cases h2
          · split at h2
            · cases h2
            · next h3 => cases h2; exact (ih h1 h3).cons _
        | cons_cons a _ ih =>
          intro h1 h2
          simp only [mapR] at h1 h2
          split at h2
          · cases h2
          · next hv =>
            rw [hv] at h1
            split at h2
            · cases h2
            · next h3 =>
              cases h2
              dsimp only at h1
              split at h1
              · cases h1
              · next h4 => cases h1; exact (ih h4 h3).cons_cons _
      exact mono _ hsub e1 e2

example := C90_find_partial (W := Demo.W) Demo.exReach Demo.exLine2_ok (has := false)
  (.seq2 (.attr (Ty.user (0 : Nat))) (.attrEq .textTag .WORD)) _ _ rfl rfl

/-! ### C91: `any_of` does not backtrack -/

/-- C91: in a sequence, `any_of` commits to its first matching alternative: if `a` matches, the sequence
behaves as `seq(a, c)`, even if `c` matches nowhere after `a`; if not, as `seq(b, c)`. -/
theorem C91_seq {α β γ : Type} (a : XMatch W α) (b : XMatch W β) (c : XMatch W γ) (d : Dir) (l : LLLine W) (as : List (α × Nat))
    (ha : a.go d l = .ok as) :
    (∀ out, as ≠ [] → ((X.seq2 (X.anyOf2 a b) c).go d l = .ok out ↔
      ∃ out', (X.seq2 a c).go d l = .ok out' ∧ out = out'.map (fun p => ((.A p.1.1, p.1.2), p.2)))) ∧
    (∀ out, as = [] → ((X.seq2 (X.anyOf2 a b) c).go d l = .ok out ↔
      ∃ out', (X.seq2 b c).go d l = .ok out' ∧ out = out'.map (fun p => ((.B p.1.1, p.1.2), p.2)))) := by
  constructor
  · intro out hne
    simp only [seq2_ok_iff, anyOf2_ok_iff, ha, Except.ok.injEq, exists_eq_left', hne, ne_eq, not_false_eq_true, true_and, false_and, or_false]
    simp only [exists_eq_left, List.mem_map]
    constructor
    · rintro ⟨hok, rfl⟩
      refine ⟨_, ⟨fun p hp => hok _ ⟨p, hp, rfl⟩, rfl⟩, ?_⟩
      simp [List.flatMap_map, List.map_flatMap, Function.comp_def]
    · rintro ⟨out', ⟨hok, rfl⟩, rfl⟩
      refine ⟨?_, by simp [List.flatMap_map, List.map_flatMap, Function.comp_def]⟩
      rintro _ ⟨p, hp, rfl⟩
      exact hok p hp
  · intro out he
    subst he
    simp only [seq2_ok_iff, anyOf2_ok_iff, ha, Except.ok.injEq, exists_eq_left', ne_eq, not_true_eq_false, false_and, true_and, false_or]
    constructor
    · rintro ⟨_, ⟨bs, hb, rfl⟩, hok, rfl⟩
      refine ⟨_, ⟨bs, hb, fun p hp => hok _ (List.mem_map.2 ⟨p, hp, rfl⟩), rfl⟩, ?_⟩
      simp [List.flatMap_map, List.map_flatMap, Function.comp_def]
    · rintro ⟨out', ⟨bs, hb, hok, rfl⟩, rfl⟩
      refine ⟨_, ⟨bs, hb, rfl⟩, ?_, by simp [List.flatMap_map, List.map_flatMap, Function.comp_def]⟩
      intro p hp
      obtain ⟨q, hq, rfl⟩ := List.mem_map.1 hp
      exact hok q hq

example := C91_seq (W := Demo.W) (X.attr (Ty.user (2 : Nat))) X.tokenText X.tokenText (.fwd 0) Demo.exLine2 _ rfl

/-- C91, as a user of backtracking matchers would expect it: a sequence after a choice matches if one of the
alternatives can be continued. -/
def C91_claim : Prop := ∀ (W : World) (l : LLLine W) (h : History W) (α β γ : Type) (a : XMatch W α) (b : XMatch W β) (c : XMatch W γ)
  (d : Dir) (bc : List ((β × γ) × Nat)) (out : List ((AnyOf2 α β × γ) × Nat)), Builtin a → Builtin b → Builtin c → Reachable l h →
  (X.seq2 b c).go d l = .ok bc → (X.seq2 (X.anyOf2 a b) c).go d l = .ok out → bc ≠ [] → out ≠ []

/-- C91: that is false; the second alternative is not tried if the first one matched but could not be continued. -/
theorem C91_backtracking_false : ¬ C91_claim := by
  intro claim
  exact claim Demo.W Demo.exLine2 _ _ _ _ (X.attrEq (Ty.user (2 : Nat)) (['x'] : Str)) X.tokenText (X.attrEq .textTag .SPACE) (.fwd 0) _ _
    (.attrEq _ trivial _) .tokenText (.attrEq _ trivial _) Demo.exReach2 rfl rfl (by intro h; cases h) rfl

end LNlp
