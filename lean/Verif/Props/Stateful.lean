import Verif.Lemmas.StatefulOrder
/- Property C129: code of the user (`PartialEq` and `Debug` of attribute types, matchers) that counts, remembers, changes
its mind or panics. -/
namespace LNlp
variable {W : World}
open Dialog
section
variable {U : Type} {Own : U → Type} {Out : Type}

namespace Demo
/-- a selection of the whole line -/
def exSel : LLSelection Demo.W := ⟨⟨1, exLine2⟩, 0, exLine2.ll_tokens.length - 1⟩
def own : (u : Unit) → Unit := id
/-- code of the user that answers like a function twice and then panics -/
def tired : Oracle (Quest Demo.W Unit) (Quest.Answer (fun _ => Unit)) :=
  fun asked q => if asked.length < 2 then some (answers Demo.W own q) else none
theorem tired_follows : AnswersLike tired (answers Demo.W own) := by
  intro asked q x h
  simp only [tired] at h
  split at h
  · exact (Option.some.inj h).symm
  · cases h
/-- code of the user that counts: `==` says yes and no in turn, `Debug` prints how often the code was asked before -/
def fickle : Oracle (Quest Demo.W Unit) (Quest.Answer (fun _ => Unit)) :=
  fun asked q => match q with
    | .eq _ _ _ => some (asked.length % 2 == 0)
    | .dbg _ _ => some (List.replicate asked.length '!')
    | .own _ => some ()
/-- the custom token of the line carries attributes -/
theorem exNoBare (p : Panic) : ¬ BareValue exLine2 exHist2 p := by
  rintro ⟨_, i, t, ht, hv, hx⟩
  have all : (List.range exLine2.ll_tokens.length).all (fun i =>
      match exLine2.ll_tokens[i]? with
      | some ⟨_, _, _, .Value⟩ => exHist2.any (fun x => x.range == (i, i))
      | _ => true) = true := rfl
  have hi := (List.getElem?_eq_some_iff.1 ht).1
  have := List.all_eq_true.1 all i (List.mem_range.2 hi)
  rw [ht] at this
  obtain ⟨a, b, c, tok⟩ := t
  cases (show tok = .Value from hv)
  obtain ⟨x, hm, he⟩ := List.any_eq_true.1 this
  exact hx x hm (by simpa using he)
end Demo

/-- C129: if the user's code is a function, the searches written as dialogs with it give exactly what the other properties
speak about. -/
theorem C129_function (own : (u : U) → Own u) {md : XMatchD W Own Out} {m : XMatch W Out} (h : Twin own md m) :
    (∀ d l, (md.go d l).eval (answers W own) = m.go d l) ∧
    (∀ s : LLSelection W, (s.findByD md).eval (answers W own) = s.findBy m) ∧
    (∀ s : LLSelection W, (s.findFirstByD md).eval (answers W own) = s.findFirstBy m) ∧
    (∀ s : LLSelection W, (s.splitByD md).eval (answers W own) = s.splitBy m) ∧
    (∀ s : LLSelection W, (s.findByForwardsAndBackwardsD md).eval (answers W own) = s.findByForwardsAndBackwards m) ∧
    (∀ s : LLSelection W, (s.matchForwardsD md).eval (answers W own) = s.matchForwards m) ∧
    (∀ s : LLSelection W, (s.matchFirstForwardsD md).eval (answers W own) = s.matchFirstForwards m) ∧
    (∀ s : LLSelection W, (s.matchBackwardsD md).eval (answers W own) = s.matchBackwards m) ∧
    (∀ s : LLSelection W, (s.matchFirstBackwardsD md).eval (answers W own) = s.matchFirstBackwards m) ∧
    (∀ (s : LLSelection W) a b, (s.trimSelectionD md a b).eval (answers W own) = s.trimSelection m a b) ∧
    (∀ l : LLLine W, (l.findD md).eval (answers W own) = l.find m) ∧
    ∀ (d : LLLineDisplay W) k, (d.includeD (Own := Own) k).eval (answers W own) = d.include k :=
  ⟨twin_eval own h, fun s => findBy_eval (fun d => twin_eval own h d _), fun s => findFirstBy_eval (fun d => twin_eval own h d _),
    fun s => splitBy_eval (fun d => twin_eval own h d _), fun s => findByFB_eval (fun d => twin_eval own h d _),
    fun s => matchForwards_eval (fun d => twin_eval own h d _), fun s => matchFirstForwards_eval (fun d => twin_eval own h d _),
    fun s => matchBackwards_eval (fun d => twin_eval own h d _), fun s => matchFirstBackwards_eval (fun d => twin_eval own h d _),
    fun s a b => trimSelection_eval (fun d => twin_eval own h d _) a b, fun l => find_eval (fun d => twin_eval own h d l),
    fun d k => include_eval d k⟩

example := C129_function (W := Demo.W) Demo.own (.seq2 (.attrEq (W := Demo.W) (Ty.user 2) (['x'] : Str)) (.attr (W := Demo.W) (Ty.user 2)))

/-- C129: code of the user that counts, logs or caches, and may panic at any time, but whose answers are those of a
function: whatever asks it (`d`: a matcher, a search, a display) asks it the questions it would ask the function, in the same
order, and ends the same way; or up to the first it panics on, and then nothing more is asked and that panic is all there
is. -/
theorem C129_follows {α : Type} {o : Oracle (Quest W U) (Quest.Answer Own)} {own : (u : U) → Own u}
    (hf : AnswersLike o (answers W own)) (d : Talk W Own α) (asked : List (Quest W U)) :
    (AnswersAll o asked (d.trace (answers W own)) ∧
      d.run o asked = (asked ++ d.trace (answers W own), (d.eval (answers W own)).mapError Stop.code)) ∨
    ∃ a q, PanicsAt o asked (d.trace (answers W own)) a q ∧ d.run o asked = (asked ++ a ++ [q], .error .callback) :=
  run_follows hf d asked

example := C129_follows Demo.tired_follows (Demo.exSel.findByD (XD.attrEq (W := Demo.W) (Ty.user 2) (['x'] : Str))) []
-- the third comparison panics, and it is the last
example : ((Demo.exSel.findByD (XD.attrEq (W := Demo.W) (Ty.user 2) (['x'] : Str))).run Demo.tired []).1.length = 3 ∧
    ((Demo.exSel.findByD (XD.attrEq (W := Demo.W) (Ty.user 2) (['x'] : Str))).run Demo.tired []).2 = .error .callback := ⟨rfl, rfl⟩

/-- C129: so no search has another result because the code it asks keeps a count or a cache. -/
theorem C129_results {o : Oracle (Quest W U) (Quest.Answer Own)} {own : (u : U) → Own u}
    (hf : AnswersLike o (answers W own)) {md : XMatchD W Own Out} {m : XMatch W Out} (h : Twin own md m) :
    (∀ d l, Agrees o (md.go d l) (m.go d l)) ∧
    (∀ s : LLSelection W, Agrees o (s.findByD md) (s.findBy m)) ∧
    (∀ s : LLSelection W, Agrees o (s.findFirstByD md) (s.findFirstBy m)) ∧
    (∀ s : LLSelection W, Agrees o (s.splitByD md) (s.splitBy m)) ∧
    (∀ s : LLSelection W, Agrees o (s.findByForwardsAndBackwardsD md) (s.findByForwardsAndBackwards m)) ∧
    (∀ s : LLSelection W, Agrees o (s.matchForwardsD md) (s.matchForwards m)) ∧
    (∀ s : LLSelection W, Agrees o (s.matchFirstForwardsD md) (s.matchFirstForwards m)) ∧
    (∀ s : LLSelection W, Agrees o (s.matchBackwardsD md) (s.matchBackwards m)) ∧
    (∀ s : LLSelection W, Agrees o (s.matchFirstBackwardsD md) (s.matchFirstBackwards m)) ∧
    (∀ (s : LLSelection W) a b, Agrees o (s.trimSelectionD md a b) (s.trimSelection m a b)) ∧
    (∀ l : LLLine W, Agrees o (l.findD md) (l.find m)) ∧
    ∀ (d : LLLineDisplay W) k, Agrees o (d.includeD (Own := Own) k) (d.include k) := by
  have key : ∀ {α : Type} {d : Talk W Own α} {r : R α}, d.eval (answers W own) = r → Agrees o d r := by
    intro α d r e asked
    rcases run_follows hf d asked with ⟨_, h⟩ | ⟨a, q, _, h⟩
    · left; rw [h, e]
    · right; rw [h]
  obtain ⟨h1, h2, h3, h4, h5, h6, h7, h8, h9, h10, h11, h12⟩ := C129_function own h
  exact ⟨fun d l => key (h1 d l), fun s => key (h2 s), fun s => key (h3 s), fun s => key (h4 s), fun s => key (h5 s),
    fun s => key (h6 s), fun s => key (h7 s), fun s => key (h8 s), fun s => key (h9 s), fun s a b => key (h10 s a b),
    fun l => key (h11 l), fun d k => key (h12 d k)⟩

example := C129_results Demo.tired_follows (.seq2 (.attrEq (W := Demo.W) (Ty.user 2) (['x'] : Str)) (.attr (W := Demo.W) (Ty.user 2)))

/-- C129: whatever the user's code answers: it is asked nothing after a panic; a search ends with the panic of the user's code
exactly if there was one. -/
theorem C129_stops {α : Type} (o : Oracle (Quest W U) (Quest.Answer Own)) (d : Talk W Own α) (asked : List (Quest W U)) :
    ∃ new, (d.run o asked).1 = asked ++ new ∧
      ((AnswersAll o asked new ∧ (d.run o asked).2 ≠ .error .callback) ∨
        ∃ a q, new = a ++ [q] ∧ AnswersAll o asked a ∧ o (asked ++ a) q = none ∧ (d.run o asked).2 = .error .callback) :=
  run_stops o d asked

example := C129_stops Demo.fickle (Demo.exSel.findByD (XD.attrEq (W := Demo.W) (Ty.user 2) (['x'] : Str))) []

/-- C129: `x::attr_eq(&v)` with any `PartialEq`, in either direction: the values `x::attr` finds are compared with `v` once
each, in their order, the value on the left of `==`, and those of the comparisons that said yes are found; or a comparison
panicked, and nothing more was compared. -/
theorem C129_attr_eq {l : LLLine W} {d : Dir} {k : Ty W} {vs : List (Val k × Nat)} (h : (X.attr k).go d l = .ok vs)
    (o : Oracle (Quest W U) (Quest.Answer Own)) (v : Val k) (asked : List (Quest W U)) :
    (∃ bs : List Bool, bs.length = vs.length ∧
      (∀ (n : Nat) (w : Val k) (e : Nat) (b : Bool), vs[n]? = some (w, e) → bs[n]? = some b →
        o (asked ++ (vs.take n).map (fun p => Quest.eq k p.1 v)) (Quest.eq k w v) = some b) ∧
      ((XD.attrEq k v).go d l).run o asked =
        (asked ++ vs.map (fun p => Quest.eq k p.1 v),
          .ok (((vs.zip bs).filter (fun x => x.2)).map (fun x => ((), x.1.2))))) ∨
    ∃ a q, PanicsAt o asked (vs.map (fun p => Quest.eq k p.1 v)) a q ∧
      ((XD.attrEq k v).go d l).run o asked = (asked ++ a ++ [q], .error .callback) := by
  have e : (XD.attrEq (Own := Own) k v).go d l = compareAll Own v vs := attrEqD_eq h v
  rw [e]
  exact filterEq_run o v vs asked

example := C129_attr_eq (W := Demo.W) (l := Demo.exLine2) (d := .fwd 0) (k := Ty.user 2) (vs := [((['x'] : Str), 2), ((['x'] : Str), 2)])
  rfl Demo.fickle (['z'] : Str) []
-- a `PartialEq` that says yes and no in turn: one of two equal values is found
example : (((XD.attrEq (W := Demo.W) (Ty.user 2) (['z'] : Str)).go (.fwd 0) Demo.exLine2).run Demo.fickle []).2 = .ok [((), 2)] := rfl

/-- C129: `x::token_has_any(&set)` backwards compares, for each value `x::attr` finds, the elements of the set with it, the
element on the left of `==`, from the first up to the first that is equal. -/
theorem C129_has_any_backwards {l : LLLine W} {i : Nat} {k : Ty W} {vs : List (Val k × Nat)}
    (h : (X.attr k).go (.bwd i) l = .ok vs) (own : (u : U) → Own u) (set : List (Val k)) :
    ((XD.tokenHasAny (Own := Own) k set).go (.bwd i) l).trace (answers W own) =
      vs.flatMap (fun p => (upTo (fun s => valEq k s p.1) set).map (fun s => Quest.eq k s p.1)) := by
  have e : (XD.tokenHasAny (Own := Own) k set).go (.bwd i) l = filterD (fun p => setContainsD k set p.1) id vs := oneOfD_bwd h set
  rw [e, filterD_trace (t := fun p : Val k × Nat => setContains k set p.1) _ id (fun p => setContains_eval own k set p.1)]
  congr 1
  funext p
  rw [setContainsD, anyD_trace _ (fun s => askEq_eval own k s p.1)]
  exact List.map_eq_flatMap.symm

example := C129_has_any_backwards (W := Demo.W) (l := Demo.exLine2) (i := 2) (k := Ty.user 2) rfl Demo.own [(['y'] : Str), ['x'], ['z']]

/-- C129: forwards likewise, for the values on the token itself. -/
theorem C129_has_any_forwards {l : LLLine W} {h : History W} (hr : Reachable l h) {i : Nat} {k : Ty W}
    {b : TypeBucket W} (hb : l.attrs.values.get? (i, i) = some b) (own : (u : U) → Own u) (set : List (Val k)) :
    ((XD.tokenHasAny (Own := Own) k set).go (.fwd i) l).trace (answers W own) =
      (valuesOf k (i, i) h).flatMap (fun w => (upTo (fun s => valEq k s w) set).map (fun s => Quest.eq k s w)) := by
  have hg : b.get k = .ok (valuesOf k (i, i) h) := by
    have := hr.rep.buckets (i, i) b hb k
    simp only [TypeBucket.get, this]
    by_cases hv : valuesOf k (i, i) h = []
    · rw [if_pos hv, hv]
    · rw [if_neg hv]; simp [DynBucket.downcast, expect]
  show (Dir.tokenAttrOneOfD (.fwd i) k set l).trace _ = _
  simp only [Dir.tokenAttrOneOfD, hb, bind_eq, hg, lift, Dialog.bind]
  rw [filterD_trace _ _ (fun p => setContains_eval own k set p)]
  congr 1
  funext p
  rw [setContainsD, anyD_trace _ (fun s => askEq_eval own k s p)]
  exact List.map_eq_flatMap.symm

example := C129_has_any_forwards (i := 0) (k := .textTag) Demo.exReach2 rfl Demo.own [TextTag.NATN, TextTag.WORD, TextTag.SPACE]

/-- C129: `find_by` runs the matcher at the positions of the selection from the left to the right, each once, also when only the
first result is wanted (`find_first_by`). -/
theorem C129_find_by_order (own : (u : U) → Own u) (md : XMatchD W Own Out) (s : LLSelection W)
    (h : ∀ i ∈ rangeIncl s.start_idx s.end_idx, ∃ out, (md.go (.fwd i) s.ll_line.val).eval (answers W own) = .ok out) :
    (s.findByD md).trace (answers W own) =
      (rangeIncl s.start_idx s.end_idx).flatMap (fun i => (md.go (.fwd i) s.ll_line.val).trace (answers W own)) ∧
    (s.findFirstByD md).trace (answers W own) = (s.findByD md).trace (answers W own) := by
  constructor
  · simp only [LLSelection.findByD]
    rw [flatMapD_trace]
    · congr 1
      funext i
      rw [bind_eq, trace_bind]
      cases (md.go (.fwd i) s.ll_line.val).eval (answers W own) <;> simp [pure_eq, trace]
    · intro i hi
      obtain ⟨out, ho⟩ := h i hi
      simp only [bind_eq, pure_eq, eval_bind, ho]
      exact ⟨_, rfl⟩
  · simp only [LLSelection.findFirstByD, bind_eq, pure_eq]
    rw [trace_bind]
    cases (s.findByD md).eval (answers W own) <;> simp [trace]

example := C129_find_by_order Demo.own (XD.attrEq (W := Demo.W) (Ty.user 2) (['x'] : Str)) Demo.exSel (fun i hi => by
  have e : Demo.exLine2.ll_tokens.length = 10 := rfl
  have : i < 10 := by simp only [rangeIncl, List.mem_range'_1, Demo.exSel, e] at hi; omega
  match i, this with
  | 0, _ | 1, _ | 2, _ | 3, _ | 4, _ | 5, _ | 6, _ | 7, _ | 8, _ | 9, _ => exact ⟨_, rfl⟩)

/-- C129: if the user's code is a function, all the questions of an expression are these, in this order: `all` runs its
matchers once each, the first of them last; `any_of` runs its matchers one after the other until one finds something;
`seq` runs the first once and the next once for each result, on the token beyond it (if there is one). -/
theorem C129_order (g : (q : Quest W U) → q.Answer Own) {l : LLLine W} {α β γ : Type} {a : XMatchD W Own α}
    {b : XMatchD W Own β} {c : XMatchD W Own γ} (ha : a.Ready g l) (hb : b.Ready g l) (hc : c.Ready g l) {d : Dir}
    (hd : d.at < l.ll_tokens.length) :
    (XD.all2 a b).questions g l d = b.questions g l d ++ a.questions g l d ∧
    (XD.all3 a b c).questions g l d = b.questions g l d ++ c.questions g l d ++ a.questions g l d ∧
    (XD.anyOf2 a b).questions g l d = a.questions g l d ++ (if a.results g l d = [] then b.questions g l d else []) ∧
    (XD.anyOf3 a b c).questions g l d = a.questions g l d ++ (if a.results g l d = [] then
        b.questions g l d ++ (if b.results g l d = [] then c.questions g l d else []) else []) ∧
    (XD.seq2 a b).questions g l d = a.questions g l d ++ (a.results g l d).flatMap (fun p =>
      (d.beyond p.2 l.ll_tokens.length).flatMap (b.questions g l)) ∧
    (XD.seq3 a b c).questions g l d = a.questions g l d ++ (a.results g l d).flatMap (fun p =>
      (d.beyond p.2 l.ll_tokens.length).flatMap (b.questions g l) ++
      ((d.beyond p.2 l.ll_tokens.length).flatMap (b.results g l)).flatMap (fun q =>
        (d.beyond q.2 l.ll_tokens.length).flatMap (c.questions g l))) :=
  ⟨all2_order ha hb hd, all3_order ha hb hc hd, anyOf2_order ha hb hd, anyOf3_order ha hb hc hd, seq2_order ha hb hd,
    seq3_order ha hb hc hd⟩

/-- C129: the matchers of the library, and those built from them and from good matchers of the user, are ready on every line
without a bare `Value` token, whatever the function is. -/
theorem C129_ready (g : (q : Quest W U) → q.Answer Own) {l : LLLine W} {h : History W} (hr : Reachable l h) (ho : Ordered h)
    (hv : ∀ p, ¬ BareValue l h p) {md : XMatchD W Own Out} (hm : BuiltD l md) : md.Ready g l := ready_of_built hr ho hv hm

/-- C129: the searches run their matcher once at each of these places, in this order, and ask nothing else. -/
theorem C129_search_order (g : (q : Quest W U) → q.Answer Own) {s : LLSelection W} {md : XMatchD W Own Out}
    (hm : md.Ready g s.ll_line.val) (h1 : s.start_idx < s.ll_line.val.ll_tokens.length)
    (h2 : s.end_idx < s.ll_line.val.ll_tokens.length) :
    (s.findByForwardsAndBackwardsD md).trace g = (rangeIncl s.start_idx s.end_idx).flatMap (fun i =>
      md.questions g s.ll_line.val (.fwd i) ++ md.questions g s.ll_line.val (.bwd i)) ∧
    (s.splitByD md).trace g = (s.findByD md).trace g ∧
    (s.matchForwardsD md).trace g = (if s.end_idx + 1 = s.ll_line.val.ll_tokens.length then [] else
      md.questions g s.ll_line.val (.fwd (s.end_idx + 1))) ∧
    (s.matchBackwardsD md).trace g = (if s.start_idx = 0 then [] else
      md.questions g s.ll_line.val (.bwd (s.start_idx - 1))) ∧
    (s.matchFirstForwardsD md).trace g = (s.matchForwardsD md).trace g ∧
    (s.matchFirstBackwardsD md).trace g = (s.matchBackwardsD md).trace g ∧
    (∀ fs fe, (s.trimSelectionD md fs fe).trace g =
      (if fs then md.questions g s.ll_line.val (.fwd s.start_idx) else []) ++
      (if fe then md.questions g s.ll_line.val (.bwd s.end_idx) else [])) ∧
    (s.ll_line.val.findD md).trace g = (List.range s.ll_line.val.ll_tokens.length).flatMap (fun i =>
      md.questions g s.ll_line.val (.fwd i)) :=
  ⟨findBoth_order hm h2, splitBy_order, matchForwards_order, matchBackwards_order, trace_bind_done, trace_bind_done,
    fun fs fe => trim_order fs fe hm h1 h2, find_order hm⟩

/-- C129 with the line of "one two": the second matcher of the sequence is asked once for each result of the first. -/
example : (XD.seq2 (XD.attrEq (W := Demo.W) (Own := fun _ : Unit => Unit) (Ty.user 2) (['x'] : Str))
      (XD.attrEq .textTag TextTag.NATN)).questions (answers Demo.W Demo.own) Demo.exLine2 (.fwd 0) =
    [.eq (Ty.user 2) (['x'] : Str) (['x'] : Str), .eq (Ty.user 2) (['x'] : Str) (['x'] : Str),
      .eq .textTag TextTag.WORD TextTag.NATN, .eq .textTag TextTag.WORD TextTag.NATN] := rfl
example := C129_search_order (s := Demo.exSel) (md := XD.attrEq (W := Demo.W) (Own := fun _ : Unit => Unit) (Ty.user 2) (['x'] : Str))
  (answers Demo.W Demo.own) (C129_ready _ Demo.exReach2 Demo.exHist2_ordered Demo.exNoBare (.attrEq _ _)) (by decide) (by decide)

/-- C129: with any `PartialEq`, `find_by(x::attr_eq(&v))` makes exactly the comparisons of the values on ranges that start in
the selection, position by position; over the whole line these are all values of the type, each compared once. -/
theorem C129_comparisons {s : LLSelection W} {h : History W} (hr : Reachable s.ll_line.val h) (k : Ty W) (v : Val k)
    (hs : s.end_idx < s.ll_line.val.ll_tokens.length) :
    (s.findByD (XD.attrEq (Own := Own) k v)).Asks ((rangeIncl s.start_idx s.end_idx).flatMap (comparisonsAt h k v)) ∧
    (s.start_idx = 0 → s.end_idx + 1 = s.ll_line.val.ll_tokens.length →
      ((rangeIncl s.start_idx s.end_idx).flatMap (comparisonsAt (U := U) h k v)).Perm
        ((h.filterMap (fun x => x.valAs k)).map (fun w => Quest.eq k w v))) := by
  refine ⟨findBy_attrEq_asks hr k v hs, fun h0 h1 => ?_⟩
  have e : rangeIncl s.start_idx s.end_idx = List.range s.ll_line.val.ll_tokens.length := by
    rw [rangeIncl, h0, h1, List.range_eq_range']
    rfl
  rw [e]
  refine (buckets_perm (fun r : LRange => r.1) (fun r => (valuesOf k r h).map (fun w => Quest.eq k w v)) _ (rangesOf k h) ?_).trans ?_
  · intro r hr'
    have hm : r ∈ (h.filter (fun x => decide (x.ty = k))).map (·.range) := (mem_firsts_iff r _).1 hr'
    obtain ⟨x, hx, rfl⟩ := List.mem_map.1 hm
    exact (hr.rep.bounds x (List.mem_filter.1 hx).1).1
  · have := (ranges_values_perm k h).map (fun w => (Quest.eq k w v : Quest W U))
    rwa [List.map_flatMap] at this

example := C129_comparisons (U := Unit) (Own := fun _ => Unit) (s := Demo.exSel) Demo.exReach2 (Ty.user 2) (['x'] : Str) (by decide)

/-- C129: so in a run with any `PartialEq` those are the questions, all of them or up to the first panic. -/
theorem C129_asked {α : Type} (o : Oracle (Quest W U) (Quest.Answer Own)) {d : Talk W Own α} {qs : List (Quest W U)}
    (hd : d.Asks qs) (asked : List (Quest W U)) :
    (AnswersAll o asked qs ∧ (d.run o asked).1 = asked ++ qs ∧ ∃ a, (d.run o asked).2 = .ok a) ∨
    ∃ a q, PanicsAt o asked qs a q ∧ d.run o asked = (asked ++ a ++ [q], .error .callback) :=
  asks_run o asked hd

example := C129_asked Demo.fickle (C129_comparisons (s := Demo.exSel) Demo.exReach2 (Ty.user 2) (['x'] : Str) (by decide)).1 []

/-- C129: `include::<T>()` calls `Debug` once for each value of the type, range by range in the order of the first assignment
and on each range in the order of assignment (not that of the lines shown, which is the reverse), whatever `Debug` returns;
and it adds one line per value, on the value's range. -/
theorem C129_debug {d : LLLineDisplay W} {h : History W} (hr : Reachable d.ll_line h) (k : Ty W) :
    (d.includeD (Own := Own) k).Asks ((rangesOf k h).flatMap (fun r => (valuesOf k r h).map (Quest.dbg k))) ∧
    ((rangesOf k h).flatMap (fun r => (valuesOf k r h).map (Quest.dbg (U := U) k))).Perm
      ((h.filterMap (fun x => x.valAs k)).map (Quest.dbg k)) ∧
    ∀ (o : Oracle (Quest W U) (Quest.Answer Own)) asked d', ((d.includeD (Own := Own) k).run o asked).2 = .ok d' →
      d'.ll_line = d.ll_line ∧ ∃ new, d'.include_attrs = d.include_attrs ++ new ∧
        new.map (·.1) = (rangesOf k h).flatMap (fun r => (valuesOf k r h).map (fun _ => r)) := by
  obtain ⟨h1, h2⟩ := includeD_always (Own := Own) hr.rep k
  refine ⟨h1, ?_, fun o asked d' e => (always_run o _ asked h2).1 d' e⟩
  have := (ranges_values_perm k h).map (Quest.dbg (U := U) k)
  rwa [List.map_flatMap] at this

example := C129_debug (U := Unit) (Own := fun _ => Unit) (d := LLLineDisplay.new Demo.exLine2) Demo.exReach2 (Ty.user 2)
-- a `Debug` that numbers what it prints
example : ((LLLineDisplay.new Demo.exLine2).includeD (Own := fun _ : Unit => Unit) (Ty.user 2)).run Demo.fickle [] =
    ([.dbg (Ty.user 2) (['x'] : Str), .dbg (Ty.user 2) (['x'] : Str), .dbg (Ty.user 2) (['y'] : Str)],
      .ok { LLLineDisplay.new Demo.exLine2 with include_attrs := [((0, 2), ['!']), ((0, 2), []), ((3, 4), ['!', '!'])] }) := rfl

/-- C129: whatever is answered, matchers of the library stay inside the line on their side of the position, and their own code
panics only on a `Value` token without an attribute of its own. -/
theorem C129_safe_matcher {l : LLLine W} {h : History W} (hr : Reachable l h) (ho : Ordered h) {md : XMatchD W Own Out}
    (hm : BuiltD l md) (o : Oracle (Quest W U) (Quest.Answer Own)) (asked : List (Quest W U)) {i : Nat}
    (hi : i < l.ll_tokens.length) :
    (∀ out, ((md.go (.fwd i) l).run o asked).2 = .ok out → ∀ r ∈ out, i ≤ r.2 ∧ r.2 < l.ll_tokens.length) ∧
    (∀ out, ((md.go (.bwd i) l).run o asked).2 = .ok out → ∀ r ∈ out, r.2 ≤ i) ∧
    ∀ d : Dir, d.at = i → ∀ p, ((md.go d l).run o asked).2 = .error (.code p) → BareValue l h p := by
  refine ⟨fun out e r hr' => ?_, fun out e r hr' => ?_, fun d hd p e => ?_⟩
  · have := (always_run o _ asked (builtD_always hr ho hm (.fwd i) hi)).1 out e r hr'
    exact ⟨this.2, this.1⟩
  · exact ((always_run o _ asked (builtD_always hr ho hm (.bwd i) hi)).1 out e r hr').2
  · exact (always_run o _ asked (builtD_always hr ho hm d (by omega))).2 p e

example := C129_safe_matcher Demo.exReach2 Demo.exHist2_ordered
  (.seq2 (.attrEq (W := Demo.W) (Ty.user 2) (['x'] : Str)) (.tokenHasAny (W := Demo.W) .textTag [TextTag.WORD])) Demo.fickle [] (i := 0) (by decide)

/-- C129: and so do the searches: whatever is answered, what they give are selections of the line with the boundaries they
promise. -/
theorem C129_safe_search {s : LLSelection W} {h : History W} (hr : Reachable s.ll_line.val h) (ho : Ordered h)
    (h1 : s.start_idx ≤ s.end_idx) (h2 : s.end_idx < s.ll_line.val.ll_tokens.length) {md : XMatchD W Own Out}
    (hm : BuiltD s.ll_line.val md) (o : Oracle (Quest W U) (Quest.Answer Own)) (asked : List (Quest W U)) :
    (∀ out, ((s.findByD md).run o asked).2 = .ok out → ∀ x ∈ out, x.1.ll_line = s.ll_line ∧ s.start_idx ≤ x.1.start_idx ∧
      x.1.start_idx ≤ s.end_idx ∧ x.1.start_idx ≤ x.1.end_idx ∧ x.1.end_idx < x.1.ll_line.val.ll_tokens.length) ∧
    (∀ out, ((s.findByForwardsAndBackwardsD md).run o asked).2 = .ok out → ∀ x ∈ out, x.1.ll_line = s.ll_line ∧
      x.1.start_idx ≤ x.1.end_idx ∧ x.1.end_idx < x.1.ll_line.val.ll_tokens.length) ∧
    (∀ out, ((s.matchForwardsD md).run o asked).2 = .ok out → ∀ x ∈ out, x.1.ll_line = s.ll_line ∧
      x.1.start_idx = s.start_idx ∧ s.end_idx < x.1.end_idx ∧ x.1.end_idx < x.1.ll_line.val.ll_tokens.length) ∧
    (∀ out, ((s.matchBackwardsD md).run o asked).2 = .ok out → ∀ x ∈ out, x.1.ll_line = s.ll_line ∧
      x.1.end_idx = s.end_idx ∧ x.1.start_idx < s.start_idx) ∧
    (∀ out, ((s.splitByD md).run o asked).2 = .ok out → ∀ p ∈ out, p.ll_line = s.ll_line ∧ s.start_idx ≤ p.start_idx ∧
      p.start_idx ≤ p.end_idx ∧ p.end_idx ≤ s.end_idx) ∧
    (∀ a b p, ((s.trimSelectionD md a b).run o asked).2 = .ok (some p) → p.ll_line = s.ll_line ∧
      s.start_idx ≤ p.start_idx ∧ p.start_idx ≤ p.end_idx ∧ p.end_idx ≤ s.end_idx) ∧
    ∀ p, ((s.findByD md).run o asked).2 = .error (.code p) ∨ ((s.findByForwardsAndBackwardsD md).run o asked).2 = .error (.code p) ∨
      ((s.matchForwardsD md).run o asked).2 = .error (.code p) ∨ ((s.matchBackwardsD md).run o asked).2 = .error (.code p) ∨
      ((s.splitByD md).run o asked).2 = .error (.code p) ∨ (∃ a b, ((s.trimSelectionD md a b).run o asked).2 = .error (.code p)) →
      BareValue s.ll_line.val h p := by
  have hs : s.Fits := ⟨h1, h2⟩
  have a1 := always_run o _ asked (findByD_always hr ho hs hm)
  have a2 := always_run o _ asked (findByFBD_always hr ho hs hm)
  have a3 := always_run o _ asked (matchForwardsD_always hr ho hs hm)
  have a4 := always_run o _ asked (matchBackwardsD_always hr ho hs hm)
  have a5 := always_run o _ asked (splitByD_always hr ho hs hm)
  have a6 := fun a b => always_run o _ asked (trimD_always hr ho hs hm a b)
  refine ⟨a1.1, a2.1, fun out e x hx => ?_, fun out e x hx => ?_, a5.1, fun a b p e => (a6 a b).1 _ e p rfl, ?_⟩
  · obtain ⟨b1, b2, b3, b4⟩ := a3.1 out e x hx
    exact ⟨b1, b2, b3, b4.2⟩
  · obtain ⟨b1, b2, b3, b4⟩ := a4.1 out e x hx
    exact ⟨b1, b2, b3⟩
  · rintro p (e | e | e | e | e | ⟨a, b, e⟩)
    · exact a1.2 p e
    · exact a2.2 p e
    · exact a3.2 p e
    · exact a4.2 p e
    · exact a5.2 p e
    · exact (a6 a b).2 p e

example := C129_safe_search (s := Demo.exSel) Demo.exReach2 Demo.exHist2_ordered (by decide) (by decide)
  (.seq2 (.attrEq (W := Demo.W) (Ty.user 2) (['x'] : Str)) (.tokenHasAny (W := Demo.W) .textTag [TextTag.WORD])) Demo.fickle []

/-- C129: `LLLine::find` too: the positions it reports are those of tokens of the line, the first not after the last. -/
theorem C129_safe_find {l : LLLine W} {h : History W} (hr : Reachable l h) (ho : Ordered h) {md : XMatchD W Own Out}
    (hm : BuiltD l md) (o : Oracle (Quest W U) (Quest.Answer Own)) (asked : List (Quest W U)) :
    (∀ out, ((l.findD md).run o asked).2 = .ok out → ∀ f ∈ out, ∃ (i j : Nat) (t u : LLToken), i ≤ j ∧ l.ll_tokens[i]? = some t ∧
      l.ll_tokens[j]? = some u ∧ f.start_pos_at = t.pos_starts_at ∧ f.end_pos_at = u.pos_ends_at) ∧
    ∀ p, ((l.findD md).run o asked).2 = .error (.code p) → BareValue l h p :=
  always_run o _ asked (findD_always hr ho hm)

example := C129_safe_find Demo.exReach2 Demo.exHist2_ordered
  (.seq2 (.attrEq (W := Demo.W) (Ty.user 2) (['x'] : Str)) (.tokenHasAny (W := Demo.W) .textTag [TextTag.WORD])) Demo.fickle []

end

example := C129_order (W := Demo.W) (answers Demo.W Demo.own) (l := Demo.exLine2)
  (C129_ready _ Demo.exReach2 Demo.exHist2_ordered Demo.exNoBare (.attrEq (W := Demo.W) (Ty.user 2) (['x'] : Str)))
  (C129_ready _ Demo.exReach2 Demo.exHist2_ordered Demo.exNoBare (.attrEq .textTag TextTag.NATN))
  (C129_ready _ Demo.exReach2 Demo.exHist2_ordered Demo.exNoBare (.attrEq (W := Demo.W) (Ty.user 2) (['y'] : Str))) (d := .fwd 0) (by decide)

end LNlp
