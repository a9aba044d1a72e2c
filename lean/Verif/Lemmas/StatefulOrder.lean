import Verif.Lemmas.StatefulAsks
/- Helper lemmas: in which order matchers and searches run the matchers they are made of. -/
namespace LNlp
variable {W : World}
open Dialog
section
variable {U : Type} {Own : U → Type} {g : (q : Quest W U) → q.Answer Own} {l : LLLine W} {α β γ Out : Type}

theorem always_eval {P : α → Prop} {E : Panic → Prop} : ∀ {m : Talk W Own α}, m.Always P E →
    (∀ a, m.eval g = .ok a → P a) ∧ ∀ p, m.eval g = .error p → E p
  | .done a, h => ⟨(fun _ e => by cases e; exact h), (fun _ e => by cases e)⟩
  | .panic p, h => ⟨(fun _ e => by cases e), (fun _ e => by cases e; exact h)⟩
  | .ask q next, h => by
    simp only [eval]
    exact always_eval (h (g q))

theorem results_eq {md : XMatchD W Own Out} {d : Dir} {out : List (Out × Nat)} (h : (md.go d l).eval g = .ok out) :
    md.results g l d = out := by simp only [XMatchD.results, h]

theorem goAfter_order {md : XMatchD W Own Out} (hm : md.Ready g l) (d : Dir) (i : Nat) (hi : i < l.ll_tokens.length) :
    (XD.goAfter md d i l).trace g = (d.beyond i l.ll_tokens.length).flatMap (md.questions g l) ∧
    (XD.goAfter md d i l).eval g = .ok ((d.beyond i l.ll_tokens.length).flatMap (md.results g l)) ∧
    ∀ r ∈ (d.beyond i l.ll_tokens.length).flatMap (md.results g l), r.2 < l.ll_tokens.length := by
  have one : ∀ d' : Dir, d'.at < l.ll_tokens.length →
      (md.go d' l).trace g = [d'].flatMap (md.questions g l) ∧
      (md.go d' l).eval g = .ok ([d'].flatMap (md.results g l)) ∧
      ∀ r ∈ [d'].flatMap (md.results g l), r.2 < l.ll_tokens.length := by
    intro d' h
    obtain ⟨out, e, ho⟩ := hm d' h
    simp only [List.flatMap_cons, List.flatMap_nil, List.append_nil, XMatchD.questions, results_eq e]
    exact ⟨trivial, e, ho⟩
  have zero : (Dialog.done [] : Talk W Own (List (Out × Nat))).trace g = ([] : List Dir).flatMap (md.questions g l) ∧
      (Dialog.done [] : Talk W Own (List (Out × Nat))).eval g = .ok (([] : List Dir).flatMap (md.results g l)) ∧
      ∀ r ∈ ([] : List Dir).flatMap (md.results g l), r.2 < l.ll_tokens.length := ⟨rfl, rfl, by simp⟩
  unfold XD.goAfter
  cases d with
  | fwd k =>
    simp only [Dir.after, Dir.beyond]
    by_cases h : i + 1 < l.ll_tokens.length
    · simp only [h, if_true]; exact one _ h
    · simp only [h, if_false]; exact zero
  | bwd k =>
    simp only [Dir.after, Dir.beyond]
    by_cases h : i = 0
    · subst h; exact zero
    · simp only [h, if_false, show i > 0 by omega, if_true]
      exact one (.bwd (i - 1)) (by simp only [Dir.at]; omega)

variable {a : XMatchD W Own α} {b : XMatchD W Own β} {c : XMatchD W Own γ}

theorem all2_order (ha : a.Ready g l) (hb : b.Ready g l) {d : Dir} (hd : d.at < l.ll_tokens.length) :
    (XD.all2 a b).questions g l d = b.questions g l d ++ a.questions g l d := by
  obtain ⟨as, ea, _⟩ := ha d hd
  obtain ⟨bs, eb, _⟩ := hb d hd
  simp only [XMatchD.questions, XD.all2, bind_eq, pure_eq]
  rw [trace_bind_ok _ _ eb, trace_bind_ok _ _ ea]
  simp only [trace, List.append_nil]

theorem all3_order (ha : a.Ready g l) (hb : b.Ready g l) (hc : c.Ready g l) {d : Dir} (hd : d.at < l.ll_tokens.length) :
    (XD.all3 a b c).questions g l d = b.questions g l d ++ c.questions g l d ++ a.questions g l d := by
  obtain ⟨as, ea, _⟩ := ha d hd
  obtain ⟨bs, eb, _⟩ := hb d hd
  obtain ⟨cs, ec, _⟩ := hc d hd
  simp only [XMatchD.questions, XD.all3, bind_eq, pure_eq]
  rw [trace_bind_ok _ _ eb, trace_bind_ok _ _ ec, trace_bind_ok _ _ ea]
  simp only [trace, List.append_nil, List.append_assoc]

theorem anyOf2_order (ha : a.Ready g l) (hb : b.Ready g l) {d : Dir} (hd : d.at < l.ll_tokens.length) :
    (XD.anyOf2 a b).questions g l d =
      a.questions g l d ++ (if a.results g l d = [] then b.questions g l d else []) := by
  obtain ⟨as, ea, _⟩ := ha d hd
  obtain ⟨bs, eb, _⟩ := hb d hd
  simp only [XMatchD.questions, XD.anyOf2, bind_eq, pure_eq]
  rw [trace_bind_ok _ _ ea, results_eq ea]
  cases as with
  | nil =>
    simp only [List.isEmpty_nil, Bool.not_true, if_true, Bool.false_eq_true, if_false]
    rw [trace_bind_ok _ _ eb]
    simp only [trace, List.append_nil]
  | cons x xs => simp [trace]

theorem anyOf3_order (ha : a.Ready g l) (hb : b.Ready g l) (hc : c.Ready g l) {d : Dir} (hd : d.at < l.ll_tokens.length) :
    (XD.anyOf3 a b c).questions g l d =
      a.questions g l d ++ (if a.results g l d = [] then
        b.questions g l d ++ (if b.results g l d = [] then c.questions g l d else []) else []) := by
  obtain ⟨as, ea, _⟩ := ha d hd
  obtain ⟨bs, eb, _⟩ := hb d hd
  obtain ⟨cs, ec, _⟩ := hc d hd
  simp only [XMatchD.questions, XD.anyOf3, bind_eq, pure_eq]
  rw [trace_bind_ok _ _ ea, results_eq ea, results_eq eb]
  cases as with
  | nil =>
    simp only [List.isEmpty_nil, Bool.not_true, if_true, Bool.false_eq_true, if_false]
    rw [trace_bind_ok _ _ eb]
    cases bs with
    | nil =>
      simp only [List.isEmpty_nil, Bool.not_true, if_true, Bool.false_eq_true, if_false]
      rw [trace_bind_ok _ _ ec]
      simp only [trace, List.append_nil]
    | cons x xs => simp [trace]
  | cons x xs => simp [trace]

theorem seq2_order (ha : a.Ready g l) (hb : b.Ready g l) {d : Dir} (hd : d.at < l.ll_tokens.length) :
    (XD.seq2 a b).questions g l d = a.questions g l d ++ (a.results g l d).flatMap (fun p =>
      (d.beyond p.2 l.ll_tokens.length).flatMap (b.questions g l)) := by
  obtain ⟨as, ea, hl⟩ := ha d hd
  simp only [XMatchD.questions, XD.seq2, bind_eq, pure_eq]
  rw [trace_bind_ok _ _ ea, results_eq ea, flatMapD_trace]
  · congr 1
    refine flatMap_congr' (fun p hp => ?_)
    obtain ⟨e1, e2, _⟩ := goAfter_order hb d p.2 (hl p hp)
    rw [trace_bind_ok _ _ e2, e1]
    simp only [trace, List.append_nil]
  · intro p hp
    obtain ⟨e1, e2, _⟩ := goAfter_order hb d p.2 (hl p hp)
    rw [eval_bind, e2]
    exact ⟨_, rfl⟩

theorem seq3_order (ha : a.Ready g l) (hb : b.Ready g l) (hc : c.Ready g l) {d : Dir} (hd : d.at < l.ll_tokens.length) :
    (XD.seq3 a b c).questions g l d = a.questions g l d ++ (a.results g l d).flatMap (fun p =>
      (d.beyond p.2 l.ll_tokens.length).flatMap (b.questions g l) ++
      ((d.beyond p.2 l.ll_tokens.length).flatMap (b.results g l)).flatMap (fun q =>
        (d.beyond q.2 l.ll_tokens.length).flatMap (c.questions g l))) := by
  obtain ⟨as, ea, hl⟩ := ha d hd
  have inner : ∀ (p : α × Nat) (qs : List (β × Nat)), (∀ q ∈ qs, q.2 < l.ll_tokens.length) →
      (flatMapD (fun pb => (XD.goAfter c d pb.2 l).bind (fun cs =>
        (Dialog.done (cs.map (fun pc => ((p.1, pb.1, pc.1), pc.2))) : Talk W Own (List ((α × β × γ) × Nat))))) qs).trace g =
        qs.flatMap (fun q => (d.beyond q.2 l.ll_tokens.length).flatMap (c.questions g l)) ∧
      ∃ out, (flatMapD (fun pb => (XD.goAfter c d pb.2 l).bind (fun cs =>
        (Dialog.done (cs.map (fun pc => ((p.1, pb.1, pc.1), pc.2))) : Talk W Own (List ((α × β × γ) × Nat))))) qs).eval g = .ok out := by
    intro p qs hq
    constructor
    · rw [flatMapD_trace]
      · refine flatMap_congr' (fun q hm => ?_)
        obtain ⟨e1, e2, _⟩ := goAfter_order hc d q.2 (hq q hm)
        rw [trace_bind_ok _ _ e2, e1]
        simp only [trace, List.append_nil]
      · intro q hm
        obtain ⟨e1, e2, _⟩ := goAfter_order hc d q.2 (hq q hm)
        rw [eval_bind, e2]
        exact ⟨_, rfl⟩
    · rw [flatMapD_eval g (f' := fun pb => (XD.goAfter c d pb.2 l).eval g |>.bind (fun cs =>
        .ok (cs.map (fun pc => ((p.1, pb.1, pc.1), pc.2))))) (fun x => by rw [eval_bind]; rfl)]
      rw [flatMapR_ok (g := fun pb => ((d.beyond pb.2 l.ll_tokens.length).flatMap (c.results g l)).map
        (fun pc => ((p.1, pb.1, pc.1), pc.2)))]
      · exact ⟨_, rfl⟩
      · intro q hm
        obtain ⟨e1, e2, _⟩ := goAfter_order hc d q.2 (hq q hm)
        rw [e2]; rfl
  simp only [XMatchD.questions, XD.seq3, bind_eq, pure_eq]
  rw [trace_bind_ok _ _ ea, results_eq ea, flatMapD_trace]
  · congr 1
    refine flatMap_congr' (fun p hp => ?_)
    obtain ⟨e1, e2, e3⟩ := goAfter_order hb d p.2 (hl p hp)
    rw [trace_bind_ok _ _ e2, e1, (inner p _ e3).1]
  · intro p hp
    obtain ⟨e1, e2, e3⟩ := goAfter_order hb d p.2 (hl p hp)
    rw [eval_bind, e2]
    exact (inner p _ e3).2

theorem ready_of_built {h : History W} (hr : Reachable l h) (ho : Ordered h) (hv : ∀ p, ¬ BareValue l h p)
    {md : XMatchD W Own Out} (hm : BuiltD l md) : md.Ready g l := by
  intro d hd
  have := always_eval (g := g) (builtD_always hr ho hm d hd)
  cases e : (md.go d l).eval g with
  | error p => exact absurd (this.2 p e) (hv p)
  | ok out => exact ⟨out, rfl, fun r hm => (this.1 out e r hm).1⟩

/-! ### searches -/

variable {md : XMatchD W Own Out} {s : LLSelection W}

theorem findBoth_order (hm : md.Ready g s.ll_line.val) (h2 : s.end_idx < s.ll_line.val.ll_tokens.length) :
    (s.findByForwardsAndBackwardsD md).trace g = (rangeIncl s.start_idx s.end_idx).flatMap (fun i =>
      md.questions g s.ll_line.val (.fwd i) ++ md.questions g s.ll_line.val (.bwd i)) := by
  have hi : ∀ i ∈ rangeIncl s.start_idx s.end_idx, i < s.ll_line.val.ll_tokens.length := by
    intro i hi
    simp only [rangeIncl, List.mem_range'_1] at hi
    omega
  simp only [LLSelection.findByForwardsAndBackwardsD, bind_eq, pure_eq]
  rw [flatMapD_trace]
  · refine flatMap_congr' (fun i hmem => ?_)
    obtain ⟨fs, e1, _⟩ := hm (.fwd i) (hi i hmem)
    obtain ⟨bs, e2, _⟩ := hm (.bwd i) (hi i hmem)
    rw [trace_bind_ok _ _ e1, trace_bind_ok _ _ e2]
    simp only [trace, List.append_nil, XMatchD.questions]
  · intro i hmem
    obtain ⟨fs, e1, _⟩ := hm (.fwd i) (hi i hmem)
    obtain ⟨bs, e2, _⟩ := hm (.bwd i) (hi i hmem)
    rw [eval_bind, e1]
    show ∃ ys, ((md.go (.bwd i) s.ll_line.val).bind _).eval g = .ok ys
    rw [eval_bind, e2]
    exact ⟨_, rfl⟩

theorem trace_bind_done {m : Talk W Own α} {f : α → β} : (m.bind (fun x => .done (f x))).trace g = m.trace g := by
  rw [trace_bind]
  cases m.eval g <;> simp [trace]

theorem matchForwards_order : (s.matchForwardsD md).trace g =
    if s.end_idx + 1 = s.ll_line.val.ll_tokens.length then [] else md.questions g s.ll_line.val (.fwd (s.end_idx + 1)) := by
  unfold LLSelection.matchForwardsD
  split
  · rfl
  · exact trace_bind_done

theorem matchBackwards_order : (s.matchBackwardsD md).trace g =
    if s.start_idx = 0 then [] else md.questions g s.ll_line.val (.bwd (s.start_idx - 1)) := by
  unfold LLSelection.matchBackwardsD
  split
  · rfl
  · exact trace_bind_done

theorem splitBy_order : (s.splitByD md).trace g = (s.findByD md).trace g := by
  unfold LLSelection.splitByD
  rw [bind_eq, trace_bind]
  cases (s.findByD md).eval g with
  | error e => simp
  | ok ms =>
    rcases ms with _ | ⟨m0, _ | ⟨m1, ms⟩⟩ <;> simp [trace, pure_eq]

theorem trim_order (fs fe : Bool) (hm : md.Ready g s.ll_line.val) (h1 : s.start_idx < s.ll_line.val.ll_tokens.length)
    (h2 : s.end_idx < s.ll_line.val.ll_tokens.length) : (s.trimSelectionD md fs fe).trace g =
    (if fs then md.questions g s.ll_line.val (.fwd s.start_idx) else []) ++
    (if fe then md.questions g s.ll_line.val (.bwd s.end_idx) else []) := by
  obtain ⟨out, e1, _⟩ := hm (.fwd s.start_idx) h1
  obtain ⟨out', e2, _⟩ := hm (.bwd s.end_idx) h2
  have last : ∀ ns ne, (if ne ≥ s.start_idx ∧ ns ≤ ne then
      (Dialog.done (some { ll_line := s.ll_line, start_idx := ns, end_idx := ne }) : Talk W Own (Option (LLSelection W)))
      else .done none).trace g = [] := by intro ns ne; split <;> rfl
  have first : ∃ ns, ((if fs then (md.go (.fwd s.start_idx) s.ll_line.val).bind (fun rs =>
      match rs.head? with | some m => .done (m.2 + 1) | none => .done s.start_idx) else .done s.start_idx : Talk W Own Nat)).eval g
        = .ok ns ∧ ((if fs then (md.go (.fwd s.start_idx) s.ll_line.val).bind (fun rs =>
      match rs.head? with | some m => .done (m.2 + 1) | none => .done s.start_idx) else .done s.start_idx : Talk W Own Nat)).trace g =
        if fs then md.questions g s.ll_line.val (.fwd s.start_idx) else [] := by
    cases fs with
    | false => exact ⟨_, rfl, rfl⟩
    | true =>
      simp only [if_true]
      rw [eval_bind, e1, trace_bind_ok _ _ e1]
      cases out with
      | nil => exact ⟨_, rfl, by simp [trace, XMatchD.questions]⟩
      | cons x xs => exact ⟨_, rfl, by simp [trace, XMatchD.questions]⟩
  have second : ∃ ne, ((if fe then (md.go (.bwd s.end_idx) s.ll_line.val).bind (fun rs =>
      match rs.head? with | some m => .done ((checkedSub m.2 1).getD m.2) | none => .done s.end_idx) else .done s.end_idx : Talk W Own Nat)).eval g
        = .ok ne ∧ ((if fe then (md.go (.bwd s.end_idx) s.ll_line.val).bind (fun rs =>
      match rs.head? with | some m => .done ((checkedSub m.2 1).getD m.2) | none => .done s.end_idx) else .done s.end_idx : Talk W Own Nat)).trace g =
        if fe then md.questions g s.ll_line.val (.bwd s.end_idx) else [] := by
    cases fe with
    | false => exact ⟨_, rfl, rfl⟩
    | true =>
      simp only [if_true]
      rw [eval_bind, e2, trace_bind_ok _ _ e2]
      cases out' with
      | nil => exact ⟨_, rfl, by simp [trace, XMatchD.questions]⟩
      | cons x xs => exact ⟨_, rfl, by simp [trace, XMatchD.questions]⟩
  obtain ⟨ns, e3, t3⟩ := first
  obtain ⟨ne, e4, t4⟩ := second
  have := trace_bind_ok g (fun new_start => ((if fe then (md.go (.bwd s.end_idx) s.ll_line.val).bind (fun rs =>
      match rs.head? with | some m => .done ((checkedSub m.2 1).getD m.2) | none => .done s.end_idx) else .done s.end_idx : Talk W Own Nat)).bind
      (fun new_end => if new_end ≥ s.start_idx ∧ new_start ≤ new_end then
      (Dialog.done (some { ll_line := s.ll_line, start_idx := new_start, end_idx := new_end }) : Talk W Own (Option (LLSelection W)))
      else .done none)) e3
  rw [trace_bind_ok _ _ e4, last, t3, t4, List.append_nil] at this
  exact this

theorem find_order (hm : md.Ready g l) :
    (l.findD md).trace g = (List.range l.ll_tokens.length).flatMap (fun i => md.questions g l (.fwd i)) := by
  have rest : ∀ i, i < l.ll_tokens.length → ∀ rs : List (Out × Nat), (∀ r ∈ rs, r.2 < l.ll_tokens.length) →
      ∃ out, (mapD (fun (r : Out × Nat) => (lift (l.posStartAt i)).bind (fun s => (lift (l.posEndAt r.2)).bind (fun e =>
        (Dialog.done { start_pos_at := s, end_pos_at := e, found := r.1 } : Talk W Own (LLLineFind Out))))) rs) = .done out := by
    intro i hi rs hrs
    induction rs with
    | nil => exact ⟨[], rfl⟩
    | cons r rs ih =>
      obtain ⟨out, e⟩ := ih (fun r hr => hrs r (List.mem_cons_of_mem _ hr))
      have h1 : l.posStartAt i = .ok (l.ll_tokens[i]).pos_starts_at := by simp [LLLine.posStartAt, hi]
      have h2 : l.posEndAt r.2 = .ok (l.ll_tokens[r.2]'(hrs r (by simp))).pos_ends_at := by
        simp [LLLine.posEndAt, hrs r (by simp)]
      simp only [mapD, h1, h2, lift, Dialog.bind, bind_eq, pure_eq]
      simp only [h1, lift, Dialog.bind] at e
      rw [e]
      exact ⟨_, rfl⟩
  simp only [LLLine.findD, bind_eq, pure_eq]
  rw [flatMapD_trace]
  · refine flatMap_congr' (fun i hmem => ?_)
    obtain ⟨fs, e1, h1⟩ := hm (.fwd i) (List.mem_range.1 hmem)
    obtain ⟨out, e⟩ := rest i (List.mem_range.1 hmem) fs h1
    rw [trace_bind_ok _ _ e1, e]
    simp only [trace, List.append_nil, XMatchD.questions]
  · intro i hmem
    obtain ⟨fs, e1, h1⟩ := hm (.fwd i) (List.mem_range.1 hmem)
    obtain ⟨out, e⟩ := rest i (List.mem_range.1 hmem) fs h1
    rw [eval_bind, e1]
    show ∃ ys, (mapD _ fs).eval g = .ok ys
    rw [e]
    exact ⟨_, rfl⟩

end
end LNlp
