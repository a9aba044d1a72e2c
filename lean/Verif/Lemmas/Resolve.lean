import Verif.Spec.Resolve
import Verif.Lemmas.SelectApi
/- Facts about the resolvers other than the amount resolver. -/
namespace LNlp
variable {W : World}

theorem between_eq (a b : Nat) : rangeIncl a b = between a b := rfl
theorem mem_between {a b i : Nat} : i ∈ between a b ↔ a ≤ i ∧ i ≤ b := mem_rangeIncl

theorem between_pairwise (a b : Nat) : (between a b).Pairwise (· < ·) := rangeIncl_pairwise a b

theorem tokenText_fwd {l : LLLine W} {i : Nat} (hi : i < l.ll_tokens.length) :
    (X.tokenText (W := W)).go (.fwd i) l = .ok ((textAt l i).toList.map (fun s => (s, i))) := by
  rw [textToken_fwd]
  unfold textAt
  rw [List.getElem?_eq_getElem hi]
  cases h : (l.ll_tokens[i]).token <;> simp [h]

theorem tokenText_bwd {l : LLLine W} {i : Nat} (hi : i < l.ll_tokens.length) :
    (X.tokenText (W := W)).go (.bwd i) l = .ok ((textAt l i).toList.map (fun s => (s, i))) := by
  rw [textToken_bwd]
  unfold textAt
  rw [List.getElem?_eq_getElem hi]
  cases h : (l.ll_tokens[i]).token <;> simp [h]

theorem findBy_exact {Out : Type} {s : LLSelection W} {m : XMatch W Out} {f : Nat → List (Out × Nat)}
    (h : ∀ i, s.Has i → m.go (.fwd i) s.ll_line.val = .ok (f i)) :
    s.findBy m = .ok ((between s.start_idx s.end_idx).flatMap (fun i => (f i).map (fwdSel s i))) := by
  rw [findBy_ok_iff]
  refine ⟨fun i hi => ⟨_, h i hi⟩, ?_⟩
  rw [between_eq, List.flatMap_def, List.flatMap_def]
  congr 1
  apply List.map_congr_left
  intro i hi
  rw [h i (mem_between.1 hi), okD_of rfl]

theorem findBy_tokenText {s : LLSelection W} (hs : s.Inside) :
    s.findBy X.tokenText = .ok ((between s.start_idx s.end_idx).flatMap (fun i =>
      (textAt s.ll_line.val i).toList.map (fun t => ({ start_idx := i, end_idx := i, ll_line := s.ll_line }, t)))) := by
  rw [findBy_exact (f := fun i => (textAt s.ll_line.val i).toList.map (fun t => (t, i)))]
  · simp only [List.map_map]; rfl
  · intro i hi
    exact tokenText_fwd (by have := hs.2; have := hi.2; omega)

/-- an attribute type that sits on single tokens only -/
theorem single_flatMap {β : Type} {k : Ty W} {h : History W} {i : Nat} (p : LRange → Bool)
    (hp : ∀ r ∈ rangesOf k h, p r = true ↔ r = (i, i)) (f : LRange → List β)
    (hf : valuesOf k (i, i) h = [] → f (i, i) = []) :
    ((rangesOf k h).filter p).flatMap f = f (i, i) := by
  have hn := rangesOf_nodup k h
  by_cases hm : (i, i) ∈ rangesOf k h
  · clear hf
    generalize rangesOf k h = R at *
    induction R with
    | nil => cases hm
    | cons r rs ih =>
      rw [List.nodup_cons] at hn
      by_cases he : r = (i, i)
      · subst he
        have hnone : rs.filter p = [] := by
          rw [List.filter_eq_nil_iff]
          intro x hx hpx
          have := (hp x (by simp [hx])).1 hpx
          subst this; exact hn.1 hx
        rw [List.filter_cons_of_pos ((hp _ (by simp)).2 rfl), hnone]; simp
      · rw [List.filter_cons_of_neg (by rw [hp r (by simp)]; exact he)]
        exact ih (fun r hr => hp r (by simp [hr])) hn.2 (by
          rcases List.mem_cons.1 hm with h | h
          · exact absurd h.symm he
          · exact h)
  · have hnone : (rangesOf k h).filter p = [] := by
      rw [List.filter_eq_nil_iff]
      intro x hx hpx
      have := (hp x hx).1 hpx
      subst this; exact hm hx
    rw [hnone, hf (valuesOf_not_mem hm)]; rfl

theorem single_attr {l : LLLine W} {h : History W} (rep : Rep l h) {k : Ty W}
    (h1 : ∀ x ∈ h, x.ty = k → x.range.1 = x.range.2) {i : Nat} (hi : i < l.ll_tokens.length) :
    (X.attr k).go (.fwd i) l = .ok ((valuesOf k (i, i) h).map (fun v => (v, i))) ∧
    (X.attr k).go (.bwd i) l = .ok ((valuesOf k (i, i) h).map (fun v => (v, i))) ∧
    (∀ v, (X.attrEq k v).go (.fwd i) l = .ok (((valuesOf k (i, i) h).filter (fun w => valEq k w v)).map (fun _ => ((), i)))) ∧
    (∀ v, (X.attrEq k v).go (.bwd i) l = .ok (((valuesOf k (i, i) h).filter (fun w => valEq k w v)).map (fun _ => ((), i)))) := by
  have hr : ∀ r ∈ rangesOf k h, r.1 = r.2 := by
    intro r hr
    obtain ⟨v, hv⟩ := mem_rangesOf.1 hr
    exact h1 _ hv rfl
  have p1 : ∀ r ∈ rangesOf k h, decide (r.1 = i) = true ↔ r = (i, i) := by
    intro r h; have := hr r h; obtain ⟨a, b⟩ := r; simp only at this; subst this; simp
  have p2 : ∀ r ∈ rangesOf k h, decide (r.2 = i) = true ↔ r = (i, i) := by
    intro r h; have := hr r h; obtain ⟨a, b⟩ := r; simp only at this; subst this; simp
  refine ⟨?_, ?_, fun v => ?_, fun v => ?_⟩
  · refine (rep_attr_fwd rep k hi).trans ?_
    rw [single_flatMap _ p1]; intro h; simp [h]
  · refine (rep_attr_bwd rep k hi).trans ?_
    rw [single_flatMap _ p2]; intro h; simp [h]
  · refine (rep_attrEq_fwd rep k v hi).trans ?_
    rw [single_flatMap _ p1]; intro h; simp [h]
  · refine (rep_attrEq_bwd rep k v hi).trans ?_
    rw [single_flatMap _ p2]; intro h; simp [h]

theorem textTag_valEq (a b : TextTag) : valEq (W := W) .textTag a b = (a == b) := rfl

theorem map_filter_replicate (tags : List TextTag) (tag : TextTag) {β : Type} (x : β) :
    (tags.filter (fun w => w == tag)).map (fun _ => x) = List.replicate (tags.count tag) x := by
  induction tags with
  | nil => rfl
  | cons t ts ih =>
    by_cases h : t = tag
    · subst h; simp [List.replicate_succ, ih]
    · have : (t == tag) = false := by simpa using h
      simp [List.count_cons, this, ih]

/-- `all((attr_eq(&tag), token_text()))` at a token: once per equal tag value on the token -/
theorem tagText_fwd {l : LLLine W} {h : History W} (rep : Rep l h) (tag : TextTag) {i : Nat}
    (hi : i < l.ll_tokens.length) :
    (X.all2 (X.attrEq (W := W) .textTag tag) X.tokenText).go (.fwd i) l =
      .ok ((textAt l i).toList.flatMap (fun s => List.replicate ((tagsOn h i).count tag) (((), s), i))) := by
  rw [all2_ok_iff]
  refine ⟨_, _, rep_attrEq_fwd rep .textTag tag hi, tokenText_fwd hi, ?_⟩
  have hf := filter_ranges (fun r => (valuesOf (W := W) .textTag r h).filter (fun w => valEq .textTag w tag)) (fun _ => ())
    (fun r => r.1 = i) (fun r => r.2) i (i, i) (by rintro ⟨a, b⟩; simp) _ (rangesOf_nodup .textTag h)
    (fun hn => by simp only [valuesOf_not_mem hn, List.filter_nil])
  generalize ((rangesOf (W := W) .textTag h).filter (fun r => decide (r.1 = i))).flatMap
        (fun r => ((valuesOf .textTag r h).filter (fun x => valEq .textTag x tag)).map (fun _ => ((), r.2))) = as at *
  cases textAt l i with
  | none => simp
  | some s =>
    have : ∀ as : List (Unit × Nat), as.flatMap (fun pa => ([(s, i)] : List (Str × Nat)).filterMap (fun pb =>
          if pa.2 = pb.2 then some ((pa.1, pb.1), pa.2) else none)) =
        (as.filter (fun p => decide (p.2 = i))).map (fun p => ((p.1, s), p.2)) := by
      intro as
      induction as with
      | nil => rfl
      | cons a as ih =>
        by_cases he : a.2 = i
        · simp_all
        · simp_all
    simp only [Option.toList_some, List.map_cons, List.map_nil, List.flatMap_cons, List.flatMap_nil, List.append_nil]
    rw [this, hf, List.map_map]
    exact (map_filter_replicate (tagsOn h i) tag (((), s), i)).symm

/-! ### tables -/

theorem collectMap_get {V : Type} (entries : List (Str × V)) (t : Str) :
    collectMap entries t = ((entries.filter (fun e => decide (e.1 = t))).getLast?).map (·.2) := by
  unfold collectMap
  suffices H : ∀ (entries : List (Str × V)) (m : HMap Str V), (entries.foldl (fun m e => m.set e.1 e.2) m) t =
      (((entries.filter (fun e => decide (e.1 = t))).getLast?).map (·.2)).or (m t) by
    rw [H]; simp [HMap.empty]
  intro entries
  induction entries with
  | nil => intro m; rfl
  | cons e es ih =>
    intro m
    rw [List.foldl_cons, ih, List.filter_cons]
    by_cases he : e.1 = t
    · simp only [he, decide_true, if_true, List.getLast?_cons]
      cases (es.filter (fun e => decide (e.1 = t))).getLast? <;> simp [HMap.set]
    · simp only [he, decide_false, HMap.set]
      rw [if_neg (fun h => he h.symm)]
      simp

theorem filter_unique {V : Type} {f : V → Str} : ∀ {l : List V}, (l.map f).Nodup → ∀ {e : V}, e ∈ l →
    l.filter (fun x => decide (f x = f e)) = [e] := by
  intro l
  induction l with
  | nil => intro _ e he; cases he
  | cons x xs ih =>
    intro hn e he
    rw [List.map_cons, List.nodup_cons] at hn
    by_cases hx : f x = f e
    · have hrest : xs.filter (fun x => decide (f x = f e)) = [] := by
        rw [List.filter_eq_nil_iff]
        intro y hy hc
        apply hn.1
        rw [hx, ← of_decide_eq_true hc]
        exact List.mem_map.2 ⟨y, hy, rfl⟩
      rw [List.filter_cons_of_pos (by simpa using hx), hrest]
      rcases List.mem_cons.1 he with rfl | he
      · rfl
      · exact absurd (List.mem_map.2 ⟨e, he, hx.symm⟩) hn.1
    · rw [List.filter_cons_of_neg (by simpa using hx)]
      rcases List.mem_cons.1 he with rfl | he
      · exact absurd rfl hx
      · exact ih hn.2 he

/-! ### running a resolver -/

theorem table_resolver {k : Ty W} (r : TextMatchAssignResolver W k) {s : LLSelection W} {as} (h : r.go s = .ok as) :
    r.resolver.go s = .ok (as, false) := by
  show (match r.go s with | .ok as => _ | .error e => _) = _
  simp only [h]; rfl
theorem pos_resolver {s : LLSelection W} {as} (h : posTagGo s = .ok as) :
    (posTagResolver W).go s = .ok (as, false) := by
  show (match posTagGo s with | .ok as => _ | .error e => _) = _
  simp only [h]; rfl
theorem keyword_resolver (r : ClauseKeywordResolver) {s : LLSelection W} {as} (h : r.go s = .ok as) :
    (r.resolver W).go s = .ok (as, false) := by
  show (match r.go s with | .ok as => _ | .error e => _) = _
  simp only [h]; rfl
theorem clause_resolver {s : LLSelection W} {as} (h : clauseGo s = .ok as) :
    (clauseResolver W).go s = .ok (as, false) := by
  show (match clauseGo s with | .ok as => _ | .error e => _) = _
  simp only [h]; rfl

theorem run_reachable {l : LLLine W} {h : History W} (hr : Reachable l h) (ne : l.ll_tokens ≠ []) {ptr : Nat}
    {k : Ty W} {f : LLSelection W → R (List (LLCursorAssignment (Val k)) × Bool)} {asgs : List (LLCursorAssignment (Val k))}
    (hg : f (wholeLine l ptr) = .ok (asgs, false))
    (hb : ∀ a ∈ asgs, a.start_idx < l.ll_tokens.length ∧ a.end_idx < l.ll_tokens.length) :
    ∃ l', l.run ptr ⟨k, f⟩ = .ok l' ∧ Reachable l' (h ++ asgs.map (recOf k)) := by
  obtain ⟨a', ha', _⟩ := assign_fold asgs hr.rep hb
  have : l.run ptr ⟨k, f⟩ = .ok { l with attrs := a' } := by rw [run_of_go ne hg, ha']
  exact ⟨_, this, .run l h ptr ⟨k, f⟩ asgs false _ hr ne hg this⟩

theorem token_records {α β : Type} (f : Nat → List α) (g : Nat → α → β) (is : List Nat) {γ : Type} (m : β → γ) :
    (is.flatMap (fun i => (f i).map (g i))).map m = is.flatMap (fun i => (f i).map (fun v => m (g i v))) := by
  rw [List.map_flatMap]; simp only [List.map_map]; rfl

theorem token_bounds {α : Type} {l : LLLine W} (ne : l.ll_tokens ≠ []) {f : Nat → List α} {ptr : Nat} :
    ∀ a ∈ (between (wholeLine l ptr).start_idx (wholeLine l ptr).end_idx).flatMap
      (fun i => (f i).map (fun v => (⟨i, i, v⟩ : LLCursorAssignment α))),
      a.start_idx < l.ll_tokens.length ∧ a.end_idx < l.ll_tokens.length := by
  intro a ha
  obtain ⟨i, hi, ha⟩ := List.mem_flatMap.1 ha
  obtain ⟨v, _, rfl⟩ := List.mem_map.1 ha
  have hi := (mem_between.1 hi).2
  have hlen : 0 < l.ll_tokens.length := List.length_pos_iff.2 ne
  have hlast : (wholeLine l ptr).end_idx = l.ll_tokens.length - 1 := rfl
  simp only; omega

/-! ### keywords -/

theorem keywordGo_eq (r : ClauseKeywordResolver) {s : LLSelection W} (hs : s.Inside) :
    r.go s = .ok ((between s.start_idx s.end_idx).flatMap (fun i =>
      ((textAt s.ll_line.val i).bind (fun t => r.classify (W.toLowercase t))).toList.map (fun kw => ⟨i, i, kw⟩))) := by
  unfold ClauseKeywordResolver.go
  rw [findBy_tokenText hs]
  simp only [List.filterMap_flatMap]
  congr 2
  funext i
  cases textAt s.ll_line.val i with
  | none => rfl
  | some t =>
    simp only [Option.toList_some, List.map_cons, List.map_nil, List.filterMap_cons, List.filterMap_nil, Option.bind_some]
    cases r.classify (W.toLowercase t) <;> rfl

theorem classify_iff (r : ClauseKeywordResolver) : ∀ t kw, r.classify t = some kw ↔ IsKeyword r t kw := by
  intro t kw
  unfold ClauseKeywordResolver.classify
  simp only [List.contains_iff_mem]
  by_cases h1 : t ∈ r.cond_start
  · cases kw <;> simp [h1, IsKeyword]
  · by_cases h2 : t ∈ r.then_
    · cases kw <;> simp [h1, h2, IsKeyword]
    · by_cases h3 : t ∈ r.and
      · cases kw <;> simp [h1, h2, h3, IsKeyword]
      · cases kw <;> simp [h1, h2, h3, IsKeyword]

end LNlp
