import Verif.Lemmas.Plain
/- The built-in resolvers only assign to selections they got from the API. -/
namespace LNlp
variable {W : World}

theorem matchFirstBackwards_ok {T : Ty W → Prop} {Out : Type} {m : XMatch W Out} (hb : Built T false m)
    {p : LLSelection W} {h : History W} (rep : Rep p.ll_line.val h) (hp : p.Inside) :
    ∃ o, p.matchFirstBackwards m = .ok o := by
  obtain ⟨h1, h2⟩ := C43_match_backwards p m
  by_cases h0 : p.start_idx = 0
  · exact ⟨_, (h1 h0).2⟩
  · obtain ⟨i, hi⟩ : ∃ i, p.start_idx = i + 1 := ⟨p.start_idx - 1, by omega⟩
    have := hp.1; have := hp.2
    obtain ⟨rs, hrs⟩ := built_false_ok hb rep (.bwd i) (show i < _ by omega)
    exact ⟨_, ((h2 i hi).2 rs hrs).2⟩

theorem keyword_cases {p : LLSelection W} {h : History W} (rep : Rep p.ll_line.val h) (hp : p.Inside) :
    p.matchFirstBackwards (X.attr (W := W) .clauseKeyword) = .ok none ∨
    ∃ q, ∃ kw : ClauseKeyword, p.matchFirstBackwards (X.attr (W := W) .clauseKeyword) = .ok (some (q, kw)) := by
  obtain ⟨o, hm⟩ := matchFirstBackwards_ok (m := X.attr (W := W) .clauseKeyword) (.attr (T := fun _ => True) _ trivial) rep hp
  match o, hm with
  | none, hm => exact .inl hm
  | some (q, kw), hm => exact .inr ⟨q, kw, hm⟩

theorem trim_ok {p : LLSelection W} {h : History W} (rep : Rep p.ll_line.val h) (ho : Ordered h) (hp : p.Inside) :
    ∃ o, p.trim X.whitespace = .ok o ∧ ∀ t, o = some t → t.PartOf p := by
  have hbuilt : Built (W := W) (fun _ => True) false X.whitespace := .attrEq _ trivial _
  have hbuilt' : Builtin (W := W) X.whitespace := .attrEq _ trivial _
  have := hp.1; have := hp.2
  obtain ⟨rs, hrs⟩ := built_false_ok hbuilt rep (.fwd p.start_idx) (show p.start_idx < _ by omega)
  obtain ⟨rs', hrs'⟩ := built_false_ok hbuilt rep (.bwd p.end_idx) (show p.end_idx < _ by omega)
  obtain ⟨o, h1, h2, _⟩ := C49_trim p X.whitespace hp (builtin_wellBehaved hbuilt' rep ho) rs rs' hrs hrs'
  exact ⟨o, h1, h2⟩

/-- one step of the clause loop succeeds and adds the trimmed piece, if there is one -/
theorem clauseStep_general {p : LLSelection W} {h : History W} (rep : Rep p.ll_line.val h) (ho : Ordered h)
    (hp : p.Inside) (st : Bool × List (LLCursorAssignment Clause)) :
    ∃ st' ts, clauseStep st p = .ok st' ∧ st'.2 = st.2 ++ ts ∧ ts.length ≤ 1 ∧
      ∀ a ∈ ts, ∃ t v, p.trim X.whitespace = .ok (some t) ∧ t.PartOf p ∧ a = t.finishWithAttr v := by
  obtain ⟨o, ht, hpart⟩ := trim_ok rep ho hp
  unfold clauseStep
  rw [ht]
  cases o with
  | none => exact ⟨st, [], rfl, by simp, by simp, by simp⟩
  | some t =>
    have fin : ∀ b v, ∃ st' ts, (Except.ok (b, st.2 ++ [t.finishWithAttr v]) : R (Bool × List (LLCursorAssignment Clause))) = .ok st' ∧
        st'.2 = st.2 ++ ts ∧ ts.length ≤ 1 ∧
        ∀ a ∈ ts, ∃ t' v, (Except.ok (some t) : R (Option (LLSelection W))) = .ok (some t') ∧ t'.PartOf p ∧ a = t'.finishWithAttr v :=
      fun b v => ⟨_, [t.finishWithAttr v], rfl, rfl, by simp, by
        intro a ha; rw [List.mem_singleton] at ha; exact ⟨t, v, rfl, hpart t rfl, ha⟩⟩
    rcases keyword_cases rep hp with hm | ⟨q, kw, hm⟩
    · rw [hm]
      by_cases hb : st.1 = true
      · simp only [if_pos hb]; exact fin _ _
      · simp only [if_neg hb]; exact fin _ _
    · rw [hm]; cases kw <;> exact fin _ _

theorem clauseFold_general {l : Rc (LLLine W)} {h : History W} (rep : Rep l.val h) (ho : Ordered h) :
    ∀ (ps : List (LLSelection W)) (st : Bool × List (LLCursorAssignment Clause)),
    (∀ p ∈ ps, p.ll_line = l ∧ p.Inside) → ps.Pairwise (fun p q => p.end_idx + 1 < q.start_idx) →
    ∃ st' ts, foldR clauseStep st ps = .ok st' ∧ st'.2 = st.2 ++ ts ∧
      ts.Pairwise (fun a b => a.end_idx + 1 < b.start_idx) ∧
      ∀ a ∈ ts, ∃ p ∈ ps, ∃ t v, p.trim X.whitespace = .ok (some t) ∧ t.PartOf p ∧ a = t.finishWithAttr v := by
  intro ps
  induction ps with
  | nil => intro st _ _; exact ⟨st, [], rfl, by simp, by simp, by simp⟩
  | cons p ps ih =>
    intro st hp hpw
    have hp0 := hp p (by simp)
    obtain ⟨st1, ts1, h1, h2, hlen, h3⟩ := clauseStep_general (p := p) (by rw [hp0.1]; exact rep) ho hp0.2 st
    rw [List.pairwise_cons] at hpw
    obtain ⟨st2, ts2, h4, h5, h6, h7⟩ := ih st1 (fun q hq => hp q (by simp [hq])) hpw.2
    refine ⟨st2, ts1 ++ ts2, ?_, ?_, ?_, ?_⟩
    · simp only [foldR, h1]; exact h4
    · rw [h5, h2, List.append_assoc]
    · rw [List.pairwise_append]
      refine ⟨?_, h6, ?_⟩
      · match ts1, hlen with
        | [], _ => simp
        | [_], _ => simp
      · intro a ha b hb
        obtain ⟨t, v, _, hpt, rfl⟩ := h3 a ha
        obtain ⟨q, hq, t', v', _, hpt', rfl⟩ := h7 b hb
        have := hpw.1 q hq
        have h8 := hpt.2.2.2; have h9 := hpt'.2.1
        show t.end_idx + 1 < t'.start_idx
        omega
    · intro a ha
      rcases List.mem_append.1 ha with ha | ha
      · exact ⟨p, by simp, h3 a ha⟩
      · obtain ⟨q, hq, h⟩ := h7 a ha
        exact ⟨q, by simp [hq], h⟩

/-- on any line with well-formed ranges the clause resolver succeeds; its clauses are trimmed pieces -/
theorem clauseGo_general {s : LLSelection W} {h : History W} (rep : Rep s.ll_line.val h) (ho : Ordered h) (hs : s.Inside) :
    ∃ ps out, s.splitBy (clauseDelimiter W) = .ok ps ∧ clauseGo s = .ok out ∧
      out.Pairwise (fun a b => a.end_idx + 1 < b.start_idx) ∧
      ∀ a ∈ out, ∃ p ∈ ps, ∃ t v, p.trim X.whitespace = .ok (some t) ∧ t.PartOf p ∧ p.PartOf s ∧ a = t.finishWithAttr v := by
  have hbuilt : Built (W := W) (fun _ => True) false (clauseDelimiter W) :=
    .anyOf2 (.attr _ trivial) (.attrEq _ trivial _)
  have hbuilt' : Builtin (W := W) (clauseDelimiter W) := .anyOf2 (.attr _ trivial) (.attrEq _ trivial _)
  cases hsp : s.splitBy (clauseDelimiter W) with
  | error e =>
    obtain ⟨i, e, hi, he⟩ := (C47_panics_iff s (clauseDelimiter W)).1 ⟨e, hsp⟩
    obtain ⟨o, ho⟩ := built_false_ok hbuilt rep (.fwd i) (show i < _ from Nat.lt_of_le_of_lt hi.2 hs.2)
    rw [ho] at he; cases he
  | ok ps =>
    obtain ⟨h1, h2, _⟩ := C47_split_by s (clauseDelimiter W) hs (builtin_wellBehaved hbuilt' rep ho) ps hsp
    have hin : ∀ p ∈ ps, p.ll_line = s.ll_line ∧ p.Inside := fun p hp => ⟨(h1 p hp).1, inside_of_partOf (h1 p hp) hs⟩
    unfold clauseGo
    rw [hsp]
    refine ⟨ps, ?_⟩
    match ps, h1, h2, hin with
    | [p], h1, _, hin =>
      have hp := hin p (by simp)
      have rep' : Rep p.ll_line.val h := by rw [hp.1]; exact rep
      show ∃ out, (Except.ok [p] : R (List (LLSelection W))) = .ok [p] ∧ clauseSingle p = .ok out ∧ _
      unfold clauseSingle
      obtain ⟨o, ht, hpart⟩ := trim_ok rep' ho hp.2
      rw [ht]
      cases o with
      | none => exact ⟨[], rfl, rfl, by simp, by simp⟩
      | some t =>
        have fin : ∀ v : Clause, ∃ out, (Except.ok [p] : R (List (LLSelection W))) = .ok [p] ∧
            (Except.ok [t.finishWithAttr v] : R (List (LLCursorAssignment Clause))) = .ok out ∧
            out.Pairwise (fun a b => a.end_idx + 1 < b.start_idx) ∧
            ∀ a ∈ out, ∃ p' ∈ [p], ∃ t v, p'.trim X.whitespace = .ok (some t) ∧ t.PartOf p' ∧ p'.PartOf s ∧ a = t.finishWithAttr v :=
          fun v => ⟨[t.finishWithAttr v], rfl, rfl, by simp, by
            intro a ha; rw [List.mem_singleton] at ha
            exact ⟨p, by simp, t, v, ht, hpart t rfl, h1 p (by simp), ha⟩⟩
        rcases keyword_cases rep' hp.2 with hm | ⟨q, kw, hm⟩
        · rw [hm]; exact fin _
        · rw [hm]; cases kw <;> exact fin _
    | [], h1, h2, hin => exact ⟨[], rfl, rfl, by simp, by simp⟩
    | p :: q :: ps, h1, h2, hin =>
      obtain ⟨st, ts, h3, h4, h5, h6⟩ := clauseFold_general rep ho (p :: q :: ps) (false, []) hin h2
      refine ⟨ts, rfl, ?_, h5, ?_⟩
      · simp only [h3]; rw [h4]; rfl
      · intro a ha
        obtain ⟨p', hp', t, v, h7, h8, h9⟩ := h6 a ha
        exact ⟨p', hp', t, v, h7, h8, h1 p' hp', h9⟩

/-! ### honest runs -/

theorem honest_findBy {α β : Type} {s0 : LLSelection W} {m : XMatch W α} (hm : Builtin m)
    {found : List (LLSelection W × α)} (hf : s0.findBy m = .ok found) {f : LLSelection W × α → List β}
    {a : LLCursorAssignment β} (ha : a ∈ found.flatMap (fun st => (f st).map (fun v => st.1.finishWithAttr v))) :
    ∃ s v, ApiSel (fun m => Builtin m) s0 s ∧ a = s.finishWithAttr v := by
  obtain ⟨⟨s, x⟩, hst, ha⟩ := List.mem_flatMap.1 ha
  obtain ⟨v, _, rfl⟩ := List.mem_map.1 ha
  exact ⟨s, v, .findBy .self hm hf hst, rfl⟩

theorem table_honest {k : Ty W} (r : TextMatchAssignResolver W k) {s : LLSelection W} {out}
    (h : r.go s = .ok out) : ∀ a ∈ out, ∃ s' v, ApiSel (fun m => Builtin m) s s' ∧ a = s'.finishWithAttr v := by
  unfold TextMatchAssignResolver.go at h
  cases hf : s.findBy X.tokenText with
  | error e => rw [hf] at h; cases h
  | ok found =>
    rw [hf] at h
    have h := Except.ok.inj h
    subst h
    intro a ha
    obtain ⟨⟨s', x⟩, hst, ha⟩ := List.mem_flatMap.1 ha
    simp only at ha
    split at ha
    · obtain ⟨v, _, rfl⟩ := List.mem_map.1 ha
      exact ⟨s', v, .findBy .self .tokenText hf hst, rfl⟩
    · cases ha

theorem pos_honest {s : LLSelection W} {out} (h : posTagGo s = .ok out) :
    ∀ a ∈ out, ∃ s' v, ApiSel (fun m => Builtin m) s s' ∧ a = s'.finishWithAttr v := by
  unfold posTagGo at h
  cases hf : s.findBy (X.all2 (X.attrEq Ty.textTag TextTag.WORD) X.tokenText) with
  | error e => rw [hf] at h; cases h
  | ok found =>
    rw [hf] at h
    have h := Except.ok.inj h
    subst h
    intro a ha
    exact honest_findBy (.all2 (.attrEq _ trivial _) .tokenText) hf ha

theorem keyword_honest (r : ClauseKeywordResolver) {s : LLSelection W} {out} (h : r.go s = .ok out) :
    ∀ a ∈ out, ∃ s' v, ApiSel (fun m => Builtin m) s s' ∧ a = s'.finishWithAttr v := by
  unfold ClauseKeywordResolver.go at h
  cases hf : s.findBy X.tokenText with
  | error e => rw [hf] at h; cases h
  | ok found =>
    rw [hf] at h
    have h := Except.ok.inj h
    subst h
    intro a ha
    obtain ⟨⟨s', x⟩, hst, ha⟩ := List.mem_filterMap.1 ha
    obtain ⟨v, _, rfl⟩ := Option.map_eq_some_iff.1 ha
    exact ⟨s', v, .findBy .self .tokenText hf hst, rfl⟩

theorem clause_honest {s : LLSelection W} {h : History W} (rep : Rep s.ll_line.val h) (ho : Ordered h) (hs : s.Inside)
    {out} (hg : clauseGo s = .ok out) :
    ∀ a ∈ out, ∃ s' v, ApiSel (fun m => Builtin m) s s' ∧ a = s'.finishWithAttr v := by
  obtain ⟨ps, out', hsp, hg', _, h1⟩ := clauseGo_general rep ho hs
  rw [hg] at hg'; cases hg'
  intro a ha
  obtain ⟨p, hp, t, v, ht, _, _, rfl⟩ := h1 a ha
  have hbuilt : Builtin (W := W) (clauseDelimiter W) := .anyOf2 (.attr _ trivial) (.attrEq _ trivial _)
  exact ⟨t, v, .trim (.splitBy .self hbuilt hsp hp) (.attrEq _ trivial _) ht, rfl⟩

end LNlp
