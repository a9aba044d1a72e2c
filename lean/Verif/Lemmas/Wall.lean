import Verif.Lemmas.Window
import Verif.Lemmas.Grammar
import Verif.Lemmas.Piecewise
import Verif.Spec.Wall
/- Tokens that nothing can be found across. -/
namespace LNlp
variable {W : World}

theorem Pat.Holds.stops {l : LLLine W} {F : Rec W → Prop} {t : Nat} : ∀ {α : Type} {p : Pat W α} {Q : α → Prop} {i j : Nat} {x : α},
    p.Stops l F t Q → p.Holds l F i j x → Over t (i, j) → Q x
  | _, .attr k, Q, i, j, v, hs, hh, ho => hs _ _ hh ho
  | _, .attrEq k v, Q, i, j, _, hs, hh, ho => by
    obtain ⟨w, e, hw⟩ := hh
    exact hs _ w e hw ho
  | _, .text, Q, i, j, s, hs, hh, ho => by
    obtain ⟨rfl, ht⟩ := hh
    obtain ⟨h1, h2⟩ := ho
    simp only at h1 h2
    have : t = i := by omega
    subst this
    exact hs s ht
  | _, .seq a b, Q, i, j, (x, y), hs, hh, ho => by
    obtain ⟨m, ha, hb⟩ := hh
    simp only [Over] at ho
    rcases Nat.lt_or_ge m t with hm | hm
    · exact Pat.Holds.stops hs.2 hb ⟨by simp only; omega, ho.2⟩ x
    · exact Pat.Holds.stops hs.1 ha ⟨ho.1, hm⟩ y
  | _, .both a b, Q, i, j, (x, y), hs, hh, ho => by
    rcases hs with hs | hs
    · exact Pat.Holds.stops hs hh.1 ho y
    · exact Pat.Holds.stops hs hh.2 ho x

theorem Pat.Stops.more {l l' : LLLine W} (ht : l'.ll_tokens = l.ll_tokens) {F G : Rec W → Prop} {t : Nat}
    (hg : ∀ x, G x → F x ∨ ¬ Over t x.range) : ∀ {α : Type} {p : Pat W α} {Q : α → Prop}, p.Stops l F t Q → p.Stops l' G t Q
  | _, .attr k, Q, hs => fun r v h ho => (hg _ h).elim (fun h => hs r v h ho) (fun h => absurd ho h)
  | _, .attrEq k v, Q, hs => fun r w e h ho => (hg _ h).elim (fun h => hs r w e h ho) (fun h => absurd ho h)
  | _, .text, Q, hs => by
    intro s h
    rw [textAt_tokens ht] at h
    exact hs s h
  | _, .seq a b, Q, hs => ⟨Pat.Stops.more ht hg hs.1, Pat.Stops.more ht hg hs.2⟩
  | _, .both a b, Q, hs => hs.elim (fun h => .inl (Pat.Stops.more ht hg h)) (fun h => .inr (Pat.Stops.more ht hg h))

theorem Rule.Stops.concludes {l : LLLine W} {F : Rec W → Prop} {t : Nat} {r : Rule W} (hs : r.Stops l F t) {x : Rec W}
    (hx : r.Concludes l F x) : ¬ Over t x.range := by
  obtain ⟨i, j, f, v, hp, hv, rfl⟩ := hx
  intro ho
  have : r.values f = [] := Pat.Holds.stops (Q := fun x => r.values x = []) hs hp ho
  rw [this] at hv
  cases hv

/-- no run of a rule assigns anything over a wall -/
theorem wall_run : ∀ (prog : List (Nat × Rule W)) {l : LLLine W} {h : History W}, Honest l h → l.ll_tokens ≠ [] → ∀ ts : List Nat,
    (∀ t ∈ ts, Wall l h (prog.map (·.2)) t) →
    ∃ l' new, runAll l (ruleRuns prog) = .ok l' ∧ Honest l' (h ++ new) ∧ l'.ll_tokens = l.ll_tokens ∧
      ∀ x ∈ new, ∀ t ∈ ts, ¬ Over t x.range
  | [], l, h, hh, _, _, _ => ⟨l, [], rfl, by simpa using hh, rfl, by simp⟩
  | (ptr, r) :: prog, l, h, hh, ne, ts, hw => by
    obtain ⟨l1, new, hl1, hh1, ht1, hn⟩ := rule_run hh ne ptr r
    have hnew : ∀ x ∈ new, ∀ t ∈ ts, ¬ Over t x.range := by
      intro x hx t ht
      exact Rule.Stops.concludes (hw t ht r (by simp)) ((hn x).1 hx)
    obtain ⟨l', new', hl', hh', ht', hn'⟩ := wall_run prog hh1 (by rw [ht1]; exact ne) ts (fun t ht r' hr' =>
      Pat.Stops.more ht1 (fun x hx => (List.mem_append.1 hx).imp_right (fun hx => hnew x hx t ht))
        (hw t ht r' (by simp only [List.map_cons, List.mem_cons]; exact .inr hr')))
    refine ⟨l', new ++ new', ?_, by rw [← List.append_assoc]; exact hh', ht'.trans ht1, fun x hx => ?_⟩
    · simp only [ruleRuns, List.map_cons, runAll, hl1]
      exact hl'
    · exact (List.mem_append.1 hx).elim (hnew x) (hn' x)

/-- what creation assigns to tokens of some of the inputs lies within these -/
theorem creation_within (size : Str → Nat) {xs ys zs : List (InputToken W)} {l lx ly : LLLine W}
    (wf : ∀ t ∈ xs ++ (ys ++ zs), t.WF) (ok : createLineFromInputTokens W (xs ++ (ys ++ zs)) size = .ok l)
    (okx : createLineFromInputTokens W xs size = .ok lx) (oky : createLineFromInputTokens W ys size = .ok ly)
    {x : Rec W} (hx : x ∈ creationHistory W size (xs ++ (ys ++ zs))) (h1 : x.range.1 < lx.ll_tokens.length + ly.ll_tokens.length)
    (h2 : lx.ll_tokens.length ≤ x.range.2) :
    lx.ll_tokens.length ≤ x.range.1 ∧ x.range.2 < lx.ll_tokens.length + ly.ll_tokens.length := by
  have wfx : ∀ t ∈ xs, t.WF := fun t ht => wf t (by simp [ht])
  have wfy : ∀ t ∈ ys, t.WF := fun t ht => wf t (by simp [ht])
  obtain ⟨hg, ht, rep⟩ := create_inv wf ok
  obtain ⟨hgx, htx, repx⟩ := create_inv wfx okx
  obtain ⟨hgy, hty, repy⟩ := create_inv wfy oky
  have hyz : ∀ t ∈ ys ++ zs, tokensOf W size t ≠ [] := fun t ht => (inputTokens_ok size (hg t (List.mem_append_right _ ht))).2
  have hz : ∀ t ∈ zs, tokensOf W size t ≠ [] := fun t ht => hyz t (List.mem_append_right _ ht)
  have hnx : lx.ll_tokens.length = (xs.flatMap (tokensOf W size)).length := by rw [htx, layoutM_length]
  have hny : ly.ll_tokens.length = (ys.flatMap (tokensOf W size)).length := by rw [hty, layoutM_length]
  obtain ⟨bx, byz, ix, iyz, e1, e2, e3⟩ := creationHistory_append size xs (ys ++ zs) hyz
  obtain ⟨by', bz, iy, iz, e4, e5, e6⟩ := creationHistory_append size ys zs hz
  have mem : x ∈ creationHistory W size xs ∨ ∃ y ∈ creationHistory W size (ys ++ zs), x = y.shift lx.ll_tokens.length := by
    rw [e3] at hx
    rw [e1, e2, hnx]
    simp only [List.mem_append, List.mem_map] at hx ⊢
    rcases hx with (h | ⟨y, h, rfl⟩) | (h | ⟨y, h, rfl⟩)
    · exact .inl (.inl h)
    · exact .inr ⟨y, .inl h, rfl⟩
    · exact .inl (.inr h)
    · exact .inr ⟨y, .inr h, rfl⟩
  rcases mem with h | ⟨y, hy, rfl⟩
  · have := (repx.bounds x h).2
    omega
  · have mem : y ∈ creationHistory W size ys ∨ ∃ z ∈ creationHistory W size zs, y = z.shift ly.ll_tokens.length := by
      rw [e6] at hy
      rw [e4, e5, hny]
      simp only [List.mem_append, List.mem_map] at hy ⊢
      rcases hy with (h | ⟨y, h, rfl⟩) | (h | ⟨y, h, rfl⟩)
      · exact .inl (.inl h)
      · exact .inr ⟨y, .inl h, rfl⟩
      · exact .inl (.inr h)
      · exact .inr ⟨y, .inr h, rfl⟩
    simp only [Rec.shift, shiftR] at h1 h2 ⊢
    rcases mem with h | ⟨z, _, rfl⟩
    · have := (repy.bounds y h).2
      omega
    · simp only [Rec.shift, shiftR] at h1
      omega

/-- a stop on one input alone is a stop in the whole line -/
theorem stops_window (size : Str → Nat) {xs ys zs : List (InputToken W)} {l lx ly : LLLine W}
    (wf : ∀ t ∈ xs ++ (ys ++ zs), t.WF) (ok : createLineFromInputTokens W (xs ++ (ys ++ zs)) size = .ok l)
    (okx : createLineFromInputTokens W xs size = .ok lx) (oky : createLineFromInputTokens W ys size = .ok ly)
    {t : Nat} (ht : t < ly.ll_tokens.length) : ∀ {α : Type} {p : Pat W α} {Q : α → Prop}, p.Stops ly (· ∈ creationHistory W size ys) t Q →
      p.Stops l (· ∈ creationHistory W size (xs ++ (ys ++ zs))) (lx.ll_tokens.length + t) Q := by
  have s := same_parts size xs ys zs l lx ly wf ok okx oky
  have recs : ∀ x ∈ creationHistory W size (xs ++ (ys ++ zs)), Over (lx.ll_tokens.length + t) x.range →
      x.from lx.ll_tokens.length ∈ creationHistory W size ys ∧ Over t (x.from lx.ll_tokens.length).range := by
    intro x hx ho
    have hw := creation_within size wf ok okx oky hx (by have := ho.1; omega) (by have := ho.2; omega)
    have : x.from lx.ll_tokens.length ∈ recordsIn lx.ll_tokens.length ly.ll_tokens.length (creationHistory W size (xs ++ (ys ++ zs))) :=
      List.mem_map.2 ⟨x, List.mem_filter.2 ⟨hx, inWindow_iff.2 hw⟩, rfl⟩
    rw [s.records] at this
    obtain ⟨y, hy, e⟩ := List.mem_map.1 this
    have ey : y.from 0 = y := rfl
    rw [← e, ey]
    refine ⟨(List.mem_filter.1 hy).1, ?_⟩
    rw [← ey, e]
    simp only [Over, Rec.from] at ho ⊢
    omega
  intro α p
  induction p with
  | attr k =>
    intro Q hs r v h ho
    obtain ⟨h1, h2⟩ := recs _ h ho
    exact hs _ _ h1 h2
  | attrEq k v =>
    intro Q hs r w e h ho
    obtain ⟨h1, h2⟩ := recs _ h ho
    exact hs _ _ e h1 h2
  | text =>
    intro Q hs v hv
    refine hs v ?_
    rw [textAt_token] at hv ⊢
    have ht' := s.tokens
    have e := congrArg (fun x : List LToken => x[t]?) ht'
    simp only [tokensIn, List.getElem?_map, List.getElem?_take, List.getElem?_drop, ht, if_true, Nat.zero_add] at e
    rw [List.getElem?_map, e, ← List.getElem?_map] at hv
    exact hv
  | seq a b iha ihb => exact fun hs => ⟨iha hs.1, ihb hs.2⟩
  | both a b iha ihb => exact fun hs => hs.elim (fun h => .inl (iha h)) (fun h => .inr (ihb h))

/-- if nothing new is over a token, queries list the same there -/
theorem query_over {l l' : LLLine W} {h new : History W} (hh : Honest l h) (hh' : Honest l' (h ++ new))
    (ht : l'.ll_tokens = l.ll_tokens) {t : Nat} (hn : ∀ x ∈ new, ¬ Over t x.range) :
    ∀ k, ∃ q q', l.query k = .ok q ∧ l'.query k = .ok q' ∧ ∀ e, Over t e.1 → (e ∈ q' ↔ e ∈ q) := by
  have ord : ∀ {l : LLLine W} {h : History W}, Honest l h → ∀ k : Ty W, ∀ r ∈ rangesOf k h, r.1 ≤ r.2 + 1 := by
    intro l h hh k r hr
    obtain ⟨v, hv⟩ := mem_rangesOf.1 hr
    have := hh.spec.2 _ hv
    simp only at this
    omega
  refine fun k => ⟨_, _, rep_query hh.spec.1.rep k (ord hh k), rep_query hh'.spec.1.rep k (ord hh' k), ?_⟩
  intro e ho
  have hv : valuesOf k e.1 new = [] := by
    refine List.eq_nil_iff_forall_not_mem.2 fun v hv => ?_
    exact hn _ (mem_valuesOf.1 hv) ho
  have hr : e.1 ∈ rangesOf k (h ++ new) ↔ e.1 ∈ rangesOf k h := by
    rw [mem_rangesOf, mem_rangesOf]
    refine exists_congr fun v => ?_
    rw [List.mem_append, or_iff_left]
    exact fun hx => hn _ hx ho
  simp only [List.mem_map, ht]
  constructor
  · rintro ⟨r, hm, rfl⟩
    exact ⟨r, hr.1 hm, by rw [valuesOf_append, hv, List.append_nil]⟩
  · rintro ⟨r, hm, rfl⟩
    exact ⟨r, hr.2 hm, by rw [valuesOf_append, hv, List.append_nil]⟩

theorem query_values {l : LLLine W} {h : History W} (hh : Honest l h) (k : Ty W) :
    ∃ q, l.query k = .ok q ∧ (∀ e ∈ q, ∃ v : Val k, (⟨k, e.1, v⟩ : Rec W) ∈ h) ∧
      ∀ i j v, (∃ text vs, ((i, j), text, vs) ∈ q ∧ v ∈ vs) ↔ (⟨k, (i, j), v⟩ : Rec W) ∈ h := by
  refine ⟨_, rep_query hh.spec.1.rep k ?_, ?_, ?_⟩
  · intro r hr
    obtain ⟨v, hv⟩ := mem_rangesOf.1 hr
    have := hh.spec.2 _ hv
    simp only at this
    omega
  · intro e he
    obtain ⟨r, hr, rfl⟩ := List.mem_map.1 he
    exact mem_rangesOf.1 hr
  · intro i j v
    constructor
    · rintro ⟨text, vs, he, hv⟩
      obtain ⟨r, hr, e⟩ := List.mem_map.1 he
      cases e
      exact mem_valuesOf.1 hv
    · intro hv
      exact ⟨_, _, List.mem_map.2 ⟨(i, j), mem_rangesOf.2 ⟨v, hv⟩, rfl⟩, mem_valuesOf.2 hv⟩

end LNlp
