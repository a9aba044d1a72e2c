import Verif.Lemmas.Wall
import Verif.Lemmas.Exceptions
/- Tokens that rules with exceptions and choices find nothing across. -/
namespace LNlp
variable {W : World}

theorem EPat.Holds.stops {l : LLLine W} {F N : Rec W → Prop} {t : Nat} : ∀ {α : Type} {p : EPat W α} {Q : α → Prop} {i j : Nat} {x : α},
    p.Stops l F t Q → p.Holds l F N i j x → Over t (i, j) → Q x
  | _, .attr k, Q, i, j, v, hs, hh, ho => hs _ _ hh ho
  | _, .attrEq k v, Q, i, j, _, hs, hh, ho => by
    obtain ⟨w, e, hw⟩ := hh
    exact hs _ w e hw ho
  | _, .text, Q, i, j, s, hs, hh, ho => by
    obtain ⟨rfl, ht⟩ := hh
    obtain ⟨h1, h2⟩ := ho
    simp only at h1 h2
    have : t = i := by omega
    subst this
    exact hs s ht
  | _, .seq a b, Q, i, j, (x, y), hs, hh, ho => by
    obtain ⟨m, ha, hb⟩ := hh
    simp only [Over] at ho
    rcases Nat.lt_or_ge m t with hm | hm
    · exact EPat.Holds.stops hs.2 hb ⟨by simp only; omega, ho.2⟩ x
    · exact EPat.Holds.stops hs.1 ha ⟨ho.1, hm⟩ y
  | _, .both a b, Q, i, j, (x, y), hs, hh, ho => by
    rcases hs with hs | hs
    · exact EPat.Holds.stops hs hh.1 ho y
    · exact EPat.Holds.stops hs hh.2 ho x
  | _, .anyOf a b, Q, i, j, .A x, hs, hh, ho => EPat.Holds.stops (p := a) (Q := fun x => Q (.A x)) hs.1 hh ho
  | _, .anyOf a b, Q, i, j, .B x, hs, hh, ho => EPat.Holds.stops (p := b) (Q := fun x => Q (.B x)) hs.2 hh.1 ho
  | _, .unless a b, Q, i, j, x, hs, hh, ho => EPat.Holds.stops (p := a) hs hh.1 ho

theorem EPat.Stops.more {l l' : LLLine W} (ht : l'.ll_tokens = l.ll_tokens) {F G : Rec W → Prop} {t : Nat}
    (hg : ∀ x, G x → F x ∨ ¬ Over t x.range) : ∀ {α : Type} {p : EPat W α} {Q : α → Prop}, p.Stops l F t Q → p.Stops l' G t Q
  | _, .attr k, Q, hs => fun r v h ho => (hg _ h).elim (fun h => hs r v h ho) (fun h => absurd ho h)
  | _, .attrEq k v, Q, hs => fun r w e h ho => (hg _ h).elim (fun h => hs r w e h ho) (fun h => absurd ho h)
  | _, .text, Q, hs => by
    intro s h
    rw [textAt_tokens ht] at h
    exact hs s h
  | _, .seq a b, Q, hs => ⟨EPat.Stops.more ht hg hs.1, EPat.Stops.more ht hg hs.2⟩
  | _, .both a b, Q, hs => hs.elim (fun h => .inl (EPat.Stops.more ht hg h)) (fun h => .inr (EPat.Stops.more ht hg h))
  | _, .anyOf a b, Q, hs => ⟨EPat.Stops.more (p := a) ht hg hs.1, EPat.Stops.more (p := b) ht hg hs.2⟩
  | _, .unless a b, Q, hs => EPat.Stops.more (p := a) ht hg hs

theorem EPat.Clear.more {l l' : LLLine W} (ht : l'.ll_tokens = l.ll_tokens) {F G : Rec W → Prop} {t : Nat}
    (hg : ∀ x, G x → F x ∨ ¬ Over t x.range) : ∀ {α : Type} {p : EPat W α}, p.Clear l F t → p.Clear l' G t
  | _, .attr _, _ => trivial
  | _, .attrEq _ _, _ => trivial
  | _, .text, _ => trivial
  | _, .seq _ _, hs => ⟨EPat.Clear.more ht hg hs.1, EPat.Clear.more ht hg hs.2⟩
  | _, .both _ _, hs => ⟨EPat.Clear.more ht hg hs.1, EPat.Clear.more ht hg hs.2⟩
  | _, .anyOf _ _, hs => ⟨EPat.Stops.more ht hg hs.1, EPat.Clear.more ht hg hs.2.1, EPat.Clear.more ht hg hs.2.2⟩
  | _, .unless _ _, hs => ⟨EPat.Stops.more ht hg hs.1, EPat.Clear.more ht hg hs.2.1, EPat.Clear.more ht hg hs.2.2⟩

theorem ERule.Stops.concludes {l : LLLine W} {F N : Rec W → Prop} {t : Nat} {r : ERule W} (hs : r.Stops l F t) {x : Rec W}
    (hx : r.Concludes l F N x) : ¬ Over t x.range := by
  obtain ⟨i, j, f, v, hp, hv, rfl⟩ := hx
  intro ho
  have : r.values f = [] := EPat.Holds.stops (Q := fun x => r.values x = []) hs hp ho
  rw [this] at hv
  cases hv

/-- no run of a rule assigns anything over a wall -/
theorem ewall_run : ∀ (prog : List (Nat × ERule W)) {l : LLLine W} {h : History W}, Honest l h → l.ll_tokens ≠ [] → ∀ t : Nat,
    EWall l h (prog.map (·.2)) t →
    ∃ l' new, runAll l (eruleRuns prog) = .ok l' ∧ Honest l' (h ++ new) ∧ l'.ll_tokens = l.ll_tokens ∧
      ∀ x ∈ new, ¬ Over t x.range
  | [], l, h, hh, _, _, _ => ⟨l, [], rfl, by simpa using hh, rfl, by simp⟩
  | (ptr, r) :: prog, l, h, hh, ne, t, hw => by
    obtain ⟨l1, new, hl1, hh1, ht1, hn⟩ := erule_run hh ne ptr r
    have hnew : ∀ x ∈ new, ¬ Over t x.range := fun x hx => ERule.Stops.concludes (hw r (by simp)) ((hn x).1 hx)
    obtain ⟨l', new', hl', hh', ht', hn'⟩ := ewall_run prog hh1 (by rw [ht1]; exact ne) t (fun r' hr' =>
      EPat.Stops.more ht1 (fun x hx => (List.mem_append.1 hx).imp_right (hnew x))
        (hw r' (by simp only [List.map_cons, List.mem_cons]; exact .inr hr')))
    refine ⟨l', new ++ new', ?_, by rw [← List.append_assoc]; exact hh', ht'.trans ht1, fun x hx => ?_⟩
    · simp only [eruleRuns, List.map_cons, runAll, hl1]
      exact hl'
    · exact (List.mem_append.1 hx).elim (hnew x) (hn' x)

/-- the stretch of `l` from `n` on, as long as `l'`, has what `l'` has, and nothing reaches over its ends -/
structure PartOnly (l : LLLine W) (h : History W) (n : Nat) (l' : LLLine W) (h' : History W) : Prop where
  fits : n + l'.ll_tokens.length ≤ l.ll_tokens.length
  text : ∀ i, i < l'.ll_tokens.length → textAt l (n + i) = textAt l' i
  same : ∀ k i j v, j < l'.ll_tokens.length → ((⟨k, (n + i, n + j), v⟩ : Rec W) ∈ h ↔ ⟨k, (i, j), v⟩ ∈ h')
  none : ∀ x ∈ h, x.range.1 < n + l'.ll_tokens.length → n ≤ x.range.2 → n ≤ x.range.1 ∧ x.range.2 < n + l'.ll_tokens.length

theorem EPat.Holds.apart {l l' : LLLine W} {h h' : History W} {n : Nat} (hh : Honest l h) (hh' : Honest l' h')
    (A : PartOnly l h n l' h') : ∀ {α : Type} {p : EPat W α} {i j : Nat} {x : α},
    (n + l'.ll_tokens.length = l.ll_tokens.length ∨ p.Clear l (· ∈ h) (n + l'.ll_tokens.length)) → j < l'.ll_tokens.length → 
    (p.Holds l (· ∈ h) (· ∈ h) (n + i) (n + j) x ↔ p.Holds l' (· ∈ h') (· ∈ h') i j x) := by
  have hF : ∀ y, y ∈ h → y.range.1 ≤ y.range.2 ∧ y.range.2 < l.ll_tokens.length :=
    fun y hy => ⟨hh.spec.2 y hy, (hh.spec.1.rep.bounds y hy).2⟩
  have hF' : ∀ y, y ∈ h' → y.range.1 ≤ y.range.2 ∧ y.range.2 < l'.ll_tokens.length :=
    fun y hy => ⟨hh'.spec.2 y hy, (hh'.spec.1.rep.bounds y hy).2⟩
  -- what hides something is found on both or on neither
  have hides : ∀ {β : Type} {b : EPat W β} {i : Nat},
      (∀ {j : Nat} {y : β}, j < l'.ll_tokens.length →
        (b.Holds l (· ∈ h) (· ∈ h) (n + i) (n + j) y ↔ b.Holds l' (· ∈ h') (· ∈ h') i j y)) →
      (n + l'.ll_tokens.length = l.ll_tokens.length ∨ b.Stops l (· ∈ h) (n + l'.ll_tokens.length) (fun _ => False)) →
      i < l'.ll_tokens.length →
      ((∃ j' y, b.Holds l (· ∈ h) (· ∈ h) (n + i) j' y) ↔ ∃ j' y, b.Holds l' (· ∈ h') (· ∈ h') i j' y) := by
    intro β b i ih hb hi
    constructor
    · rintro ⟨J, y, hy⟩
      obtain ⟨h1, h2⟩ := hy.inside hF
      have hJ : J < n + l'.ll_tokens.length := by
        rcases hb with hb | hb
        · omega
        · rcases Nat.lt_or_ge J (n + l'.ll_tokens.length) with hJ | hJ
          · exact hJ
          · exact (EPat.Holds.stops hb hy ⟨by simp only; omega, hJ⟩).elim
      obtain ⟨j', rfl⟩ : ∃ j', J = n + j' := ⟨J - n, by omega⟩
      exact ⟨j', y, (ih (by omega)).1 hy⟩
    · rintro ⟨j', y, hy⟩
      exact ⟨n + j', y, (ih (hy.inside hF').2).2 hy⟩
  intro α p
  induction p with
  | attr k => exact fun _ hj => A.same _ _ _ _ hj
  | attrEq k v =>
    intro i j x _ hj
    exact exists_congr fun w => and_congr_right fun _ => A.same _ _ _ _ hj
  | text =>
    intro i j x _ hj
    show n + i = n + j ∧ _ ↔ i = j ∧ _
    constructor
    · rintro ⟨h1, h2⟩
      have : i = j := by omega
      subst this
      exact ⟨rfl, by rw [← A.text i hj]; exact h2⟩
    · rintro ⟨rfl, h2⟩
      exact ⟨rfl, by rw [A.text i hj]; exact h2⟩
  | seq a b iha ihb =>
    rintro i j ⟨x, y⟩ hc hj
    have ca := hc.imp_right (fun c => c.1)
    have cb := hc.imp_right (fun c => c.2)
    show (∃ m, _) ↔ ∃ m, _
    constructor
    · rintro ⟨m, h1, h2⟩
      have i1 := h1.inside hF
      have i2 := h2.inside hF
      obtain ⟨m', rfl⟩ : ∃ m', m = n + m' := ⟨m - n, by omega⟩
      exact ⟨m', (iha ca (by omega)).1 h1, (ihb cb hj).1 h2⟩
    · rintro ⟨m, h1, h2⟩
      exact ⟨n + m, (iha ca (h1.inside hF').2).2 h1, (ihb cb hj).2 h2⟩
  | both a b iha ihb =>
    rintro i j ⟨x, y⟩ hc hj
    exact and_congr (iha (hc.imp_right (fun c => c.1)) hj) (ihb (hc.imp_right (fun c => c.2)) hj)
  | anyOf a b iha ihb =>
    rintro i j (x | y) hc hj
    · exact iha (hc.imp_right (fun c => c.2.1)) hj
    · have ih := ihb (i := i) (j := j) (x := y) (hc.imp_right (fun c => c.2.2)) hj
      have hd := fun hi => hides (b := a) (i := i) (fun hj => iha (hc.imp_right (fun c => c.2.1)) hj) (hc.imp_right (fun c => c.1)) hi
      constructor
      · rintro ⟨h1, h2⟩
        have := ih.1 h1
        have hi := this.inside hF'
        exact ⟨this, fun h3 => h2 ((hd (by omega)).2 h3)⟩
      · rintro ⟨h1, h2⟩
        have hi := h1.inside hF'
        exact ⟨ih.2 h1, fun h3 => h2 ((hd (by omega)).1 h3)⟩
  | «unless» a b iha ihb =>
    intro i j x hc hj
    have ih := iha (i := i) (j := j) (x := x) (hc.imp_right (fun c => c.2.1)) hj
    have hd := fun hi => hides (b := b) (i := i) (fun hj => ihb (hc.imp_right (fun c => c.2.2)) hj) (hc.imp_right (fun c => c.1)) hi
    constructor
    · rintro ⟨h1, h2⟩
      have := ih.1 h1
      have hi := this.inside hF'
      exact ⟨this, fun h3 => h2 ((hd (by omega)).2 h3)⟩
    · rintro ⟨h1, h2⟩
      have hi := h1.inside hF'
      exact ⟨ih.2 h1, fun h3 => h2 ((hd (by omega)).1 h3)⟩

/-- runs keep a stretch between walls apart -/
theorem erules_apart {n : Nat} : ∀ (prog : List (Nat × Nat × ERule W)) {l l' : LLLine W} {h h' : History W}, Honest l h → Honest l' h' →
    l.ll_tokens ≠ [] → l'.ll_tokens ≠ [] → PartOnly l h n l' h' →
    (n = 0 ∨ EWall l h (prog.map (·.2.2)) (n - 1)) →
    (n + l'.ll_tokens.length = l.ll_tokens.length ∨ EWall l h (prog.map (·.2.2)) (n + l'.ll_tokens.length) ∧
      EClear l h (prog.map (·.2.2)) (n + l'.ll_tokens.length)) →
    ∃ m g m' g', runAll l (eruleRuns (prog.map (fun p => (p.1, p.2.2)))) = .ok m ∧ Honest m g ∧
      runAll l' (eruleRuns (prog.map (fun p => (p.2.1, p.2.2)))) = .ok m' ∧ Honest m' g' ∧
      m'.ll_tokens = l'.ll_tokens ∧ PartOnly m g n m' g'
  | [], l, l', h, h', hh, hh', _, _, A, _, _ => ⟨l, h, l', h', rfl, hh, rfl, hh', rfl, A⟩
  | (ptr, ptr', r) :: prog, l, l', h, h', hh, hh', ne, ne', A, wx, wz => by
    obtain ⟨l1, new, hl1, hh1, ht1, hn1⟩ := erule_run hh ne ptr r
    obtain ⟨l2, new', hl2, hh2, ht2, hn2⟩ := erule_run hh' ne' ptr' r
    have nx : n = 0 ∨ ∀ x ∈ new, ¬ Over (n - 1) x.range :=
      wx.imp_right (fun w x hx => ERule.Stops.concludes (w r (by simp)) ((hn1 x).1 hx))
    have nz : n + l'.ll_tokens.length = l.ll_tokens.length ∨ ∀ x ∈ new, ¬ Over (n + l'.ll_tokens.length) x.range :=
      wz.imp_right (fun w x hx => ERule.Stops.concludes (w.1 r (by simp)) ((hn1 x).1 hx))
    have A1 : PartOnly l1 (h ++ new) n l2 (h' ++ new') := by
      refine ⟨by rw [ht1, ht2]; exact A.fits, ?_, ?_, ?_⟩
      · rw [ht2]
        intro i hi
        rw [textAt_tokens ht1, textAt_tokens ht2]
        exact A.text i hi
      · rw [ht2]
        intro k i j v hj
        rw [List.mem_append, List.mem_append, A.same k i j v hj, hn1, hn2]
        refine or_congr Iff.rfl ?_
        have hp := fun f => EPat.Holds.apart hh hh' A (p := r.pat) (i := i) (x := f)
          (wz.imp_right (fun w => w.2 r (by simp))) hj
        constructor
        · rintro ⟨a, b, f, u, h1, h2, e⟩
          cases e
          exact ⟨i, j, f, _, (hp f).1 h1, h2, rfl⟩
        · rintro ⟨a, b, f, u, h1, h2, e⟩
          cases e
          exact ⟨n + i, n + j, f, _, (hp f).2 h1, h2, rfl⟩
      · rw [ht2]
        intro x hx h1 h2
        rcases List.mem_append.1 hx with hx | hx
        · exact A.none x hx h1 h2
        · have hb := (hh1.spec.1.rep.bounds x (List.mem_append_right _ hx)).2
          rw [ht1] at hb
          constructor
          · rcases nx with rfl | nx
            · exact Nat.zero_le _
            · have := nx x hx
              simp only [Over] at this
              omega
          · rcases nz with nz | nz
            · omega
            · have := nz x hx
              simp only [Over] at this
              omega
    obtain ⟨m, g, m', g', h1, h2, h3, h4, h5, h6⟩ := erules_apart prog hh1 hh2 (by rw [ht1]; exact ne) (by rw [ht2]; exact ne') A1
      (by
        rcases nx with nx | nx
        · exact .inl nx
        · exact wx.imp_right (fun w r' hr' => EPat.Stops.more ht1 (fun x hx => (List.mem_append.1 hx).imp_right (nx x))
            (w r' (by simp only [List.map_cons, List.mem_cons]; exact .inr hr'))))
      (by
        rw [ht1, ht2]
        rcases nz with nz | nz
        · exact .inl nz
        · exact wz.imp_right (fun w =>
            ⟨fun r' hr' => EPat.Stops.more ht1 (fun x hx => (List.mem_append.1 hx).imp_right (nz x))
              (w.1 r' (by simp only [List.map_cons, List.mem_cons]; exact .inr hr')),
             fun r' hr' => EPat.Clear.more ht1 (fun x hx => (List.mem_append.1 hx).imp_right (nz x))
              (w.2 r' (by simp only [List.map_cons, List.mem_cons]; exact .inr hr'))⟩))
    refine ⟨m, g, m', g', ?_, h2, ?_, h4, h5.trans ht2, h6⟩
    · simp only [List.map_cons, eruleRuns, runAll, hl1]
      exact h1
    · simp only [List.map_cons, eruleRuns, runAll, hl2]
      exact h3

/-- a part of the inputs is apart in a fresh line -/
theorem apart_create (size : Str → Nat) {xs ys zs : List (InputToken W)} {l lx ly : LLLine W}
    (wf : ∀ t ∈ xs ++ (ys ++ zs), t.WF) (ok : createLineFromInputTokens W (xs ++ (ys ++ zs)) size = .ok l)
    (okx : createLineFromInputTokens W xs size = .ok lx) (oky : createLineFromInputTokens W ys size = .ok ly) :
    PartOnly l (creationHistory W size (xs ++ (ys ++ zs))) lx.ll_tokens.length ly (creationHistory W size ys) := by
  have s := same_parts size xs ys zs l lx ly wf ok okx oky
  refine ⟨s.fits, ?_, ?_, fun x hx h1 h2 => creation_within size wf ok okx oky hx h1 h2⟩
  · intro i hi
    have e := congrArg (fun x : List LToken => x[i]?) s.tokens
    simp only [tokensIn, List.getElem?_map, List.getElem?_take, List.getElem?_drop, hi, if_true, Nat.zero_add] at e
    rw [textAt_token, textAt_token, List.getElem?_map, List.getElem?_map, e]
  · intro k i j v hj
    have hm : ∀ {n : Nat} {g : History W}, Ordered g → ((⟨k, (i, j), v⟩ : Rec W) ∈ recordsIn n ly.ll_tokens.length g ↔ ⟨k, (n + i, n + j), v⟩ ∈ g) := by
      intro n g og
      simp only [recordsIn, List.mem_map, List.mem_filter, inWindow_iff]
      constructor
      · rintro ⟨⟨k', ⟨a, b⟩, u⟩, ⟨h1, h2, h3⟩, e⟩
        simp only [Rec.from] at e h2 h3
        have := og _ h1
        simp only at this
        cases e
        rw [Nat.add_sub_cancel' h2, Nat.add_sub_cancel' (by omega)]
        exact h1
      · intro h1
        refine ⟨_, ⟨h1, by simp only; omega, by simp only; omega⟩, ?_⟩
        simp only [Rec.from, Nat.add_sub_cancel_left]
    have wfy : ∀ t ∈ ys, t.WF := fun t ht => wf t (by simp [ht])
    have h0 := @hm 0 (creationHistory W size ys) (Honest.create ys size ly wfy oky).spec.2
    rw [Nat.zero_add, Nat.zero_add] at h0
    rw [← hm (Honest.create _ size l wf ok).spec.2, s.records, h0]

end LNlp
