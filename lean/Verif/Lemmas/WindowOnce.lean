import Verif.Lemmas.Window
import Verif.Lemmas.Once
/- Helper lemmas for Props/Window.lean: rules that look before they assign. -/
namespace LNlp
variable {W : World}

/-- the assignments are on the same range and `==` -/
def Rec.same (a b : Rec W) : Bool :=
  decide (a.range = b.range) && (if e : a.ty = b.ty then valEq b.ty (e ▸ a.val) b.val else false)

/-- the candidates that are neither among those seen before nor found twice -/
def freshOf : History W → History W → History W
  | _, [] => []
  | seen, c :: cs => if seen.any (fun s => s.same c) then freshOf seen cs else c :: freshOf (seen ++ [c]) cs

theorem same_range {a b : Rec W} (h : a.same b = true) : a.range = b.range := of_decide_eq_true (Bool.and_eq_true_iff.1 h).1

theorem same_from {a b : Rec W} {n : Nat} (ha : n ≤ a.range.1) (hb : n ≤ b.range.1) (oa : a.range.1 ≤ a.range.2)
    (ob : b.range.1 ≤ b.range.2) : (a.from n).same (b.from n) = a.same b := by
  obtain ⟨ta, ⟨a1, a2⟩, va⟩ := a
  obtain ⟨tb, ⟨b1, b2⟩, vb⟩ := b
  simp only at ha hb oa ob
  have : (((a1 - n, a2 - n) : LRange) = (b1 - n, b2 - n)) = (((a1, a2) : LRange) = (b1, b2)) := by
    simp only [Prod.mk.injEq, eq_iff_iff]
    omega
  simp only [Rec.same, Rec.from, this]
  rfl

/-- what is new in a stretch is what is new for the stretch by itself -/
theorem freshOf_in {n w : Nat} : ∀ (cs seen : History W), (∀ x ∈ seen, x.range.1 ≤ x.range.2) → (∀ x ∈ cs, x.range.1 ≤ x.range.2) →
    recordsIn n w (freshOf seen cs) = freshOf (recordsIn n w seen) (recordsIn n w cs)
  | [], _, _, _ => rfl
  | c :: cs, seen, os, oc => by
    have oc' := oc c (by simp)
    have ih : ∀ seen, (∀ x ∈ seen, x.range.1 ≤ x.range.2) →
        recordsIn n w (freshOf seen cs) = freshOf (recordsIn n w seen) (recordsIn n w cs) :=
      fun seen hs => freshOf_in cs seen hs (fun x hx => oc x (by simp [hx]))
    have cons_pos : ∀ {x : Rec W} {xs : History W}, inWindow n w x.range = true →
        recordsIn n w (x :: xs) = x.from n :: recordsIn n w xs := by
      intro x xs hx
      rw [recordsIn, List.filter_cons_of_pos (by simpa using hx), List.map_cons]
      rfl
    have cons_neg : ∀ {x : Rec W} {xs : History W}, ¬ inWindow n w x.range = true →
        recordsIn n w (x :: xs) = recordsIn n w xs := by
      intro x xs hx
      rw [recordsIn, List.filter_cons_of_neg (by simpa using hx)]
      rfl
    by_cases hin : inWindow n w c.range = true
    · have hany : (recordsIn n w seen).any (fun s => s.same (c.from n)) = seen.any (fun s => s.same c) := by
        rw [Bool.eq_iff_iff, List.any_eq_true, List.any_eq_true]
        constructor
        · rintro ⟨x, hx, he⟩
          obtain ⟨s, hs, rfl⟩ := List.mem_map.1 hx
          obtain ⟨hs, hsin⟩ := List.mem_filter.1 hs
          rw [same_from (inWindow_iff.1 hsin).1 (inWindow_iff.1 hin).1 (os s hs) oc'] at he
          exact ⟨s, hs, he⟩
        · rintro ⟨s, hs, he⟩
          have hsin : inWindow n w s.range = true := by rw [same_range he]; exact hin
          exact ⟨s.from n, List.mem_map.2 ⟨s, List.mem_filter.2 ⟨hs, hsin⟩, rfl⟩, by
            rw [same_from (inWindow_iff.1 hsin).1 (inWindow_iff.1 hin).1 (os s hs) oc']; exact he⟩
      rw [cons_pos hin, freshOf, freshOf, hany]
      split
      · exact ih seen os
      · rw [cons_pos hin, ih (seen ++ [c]) (fun x hx => by
          rcases List.mem_append.1 hx with hx | hx
          · exact os x hx
          · rw [List.mem_singleton.1 hx]; exact oc'), recordsIn_append]
        congr 3
        exact cons_pos hin
    · rw [cons_neg hin, freshOf]
      split
      · exact ih seen os
      · rw [cons_neg hin, ih (seen ++ [c]) (fun x hx => by
          rcases List.mem_append.1 hx with hx | hx
          · exact os x hx
          · rw [List.mem_singleton.1 hx]; exact oc'), recordsIn_append]
        congr 1
        rw [cons_neg hin]
        exact List.append_nil _

/-! ### runs -/

/-- a candidate as an assignment -/
def candRec (k : Ty W) (c : LLSelection W × Val k) : Rec W := ⟨k, (c.1.start_idx, c.1.end_idx), c.2⟩

theorem same_cand {k : Ty W} {ptr : Nat} {l : LLLine W} {a b : LLSelection W × Val k} (ha : a.1.ll_line = ⟨ptr, l⟩)
    (hb : b.1.ll_line = ⟨ptr, l⟩) : (candRec k a).same (candRec k b) = (a.1.eq b.1 && valEq k a.2 b.2) := by
  obtain ⟨⟨_, a1, a2⟩, va⟩ := a
  obtain ⟨⟨_, b1, b2⟩, vb⟩ := b
  simp only at ha hb
  subst ha; subst hb
  rw [Bool.eq_iff_iff]
  simp [Rec.same, candRec, LLSelection.eq, and_assoc]

/-- the loop of a resolver that looks first, exactly -/
theorem lookFirst_exact {l : LLLine W} {h : History W} (hr : Reachable l h) (ho : Ordered h) (ne : l.ll_tokens ≠ []) (ptr : Nat)
    (k : Ty W) : ∀ (cands new : List (LLSelection W × Val k)), (∀ c ∈ cands, c.1.ll_line = ⟨ptr, l⟩) →
      (∀ c ∈ new, c.1.ll_line = ⟨ptr, l⟩) →
      ∃ out, foldR (lookFirst (wholeLine l ptr) k) new cands = .ok (new ++ out) ∧ (∀ c ∈ out, c ∈ cands) ∧
        out.map (candRec k) = freshOf (h ++ new.map (candRec k)) (cands.map (candRec k))
  | [], new, _, _ => ⟨[], by simp [foldR], by simp, rfl⟩
  | c :: cands, new, hc, hn => by
    obtain ⟨hits, hf', hm'⟩ := whole_find hr ho ne ptr (.attrEq k c.2)
    have hf' : (wholeLine l ptr).findBy (X.attrEq k c.2) = .ok hits := hf'
    have hl := hc c (by simp)
    have hthere : hits.any (fun s => s.1.eq c.1) = h.any (fun s => s.same (candRec k c)) := by
      rw [Bool.eq_iff_iff, List.any_eq_true, List.any_eq_true]
      constructor
      · rintro ⟨⟨s, u⟩, hs, he⟩
        obtain ⟨hsl, w, hw, hin⟩ := (hm' s u).1 hs
        have := (eq_same_line hsl hl).1 he
        subst this
        refine ⟨_, hin, ?_⟩
        simp [Rec.same, candRec, hw]
      · rintro ⟨⟨ty, rg, v⟩, hin, he⟩
        have e1 := same_range he
        simp only [candRec] at e1
        subst e1
        have e2 := (Bool.and_eq_true_iff.1 he).2
        simp only [candRec] at e2
        by_cases e : ty = k
        · subst e
          have e3 : valEq ty v c.2 = true := by simpa using e2
          exact ⟨(c.1, ()), (hm' c.1 ()).2 ⟨hl, v, e3, hin⟩, (eq_same_line hl hl).2 rfl⟩
        · simp [e] at e2
    have hnew : new.any (fun s => s.1.eq c.1 && valEq k s.2 c.2) = (new.map (candRec k)).any (fun s => s.same (candRec k c)) := by
      rw [List.any_map, Bool.eq_iff_iff, List.any_eq_true, List.any_eq_true]
      constructor
      · rintro ⟨s, hs, he⟩
        exact ⟨s, hs, by rw [Function.comp, same_cand (hn s hs) hl]; exact he⟩
      · rintro ⟨s, hs, he⟩
        exact ⟨s, hs, by rw [Function.comp, same_cand (hn s hs) hl] at he; exact he⟩
    have hor : (hits.any (fun s => s.1.eq c.1) || new.any (fun s => s.1.eq c.1 && valEq k s.2 c.2)) =
        (h ++ new.map (candRec k)).any (fun s => s.same (candRec k c)) := by rw [List.any_append, hthere, hnew]
    cases hk : (h ++ new.map (candRec k)).any (fun s => s.same (candRec k c)) with
    | true =>
      have hs : lookFirst (wholeLine l ptr) k new c = .ok new := by simp only [lookFirst, hf', hor, hk, if_true]
      obtain ⟨out, h1, h2, h3⟩ := lookFirst_exact hr ho ne ptr k cands new (fun x hx => hc x (by simp [hx])) hn
      refine ⟨out, by rw [foldR, hs]; exact h1, fun x hx => by simp [h2 x hx], ?_⟩
      rw [List.map_cons, freshOf, hk, h3]
      rfl
    | false =>
      have hs : lookFirst (wholeLine l ptr) k new c = .ok (new ++ [c]) := by
        simp only [lookFirst, hf', hor, hk]
        rfl
      obtain ⟨out, h1, h2, h3⟩ := lookFirst_exact hr ho ne ptr k cands (new ++ [c]) (fun x hx => hc x (by simp [hx]))
        (fun x hx => by
          rcases List.mem_append.1 hx with hx | hx
          · exact hn x hx
          · rw [List.mem_singleton.1 hx]; exact hl)
      refine ⟨c :: out, by rw [foldR, hs]; simpa using h1, fun x hx => ?_, ?_⟩
      · rcases List.mem_cons.1 hx with rfl | hx
        · simp
        · simp [h2 x hx]
      · rw [List.map_cons, List.map_cons, freshOf, hk, h3]
        simp only [List.map_append, List.map_cons, List.map_nil, List.append_assoc]
        rfl

/-- one run of a rule that looks first -/
theorem once_run_in {l : LLLine W} {h : History W} (hh : Honest l h) (ne : l.ll_tokens ≠ []) (ptr : Nat) (r : Rule W) :
    ∃ l' new, l.run ptr r.once = .ok l' ∧ Honest l' (h ++ new) ∧ l'.ll_tokens = l.ll_tokens ∧
      ∀ n w, n + w ≤ l.ll_tokens.length → recordsIn n w new =
        freshOf (recordsIn n w h) (r.within (tokensIn n w l) (recordsIn n w h)) := by
  obtain ⟨hr, ho⟩ := hh.spec
  obtain ⟨found, hf, hm⟩ := whole_find hr ho ne ptr r.pat
  have hcand : ∀ c ∈ found.flatMap (fun st => (r.values st.2).map (fun v => (st.1, v))), c.1.ll_line = ⟨ptr, l⟩ ∧
      c.1.start_idx ≤ c.1.end_idx := by
    intro c hc
    obtain ⟨⟨s, x⟩, hs, hc⟩ := List.mem_flatMap.1 hc
    obtain ⟨v, hv, rfl⟩ := List.mem_map.1 hc
    have := (hm s x).1 hs
    exact ⟨this.1, (this.2.inside (fun y hy => ⟨ho y hy, (hr.rep.bounds y hy).2⟩)).1⟩
  obtain ⟨out, h1, h2, h3⟩ := lookFirst_exact hr ho ne ptr r.attr
    (found.flatMap (fun st => (r.values st.2).map (fun v => (st.1, v)))) [] (fun c hc => (hcand c hc).1) (by simp)
  simp only [List.nil_append, List.map_nil, List.append_nil] at h1 h3
  have hrun : HonestRun l ptr r.once (out.map (fun s => s.1.finishWithAttr s.2)) := by
    refine ⟨by simp only [Rule.once, hf, h1], fun a ha => ?_⟩
    obtain ⟨c, hc, rfl⟩ := List.mem_map.1 ha
    obtain ⟨⟨s, x⟩, hs, hc'⟩ := List.mem_flatMap.1 (h2 c hc)
    obtain ⟨v, _, rfl⟩ := List.mem_map.1 hc'
    exact ⟨s, v, .findBy .self r.pat.builtin hf hs, rfl⟩
  obtain ⟨l', hl'⟩ := honest_run_ok hr.rep ho ne hrun
  refine ⟨l', _, hl', .run l h ptr r.once _ l' hh ne hrun hl', run_tokens hl', fun n w hw => ?_⟩
  have e1 : (out.map (fun s => s.1.finishWithAttr s.2)).map (recOf r.once.attr) = out.map (candRec r.attr) := by
    rw [List.map_map]
    rfl
  rw [e1, h3, freshOf_in _ _ ho (fun x hx => ?_), ← rule_found_in hr ho ne r hf hw]
  · congr 2
    simp only [List.map_flatMap, List.map_map]
    rfl
  · obtain ⟨c, hc, rfl⟩ := List.mem_map.1 hx
    exact (hcand c hc).2

theorem mixed_run_in {n n' w : Nat} : ∀ (prog : List (Nat × Nat × Bool × Rule W)) {l l' : LLLine W} {h h' : History W},
    Honest l h → Honest l' h' → l.ll_tokens ≠ [] → l'.ll_tokens ≠ [] → SameWindow l h n l' h' n' w →
    ∃ m g m' g', runAll l (mixedRuns (prog.map (fun p => (p.1, p.2.2)))) = .ok m ∧ Honest m g ∧
      runAll l' (mixedRuns (prog.map (fun p => (p.2.1, p.2.2)))) = .ok m' ∧ Honest m' g' ∧
      m.ll_tokens = l.ll_tokens ∧ m'.ll_tokens = l'.ll_tokens ∧ SameWindow m g n m' g' n' w
  | [], l, l', h, h', hh, hh', _, _, s => ⟨l, h, l', h', rfl, hh, rfl, hh', rfl, rfl, s⟩
  | (ptr, ptr', look, r) :: prog, l, l', h, h', hh, hh', ne, ne', s => by
    have one : ∃ l1 new l2 new', l.run ptr (if look then r.once else r.resolver) = .ok l1 ∧ Honest l1 (h ++ new) ∧
        l1.ll_tokens = l.ll_tokens ∧ l'.run ptr' (if look then r.once else r.resolver) = .ok l2 ∧ Honest l2 (h' ++ new') ∧
        l2.ll_tokens = l'.ll_tokens ∧ recordsIn n w new = recordsIn n' w new' := by
      cases look with
      | true =>
        obtain ⟨l1, new, hl1, hh1, ht1, hn1⟩ := once_run_in hh ne ptr r
        obtain ⟨l2, new', hl2, hh2, ht2, hn2⟩ := once_run_in hh' ne' ptr' r
        exact ⟨l1, new, l2, new', hl1, hh1, ht1, hl2, hh2, ht2, by rw [hn1 n w s.fits, hn2 n' w s.fits', s.records, s.tokens]⟩
      | false =>
        obtain ⟨l1, new, hl1, hh1, ht1, hn1⟩ := rule_run_in hh ne ptr r
        obtain ⟨l2, new', hl2, hh2, ht2, hn2⟩ := rule_run_in hh' ne' ptr' r
        exact ⟨l1, new, l2, new', hl1, hh1, ht1, hl2, hh2, ht2, by rw [hn1 n w s.fits, hn2 n' w s.fits', s.records, s.tokens]⟩
    obtain ⟨l1, new, l2, new', hl1, hh1, ht1, hl2, hh2, ht2, hn⟩ := one
    have s1 : SameWindow l1 (h ++ new) n l2 (h' ++ new') n' w := by
      refine ⟨by rw [ht1]; exact s.fits, by rw [ht2]; exact s.fits', ?_, ?_⟩
      · rw [tokensIn_eq ht1, tokensIn_eq ht2]; exact s.tokens
      · rw [recordsIn_append, recordsIn_append, hn, s.records]
    obtain ⟨m, g, m', g', h1, h2, h3, h4, h5, h6, h7⟩ := mixed_run_in prog hh1 hh2 (by rw [ht1]; exact ne) (by rw [ht2]; exact ne') s1
    refine ⟨m, g, m', g', ?_, h2, ?_, h4, h5.trans ht1, h6.trans ht2, h7⟩
    · simp only [mixedRuns, List.map_cons, runAll, hl1]
      exact h1
    · simp only [mixedRuns, List.map_cons, runAll, hl2]
      exact h3

end LNlp
