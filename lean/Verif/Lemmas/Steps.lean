import Verif.Lemmas.Together
import Verif.Lemmas.WindowExcept
import Verif.Lemmas.DocumentShow
import Verif.Spec.Steps
/- Runs of a pipeline of resolvers of the library and of rules on a line put together from two parts. -/
namespace LNlp
variable {W : World}

theorem recordsIn_all {l : LLLine W} {h : History W} (hr : Rep l h) : recordsIn 0 l.ll_tokens.length h = h := by
  unfold recordsIn
  rw [List.filter_eq_self.2 fun x hx => inWindow_iff.2 ⟨Nat.zero_le _, by have := (hr.bounds x hx).2; omega⟩]
  exact (List.map_congr_left fun _ _ => rfl).trans (List.map_id _)

theorem freshOf_sub : ∀ (cs seen : History W), ∀ x ∈ freshOf seen cs, x ∈ cs
  | [], _, x, hx => by simp [freshOf] at hx
  | c :: cs, seen, x, hx => by
    rw [freshOf] at hx
    split at hx
    · exact List.mem_cons_of_mem _ (freshOf_sub cs _ x hx)
    · rcases List.mem_cons.1 hx with rfl | hx
      · simp
      · exact List.mem_cons_of_mem _ (freshOf_sub cs _ x hx)

/-- what one run of a rule adds depends only on the stretch, and goes over no token it stops at -/
theorem step_rule {look : Bool} {r : Rule W} {l : LLLine W} {h : History W} (hh : Honest l h) (ne : l.ll_tokens ≠ []) (ptr : Nat) :
    ∃ l' new, l.run ptr (Step.rule look r).resolver = .ok l' ∧ Honest l' (h ++ new) ∧ l'.ll_tokens = l.ll_tokens ∧
      (∀ x ∈ new, x.ty = r.attr) ∧
      (∀ n w, n + w ≤ l.ll_tokens.length → recordsIn n w new =
        if look then freshOf (recordsIn n w h) (r.within (tokensIn n w l) (recordsIn n w h))
        else r.within (tokensIn n w l) (recordsIn n w h)) ∧
      ∀ t, r.Stops l (· ∈ h) t → ∀ x ∈ new, x ∈ h ∨ ¬ Over t x.range := by
  obtain ⟨l1, new1, run1, hh1, t1, c1⟩ := rule_run hh ne ptr r
  obtain ⟨l2, new2, run2, hh2, t2, e2⟩ := rule_run_in hh ne ptr r
  cases run1.symm.trans run2
  have bnd : ∀ {l' : LLLine W} {new : History W}, Honest l' (h ++ new) → l'.ll_tokens = l.ll_tokens →
      recordsIn 0 l.ll_tokens.length new = new := by
    intro l' new hh' t'
    have := recordsIn_all hh'.spec.1.rep
    rw [recordsIn_append, t', recordsIn_all hh.spec.1.rep] at this
    exact List.append_cancel_left this
  have w2 := e2 0 l.ll_tokens.length (by omega)
  rw [bnd hh2 t2] at w2
  have ty2 : ∀ x ∈ new2, x.ty = r.attr := by
    intro x hx
    rw [w2] at hx
    obtain ⟨i, _, hx⟩ := List.mem_flatMap.1 hx
    obtain ⟨p, _, hx⟩ := List.mem_flatMap.1 hx
    obtain ⟨v, _, rfl⟩ := List.mem_map.1 hx
    rfl
  have st2 : ∀ t, r.Stops l (· ∈ h) t → ∀ x ∈ new2, x ∈ h ∨ ¬ Over t x.range := by
    intro t hs x hx
    rcases List.mem_append.1 ((honest_mem hh2 hh1 x).1 (List.mem_append_right h hx)) with hx | hx
    · exact .inl hx
    · exact .inr (hs.concludes ((c1 x).1 hx))
  cases look with
  | false => exact ⟨_, new2, run2, hh2, t2, ty2, e2, st2⟩
  | true =>
    obtain ⟨l3, new3, run3, hh3, t3, e3⟩ := once_run_in hh ne ptr r
    have w3 := e3 0 l.ll_tokens.length (by omega)
    rw [bnd hh3 t3] at w3
    have sub : ∀ x ∈ new3, x ∈ new2 := by
      intro x hx
      rw [w3] at hx
      rw [w2]
      exact freshOf_sub _ _ x hx
    exact ⟨l3, new3, run3, hh3, t3, fun x hx => ty2 x (sub x hx), e3, fun t hs x hx => st2 t hs x (sub x hx)⟩

/-- what one run of a rule with exceptions adds depends only on the stretch, if what hides something ends there, and goes over no token it stops at -/
theorem step_erule {look : Bool} {r : ERule W} {l : LLLine W} {h : History W} (hh : Honest l h) (ne : l.ll_tokens ≠ []) (ptr : Nat) :
    ∃ l' new, l.run ptr (Step.erule look r).resolver = .ok l' ∧ Honest l' (h ++ new) ∧ l'.ll_tokens = l.ll_tokens ∧
      (∀ x ∈ new, x.ty = r.attr) ∧
      (∀ n w, n + w ≤ l.ll_tokens.length → r.pat.Shut l n w → recordsIn n w new =
        if look then freshOf (recordsIn n w h) (r.within (tokensIn n w l) (recordsIn n w h))
        else r.within (tokensIn n w l) (recordsIn n w h)) ∧
      ∀ t, r.Stops l (· ∈ h) t → ∀ x ∈ new, x ∈ h ∨ ¬ Over t x.range := by
  obtain ⟨l1, new1, run1, hh1, t1, c1⟩ := erule_run hh ne ptr r
  obtain ⟨l2, new2, run2, hh2, t2, e2⟩ := erule_run_in hh ne ptr r
  cases run1.symm.trans run2
  have bnd : ∀ {l' : LLLine W} {new : History W}, Honest l' (h ++ new) → l'.ll_tokens = l.ll_tokens →
      recordsIn 0 l.ll_tokens.length new = new := by
    intro l' new hh' t'
    have := recordsIn_all hh'.spec.1.rep
    rw [recordsIn_append, t', recordsIn_all hh.spec.1.rep] at this
    exact List.append_cancel_left this
  have w2 := e2 0 l.ll_tokens.length (by omega) (EPat.shut_end hh.spec.1 hh.spec.2 (Nat.zero_add _) _)
  rw [bnd hh2 t2] at w2
  have ty2 : ∀ x ∈ new2, x.ty = r.attr := by
    intro x hx
    rw [w2] at hx
    obtain ⟨i, _, hx⟩ := List.mem_flatMap.1 hx
    obtain ⟨p, _, hx⟩ := List.mem_flatMap.1 hx
    obtain ⟨v, _, rfl⟩ := List.mem_map.1 hx
    rfl
  have st2 : ∀ t, r.Stops l (· ∈ h) t → ∀ x ∈ new2, x ∈ h ∨ ¬ Over t x.range := by
    intro t hs x hx
    rcases List.mem_append.1 ((honest_mem hh2 hh1 x).1 (List.mem_append_right h hx)) with hx | hx
    · exact .inl hx
    · exact .inr (hs.concludes ((c1 x).1 hx))
  cases look with
  | false => exact ⟨_, new2, run2, hh2, t2, ty2, e2, st2⟩
  | true =>
    obtain ⟨l3, new3, run3, hh3, t3, e3⟩ := eonce_run_in hh ne ptr r
    have w3 := e3 0 l.ll_tokens.length (by omega) (EPat.shut_end hh.spec.1 hh.spec.2 (Nat.zero_add _) _)
    rw [bnd hh3 t3] at w3
    have sub : ∀ x ∈ new3, x ∈ new2 := by
      intro x hx
      rw [w3] at hx
      rw [w2]
      exact freshOf_sub _ _ x hx
    exact ⟨l3, new3, run3, hh3, t3, fun x hx => ty2 x (sub x hx), e3, fun t hs x hx => st2 t hs x (sub x hx)⟩

/-- `l` consists of `lx` and `ly`, in each of which all assignments were made in the same order -/
structure Mixed (l : LLLine W) (h : History W) (lx : LLLine W) (hx : History W) (ly : LLLine W) (hy : History W) : Prop where
  hl : Honest l h
  hlx : Honest lx hx
  hly : Honest ly hy
  nex : lx.ll_tokens ≠ []
  ney : ly.ll_tokens ≠ []
  tokens : TokensBeside l lx ly
  left : recordsIn 0 lx.ll_tokens.length h = hx
  right : recordsIn lx.ll_tokens.length ly.ll_tokens.length h = hy
  apart : ∀ x ∈ h, x.range.2 < lx.ll_tokens.length ∨ lx.ll_tokens.length ≤ x.range.1

theorem Mixed.len {l lx ly : LLLine W} {h hx hy : History W} (M : Mixed l h lx hx ly hy) :
    l.ll_tokens.length = lx.ll_tokens.length + ly.ll_tokens.length := by
  have := congrArg List.length M.tokens
  simpa using this

theorem recordsIn_zero (w : Nat) (h : History W) : recordsIn 0 w h = h.filter (fun x => inWindow 0 w x.range) :=
  (List.map_congr_left fun _ _ => rfl).trans (List.map_id _)

theorem Mixed.values {l lx ly : LLLine W} {h hx hy : History W} (M : Mixed l h lx hx ly hy) :
    ValuesBeside lx.ll_tokens.length h hx hy := by
  intro k r
  obtain ⟨hr, ho⟩ := M.hl.spec
  rw [valuesOf_append, ← M.left, ← M.right, recordsIn_shift ho, recordsIn_zero]
  have none : ∀ {A : History W} , (∀ x ∈ A, x.range ≠ r) → valuesOf k r A = [] := by
    intro A hA
    refine List.eq_nil_iff_forall_not_mem.2 fun v hv => ?_
    exact hA _ (mem_valuesOf.1 hv) rfl
  by_cases h1 : inWindow 0 lx.ll_tokens.length r = true
  · rw [valuesOf_filter k h (inWindow 0 lx.ll_tokens.length) h1]
    rw [none (A := h.filter (fun x => inWindow lx.ll_tokens.length ly.ll_tokens.length x.range)), List.append_nil]
    rintro x hm rfl
    have a := inWindow_iff.1 h1
    have b := inWindow_iff.1 (List.mem_filter.1 hm).2
    have c := ho x (List.mem_filter.1 hm).1
    omega
  · rw [none (A := h.filter (fun x => inWindow 0 lx.ll_tokens.length x.range)), List.nil_append]
    · by_cases h2 : inWindow lx.ll_tokens.length ly.ll_tokens.length r = true
      · rw [valuesOf_filter k h (inWindow lx.ll_tokens.length ly.ll_tokens.length) h2]
      · rw [none, none]
        · rintro x hm rfl
          exact h2 (List.mem_filter.1 hm).2
        · rintro x hm rfl
          have b := hr.rep.bounds x hm
          have c := M.apart x hm
          have d := M.len
          rw [inWindow_iff] at h1 h2
          omega
    · rintro x hm rfl
      exact h1 (List.mem_filter.1 hm).2

theorem Mixed.joined {l lx ly : LLLine W} {h hx hy : History W} (M : Mixed l h lx hx ly hy) : Joined l h lx hx ly hy := by
  refine ⟨M.len, ?_, ?_, ?_, ?_⟩
  · intro i hi
    rw [textAt_token, textAt_token, show l.ll_tokens.map (·.token) = _ from M.tokens, List.getElem?_append_left (by simpa using hi)]
  · intro i
    rw [textAt_token, textAt_token, show l.ll_tokens.map (·.token) = _ from M.tokens, List.getElem?_append_right (by simp)]
    simp
  · intro k i hi
    rw [M.values, valuesOf_append, valuesOf_near hi, List.append_nil]
  · intro k i
    have := valuesOf_shift k hy lx.ll_tokens.length (i, i)
    simp only [shiftR] at this
    rw [M.values, valuesOf_append, valuesOf_far (fun x hm => (M.hlx.spec.1.rep.bounds x hm).1) (Nat.le_add_right _ _),
      List.nil_append, Nat.add_comm, this]

theorem Mixed.inParts {l lx ly : LLLine W} {h hx hy : History W} (M : Mixed l h lx hx ly hy) :
    InParts (fun _ => False) l h lx hx ly hy :=
  ⟨M.hl, M.hlx, M.hly, M.nex, M.ney, M.tokens, M.joined, fun _ h => h.elim⟩

/-- a rule that stops at the last token of the first part stops there in the whole -/
theorem Mixed.stops {l lx ly : LLLine W} {h hx hy : History W} (M : Mixed l h lx hx ly hy) : ∀ {α : Type} {p : Pat W α} {Q : α → Prop},
    p.Stops lx (· ∈ hx) (lx.ll_tokens.length - 1) Q → p.Stops l (· ∈ h) (lx.ll_tokens.length - 1) Q := by
  have hlen := List.length_pos_iff.2 M.nex
  have recs : ∀ x ∈ h, Over (lx.ll_tokens.length - 1) x.range → x ∈ hx := by
    intro x hm ho
    rw [← M.left, recordsIn_zero]
    refine List.mem_filter.2 ⟨hm, inWindow_iff.2 ⟨Nat.zero_le _, ?_⟩⟩
    have := M.apart x hm
    have := ho.1
    omega
  intro α p
  induction p with
  | attr k => exact fun hs r v h ho => hs _ _ (recs _ h ho) ho
  | attrEq k v => exact fun hs r w e h ho => hs _ _ e (recs _ h ho) ho
  | text =>
    intro Q hs v hv
    rw [M.joined.textL _ (by omega)] at hv
    exact hs v hv
  | seq a b iha ihb => exact fun hs => ⟨iha hs.1, ihb hs.2⟩
  | both a b iha ihb => exact fun hs => hs.elim (fun h => .inl (iha h)) (fun h => .inr (ihb h))

/-- and so for the first token of the second part -/
theorem Mixed.stopsR {l lx ly : LLLine W} {h hx hy : History W} (M : Mixed l h lx hx ly hy) : ∀ {α : Type} {p : Pat W α} {Q : α → Prop},
    p.Stops ly (· ∈ hy) 0 Q → p.Stops l (· ∈ h) lx.ll_tokens.length Q := by
  obtain ⟨hr, ho⟩ := M.hl.spec
  have recs : ∀ x ∈ h, Over lx.ll_tokens.length x.range → x.from lx.ll_tokens.length ∈ hy ∧
      Over 0 (x.from lx.ll_tokens.length).range := by
    intro x hm ho
    have a := M.apart x hm
    have b := hr.rep.bounds x hm
    have c := M.len
    have d := ho.1
    have e := ho.2
    rw [← M.right]
    refine ⟨List.mem_map.2 ⟨x, List.mem_filter.2 ⟨hm, inWindow_iff.2 (by omega)⟩, rfl⟩, ?_⟩
    simp only [Over, Rec.from]
    omega
  intro α p
  induction p with
  | attr k =>
    intro Q hs r v h ho
    obtain ⟨h1, h2⟩ := recs _ h ho
    exact hs _ _ h1 h2
  | attrEq k v =>
    intro Q hs r w e h ho
    obtain ⟨h1, h2⟩ := recs _ h ho
    exact hs _ _ e h1 h2
  | text =>
    intro Q hs v hv
    have := M.joined.textR 0
    rw [Nat.add_zero] at this
    rw [this] at hv
    exact hs v hv
  | seq a b iha ihb => exact fun hs => ⟨iha hs.1, ihb hs.2⟩
  | both a b iha ihb => exact fun hs => hs.elim (fun h => .inl (iha h)) (fun h => .inr (ihb h))

/-- a rule with exceptions that stops at the last token of the first part stops there in the whole -/
theorem Mixed.estops {l lx ly : LLLine W} {h hx hy : History W} (M : Mixed l h lx hx ly hy) : ∀ {α : Type} {p : EPat W α} {Q : α → Prop},
    p.Stops lx (· ∈ hx) (lx.ll_tokens.length - 1) Q → p.Stops l (· ∈ h) (lx.ll_tokens.length - 1) Q := by
  have hlen := List.length_pos_iff.2 M.nex
  have recs : ∀ x ∈ h, Over (lx.ll_tokens.length - 1) x.range → x ∈ hx := by
    intro x hm ho
    rw [← M.left, recordsIn_zero]
    refine List.mem_filter.2 ⟨hm, inWindow_iff.2 ⟨Nat.zero_le _, ?_⟩⟩
    have := M.apart x hm
    have := ho.1
    omega
  intro α p
  induction p with
  | attr k => exact fun hs r v h ho => hs _ _ (recs _ h ho) ho
  | attrEq k v => exact fun hs r w e h ho => hs _ _ e (recs _ h ho) ho
  | text =>
    intro Q hs v hv
    rw [M.joined.textL _ (by omega)] at hv
    exact hs v hv
  | seq a b iha ihb => exact fun hs => ⟨iha hs.1, ihb hs.2⟩
  | both a b iha ihb => exact fun hs => hs.elim (fun h => .inl (iha h)) (fun h => .inr (ihb h))
  | anyOf a b iha ihb => exact fun hs => ⟨iha hs.1, ihb hs.2⟩
  | «unless» a b iha _ => exact fun hs => iha hs

/-- and so for the first token of the second part -/
theorem Mixed.estopsR {l lx ly : LLLine W} {h hx hy : History W} (M : Mixed l h lx hx ly hy) : ∀ {α : Type} {p : EPat W α} {Q : α → Prop},
    p.Stops ly (· ∈ hy) 0 Q → p.Stops l (· ∈ h) lx.ll_tokens.length Q := by
  obtain ⟨hr, ho⟩ := M.hl.spec
  have recs : ∀ x ∈ h, Over lx.ll_tokens.length x.range → x.from lx.ll_tokens.length ∈ hy ∧
      Over 0 (x.from lx.ll_tokens.length).range := by
    intro x hm ho
    have a := M.apart x hm
    have b := hr.rep.bounds x hm
    have c := M.len
    have d := ho.1
    have e := ho.2
    rw [← M.right]
    refine ⟨List.mem_map.2 ⟨x, List.mem_filter.2 ⟨hm, inWindow_iff.2 (by omega)⟩, rfl⟩, ?_⟩
    simp only [Over, Rec.from]
    omega
  intro α p
  induction p with
  | attr k =>
    intro Q hs r v h ho
    obtain ⟨h1, h2⟩ := recs _ h ho
    exact hs _ _ h1 h2
  | attrEq k v =>
    intro Q hs r w e h ho
    obtain ⟨h1, h2⟩ := recs _ h ho
    exact hs _ _ e h1 h2
  | text =>
    intro Q hs v hv
    have := M.joined.textR 0
    rw [Nat.add_zero] at this
    rw [this] at hv
    exact hs v hv
  | seq a b iha ihb => exact fun hs => ⟨iha hs.1, ihb hs.2⟩
  | both a b iha ihb => exact fun hs => hs.elim (fun h => .inl (iha h)) (fun h => .inr (ihb h))
  | anyOf a b iha ihb => exact fun hs => ⟨iha hs.1, ihb hs.2⟩
  | «unless» a b iha _ => exact fun hs => iha hs

theorem Mixed.clear {l lx ly : LLLine W} {h hx hy : History W} (M : Mixed l h lx hx ly hy) : ∀ {α : Type} {p : EPat W α},
    p.Clear lx (· ∈ hx) (lx.ll_tokens.length - 1) → p.Clear l (· ∈ h) (lx.ll_tokens.length - 1)
  | _, .attr _, _ => trivial
  | _, .attrEq _ _, _ => trivial
  | _, .text, _ => trivial
  | _, .seq _ _, c => ⟨M.clear c.1, M.clear c.2⟩
  | _, .both _ _, c => ⟨M.clear c.1, M.clear c.2⟩
  | _, .anyOf _ _, c => ⟨M.estops c.1, M.clear c.2.1, M.clear c.2.2⟩
  | _, .unless _ _, c => ⟨M.estops c.1, M.clear c.2.1, M.clear c.2.2⟩

theorem Mixed.clearR {l lx ly : LLLine W} {h hx hy : History W} (M : Mixed l h lx hx ly hy) : ∀ {α : Type} {p : EPat W α},
    p.Clear ly (· ∈ hy) 0 → p.Clear l (· ∈ h) lx.ll_tokens.length
  | _, .attr _, _ => trivial
  | _, .attrEq _ _, _ => trivial
  | _, .text, _ => trivial
  | _, .seq _ _, c => ⟨M.clearR c.1, M.clearR c.2⟩
  | _, .both _ _, c => ⟨M.clearR c.1, M.clearR c.2⟩
  | _, .anyOf _ _, c => ⟨M.estopsR c.1, M.clearR c.2.1, M.clearR c.2.2⟩
  | _, .unless _ _, c => ⟨M.estopsR c.1, M.clearR c.2.1, M.clearR c.2.2⟩

theorem Mixed.tokensL {l lx ly : LLLine W} {h hx hy : History W} (M : Mixed l h lx hx ly hy) :
    tokensIn 0 lx.ll_tokens.length l = tokensIn 0 lx.ll_tokens.length lx := by
  unfold tokensIn
  rw [List.drop_zero, List.drop_zero, List.map_take, List.map_take, show l.ll_tokens.map (·.token) = _ from M.tokens,
    List.take_append_of_le_length (by simp)]

theorem Mixed.tokensR {l lx ly : LLLine W} {h hx hy : History W} (M : Mixed l h lx hx ly hy) :
    tokensIn lx.ll_tokens.length ly.ll_tokens.length l = tokensIn 0 ly.ll_tokens.length ly := by
  unfold tokensIn
  rw [List.drop_zero, List.map_take, List.map_take, List.map_drop, show l.ll_tokens.map (·.token) = _ from M.tokens]
  congr 1
  exact List.drop_left' (by simp)

/-- what is new in both parts keeps the line in parts -/
theorem Mixed.add {l lx ly l' lx' ly' : LLLine W} {h hx hy new newx newy : History W} (M : Mixed l h lx hx ly hy)
    (hh : Honest l' (h ++ new)) (hhx : Honest lx' (hx ++ newx)) (hhy : Honest ly' (hy ++ newy)) (t : l'.ll_tokens = l.ll_tokens)
    (tx : lx'.ll_tokens = lx.ll_tokens) (ty : ly'.ll_tokens = ly.ll_tokens) (e1 : recordsIn 0 lx.ll_tokens.length new = newx)
    (e2 : recordsIn lx.ll_tokens.length ly.ll_tokens.length new = newy)
    (ap : ∀ x ∈ new, x ∈ h ∨ x.range.2 < lx.ll_tokens.length ∨ lx.ll_tokens.length ≤ x.range.1) :
    Mixed l' (h ++ new) lx' (hx ++ newx) ly' (hy ++ newy) := by
  refine ⟨hh, hhx, hhy, by rw [tx]; exact M.nex, by rw [ty]; exact M.ney, ?_, ?_, ?_, ?_⟩
  · unfold TokensBeside; rw [t, tx, ty]; exact M.tokens
  · rw [tx, recordsIn_append, M.left, e1]
  · rw [tx, ty, recordsIn_append, M.right, e2]
  · intro x hm
    rw [tx]
    rcases List.mem_append.1 hm with hm | hm
    · exact M.apart x hm
    · exact (ap x hm).elim (M.apart x) id

theorem separator_more {r : AmountResolver} {l l' : LLLine W} {h A : History W} {i : Nat} (t : l'.ll_tokens = l.ll_tokens)
    (hA : ∀ x ∈ A, x.ty ≠ .char ∧ x.ty ≠ .textTag) (hs : Separator r l h i) : Separator r l' (h ++ A) i := by
  have e : ∀ k' : Ty W, (∀ x ∈ A, x.ty ≠ k') → valuesOf k' (i, i) (h ++ A) = valuesOf k' (i, i) h := by
    intro k' hk
    rw [valuesOf_append, show valuesOf k' (i, i) A = [] from List.eq_nil_iff_forall_not_mem.2 fun v hv =>
      hk _ (mem_valuesOf.1 hv) rfl, List.append_nil]
  unfold Separator NumAt DelimAt DecAt tagsOn charsOn at *
  rw [e _ (fun x hx => (hA x hx).1), e _ (fun x hx => (hA x hx).2), textAt_token, t, ← textAt_token]
  exact hs

theorem cut_more {s : Step W} {lx lx' ly ly' : LLLine W} {hx hy A B : History W} (tx : lx'.ll_tokens = lx.ll_tokens)
    (ty : ly'.ll_tokens = ly.ll_tokens) (hA : ∀ x ∈ A, x.ty ≠ .char ∧ x.ty ≠ .textTag)
    (hB : ∀ x ∈ B, x.ty ≠ .char ∧ x.ty ≠ .textTag) (cut : s.Cut lx hx ly hy) : s.Cut lx' (hx ++ A) ly' (hy ++ B) := by
  cases s with
  | rule _ _ => trivial
  | erule _ _ => trivial
  | stage s =>
    cases s with
    | table _ => trivial
    | pos => trivial
    | keywords _ => trivial
    | clauses => exact cut.elim
    | amounts r =>
      rcases cut with sep | ⟨sep, x, hx, e⟩
      · refine .inl ?_
        rw [tx]
        exact separator_more tx hA sep
      · exact .inr ⟨separator_more ty hB sep, x, by simp [hx], e⟩

/-- one step on the whole and on the parts -/
theorem Mixed.step {l lx ly : LLLine W} {h hx hy : History W} (M : Mixed l h lx hx ly hy) (s : Step W)
    (cut : s.Cut lx hx ly hy) (st : s.StopsAt (lx.ll_tokens.length - 1) lx ∨ s.StopsAt 0 ly)
    (p px py : Nat) :
    (∃ l' lx' ly' new newx newy, l.run p s.resolver = .ok l' ∧ lx.run px s.resolver = .ok lx' ∧ ly.run py s.resolver = .ok ly' ∧
      Mixed l' (h ++ new) lx' (hx ++ newx) ly' (hy ++ newy) ∧ (∀ x ∈ newx, x.ty = s.resolver.attr) ∧
      ∀ x ∈ newy, x.ty = s.resolver.attr) ∨
    ((∃ e, l.run p s.resolver = .error e) ∧
      ((∃ e, lx.run px s.resolver = .error e) ∨ (∃ e, ly.run py s.resolver = .error e))) := by
  cases s with
  | stage s =>
    have P := M.inParts
    rcases P.stage s cut p px py with ⟨as, bs, rx, ry, rl⟩ | hf
    · obtain ⟨l', lx', ly', run, runx, runy, P'⟩ := P.run s.resolver rx ry rl (fun h => h.elim)
      have t := run_tokens run
      have tx := run_tokens runx
      have ty := run_tokens runy
      have bx : ∀ x ∈ as.map (recOf s.resolver.attr), x.range.1 ≤ x.range.2 ∧ x.range.2 < lx.ll_tokens.length := by
        intro x hm
        have b := (P'.hlx.spec.1.rep.bounds x (by simp [hm])).2
        rw [tx] at b
        exact ⟨P'.hlx.spec.2 x (by simp [hm]), b⟩
      have byy : ∀ x ∈ bs.map (recOf s.resolver.attr), x.range.1 ≤ x.range.2 ∧ x.range.2 < ly.ll_tokens.length := by
        intro x hm
        have b := (P'.hly.spec.1.rep.bounds x (by simp [hm])).2
        rw [ty] at b
        exact ⟨P'.hly.spec.2 x (by simp [hm]), b⟩
      have hl := P'.hl
      rw [recs_join] at hl
      refine .inl ⟨l', lx', ly', _, _, _, run, runx, runy, M.add hl P'.hlx P'.hly t tx ty ?_ ?_ ?_, ?_, ?_⟩
      · rw [recordsIn_append, recordsIn_outside (h := List.map (Rec.shift _) _), List.append_nil, recordsIn_zero]
        · refine List.filter_eq_self.2 fun x hm => inWindow_iff.2 ⟨Nat.zero_le _, ?_⟩
          have := (bx x hm).2
          omega
        · intro x hm
          obtain ⟨y, hy', rfl⟩ := List.mem_map.1 hm
          simp only [Rec.shift, shiftR]
          omega
      · rw [recordsIn_append, recordsIn_outside (h := as.map _), List.nil_append]
        · unfold recordsIn
          rw [List.filter_eq_self.2, List.map_map]
          · refine (List.map_congr_left fun x _ => ?_).trans (List.map_id _)
            simp only [Function.comp, Rec.shift, Rec.from, shiftR, id, Nat.add_sub_cancel]
          · intro x hm
            obtain ⟨y, hy', rfl⟩ := List.mem_map.1 hm
            have := (byy y hy').2
            refine inWindow_iff.2 ?_
            simp only [Rec.shift, shiftR]
            omega
        · intro x hm
          have := bx x hm
          omega
      · intro x hm
        rcases List.mem_append.1 hm with hm | hm
        · exact .inr (.inl (bx x hm).2)
        · obtain ⟨y, hy', rfl⟩ := List.mem_map.1 hm
          refine .inr (.inr ?_)
          simp only [Rec.shift, shiftR]
          omega
      · intro x hm
        obtain ⟨a, _, rfl⟩ := List.mem_map.1 hm
        rfl
      · intro x hm
        obtain ⟨a, _, rfl⟩ := List.mem_map.1 hm
        rfl
    · exact .inr hf
  | rule look r =>
    have hlen := M.len
    have nex := List.length_pos_iff.2 M.nex
    have ne : l.ll_tokens ≠ [] := joined_ne M.joined M.nex
    obtain ⟨l', new, run, hh, t, _, e, sp⟩ := step_rule (look := look) (r := r) M.hl ne p
    obtain ⟨lx', newx, runx, hhx, tx, tyx, ex, _⟩ := step_rule (look := look) (r := r) M.hlx M.nex px
    obtain ⟨ly', newy, runy, hhy, ty, tyy, ey, _⟩ := step_rule (look := look) (r := r) M.hly M.ney py
    have at' : (Step.rule look r).resolver.attr = r.attr := by cases look <;> rfl
    have all : ∀ {m m' : LLLine W} {g n : History W}, Honest m g → Honest m' (g ++ n) → m'.ll_tokens = m.ll_tokens →
        recordsIn 0 m.ll_tokens.length n = n := by
      intro m m' g n h1 h2 tt
      have := recordsIn_all h2.spec.1.rep
      rw [recordsIn_append, tt, recordsIn_all h1.spec.1.rep] at this
      exact List.append_cancel_left this
    refine .inl ⟨l', lx', ly', new, newx, newy, run, runx, runy, M.add hh hhx hhy t tx ty ?_ ?_ ?_, ?_, ?_⟩
    · rw [e 0 _ (by omega), ← all M.hlx hhx tx, ex 0 _ (by omega), M.tokensL, M.left, recordsIn_all M.hlx.spec.1.rep]
    · rw [e _ _ (by omega), ← all M.hly hhy ty, ey 0 _ (by omega), M.tokensR, M.right, recordsIn_all M.hly.spec.1.rep]
    · intro x hm
      rcases st with st | st
      · refine (sp (lx.ll_tokens.length - 1) (M.stops (st hx M.hlx)) x hm).imp_right fun no => ?_
        simp only [Over] at no
        omega
      · refine (sp lx.ll_tokens.length (M.stopsR (st hy M.hly)) x hm).imp_right fun no => ?_
        simp only [Over] at no
        omega
    · rw [at']; exact tyx
    · rw [at']; exact tyy
  | erule look r =>
    have hlen := M.len
    have nex := List.length_pos_iff.2 M.nex
    have ne : l.ll_tokens ≠ [] := joined_ne M.joined M.nex
    obtain ⟨l', new, run, hh, t, _, e, sp⟩ := step_erule (look := look) (r := r) M.hl ne p
    obtain ⟨lx', newx, runx, hhx, tx, tyx, ex, _⟩ := step_erule (look := look) (r := r) M.hlx M.nex px
    obtain ⟨ly', newy, runy, hhy, ty, tyy, ey, _⟩ := step_erule (look := look) (r := r) M.hly M.ney py
    have shut : ∀ {α : Type} {m : LLLine W} {g : History W} (_ : Honest m g) (p : EPat W α), p.Shut m 0 m.ll_tokens.length :=
      fun h1 p => p.shut_end h1.spec.1 h1.spec.2 (Nat.zero_add _)
    have shutL : r.pat.Shut l 0 lx.ll_tokens.length := by
      rcases st with st | st
      · exact r.pat.shut_clear M.hl.spec.1 M.hl.spec.2 (by omega) (.inl (by omega)) (M.clear (st hx M.hlx).2)
      · exact r.pat.shut_clear M.hl.spec.1 M.hl.spec.2 (by omega) (.inr (by omega)) (M.clearR (st hy M.hly).2)
    have shutR : r.pat.Shut l lx.ll_tokens.length ly.ll_tokens.length := r.pat.shut_end M.hl.spec.1 M.hl.spec.2 hlen.symm
    have at' : (Step.erule look r).resolver.attr = r.attr := by cases look <;> rfl
    have all : ∀ {m m' : LLLine W} {g n : History W}, Honest m g → Honest m' (g ++ n) → m'.ll_tokens = m.ll_tokens →
        recordsIn 0 m.ll_tokens.length n = n := by
      intro m m' g n h1 h2 tt
      have := recordsIn_all h2.spec.1.rep
      rw [recordsIn_append, tt, recordsIn_all h1.spec.1.rep] at this
      exact List.append_cancel_left this
    refine .inl ⟨l', lx', ly', new, newx, newy, run, runx, runy, M.add hh hhx hhy t tx ty ?_ ?_ ?_, ?_, ?_⟩
    · rw [e 0 _ (by omega) shutL, ← all M.hlx hhx tx, ex 0 _ (by omega) (shut M.hlx _), M.tokensL, M.left, recordsIn_all M.hlx.spec.1.rep]
    · rw [e _ _ (by omega) shutR, ← all M.hly hhy ty, ey 0 _ (by omega) (shut M.hly _), M.tokensR, M.right, recordsIn_all M.hly.spec.1.rep]
    · intro x hm
      rcases st with st | st
      · refine (sp (lx.ll_tokens.length - 1) (M.estops (st hx M.hlx).1) x hm).imp_right fun no => ?_
        simp only [Over] at no
        omega
      · refine (sp lx.ll_tokens.length (M.estopsR (st hy M.hly).1) x hm).imp_right fun no => ?_
        simp only [Over] at no
        omega
    · rw [at']; exact tyx
    · rw [at']; exact tyy

/-- all steps -/
theorem mixed_steps : ∀ (ss : List (Step W)) {l lx ly : LLLine W} {h hx hy : History W} (_ : Mixed l h lx hx ly hy)
    (_ : OwnSteps ss) (_ : ∀ s ∈ ss, s.Cut lx hx ly hy) (p px py : Nat → Nat)
    (_ : StopWhenRun (lx.ll_tokens.length - 1) px ss lx ∨ StopWhenRun 0 py ss ly),
    (∃ l' lx' ly' h' hx' hy', runAll l (stepsAt p ss) = .ok l' ∧ runAll lx (stepsAt px ss) = .ok lx' ∧
      runAll ly (stepsAt py ss) = .ok ly' ∧ Mixed l' h' lx' hx' ly' hy') ∨
    ((∃ e, runAll l (stepsAt p ss) = .error e) ∧
      ((∃ e, runAll lx (stepsAt px ss) = .error e) ∨ (∃ e, runAll ly (stepsAt py ss) = .error e)))
  | [], _, _, _, _, _, _, M, _, _, _, _, _, _ => .inl ⟨_, _, _, _, _, _, rfl, rfl, rfl, M⟩
  | s :: ss, l, lx, ly, h, hx, hy, M, own, cut, p, px, py, st => by
    simp only [stepsAt, runAll]
    rcases M.step s (cut s (by simp)) (st.imp (·.1) (·.1)) (p 0) (px 0) (py 0) with
      ⟨l', lx', ly', new, newx, newy, run, runx, runy, M', tyx, tyy⟩ | ⟨⟨e, he⟩, hxy⟩
    · have o := own s (by simp)
      rw [run, runx, runy]
      exact mixed_steps ss M' (fun s' hm => own s' (by simp [hm])) (fun s' hm => cut_more (run_tokens runx) (run_tokens runy)
        (fun x hx => by rw [tyx x hx]; exact o) (fun x hx => by rw [tyy x hx]; exact o) (cut s' (by simp [hm]))) _ _ _
        (st.imp (fun st => by rw [run_tokens runx]; exact st.2 lx' runx) (fun st => st.2 ly' runy))
    · refine .inr ⟨⟨e, by rw [he]⟩, ?_⟩
      rcases hxy with ⟨e, he⟩ | ⟨e, he⟩
      · exact .inl ⟨e, by rw [he]⟩
      · exact .inr ⟨e, by rw [he]⟩

/-- if the rules stop at the first token of the second part, they stop there in the whole -/
theorem stopWhenRun_right : ∀ (ss : List (Step W)) {l lx ly : LLLine W} {h hx hy : History W} (_ : Mixed l h lx hx ly hy)
    (_ : OwnSteps ss) (_ : ∀ s ∈ ss, s.Cut lx hx ly hy) (p py : Nat → Nat) (_ : StopWhenRun 0 py ss ly),
    StopWhenRun lx.ll_tokens.length p ss l
  | [], _, _, _, _, _, _, _, _, _, _, _, _ => trivial
  | s :: ss, l, lx, ly, h, hx, hy, M, own, cut, p, py, st => by
    refine ⟨?_, fun l1 hl1 => ?_⟩
    · cases s with
      | stage _ => trivial
      | rule _ r =>
        intro h' hh'
        exact Pat.Stops.more rfl (fun x hx => .inl ((honest_mem hh' M.hl x).1 hx)) (M.stopsR (st.1 hy M.hly))
      | erule _ r =>
        intro h' hh'
        exact ⟨EPat.Stops.more rfl (fun x hx => .inl ((honest_mem hh' M.hl x).1 hx)) (M.estopsR (st.1 hy M.hly).1),
          EPat.Clear.more rfl (fun x hx => .inl ((honest_mem hh' M.hl x).1 hx)) (M.clearR (st.1 hy M.hly).2)⟩
    · rcases M.step s (cut s (by simp)) (.inr st.1) (p 0) 0 (py 0) with
        ⟨l', lx', ly', new, newx, newy, run, runx, runy, M', tyx, tyy⟩ | ⟨⟨e, he⟩, _⟩
      · cases hl1.symm.trans run
        have o := own s (by simp)
        have := stopWhenRun_right ss M' (fun s' hm => own s' (by simp [hm])) (fun s' hm => cut_more (run_tokens runx)
          (run_tokens runy) (fun x hx => by rw [tyx x hx]; exact o) (fun x hx => by rw [tyy x hx]; exact o) (cut s' (by simp [hm])))
          (fun i => p (i + 1)) (fun i => py (i + 1)) (st.2 ly' runy)
        rwa [run_tokens runx] at this
      · cases hl1.symm.trans he

/-- a new line is in parts -/
theorem mixed_create {size : Str → Nat} {xs ys : List (InputToken W)} {l lx ly : LLLine W}
    (wf : ∀ t ∈ xs ++ ys, t.WF) (ok : createLineFromInputTokens W (xs ++ ys) size = .ok l)
    (okx : createLineFromInputTokens W xs size = .ok lx) (oky : createLineFromInputTokens W ys size = .ok ly)
    (nx : xs ≠ []) (ny : ys ≠ []) :
    Mixed l (creationHistory W size (xs ++ ys)) lx (creationHistory W size xs) ly (creationHistory W size ys) := by
  have P := inParts_create wf ok okx oky nx ny
  obtain ⟨l0, ok0, z⟩ : ∃ l0, createLineFromInputTokens W [] size = .ok l0 ∧ l0.ll_tokens.length = 0 := ⟨_, rfl, rfl⟩
  have a := same_parts size [] xs ys l l0 lx wf ok ok0 okx
  have b := same_parts size xs ys [] l lx ly (by simpa using wf) (by simpa using ok) okx oky
  have ra := a.records
  have rb := b.records
  rw [z, recordsIn_all P.hlx.spec.1.rep] at ra
  rw [recordsIn_all P.hly.spec.1.rep] at rb
  simp only [List.append_nil] at rb
  refine ⟨P.hl, P.hlx, P.hly, P.nex, P.ney, P.tokens, ra, rb, fun x hm => ?_⟩
  have := creation_within size (xs := []) (ys := xs) (zs := ys) wf ok ok0 okx hm
  rw [z] at this
  omega

/-! ### addresses -/

theorem step_ptr (s : Step W) {l : LLLine W} {h : History W} (hh : Honest l h) (p p' : Nat) :
    l.run p s.resolver = l.run p' s.resolver := by
  by_cases ne : l.ll_tokens = []
  · rw [run_empty ne, run_empty ne]
  · cases s with
    | stage s =>
      have := stage_ptr s hh.spec.1 ne p p'
      simp only [wholeLine] at this
      simp only [LLLine.run, Step.resolver, this]
    | rule look r =>
      obtain ⟨l1, new, run, hh1, t, _, e, _⟩ := step_rule (look := look) (r := r) hh ne p
      obtain ⟨l2, new', run', hh2, t', _, e', _⟩ := step_rule (look := look) (r := r) hh ne p'
      have a := e 0 l.ll_tokens.length (by omega)
      rw [← e' 0 l.ll_tokens.length (by omega)] at a
      have b1 := recordsIn_all hh1.spec.1.rep
      have b2 := recordsIn_all hh2.spec.1.rep
      rw [recordsIn_append, t] at b1
      rw [recordsIn_append, t', ← a, b1] at b2
      rw [run, run', rep_ext hh1.spec.1.rep hh2.spec.1.rep (t.trans t'.symm) (fun _ => by rw [b2]) (fun _ _ => by rw [b2])]
    | erule look r =>
      obtain ⟨l1, new, run, hh1, t, _, e, _⟩ := step_erule (look := look) (r := r) hh ne p
      obtain ⟨l2, new', run', hh2, t', _, e', _⟩ := step_erule (look := look) (r := r) hh ne p'
      have a := e 0 l.ll_tokens.length (by omega) (r.pat.shut_end hh.spec.1 hh.spec.2 (Nat.zero_add _))
      rw [← e' 0 l.ll_tokens.length (by omega) (r.pat.shut_end hh.spec.1 hh.spec.2 (Nat.zero_add _))] at a
      have b1 := recordsIn_all hh1.spec.1.rep
      have b2 := recordsIn_all hh2.spec.1.rep
      rw [recordsIn_append, t] at b1
      rw [recordsIn_append, t', ← a, b1] at b2
      rw [run, run', rep_ext hh1.spec.1.rep hh2.spec.1.rep (t.trans t'.symm) (fun _ => by rw [b2]) (fun _ _ => by rw [b2])]

theorem step_honest (s : Step W) {l l' : LLLine W} {h : History W} (hh : Honest l h) (p : Nat)
    (run : l.run p s.resolver = .ok l') : ∃ h', Honest l' h' := by
  by_cases ne : l.ll_tokens = []
  · exact ⟨h, .runEmpty l h _ _ l' hh ne run⟩
  · cases s with
    | stage s => exact stage_honest s hh p run
    | rule look r =>
      obtain ⟨l1, new, run1, hh1, _⟩ := step_rule (look := look) (r := r) hh ne p
      cases run.symm.trans run1
      exact ⟨_, hh1⟩
    | erule look r =>
      obtain ⟨l1, new, run1, hh1, _⟩ := step_erule (look := look) (r := r) hh ne p
      cases run.symm.trans run1
      exact ⟨_, hh1⟩

theorem steps_ptr : ∀ (ss : List (Step W)) {l : LLLine W} {h : History W} (_ : Honest l h) (p p' : Nat → Nat),
    runAll l (stepsAt p ss) = runAll l (stepsAt p' ss)
  | [], _, _, _, _, _ => rfl
  | s :: ss, l, h, hh, p, p' => by
    simp only [stepsAt, runAll]
    rw [step_ptr s hh (p 0) (p' 0)]
    cases run : l.run (p' 0) s.resolver with
    | error e => rfl
    | ok l1 =>
      obtain ⟨h1, hh1⟩ := step_honest s hh _ run
      exact steps_ptr ss hh1 _ _

theorem stopWhenRun_ptr : ∀ (ss : List (Step W)) {l : LLLine W} {h : History W} (_ : Honest l h) (t : Nat) (p p' : Nat → Nat),
    StopWhenRun t p ss l → StopWhenRun t p' ss l
  | [], _, _, _, _, _, _, _ => trivial
  | s :: ss, l, h, hh, t, p, p', st => by
    refine ⟨st.1, fun l' run => ?_⟩
    obtain ⟨h', hh'⟩ := step_honest s hh _ run
    rw [step_ptr s hh (p' 0) (p 0)] at run
    exact stopWhenRun_ptr ss hh' t _ _ (st.2 l' run)

theorem analysedBy_ptr (ss : List (Step W)) (t : Str) (p q : Nat → Nat) (l : LLLine W) :
    AnalysedBy p ss t l ↔ AnalysedBy q ss t l := by
  constructor
  · rintro ⟨l0, h0, h1⟩
    exact ⟨l0, h0, by rw [steps_ptr ss (.create _ _ _ (string_wf t) h0) q p]; exact h1⟩
  · rintro ⟨l0, h0, h1⟩
    exact ⟨l0, h0, by rw [steps_ptr ss (.create _ _ _ (string_wf t) h0) p q]; exact h1⟩

/-! ### texts -/

theorem step_cut_of_end (L : SplitLaws W) {a : Str} {c : Char} (hc : a.getLast? = some c) {s : Step W} (he : s.EndsAt c)
    {la lb : LLLine W} (oka : createLineFromString W a = .ok la) (hb : History W) :
    s.Cut la (creationHistory W utf8Len [.Text a []]) lb hb := by
  cases s with
  | stage s => exact cut_of_end L hc he oka hb
  | rule _ _ => trivial
  | erule _ _ => trivial

theorem step_cut_of_start (L : SplitLaws W) {b : Str} {c : Char} (hc : b.head? = some c) {s : Step W} (he : s.EndsAt c)
    {la lb : LLLine W} (okb : createLineFromString W b = .ok lb) (ha : History W) :
    s.Cut la ha lb (creationHistory W utf8Len [.Text b []]) := by
  cases s with
  | rule _ _ => trivial
  | erule _ _ => trivial
  | stage s =>
    cases s with
    | table _ => trivial
    | pos => trivial
    | keywords _ => trivial
    | clauses => exact he.elim
    | amounts r =>
      refine .inr ⟨first_separator okb L hc he, ?_⟩
      have hfl := textPieces_flatten L b
      have htx := text_at okb
      generalize textPieces W b = ps at hfl htx
      cases ps with
      | nil => simp at hfl; subst hfl; cases hc
      | cons q ps => exact text_attr (.create _ _ _ (string_wf b) okb) (t := q.1) (by rw [htx]; simp)

/-- a line of a document, with its newline: the rules stop at the newline if they do on a newline alone -/
theorem stopWhenRun_newline {cls : Char → WBChar} (U : Uax29 W cls) (nl : (cls '\n').cls = .lf) {ss : List (Step W)}
    (own : OwnSteps ss) (ends : ∀ s ∈ ss, s.EndsAt '\n') {a : Str} (hcr : ∀ d, a.getLast? = some d → (cls d).cls ≠ .cr)
    (fits : utf8Len (a ++ ['\n']) < W.usizeBound) (p q : Nat → Nat)
    (stop : ∀ l, createLineFromString W ['\n'] = .ok l → StopWhenRun 0 q ss l) {l : LLLine W}
    (ok : createLineFromString W (a ++ ['\n']) = .ok l) : StopWhenRun (l.ll_tokens.length - 1) p ss l := by
  have L := C124_split_laws U
  have S := C124_split_stable U
  have one : ∀ {m : LLLine W}, createLineFromString W ['\n'] = .ok m → m.ll_tokens.length = 1 := by
    intro m hm
    have h : W.splitWordBounds ['\n'] = [['\n']] := by rw [U.split]; rfl
    have hd : ¬ ∃ c ∈ (['\n'] : Str).head?, IsDigit c := by
      simp only [List.head?_cons, Option.mem_def, Option.some.injEq, exists_eq_left']
      decide
    rw [text_length hm, textPieces, h, List.flatMap_singleton, wordPieces, if_neg hd]
    rfl
  by_cases na : a = []
  · subst na
    have := stopWhenRun_ptr ss (.create _ _ _ (string_wf _) ok) 0 q p (stop l ok)
    rw [one ok]
    exact this
  · have brk := (joinLines_break U nl [] hcr).1
    obtain ⟨⟨la, oka⟩, ⟨lb, okb⟩⟩ := (create_both L S na (by simp) brk fits).1 ⟨l, ok⟩
    have wf : ∀ t ∈ [InputToken.Text (W := W) a []] ++ [.Text ['\n'] []], t.WF := by
      intro t ht x hx
      simp only [List.cons_append, List.nil_append, List.mem_cons, List.not_mem_nil, or_false] at ht
      rcases ht with rfl | rfl <;> cases hx
    have M := mixed_create wf ((create_break L S na (by simp) brk l).1 ok) oka okb (by simp) (by simp)
    have := stopWhenRun_right ss M own (fun s hs => step_cut_of_start L rfl (ends s hs) okb _) p q (stop lb okb)
    rw [M.len, one okb, Nat.add_sub_cancel]
    exact this

theorem cutSteps_doc {cls : Char → WBChar} (U : Uax29 W cls) (nl : (cls '\n').cls = .lf) {ss : List (Step W)}
    (own : OwnSteps ss) (ends : ∀ s ∈ ss, s.EndsAt '\n') (p q : Nat → Nat)
    (stop : ∀ l, createLineFromString W ['\n'] = .ok l → StopWhenRun 0 q ss l) : ∀ (ls : List Str) (last : Str),
    (∀ s ∈ ls, ∀ d, s.getLast? = some d → (cls d).cls ≠ .cr) → utf8Len (docLines ls last).flatten < W.usizeBound →
    CutSteps W p ss (docLines ls last)
  | [], last, _, _ => by
    unfold docLines
    split
    · trivial
    · assumption
  | a :: as, last, hcr, fits => by
    have e : docLines (a :: as) last = (a ++ ['\n']) :: docLines as last := rfl
    have hu := utf8Len_append (a ++ ['\n']) (docLines as last).flatten
    rw [e, List.flatten_cons] at fits
    have ih := cutSteps_doc U nl own ends p q stop as last (fun s hs => hcr s (by simp [hs])) (by omega)
    rw [e]
    generalize docLines as last = ds at ih fits hu
    cases ds with
    | nil => show a ++ ['\n'] ≠ []; simp
    | cons d ds =>
      exact ⟨by simp, break_after_newline U (by rw [nl]; rfl) (fun h => by rw [nl] at h; cases h), ⟨'\n', by simp, ends⟩,
        fun l ok => stopWhenRun_newline U nl own ends (hcr a (by simp)) (by omega) p q stop ok, ih⟩

end LNlp
