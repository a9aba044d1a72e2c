import Verif.Spec.Mirror
import Verif.Lemmas.Compose
import Verif.Lemmas.View
import Verif.Lemmas.WindowExpr
/- Helper lemmas for Props/Mirror.lean. -/
namespace LNlp
variable {W : World}

/-! ### counting from the other end -/

theorem mirrorIdx_inside {n i : Nat} (h : i < n) : mirrorIdx n i = n - 1 - i := if_pos h

theorem mirrorIdx_lt {n i : Nat} (h : i < n) : mirrorIdx n i < n := by
  rw [mirrorIdx_inside h]; omega

theorem mirrorIdx_twice (n i : Nat) : mirrorIdx n (mirrorIdx n i) = i := by
  unfold mirrorIdx
  split
  · rw [if_pos (by omega)]; omega
  · rfl

theorem mirrorIdx_inj {n i j : Nat} : mirrorIdx n i = mirrorIdx n j ↔ i = j :=
  ⟨fun h => by rw [← mirrorIdx_twice n i, h, mirrorIdx_twice], fun h => by rw [h]⟩

theorem mirrorIdx_eq {n i j : Nat} : mirrorIdx n i = j ↔ i = mirrorIdx n j := by
  rw [← mirrorIdx_inj (n := n), mirrorIdx_twice]

theorem mirrorR_twice (n : Nat) (r : LRange) : mirrorR n (mirrorR n r) = r := by
  simp only [mirrorR, mirrorIdx_twice]

theorem mirrorR_inj {n : Nat} {a b : LRange} (h : mirrorR n a = mirrorR n b) : a = b := by
  rw [← mirrorR_twice n a, h, mirrorR_twice]

theorem Rec.mirror_twice (n : Nat) (x : Rec W) : (x.mirror n).mirror n = x := by
  obtain ⟨k, r, v⟩ := x
  simp only [Rec.mirror, mirrorR_twice]

theorem Dir.mirror_twice (n : Nat) (d : Dir) : (d.mirror n).mirror n = d := by
  cases d <;> simp only [Dir.mirror, mirrorIdx_twice]

theorem Dir.mirror_at (n : Nat) (d : Dir) : (d.mirror n).at = mirrorIdx n d.at := by cases d <;> rfl

theorem mirrorL_twice {α : Type} (n : Nat) (rs : List (α × Nat)) : mirrorL n (mirrorL n rs) = rs := by
  simp only [mirrorL, List.map_map, Function.comp_def, mirrorIdx_twice]
  exact List.map_id rs

theorem rangesOf_mirror (k : Ty W) (h : History W) (n : Nat) :
    rangesOf k (h.map (Rec.mirror n)) = (rangesOf k h).map (mirrorR n) := by
  unfold rangesOf
  rw [← firsts_map _ (fun a b => mirrorR_inj), List.filter_map, List.map_map, List.map_map]
  rfl

theorem valuesOf_mirror (k : Ty W) (h : History W) (n : Nat) (r : LRange) :
    valuesOf k (mirrorR n r) (h.map (Rec.mirror n)) = valuesOf k r h := by
  unfold valuesOf
  rw [List.filterMap_map]
  congr 1
  funext x
  simp only [Function.comp]
  by_cases hx : x.range = r
  · rw [if_pos hx, if_pos (by simp [Rec.mirror, hx])]; rfl
  · rw [if_neg hx, if_neg (fun h : (Rec.mirror n x).range = mirrorR n r => hx (mirrorR_inj h))]

theorem SameOrder.mirror {h h' : History W} (n : Nat) (s : SameOrder h h') :
    SameOrder (h.map (Rec.mirror n)) (h'.map (Rec.mirror n)) := by
  intro k
  simp only [rangesOf_mirror, List.filter_map]
  refine ⟨fun i => ?_, fun i => ?_, fun r => ?_⟩
  · have e : ((fun r : LRange => decide (r.1 = i)) ∘ mirrorR n) = fun r => decide (r.2 = mirrorIdx n i) := by
      funext r; simp only [Function.comp, mirrorR, mirrorIdx_eq]
    rw [e, (s k).2.1]
  · have e : ((fun r : LRange => decide (r.2 = i)) ∘ mirrorR n) = fun r => decide (r.1 = mirrorIdx n i) := by
      funext r; simp only [Function.comp, mirrorR, mirrorIdx_eq]
    rw [e, (s k).1]
  · rw [← mirrorR_twice n r, valuesOf_mirror, valuesOf_mirror, (s k).2.2]

theorem Reversed.length {l l' : LLLine W} {h h' : History W} (s : Reversed l h l' h') :
    l'.ll_tokens.length = l.ll_tokens.length := by
  have := congrArg List.length s.tokens
  simpa using this

theorem Reversed.symm {l l' : LLLine W} {h h' : History W} (s : Reversed l h l' h') : Reversed l' h' l h := by
  refine ⟨by rw [s.tokens, List.reverse_reverse], ?_⟩
  have := (s.attrs.mirror l.ll_tokens.length).symm
  rw [List.map_map, show (Rec.mirror l.ll_tokens.length ∘ Rec.mirror l.ll_tokens.length) = (id : Rec W → Rec W) from
    funext (fun x => x.mirror_twice _), List.map_id] at this
  rw [s.length]
  exact this

theorem Reversed.token {l l' : LLLine W} {h h' : History W} (s : Reversed l h l' h') {i : Nat} (hi : i < l.ll_tokens.length) :
    (l'.ll_tokens[mirrorIdx l.ll_tokens.length i]?).map (·.token) = (l.ll_tokens[i]?).map (·.token) := by
  rw [← List.getElem?_map, ← List.getElem?_map, s.tokens, mirrorIdx_inside hi, List.getElem?_reverse (by simp; omega)]
  congr 1
  simp only [List.length_map]
  omega

/-! ### expressions -/

/-- what is found on the line written from right to left -/
def KeepsMirror (l l' : LLLine W) {Out : Type} (m : XMatch W Out) : Prop :=
  ∀ d : Dir, d.at < l.ll_tokens.length → ∀ rs, m.go d l = .ok rs →
    m.go (d.mirror l.ll_tokens.length) l' = .ok (mirrorL l.ll_tokens.length rs)

theorem lookD_mirror {β : Type} {near far near' far' : LRange → Nat} {n : Nat} (hn : ∀ r, near' (mirrorR n r) = mirrorIdx n (near r))
    (hf : ∀ r, far' (mirrorR n r) = mirrorIdx n (far r)) (k : Ty W) (g : List (Val k) → List β) {h h' : History W} (i : Nat)
    (hs : ∀ i, (rangesOf k (h.map (Rec.mirror n))).filter (fun r => decide (near' r = i)) =
      (rangesOf k h').filter (fun r => decide (near' r = i)))
    (hv : ∀ r, valuesOf k r (h.map (Rec.mirror n)) = valuesOf k r h') :
    lookD near' far' k g h' (mirrorIdx n i) = mirrorL n (lookD near far k g h i) := by
  unfold lookD mirrorL
  rw [← hs, rangesOf_mirror, List.filter_map, List.flatMap_map, List.map_flatMap]
  have : (fun r : LRange => decide (near' r = mirrorIdx n i)) ∘ mirrorR n = fun r => decide (near r = i) := by
    funext r; simp only [Function.comp, hn, mirrorIdx_inj]
  rw [this]
  congr 1
  funext r
  rw [← hv, valuesOf_mirror, List.map_map, hf]
  rfl

theorem user_mirror {I : Type} {A : I → Type} {Out : Type} {part : (i : I) → XMatch W (A i)} {l l' : LLLine W} {n : Nat} {d d' : Dir}
    (hp : ∀ i rs, (part i).go d l = .ok rs → (part i).go d' l' = .ok (mirrorL n rs)) (t : UserTree A Out) :
    ∀ seen rs, t.run part d l seen = .ok rs → t.run part d' l' (seen.map (mirrorIdx n)) = .ok (mirrorL n rs) := by
  induction t with
  | answer out =>
    intro seen rs hg
    simp only [UserTree.run, Except.ok.injEq] at hg ⊢
    subst hg
    rw [mirrorL, List.map_filterMap]
    congr 1
    funext x
    rw [List.getElem?_map, Option.map_map, Option.map_map]
    rfl
  | ask i next ih =>
    intro seen rs hg
    simp only [UserTree.run] at hg ⊢
    cases hpart : (part i).go d l with
    | error e => rw [hpart] at hg; cases hg
    | ok os =>
      rw [hpart] at hg
      rw [hp i os hpart]
      simp only at hg ⊢
      have e1 : (mirrorL n os).map (·.1) = os.map (·.1) := by rw [mirrorL, List.map_map]; rfl
      have e2 : seen.map (mirrorIdx n) ++ (mirrorL n os).map (·.2) = (seen ++ os.map (·.2)).map (mirrorIdx n) := by
        rw [mirrorL, List.map_append, List.map_map, List.map_map]; rfl
      rw [e1, e2]
      have e3 : (fun a b : Nat => decide (((seen ++ os.map (·.2)).map (mirrorIdx n))[a]? = ((seen ++ os.map (·.2)).map (mirrorIdx n))[b]?)) =
          fun a b : Nat => decide ((seen ++ os.map (·.2))[a]? = (seen ++ os.map (·.2))[b]?) := by
        funext a b
        congr 1
        rw [List.getElem?_map, List.getElem?_map]
        apply propext
        cases (seen ++ os.map (·.2))[a]? <;> cases (seen ++ os.map (·.2))[b]? <;> simp [mirrorIdx_inj]
      rw [e3]
      exact ih _ _ _ _ hg

theorem mirror_all2 {l l' : LLLine W} {α β : Type} {a : XMatch W α} {b : XMatch W β}
    (ha : KeepsMirror l l' a) (hb : KeepsMirror l l' b) : KeepsMirror l l' (X.all2 a b) := by
  intro d hd rs hg
  obtain ⟨as, bs, ga, gb, rfl⟩ := all2_ok_iff.1 hg
  refine all2_ok_iff.2 ⟨_, _, ha d hd _ ga, hb d hd _ gb, ?_⟩
  simp only [mirrorL, List.map_flatMap, List.flatMap_map, List.filterMap_map, List.map_filterMap]
  congr 1
  funext p
  congr 1
  funext q
  simp only [Function.comp, mirrorIdx_inj]
  split <;> rfl

theorem mirror_anyOf2 {l l' : LLLine W} {α β : Type} {a : XMatch W α} {b : XMatch W β}
    (ha : KeepsMirror l l' a) (hb : KeepsMirror l l' b) : KeepsMirror l l' (X.anyOf2 a b) := by
  intro d hd rs hg
  obtain ⟨as, ga, ⟨hne, rfl⟩ | ⟨rfl, bs, gb, rfl⟩⟩ := anyOf2_ok_iff.1 hg
  · refine anyOf2_ok_iff.2 ⟨_, ha d hd _ ga, Or.inl ⟨by simpa [mirrorL] using hne, ?_⟩⟩
    simp only [mirrorL, List.map_map]; rfl
  · refine anyOf2_ok_iff.2 ⟨_, ha d hd _ ga, Or.inr ⟨rfl, _, hb d hd _ gb, ?_⟩⟩
    simp only [mirrorL, List.map_map]; rfl

theorem mirror_after {l l' : LLLine W} (hlen : l'.ll_tokens.length = l.ll_tokens.length) (d : Dir) {i : Nat}
    (hi : i < l.ll_tokens.length) :
    (d.mirror l.ll_tokens.length).after (mirrorIdx l.ll_tokens.length i) l' = (d.after i l).map (Dir.mirror l.ll_tokens.length) := by
  rw [mirrorIdx_inside hi]
  cases d with
  | fwd j =>
    simp only [Dir.mirror, Dir.after]
    by_cases h : i + 1 < l.ll_tokens.length
    · rw [if_pos h, if_pos (by omega), Option.map_some, Dir.mirror, mirrorIdx_inside h]
      congr 1
    · rw [if_neg h, if_neg (by omega)]; rfl
  | bwd j =>
    simp only [Dir.mirror, Dir.after, hlen]
    by_cases h : i > 0
    · rw [if_pos h, if_pos (by omega), Option.map_some, Dir.mirror, mirrorIdx_inside (by omega)]
      congr 2; omega
    · rw [if_neg h, if_neg (by omega)]; rfl

theorem after_inside {l : LLLine W} {d d' : Dir} {i : Nat} (hi : i < l.ll_tokens.length) (h : d.after i l = some d') :
    d'.at < l.ll_tokens.length := by
  cases d <;> simp only [Dir.after] at h <;> split at h <;> cases h <;> simp only [Dir.at] <;> omega

theorem mirror_seq2 {l l' : LLLine W} {h : History W} (hr : Reachable l h) (hlen : l'.ll_tokens.length = l.ll_tokens.length)
    {α β : Type} {T : Ty W → Prop} {has : Bool} {a : XMatch W α} {b : XMatch W β} (ba : Built T has a)
    (ha : KeepsMirror l l' a) (hb : KeepsMirror l l' b) : KeepsMirror l l' (X.seq2 a b) := by
  intro d hd rs hg
  obtain ⟨as, ga, oka, rfl⟩ := seq2_ok_iff.1 hg
  have key : ∀ p ∈ as, ∀ bs, X.goAfter b d p.2 l = .ok bs →
      X.goAfter b (d.mirror l.ll_tokens.length) (mirrorIdx l.ll_tokens.length p.2) l' = .ok (mirrorL l.ll_tokens.length bs) := by
    intro p hp bs gb
    have hin := (built_results ba hr.rep False (fun c => c.elim) _ _ ga p hp).1
    simp only [X.goAfter] at gb ⊢
    rw [mirror_after hlen d hin]
    cases hd' : d.after p.2 l with
    | none => rw [hd'] at gb; cases gb; rfl
    | some d' => rw [hd'] at gb; exact hb d' (after_inside hin hd') bs gb
  refine seq2_ok_iff.2 ⟨_, ha d hd _ ga, ?_, ?_⟩
  · intro p hp
    obtain ⟨q, hq, rfl⟩ := List.mem_map.1 hp
    obtain ⟨bs, gb⟩ := oka q hq
    exact ⟨_, key q hq bs gb⟩
  · simp only [mirrorL, List.map_flatMap, List.flatMap_map]
    rw [List.flatMap_def, List.flatMap_def]
    refine congrArg List.flatten (List.map_congr_left (fun p hp => ?_))
    obtain ⟨bs, gb⟩ := oka p hp
    rw [okD_of gb, okD_of (key p hp bs gb)]
    simp only [mirrorL, List.map_map]
    rfl

/-- an expression without `x::token_has_any` finds the same in the other direction on the line written from right to left -/
theorem expr_mirror {l l' : LLLine W} {h h' : History W} (hr : Reachable l h) (hr' : Reachable l' h') (s : Reversed l h l' h')
    {T : Ty W → Prop} {Out : Type} {m : XMatch W Out} (hm : Built T false m) : KeepsMirror l l' m := by
  have hlen := s.length
  have lt : ∀ {i}, i < l.ll_tokens.length → mirrorIdx l.ll_tokens.length i < l'.ll_tokens.length :=
    fun hi => by rw [hlen]; exact mirrorIdx_lt hi
  have look : ∀ {β : Type} (k : Ty W) (g : List (Val k) → List β) (i : Nat),
      lookD (·.2) (·.1) k g h' (mirrorIdx l.ll_tokens.length i) = mirrorL l.ll_tokens.length (lookD (·.1) (·.2) k g h i) ∧
      lookD (·.1) (·.2) k g h' (mirrorIdx l.ll_tokens.length i) = mirrorL l.ll_tokens.length (lookD (·.2) (·.1) k g h i) := by
    intro β k g i
    exact ⟨lookD_mirror (fun _ => rfl) (fun _ => rfl) k g i (s.attrs k).2.1 (s.attrs k).2.2,
      lookD_mirror (fun _ => rfl) (fun _ => rfl) k g i (s.attrs k).1 (s.attrs k).2.2⟩
  induction hm with
  | attr k _ =>
    intro d hd rs hg
    cases d with
    | fwd i =>
      rw [show (X.attr k).go (.fwd i) l = _ from rep_attr_fwd hr.rep k hd] at hg
      cases hg
      refine (rep_attr_bwd hr'.rep k (lt hd)).trans (congrArg Except.ok ?_)
      exact (look k id i).1
    | bwd i =>
      rw [show (X.attr k).go (.bwd i) l = _ from rep_attr_bwd hr.rep k hd] at hg
      cases hg
      refine (rep_attr_fwd hr'.rep k (lt hd)).trans (congrArg Except.ok ?_)
      exact (look k id i).2
  | attrEq k _ v =>
    intro d hd rs hg
    cases d with
    | fwd i =>
      rw [show (X.attrEq k v).go (.fwd i) l = _ from rep_attrEq_fwd hr.rep k v hd] at hg
      cases hg
      refine (rep_attrEq_bwd hr'.rep k v (lt hd)).trans (congrArg Except.ok ?_)
      have := (look k (fun vs => (vs.filter (fun x => valEq k x v)).map (fun _ => ())) i).1
      simp only [lookD, List.map_map] at this
      exact this
    | bwd i =>
      rw [show (X.attrEq k v).go (.bwd i) l = _ from rep_attrEq_bwd hr.rep k v hd] at hg
      cases hg
      refine (rep_attrEq_fwd hr'.rep k v (lt hd)).trans (congrArg Except.ok ?_)
      have := (look k (fun vs => (vs.filter (fun x => valEq k x v)).map (fun _ => ())) i).2
      simp only [lookD, List.map_map] at this
      exact this
  | tokenHasAny k _ hh => cases hh
  | tokenText =>
    intro d hd rs hg
    have tok := s.token hd
    obtain ⟨t, g⟩ : ∃ t, l.ll_tokens[d.at]? = some t := ⟨_, List.getElem?_eq_getElem hd⟩
    obtain ⟨t', g'⟩ : ∃ t, l'.ll_tokens[mirrorIdx l.ll_tokens.length d.at]? = some t := ⟨_, List.getElem?_eq_getElem (lt hd)⟩
    rw [g, g'] at tok
    simp only [Option.map_some, Option.some.injEq] at tok
    cases d with
    | fwd i =>
      simp only [Dir.at] at g g'
      rw [textToken_fwd, g] at hg
      rw [Dir.mirror, textToken_bwd, g']
      simp only [tok]
      cases ht : t.token <;> simp only [ht] at hg ⊢ <;> cases hg <;> rfl
    | bwd i =>
      simp only [Dir.at] at g g'
      rw [textToken_bwd, g] at hg
      rw [Dir.mirror, textToken_fwd, g']
      simp only [tok]
      cases ht : t.token <;> simp only [ht] at hg ⊢ <;> cases hg <;> rfl
  | all2 _ _ iha ihb => exact mirror_all2 iha ihb
  | all3 _ _ _ iha ihb ihc =>
    intro d hd rs hg
    exact (all3_ok_eq _ _ _ _ _ _).2 (mirror_all2 iha (mirror_all2 ihb ihc) d hd rs ((all3_ok_eq _ _ _ _ _ _).1 hg))
  | anyOf2 _ _ iha ihb => exact mirror_anyOf2 iha ihb
  | @anyOf3 α β γ a b c _ _ _ iha ihb ihc =>
    intro d hd rs hg
    rw [anyOf3_eq] at hg ⊢
    cases h2 : (X.anyOf2 a (X.anyOf2 b c)).go d l with
    | error e => rw [h2] at hg; cases hg
    | ok out =>
      rw [h2] at hg
      cases hg
      rw [mirror_anyOf2 iha (mirror_anyOf2 ihb ihc) d hd out h2]
      simp only [mirrorL, List.map_map]
      rfl
  | seq2 ha _ iha ihb => exact mirror_seq2 hr hlen ha iha ihb
  | seq3 ha hb _ iha ihb ihc =>
    rw [seq3_eq]
    exact mirror_seq2 hr hlen ha iha (mirror_seq2 hr hlen hb ihb ihc)
  | user part t _ ih =>
    intro d hd rs hg
    exact user_mirror (fun i os => ih i d hd os) t [] rs hg
  | recursive f _ _ ih =>
    intro d hd rs hg
    simp only [X.limit] at hg ⊢
    rw [hlen]
    exact ih _ d hd rs hg

/-! ### trimming -/

theorem trimStart_nil {a b : Nat} {line : Rc (LLLine W)} {Out : Type} {m : XMatch W Out} (hab : a ≤ b)
    (hg : m.go (.fwd a) line.val = .ok []) : (⟨line, a, b⟩ : LLSelection W).trimStart m = .ok (some ⟨line, a, b⟩) := by
  simp [LLSelection.trimStart, LLSelection.trimSelection, hg, hab]

theorem trimEnd_nil {a b : Nat} {line : Rc (LLLine W)} {Out : Type} {m : XMatch W Out} (hab : a ≤ b)
    (hg : m.go (.bwd b) line.val = .ok []) : (⟨line, a, b⟩ : LLSelection W).trimEnd m = .ok (some ⟨line, a, b⟩) := by
  simp [LLSelection.trimEnd, LLSelection.trimSelection, hg, hab]

theorem trimStart_cons {a b j : Nat} {line : Rc (LLLine W)} {Out : Type} {m : XMatch W Out} {x : Out} {rs : List (Out × Nat)} (hab : a ≤ b)
    (hg : m.go (.fwd a) line.val = .ok ((x, j) :: rs)) :
    (⟨line, a, b⟩ : LLSelection W).trimStart m = .ok (if j + 1 ≤ b then some ⟨line, j + 1, b⟩ else none) := by
  simp only [LLSelection.trimStart, LLSelection.trimSelection, hg, List.head?_cons, if_true, Bool.false_eq_true, if_false]
  by_cases e : j + 1 ≤ b
  · rw [if_pos ⟨hab, e⟩, if_pos e]
  · rw [if_neg (fun h => e h.2), if_neg e]

theorem trimEnd_cons {a b j : Nat} {line : Rc (LLLine W)} {Out : Type} {m : XMatch W Out} {x : Out} {rs : List (Out × Nat)}
    (hg : m.go (.bwd b) line.val = .ok ((x, j) :: rs)) :
    (⟨line, a, b⟩ : LLSelection W).trimEnd m = .ok (if a ≤ j - 1 then some ⟨line, a, j - 1⟩ else none) := by
  have hc : (checkedSub j 1).getD j = j - 1 := by unfold checkedSub; split <;> simp; omega
  simp only [LLSelection.trimEnd, LLSelection.trimSelection, hg, List.head?_cons, if_true, Bool.false_eq_true, if_false, hc]
  by_cases e : a ≤ j - 1
  · rw [if_pos ⟨e, e⟩, if_pos e]
  · rw [if_neg (fun h => e h.2), if_neg e]

/-! ### rules -/

theorem Reversed.mem {l l' : LLLine W} {h h' : History W} (s : Reversed l h l' h') (x : Rec W) :
    x.mirror l.ll_tokens.length ∈ h' ↔ x ∈ h := by
  obtain ⟨k, r, v⟩ := x
  show (⟨k, mirrorR l.ll_tokens.length r, v⟩ : Rec W) ∈ h' ↔ _
  rw [← mem_valuesOf, ← mem_valuesOf, ← (s.attrs k).2.2, valuesOf_mirror]

theorem Pat.Turned.symm {α β : Type} {p : Pat W α} {q : Pat W β} {f : α → β} (h : p.Turned q f) :
    ∃ g, q.Turned p g ∧ (∀ x, g (f x) = x) ∧ ∀ y, f (g y) = y := by
  induction h with
  | attr k => exact ⟨id, .attr k, fun _ => rfl, fun _ => rfl⟩
  | attrEq k v => exact ⟨id, .attrEq k v, fun _ => rfl, fun _ => rfl⟩
  | text => exact ⟨id, .text, fun _ => rfl, fun _ => rfl⟩
  | seq _ _ iha ihb =>
    obtain ⟨g1, t1, l1, r1⟩ := iha
    obtain ⟨g2, t2, l2, r2⟩ := ihb
    exact ⟨_, .seq t2 t1, fun x => by simp only [l1, l2], fun y => by simp only [r1, r2]⟩
  | both _ _ iha ihb =>
    obtain ⟨g1, t1, l1, r1⟩ := iha
    obtain ⟨g2, t2, l2, r2⟩ := ihb
    exact ⟨_, .both t1 t2, fun x => by simp only [l1, l2], fun y => by simp only [r1, r2]⟩

theorem Rule.Turned.symm {r r' : Rule W} (h : r.Turned r') : r'.Turned r := by
  obtain ⟨k, p, q, f, v, w, pat, values⟩ := h
  obtain ⟨g, t, _, r1⟩ := pat.symm
  exact .mk k q p g w v t (fun y => by rw [← values, r1])

/-- facts about ranges of the line -/
def InLine (n : Nat) (x : Rec W) : Prop := x.range.1 ≤ x.range.2 ∧ x.range.2 < n

theorem holds_inside {l : LLLine W} {F : Rec W → Prop} (hF : ∀ x, F x → InLine l.ll_tokens.length x) {α : Type} (p : Pat W α) :
    ∀ i j x, p.Holds l F i j x → i ≤ j ∧ j < l.ll_tokens.length := by
  induction p with
  | attr k => intro i j x hx; exact hF _ hx
  | attrEq k v => rintro i j x ⟨w, _, hx⟩; exact hF _ hx
  | text =>
    rintro i j x ⟨rfl, hx⟩
    refine ⟨Nat.le_refl _, Classical.byContradiction fun hc => ?_⟩
    rw [textAt, List.getElem?_eq_none (by omega)] at hx
    cases hx
  | seq a b iha ihb =>
    rintro i j ⟨x, y⟩ ⟨m, ha, hb⟩
    have := iha _ _ _ ha
    have := ihb _ _ _ hb
    omega
  | both a b iha ihb =>
    rintro i j ⟨x, y⟩ ⟨ha, hb⟩
    exact iha _ _ _ ha

theorem holds_mirror {l l' : LLLine W} {h h' : History W} (s : Reversed l h l' h') {F F' : Rec W → Prop}
    (hF : ∀ x, F x → InLine l.ll_tokens.length x) (hFF : ∀ x, F x → F' (x.mirror l.ll_tokens.length))
    {α β : Type} {p : Pat W α} {q : Pat W β} {f : α → β} (t : p.Turned q f) :
    ∀ i j x, p.Holds l F i j x →
      q.Holds l' F' (mirrorIdx l.ll_tokens.length j) (mirrorIdx l.ll_tokens.length i) (f x) := by
  induction t with
  | attr k => intro i j x hx; exact hFF _ hx
  | attrEq k v => rintro i j x ⟨w, hw, hx⟩; exact ⟨w, hw, hFF _ hx⟩
  | text =>
    intro i j x hx
    have hi := holds_inside hF (.text) i j x hx
    obtain ⟨rfl, hx⟩ := hx
    refine ⟨rfl, ?_⟩
    have tok := s.token hi.2
    rw [textAt] at hx ⊢
    cases g : l.ll_tokens[i]? with
    | none => rw [g] at hx; cases hx
    | some t =>
      rw [g] at hx tok
      cases g' : l'.ll_tokens[mirrorIdx l.ll_tokens.length i]? with
      | none => rw [g'] at tok; cases tok
      | some t' =>
        rw [g'] at tok
        simp only [Option.map_some, Option.some.injEq] at tok
        simp only [Option.bind_some, tok] at hx ⊢
        exact hx
  | @seq _ _ _ _ a a' f b b' g _ _ iha ihb =>
    rintro i j ⟨x, y⟩ ⟨m, ha, hb⟩
    have h1 := holds_inside hF a _ _ _ ha
    have h2 := holds_inside hF b _ _ _ hb
    refine ⟨_, ihb _ _ _ hb, ?_⟩
    have e : mirrorIdx l.ll_tokens.length (m + 1) + 1 = mirrorIdx l.ll_tokens.length m := by
      rw [mirrorIdx_inside (by omega), mirrorIdx_inside (by omega)]; omega
    rw [e]
    exact iha _ _ _ ha
  | both _ _ iha ihb =>
    rintro i j ⟨x, y⟩ ⟨ha, hb⟩
    exact ⟨iha _ _ _ ha, ihb _ _ _ hb⟩

/-- what follows by rules, follows by the turned rules on the line written from right to left -/
theorem derivable_mirror {l l' : LLLine W} {h h' : History W} (s : Reversed l h l' h') (hh : ∀ x ∈ h, InLine l.ll_tokens.length x)
    {rules rules' : List (Rule W)} (ht : ∀ r ∈ rules, ∃ r' ∈ rules', r.Turned r') {x : Rec W} (hx : Derivable l h rules x) :
    InLine l.ll_tokens.length x ∧ Derivable l' h' rules' (x.mirror l.ll_tokens.length) := by
  have key : ∀ F' : Rec W → Prop, (∀ y ∈ h', F' y) → Closed l' rules' F' →
      InLine l.ll_tokens.length x ∧ F' (x.mirror l.ll_tokens.length) := by
    intro F' h1 h2
    refine hx (fun x => InLine l.ll_tokens.length x ∧ F' (x.mirror l.ll_tokens.length))
      (fun y hy => ⟨hh y hy, h1 _ ((s.mem y).2 hy)⟩) ?_
    rintro r hr y ⟨i, j, found, v, hold, hv, rfl⟩
    obtain ⟨r', hr', turned⟩ := ht r hr
    refine ⟨holds_inside (fun x hx => hx.1) _ i j found hold, ?_⟩
    obtain ⟨k, p, q, f, vv, w, pat, values⟩ := turned
    refine h2 _ hr' _ ⟨_, _, f found, v, holds_mirror s (fun x hx => hx.1) (fun x hx => hx.2) pat i j found hold, ?_, rfl⟩
    show v ∈ w (f found)
    rw [values]; exact hv
  exact ⟨(key (fun _ => True) (fun _ _ => trivial) (fun _ _ _ _ => trivial)).1, fun F' h1 h2 => (key F' h1 h2).2⟩

theorem Reversed.inLine {l l' : LLLine W} {h h' : History W} (s : Reversed l h l' h') (hh : ∀ x ∈ h, InLine l.ll_tokens.length x) :
    ∀ x ∈ h', InLine l'.ll_tokens.length x := by
  intro x hx
  have hm := (s.mem (x.mirror l.ll_tokens.length)).1 (by rw [Rec.mirror_twice]; exact hx)
  have h1 := hh _ hm
  have e : x = (x.mirror l.ll_tokens.length).mirror l.ll_tokens.length := (x.mirror_twice _).symm
  generalize x.mirror l.ll_tokens.length = y at h1 e
  subst e
  rw [s.length]
  unfold InLine at h1 ⊢
  simp only [Rec.mirror, mirrorR]
  rw [mirrorIdx_inside (by omega), mirrorIdx_inside (by omega)]
  omega

/-! ### fresh lines -/

theorem zip_values {α : Type _} {k : Ty W} (D : α → Nat → History W) (V : α → List (Val k))
    (hD : ∀ t i r, valuesOf k r (D t i) = if r = (i, i) then V t else []) : ∀ (xs : List α) (s : Nat) (r : LRange),
    valuesOf k r ((xs.zipIdx s).flatMap (fun p => D p.1 p.2)) =
      if r.1 = r.2 ∧ s ≤ r.1 then (xs[r.1 - s]?).elim [] V else []
  | [], s, r => by simp [valuesOf]
  | x :: xs, s, r => by
    obtain ⟨a, b⟩ := r
    rw [List.zipIdx_cons, List.flatMap_cons, valuesOf_append, hD, zip_values D V hD xs (s + 1)]
    by_cases e : a = b
    · subst e
      simp only [Prod.mk.injEq, and_self, true_and]
      by_cases e1 : a = s
      · subst e1; simp; omega
      · by_cases e2 : s + 1 ≤ a
        · have e3 : a - s = (a - (s + 1)) + 1 := by omega
          rw [if_neg e1, if_pos e2, if_pos (by omega), e3]; simp
        · rw [if_neg e1, if_neg e2, if_neg (by omega)]; rfl
    · simp only [Prod.mk.injEq]
      rw [if_neg (by omega), if_neg (by omega), if_neg (by omega)]; rfl

/-- the token of an input of one token -/
def onlyToken (W : World) (size : Str → Nat) (t : InputToken W) : LToken := ((tokensOf W size t).head?.map (·.1)).getD .Value

theorem single_tokens {size : Str → Nat} : ∀ {input : List (InputToken W)}, (∀ t ∈ input, SingleInput W t) →
    (input.flatMap (tokensOf W size)).map (·.1) = input.map (onlyToken W size)
  | [], _ => rfl
  | t :: ts, h => by
    obtain ⟨a, ha⟩ := List.length_eq_one_iff.1 (h t (by simp) size)
    rw [List.flatMap_cons, List.map_append, single_tokens (fun t ht => h t (by simp [ht])), List.map_cons, onlyToken, ha]
    rfl

theorem single_history {size : Str → Nat} : ∀ {input : List (InputToken W)} (i : Nat), (∀ t ∈ input, SingleInput W t) →
    inputHistory W size i input =
      (input.zipIdx i).flatMap (fun p => p.1.attrList.map (fun a => ⟨a.value.ty, (p.2, p.2), a.value.val⟩))
  | [], _, _ => rfl
  | t :: ts, i, h => by
    rw [inputHistory, h t (by simp) size, single_history (i + 1) (fun t ht => h t (by simp [ht]))]
    rfl

theorem on_token (k : Ty W) (h : History W) (i : Nat) (r : LRange) :
    valuesOf k r (h.map (fun x => { x with range := (i, i) })) = if r = (i, i) then h.filterMap (·.valAs k) else [] := by
  unfold valuesOf
  rw [List.filterMap_map]
  by_cases e : r = (i, i)
  · subst e
    rw [if_pos rfl]
    congr 1
    funext x
    simp only [Function.comp, if_true]
    rfl
  · rw [if_neg e, List.filterMap_eq_nil_iff]
    intro x _
    simp only [Function.comp]
    exact if_neg (fun h => e h.symm)

theorem builtinOf_values (k : Ty W) (tok : LToken) (i : Nat) (r : LRange) :
    valuesOf k r (builtinOf W tok i) = if r = (i, i) then (builtinOf W tok 0).filterMap (·.valAs k) else [] := by
  rw [← on_token]
  congr 1
  unfold builtinOf
  split <;> rfl

theorem attrs_values (k : Ty W) (as : List (AnyAttribute W)) (i : Nat) (r : LRange) :
    valuesOf k r (as.map (fun a => (⟨a.value.ty, (i, i), a.value.val⟩ : Rec W))) =
      if r = (i, i) then (as.map (fun a => (⟨a.value.ty, (0, 0), a.value.val⟩ : Rec W))).filterMap (·.valAs k) else [] := by
  rw [← on_token, List.map_map]
  rfl

theorem single_values {size : Str → Nat} (k : Ty W) : ∃ V : InputToken W → List (Val k),
    ∀ (input : List (InputToken W)), (∀ t ∈ input, SingleInput W t) → ∀ r : LRange,
      valuesOf k r (creationHistory W size input) = if r.1 = r.2 then (input[r.1]?).elim [] V else [] := by
  refine ⟨fun t => (builtinOf W (onlyToken W size t) 0).filterMap (·.valAs k) ++
    (t.attrList.map (fun a => (⟨a.value.ty, (0, 0), a.value.val⟩ : Rec W))).filterMap (·.valAs k), fun input hs r => ?_⟩
  rw [creationHistory, valuesOf_append, single_tokens hs, single_history 0 hs, builtinHistory]
  have e1 : (input.map (onlyToken W size)).zipIdx.flatMap (fun p => builtinOf W p.1 p.2) =
      input.zipIdx.flatMap (fun p => builtinOf W (onlyToken W size p.1) p.2) := by
    rw [List.zipIdx_map, List.flatMap_map]; rfl
  rw [e1, zip_values (fun (t : InputToken W) i => builtinOf W (onlyToken W size t) i)
      (fun t => (builtinOf W (onlyToken W size t) 0).filterMap (·.valAs k)) (fun t i r => builtinOf_values k _ i r),
    zip_values (fun (t : InputToken W) i => t.attrList.map (fun a => (⟨a.value.ty, (i, i), a.value.val⟩ : Rec W))) _
      (fun t i r => attrs_values k _ i r)]
  simp only [Nat.zero_le, and_true, Nat.sub_zero]
  split
  · cases input[r.1]? <;> rfl
  · rfl

theorem single_creation {size : Str → Nat} {input : List (InputToken W)} (hs : ∀ t ∈ input, SingleInput W t) :
    ∀ x ∈ creationHistory W size input, x.range.1 = x.range.2 := by
  intro x hx
  obtain ⟨k, r, v⟩ := x
  obtain ⟨V, hV⟩ := single_values (W := W) (size := size) k
  have hv := mem_valuesOf.2 hx
  rw [hV input hs r] at hv
  split at hv
  · assumption
  · cases hv

/-- for attributes of single tokens, the values say everything -/
theorem singles_sameOrder {h h' : History W} (s : ∀ x ∈ h, x.range.1 = x.range.2) (s' : ∀ x ∈ h', x.range.1 = x.range.2)
    (hv : ∀ k r, valuesOf k r h = valuesOf k r h') : SameOrder h h' := by
  have one : ∀ {h : History W} (_ : ∀ x ∈ h, x.range.1 = x.range.2) (k : Ty W) (i : Nat) (near : LRange → Nat)
      (_ : near = Prod.fst ∨ near = Prod.snd),
      (rangesOf k h).filter (fun r => decide (near r = i)) = if valuesOf k (i, i) h = [] then [] else [(i, i)] := by
    intro h s k i near hn
    have all : ∀ r ∈ (rangesOf k h).filter (fun r => decide (near r = i)), r = (i, i) := by
      intro r hr
      obtain ⟨h1, h2⟩ := List.mem_filter.1 hr
      obtain ⟨v, hv⟩ := mem_rangesOf.1 h1
      have h3 : r.1 = r.2 := s _ hv
      have h4 : near r = i := of_decide_eq_true h2
      obtain ⟨a, b⟩ := r
      rcases hn with rfl | rfl <;> simp only at h3 h4 <;> simp only [Prod.mk.injEq] <;> omega
    have nd : ((rangesOf k h).filter (fun r => decide (near r = i))).Nodup := (rangesOf_nodup k h).filter _
    split
    · rename_i hnil
      rw [List.eq_nil_iff_forall_not_mem]
      intro r hr
      have := all r hr
      subst this
      exact mem_rangesOf_iff_values.1 (List.mem_filter.1 hr).1 hnil
    · rename_i hne
      have hm : (i, i) ∈ (rangesOf k h).filter (fun r => decide (near r = i)) := by
        refine List.mem_filter.2 ⟨mem_rangesOf_iff_values.2 hne, ?_⟩
        rcases hn with rfl | rfl <;> exact decide_eq_true rfl
      generalize (rangesOf k h).filter (fun r => decide (near r = i)) = xs at all nd hm
      match xs, all, nd, hm with
      | [a], all, _, _ => rw [all a (by simp)]
      | a :: b :: xs, all, nd, _ =>
        rw [all a (by simp), all b (by simp)] at nd
        simp at nd
  intro k
  refine ⟨fun i => ?_, fun i => ?_, hv k⟩
  · rw [one s k i _ (.inl rfl), one s' k i _ (.inl rfl), hv]
  · rw [one s k i _ (.inr rfl), one s' k i _ (.inr rfl), hv]

theorem lines_reversed {size : Str → Nat} {input : List (InputToken W)} {l l' : LLLine W} (wf : ∀ t ∈ input, t.WF)
    (hs : ∀ t ∈ input, SingleInput W t) (ok : createLineFromInputTokens W input size = .ok l)
    (ok' : createLineFromInputTokens W input.reverse size = .ok l') :
    Reversed l (creationHistory W size input) l' (creationHistory W size input.reverse) := by
  have hs' : ∀ t ∈ input.reverse, SingleInput W t := fun t ht => hs t (List.mem_reverse.1 ht)
  obtain ⟨_, t1, _⟩ := create_inv wf ok
  obtain ⟨_, t2, _⟩ := create_inv (fun t ht => wf t (List.mem_reverse.1 ht)) ok'
  have e1 : l.ll_tokens.map (·.token) = input.map (onlyToken W size) := by rw [t1, layoutM_tokens, single_tokens hs]
  have e2 : l'.ll_tokens.map (·.token) = input.reverse.map (onlyToken W size) := by rw [t2, layoutM_tokens, single_tokens hs']
  have hn : l.ll_tokens.length = input.length := by simpa using congrArg List.length e1
  refine ⟨by rw [e1, e2, List.map_reverse], singles_sameOrder ?_ (single_creation hs') (fun k r => ?_)⟩
  · intro x hx
    obtain ⟨y, hy, rfl⟩ := List.mem_map.1 hx
    simp only [Rec.mirror, mirrorR, mirrorIdx_inj]
    exact (single_creation hs y hy).symm
  · obtain ⟨V, hV⟩ := single_values (W := W) (size := size) k
    rw [hV _ hs', ← mirrorR_twice l.ll_tokens.length r, valuesOf_mirror, hV _ hs, mirrorR_twice, hn]
    simp only [mirrorR, mirrorIdx_inj, eq_comm (a := r.2)]
    split
    · rename_i e
      rw [← e]
      by_cases hi : r.1 < input.length
      · rw [mirrorIdx_inside hi, List.getElem?_reverse (by omega)]
      · rw [mirrorIdx, if_neg hi, List.getElem?_eq_none (by omega), List.getElem?_eq_none (by simp; omega)]
    · rfl

end LNlp
