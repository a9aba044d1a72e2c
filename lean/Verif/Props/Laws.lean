import Verif.Lemmas.Algebra
import Verif.Props.Select
import Verif.Props.Match
/-
C108: distributive laws of the matcher combinators.
-/
namespace LNlp
variable {W : World} {α β γ δ : Type}

/-! ### C108 -/

/-- `a b | a c` read as `a (b | c)` -/
def AnyOf2.factor : AnyOf2 (α × β) (α × γ) → α × AnyOf2 β γ
  | .A p => (p.1, .A p.2)
  | .B p => (p.1, .B p.2)

/-- C108, first law: choosing after a sequence has begun is choosing between two sequences. -/
def C108_sequence_claim : Prop := ∀ (W : World) (l : LLLine W) (h : History W) (α β γ : Type)
  (a : XMatch W α) (b : XMatch W β) (c : XMatch W γ) (d : Dir) (out1 : List ((α × AnyOf2 β γ) × Nat))
  (out2 : List (AnyOf2 (α × β) (α × γ) × Nat)), Reachable l h → Builtin a → Builtin b → Builtin c →
  (X.seq2 a (X.anyOf2 b c)).go d l = .ok out1 → (X.anyOf2 (X.seq2 a b) (X.seq2 a c)).go d l = .ok out2 →
  ∀ p, p ∈ out1 ↔ p ∈ out2.map (fun p => (p.1.factor, p.2))

/-- C108, second law: the same for `all`. -/
def C108_all_claim : Prop := ∀ (W : World) (l : LLLine W) (h : History W) (α β γ : Type)
  (a : XMatch W α) (b : XMatch W β) (c : XMatch W γ) (d : Dir) (out1 : List ((α × AnyOf2 β γ) × Nat))
  (out2 : List (AnyOf2 (α × β) (α × γ) × Nat)), Reachable l h → Builtin a → Builtin b → Builtin c →
  (X.all2 a (X.anyOf2 b c)).go d l = .ok out1 → (X.anyOf2 (X.all2 a b) (X.all2 a c)).go d l = .ok out2 →
  ∀ p, p ∈ out1 ↔ p ∈ out2.map (fun p => (p.1.factor, p.2))

/-- C108, third law: two sequences on one range are a sequence of pairs on one range. -/
def C108_interchange_claim : Prop := ∀ (W : World) (l : LLLine W) (h : History W) (α β γ δ : Type)
  (a : XMatch W α) (b : XMatch W β) (a' : XMatch W γ) (b' : XMatch W δ) (d : Dir) (out1 : List (((α × β) × (γ × δ)) × Nat))
  (out2 : List (((α × γ) × (β × δ)) × Nat)), Reachable l h → Builtin a → Builtin b → Builtin a' → Builtin b' →
  (X.all2 (X.seq2 a b) (X.seq2 a' b')).go d l = .ok out1 → (X.seq2 (X.all2 a a') (X.all2 b b')).go d l = .ok out2 →
  ∀ x y z w j, (((x, y), (z, w)), j) ∈ out1 ↔ (((x, z), (y, w)), j) ∈ out2

/-- C108, what holds of the first law: whatever the choice of sequences finds, the sequence with the choice
finds; and if `a b` is found nowhere here, they find the same, in the same order and as often. -/
theorem C108_sequence_partial (a : XMatch W α) (b : XMatch W β) (c : XMatch W γ) (d : Dir) (l : LLLine W)
    (out1 : List ((α × AnyOf2 β γ) × Nat)) (out2 : List (AnyOf2 (α × β) (α × γ) × Nat))
    (h1 : (X.seq2 a (X.anyOf2 b c)).go d l = .ok out1) (h2 : (X.anyOf2 (X.seq2 a b) (X.seq2 a c)).go d l = .ok out2) :
    (∀ p ∈ out2, (p.1.factor, p.2) ∈ out1) ∧
    ((X.seq2 a b).go d l = .ok [] → out1 = out2.map (fun p => (p.1.factor, p.2))) := by
  have second : (X.seq2 a b).go d l = .ok [] → out1 = out2.map (fun p => (p.1.factor, p.2)) := by
    intro hab
    obtain ⟨sab, hsab, hcase⟩ := anyOf2_ok_iff.1 h2
    rw [hab] at hsab
    cases hsab
    rcases hcase with ⟨hne, _⟩ | ⟨_, sac, hsac, rfl⟩
    · exact absurd rfl hne
    · obtain ⟨as, ha, hb, hnil⟩ := seq2_ok_iff.1 hab
      obtain ⟨as1, ha1, _, rfl⟩ := seq2_ok_iff.1 h1
      obtain ⟨as2, ha2, hc, rfl⟩ := seq2_ok_iff.1 hsac
      rw [ha] at ha1 ha2
      cases ha1; cases ha2
      rw [List.map_map, List.map_flatMap]
      apply flatMap_congr'
      intro pa hpa
      obtain ⟨bs, hbs⟩ := hb pa hpa
      obtain ⟨cs, hcs⟩ := hc pa hpa
      have hbn : bs = [] := by
        have := (List.flatMap_eq_nil_iff.1 hnil.symm) pa hpa
        rw [hbs] at this
        simpa [okD] using this
      subst hbn
      have hbc : X.goAfter (X.anyOf2 b c) d pa.2 l = .ok (cs.map (fun p => (AnyOf2.B p.1, p.2))) := by
        simp only [X.goAfter] at hbs hcs ⊢
        cases hd : d.after pa.2 l with
        | none => rw [hd] at hcs; cases hcs; rfl
        | some d' =>
          rw [hd] at hbs hcs
          exact anyOf2_ok_iff.2 ⟨[], hbs, Or.inr ⟨rfl, cs, hcs, rfl⟩⟩
      rw [hbc, hcs]
      simp only [okD, List.map_map]
      rfl
  refine ⟨fun p hp => ?_, second⟩
  obtain ⟨sab, hsab, hcase⟩ := anyOf2_ok_iff.1 h2
  rcases hcase with ⟨_, rfl⟩ | ⟨rfl, _⟩
  · obtain ⟨⟨⟨x, y⟩, j⟩, hq, rfl⟩ := List.mem_map.1 hp
    obtain ⟨as, m, d', bs, ha, hx, hn, hb, hy⟩ := (mem_seq2 hsab).1 hq
    refine (mem_seq2 h1).2 ⟨as, m, d', bs.map (fun p => (AnyOf2.A p.1, p.2)), ha, hx, hn, ?_, List.mem_map.2 ⟨_, hy, rfl⟩⟩
    exact anyOf2_ok_iff.2 ⟨bs, hb, Or.inl ⟨List.ne_nil_of_mem hy, rfl⟩⟩
  · rw [second hsab]
    exact List.mem_map.2 ⟨p, hp, rfl⟩

/-- C108, what holds of the second law: whatever `all` with a choice finds, the choice between two `all` finds. -/
theorem C108_all_partial (a : XMatch W α) (b : XMatch W β) (c : XMatch W γ) (d : Dir) (l : LLLine W)
    (out1 : List ((α × AnyOf2 β γ) × Nat)) (out2 : List (AnyOf2 (α × β) (α × γ) × Nat))
    (h1 : (X.all2 a (X.anyOf2 b c)).go d l = .ok out1) (h2 : (X.anyOf2 (X.all2 a b) (X.all2 a c)).go d l = .ok out2) :
    (∀ p ∈ out1, p ∈ out2.map (fun p => (p.1.factor, p.2))) ∧
    (∀ x y j, ((x, AnyOf2.A y), j) ∈ out1 ↔ (AnyOf2.A (x, y), j) ∈ out2) := by
  obtain ⟨sab, hsab, hcase⟩ := anyOf2_ok_iff.1 h2
  have hA : ∀ x y j, ((x, AnyOf2.A y), j) ∈ out1 ↔ ((x, y), j) ∈ sab := by
    intro x y j
    rw [mem_all2 h1, mem_all2 hsab]
    constructor
    · rintro ⟨as, bcs, ha, hbc, hx, hy⟩
      obtain ⟨bs, hb, ⟨_, rfl⟩ | ⟨_, cs, _, rfl⟩⟩ := anyOf2_ok_iff.1 hbc
      · obtain ⟨q, hq, e⟩ := List.mem_map.1 hy
        cases e
        exact ⟨as, bs, ha, hb, hx, hq⟩
      · obtain ⟨q, hq, e⟩ := List.mem_map.1 hy
        cases e
    · rintro ⟨as, bs, ha, hb, hx, hy⟩
      exact ⟨as, _, ha, anyOf2_ok_iff.2 ⟨bs, hb, Or.inl ⟨List.ne_nil_of_mem hy, rfl⟩⟩, hx, List.mem_map.2 ⟨_, hy, rfl⟩⟩
  have hA2 : ∀ x y j, ((x, y), j) ∈ sab ↔ (AnyOf2.A (x, y), j) ∈ out2 := by
    intro x y j
    rcases hcase with ⟨_, rfl⟩ | ⟨rfl, sac, _, rfl⟩
    · constructor
      · intro h; exact List.mem_map.2 ⟨_, h, rfl⟩
      · intro h; obtain ⟨⟨⟨x', y'⟩, j'⟩, hq, e⟩ := List.mem_map.1 h; cases e; exact hq
    · constructor
      · intro h; cases h
      · intro h; obtain ⟨q, hq, e⟩ := List.mem_map.1 h; cases e
  refine ⟨?_, fun x y j => (hA x y j).trans (hA2 x y j)⟩
  rintro ⟨⟨x, v⟩, j⟩ hp
  cases v with
  | A y => exact List.mem_map.2 ⟨_, (hA2 x y j).1 ((hA x y j).1 hp), rfl⟩
  | B z =>
    obtain ⟨as, bcs, ha, hbc, hx, hy⟩ := (mem_all2 h1).1 hp
    obtain ⟨bs, hb, ⟨_, rfl⟩ | ⟨rfl, cs, hc, rfl⟩⟩ := anyOf2_ok_iff.1 hbc
    · obtain ⟨q, hq, e⟩ := List.mem_map.1 hy
      cases e
    · obtain ⟨q, hq, e⟩ := List.mem_map.1 hy
      cases e
      have hnil : sab = [] := by
        apply List.eq_nil_iff_forall_not_mem.2
        rintro ⟨⟨x', y'⟩, j'⟩ hm
        obtain ⟨_, bs', _, hb', _, hy'⟩ := (mem_all2 hsab).1 hm
        rw [hb] at hb'; cases hb'; cases hy'
      rcases hcase with ⟨hne, _⟩ | ⟨_, sac, hsac, rfl⟩
      · exact absurd hnil hne
      · exact List.mem_map.2 ⟨(.B (x, q.1), q.2), List.mem_map.2 ⟨_, (mem_all2 hsac).2 ⟨as, cs, ha, hc, hx, hq⟩, rfl⟩, rfl⟩

/-- C108, what holds of the third law: the sequence of pairs is found by the pair of sequences; and they find
the same if the first parts end on the same token. -/
theorem C108_interchange_partial (a : XMatch W α) (b : XMatch W β) (a' : XMatch W γ) (b' : XMatch W δ) (d : Dir) (l : LLLine W)
    (out1 : List (((α × β) × (γ × δ)) × Nat)) (out2 : List (((α × γ) × (β × δ)) × Nat))
    (h1 : (X.all2 (X.seq2 a b) (X.seq2 a' b')).go d l = .ok out1) (h2 : (X.seq2 (X.all2 a a') (X.all2 b b')).go d l = .ok out2)
    (x : α) (y : β) (z : γ) (w : δ) (j : Nat) :
    ((((x, z), (y, w)), j) ∈ out2 → (((x, y), (z, w)), j) ∈ out1) ∧
    ((∀ as as', a.go d l = .ok as → a'.go d l = .ok as' → ∀ p ∈ as, ∀ q ∈ as', p.2 = q.2) →
      ((((x, z), (y, w)), j) ∈ out2 ↔ (((x, y), (z, w)), j) ∈ out1)) := by
  obtain ⟨s1, s2, hs1, hs2, _⟩ := all2_ok_iff.1 h1
  have to : (((x, z), (y, w)), j) ∈ out2 → (((x, y), (z, w)), j) ∈ out1 := by
    intro h
    obtain ⟨aas, m, d', bbs, haa, hx, hn, hbb, hy⟩ := (mem_seq2 h2).1 h
    obtain ⟨as, as', ha, ha', hx1, hx2⟩ := (mem_all2 haa).1 hx
    obtain ⟨bs, bs', hb, hb', hy1, hy2⟩ := (mem_all2 hbb).1 hy
    exact (mem_all2 h1).2 ⟨s1, s2, hs1, hs2, (mem_seq2 hs1).2 ⟨as, m, d', bs, ha, hx1, hn, hb, hy1⟩,
      (mem_seq2 hs2).2 ⟨as', m, d', bs', ha', hx2, hn, hb', hy2⟩⟩
  refine ⟨to, fun same => ⟨to, fun h => ?_⟩⟩
  obtain ⟨t1, t2, ht1, ht2, hm1, hm2⟩ := (mem_all2 h1).1 h
  obtain ⟨as, m, d', bs, ha, hx1, hn, hb, hy1⟩ := (mem_seq2 ht1).1 hm1
  obtain ⟨as', m', d'', bs', ha', hx2, hn', hb', hy2⟩ := (mem_seq2 ht2).1 hm2
  obtain rfl : m = m' := same as as' ha ha' _ hx1 _ hx2
  obtain rfl : d' = d'' := by
    have e1 := after_iff.2 hn
    have e2 := after_iff.2 hn'
    rw [e1] at e2; cases e2; rfl
  obtain ⟨aas, haa⟩ : ∃ aas, (X.all2 a a').go d l = .ok aas := ⟨_, all2_ok_iff.2 ⟨as, as', ha, ha', rfl⟩⟩
  obtain ⟨bbs, hbb⟩ : ∃ bbs, (X.all2 b b').go d' l = .ok bbs := ⟨_, all2_ok_iff.2 ⟨bs, bs', hb, hb', rfl⟩⟩
  exact (mem_seq2 h2).2 ⟨aas, m, d', bbs, haa, (mem_all2 haa).2 ⟨as, as', ha, ha', hx1, hx2⟩, hn, hbb,
    (mem_all2 hbb).2 ⟨bs, bs', hb, hb', hy1, hy2⟩⟩

/-- C108, exactly when the first law holds here: `a b` is found nowhere, or no `a` is followed by `c` only. -/
theorem C108_sequence_exact (a : XMatch W α) (b : XMatch W β) (c : XMatch W γ) (d : Dir) (l : LLLine W)
    (out1 : List ((α × AnyOf2 β γ) × Nat)) (out2 : List (AnyOf2 (α × β) (α × γ) × Nat))
    (h1 : (X.seq2 a (X.anyOf2 b c)).go d l = .ok out1) (h2 : (X.anyOf2 (X.seq2 a b) (X.seq2 a c)).go d l = .ok out2) :
    (∀ p, p ∈ out1 ↔ p ∈ out2.map (fun p => (p.1.factor, p.2))) ↔
    ((X.seq2 a b).go d l = .ok [] ∨ ∀ as x m d' cs, a.go d l = .ok as → (x, m) ∈ as → d.Next m l d' →
      b.go d' l = .ok [] → c.go d' l = .ok cs → cs = []) := by
  obtain ⟨to, same⟩ := C108_sequence_partial a b c d l out1 out2 h1 h2
  obtain ⟨sab, hsab, hcase⟩ := anyOf2_ok_iff.1 h2
  constructor
  · intro eq
    rcases hcase with ⟨_, rfl⟩ | ⟨rfl, _⟩
    · refine Or.inr fun as x m d' cs ha hx hn hb hc => ?_
      cases cs with
      | nil => rfl
      | cons q qs =>
        have hm : ((x, AnyOf2.B q.1), q.2) ∈ out1 :=
          (mem_seq2 h1).2 ⟨as, m, d', _, ha, hx, hn, anyOf2_ok_iff.2 ⟨[], hb, Or.inr ⟨rfl, _, hc, rfl⟩⟩,
            List.mem_map.2 ⟨q, List.mem_cons_self .., rfl⟩⟩
        obtain ⟨r, hr, e⟩ := List.mem_map.1 ((eq _).1 hm)
        obtain ⟨r', _, rfl⟩ := List.mem_map.1 hr
        simp only [AnyOf2.factor, Prod.mk.injEq] at e
        cases e.1.2
    · exact Or.inl hsab
  · rintro (hnil | none) p
    · rw [same hnil]
    · constructor
      · intro hp
        obtain ⟨⟨x, v⟩, j⟩ := p
        obtain ⟨as, m, d', bcs, ha, hx, hn, hbc, hv⟩ := (mem_seq2 h1).1 hp
        obtain ⟨bs, hb, ⟨_, rfl⟩ | ⟨rfl, cs, hc, rfl⟩⟩ := anyOf2_ok_iff.1 hbc
        · obtain ⟨q, hq, e⟩ := List.mem_map.1 hv
          cases e
          have hm : ((x, q.1), q.2) ∈ sab := (mem_seq2 hsab).2 ⟨as, m, d', bs, ha, hx, hn, hb, hq⟩
          rcases hcase with ⟨_, rfl⟩ | ⟨rfl, _⟩
          · exact List.mem_map.2 ⟨_, List.mem_map.2 ⟨_, hm, rfl⟩, rfl⟩
          · cases hm
        · rw [none as x m d' cs ha hx hn hb hc] at hv
          cases hv
      · intro hp
        obtain ⟨q, hq, rfl⟩ := List.mem_map.1 hp
        exact to q hq

/-- C108, exactly when the second law fails here: `b` is found, but not together with `a`, while `a` and `c` are
found together. -/
theorem C108_all_exact (a : XMatch W α) (b : XMatch W β) (c : XMatch W γ) (d : Dir) (l : LLLine W)
    (out1 : List ((α × AnyOf2 β γ) × Nat)) (out2 : List (AnyOf2 (α × β) (α × γ) × Nat))
    (h1 : (X.all2 a (X.anyOf2 b c)).go d l = .ok out1) (h2 : (X.anyOf2 (X.all2 a b) (X.all2 a c)).go d l = .ok out2) :
    ¬ (∀ p, p ∈ out1 ↔ p ∈ out2.map (fun p => (p.1.factor, p.2))) ↔
    ∃ as bs cs, a.go d l = .ok as ∧ b.go d l = .ok bs ∧ c.go d l = .ok cs ∧ bs ≠ [] ∧
      (∀ p ∈ as, ∀ q ∈ bs, p.2 ≠ q.2) ∧ ∃ p ∈ as, ∃ q ∈ cs, p.2 = q.2 := by
  obtain ⟨to, hA⟩ := C108_all_partial a b c d l out1 out2 h1 h2
  obtain ⟨sab, hsab, hcase⟩ := anyOf2_ok_iff.1 h2
  constructor
  · intro ne
    rcases hcase with ⟨_, rfl⟩ | ⟨rfl, sac, hsac, rfl⟩
    · refine absurd (fun p => ⟨to p, fun hp => ?_⟩) ne
      obtain ⟨q, hq, rfl⟩ := List.mem_map.1 hp
      obtain ⟨⟨⟨x, y⟩, j⟩, _, rfl⟩ := List.mem_map.1 hq
      exact (hA x y j).2 hq
    · obtain ⟨as, bs, ha, hb, _⟩ := all2_ok_iff.1 hsab
      obtain ⟨as', cs, ha', hc, _⟩ := all2_ok_iff.1 hsac
      rw [ha] at ha'; cases ha'
      refine ⟨as, bs, cs, ha, hb, hc, ?_, ?_, ?_⟩
      · rintro rfl
        refine ne fun p => ⟨to p, fun hp => ?_⟩
        obtain ⟨q, hq, rfl⟩ := List.mem_map.1 hp
        obtain ⟨⟨⟨x, z⟩, j⟩, hm, rfl⟩ := List.mem_map.1 hq
        obtain ⟨as', cs', ha', hc', hx, hz⟩ := (mem_all2 hsac).1 hm
        exact (mem_all2 h1).2 ⟨as', _, ha', anyOf2_ok_iff.2 ⟨[], hb, Or.inr ⟨rfl, _, hc', rfl⟩⟩, hx,
          List.mem_map.2 ⟨_, hz, rfl⟩⟩
      · rintro ⟨x, j⟩ hx ⟨y, j'⟩ hy rfl
        have : ((x, y), j) ∈ ([] : List ((α × β) × Nat)) := (mem_all2 hsab).2 ⟨as, bs, ha, hb, hx, hy⟩
        cases this
      · refine Classical.byContradiction fun no => ne fun p => ⟨to p, fun hp => ?_⟩
        obtain ⟨q, hq, rfl⟩ := List.mem_map.1 hp
        obtain ⟨⟨⟨x, z⟩, j⟩, hm, rfl⟩ := List.mem_map.1 hq
        obtain ⟨as', cs', ha', hc', hx, hz⟩ := (mem_all2 hsac).1 hm
        rw [ha] at ha'; cases ha'
        rw [hc] at hc'; cases hc'
        exact absurd ⟨_, hx, _, hz, rfl⟩ no
  · rintro ⟨as, bs, cs, ha, hb, hc, hne, apart, ⟨x, j⟩, hx, ⟨z, j'⟩, hz, e⟩ eq
    obtain rfl : j = j' := e
    rcases hcase with ⟨hn, _⟩ | ⟨_, sac, hsac, rfl⟩
    · cases hs : sab with
      | nil => exact hn hs
      | cons q qs =>
        obtain ⟨⟨x', y'⟩, k⟩ := q
        obtain ⟨as', bs', ha', hb', hx', hy'⟩ := (mem_all2 hsab).1 (hs ▸ List.mem_cons_self ..)
        rw [ha] at ha'; cases ha'
        rw [hb] at hb'; cases hb'
        exact apart _ hx' _ hy' rfl
    · have hm : ((x, z), j) ∈ sac := (mem_all2 hsac).2 ⟨as, cs, ha, hc, hx, hz⟩
      have hp : ((x, AnyOf2.B z), j) ∈ out1 :=
        (eq _).2 (List.mem_map.2 ⟨_, List.mem_map.2 ⟨_, hm, rfl⟩, rfl⟩)
      obtain ⟨as', bcs, _, hbc, _, hz'⟩ := (mem_all2 h1).1 hp
      obtain ⟨bs', hb', ⟨_, rfl⟩ | ⟨rfl, _⟩⟩ := anyOf2_ok_iff.1 hbc
      · obtain ⟨q, _, e⟩ := List.mem_map.1 hz'
        cases e
      · rw [hb] at hb'; cases hb'
        exact hne rfl

/-- C108, exactly when the third law holds here: whenever two sequences are found on one range, some token ends the
first part of both. -/
theorem C108_interchange_exact (a : XMatch W α) (b : XMatch W β) (a' : XMatch W γ) (b' : XMatch W δ) (d : Dir) (l : LLLine W)
    (out1 : List (((α × β) × (γ × δ)) × Nat)) (out2 : List (((α × γ) × (β × δ)) × Nat))
    (h1 : (X.all2 (X.seq2 a b) (X.seq2 a' b')).go d l = .ok out1) (h2 : (X.seq2 (X.all2 a a') (X.all2 b b')).go d l = .ok out2) :
    (∀ x y z w j, (((x, y), (z, w)), j) ∈ out1 ↔ (((x, z), (y, w)), j) ∈ out2) ↔
    ∀ x y z w j, (((x, y), (z, w)), j) ∈ out1 → ∃ as as' m d' bs bs', a.go d l = .ok as ∧ a'.go d l = .ok as' ∧
      (x, m) ∈ as ∧ (z, m) ∈ as' ∧ d.Next m l d' ∧ b.go d' l = .ok bs ∧ b'.go d' l = .ok bs' ∧ (y, j) ∈ bs ∧ (w, j) ∈ bs' := by
  constructor
  · intro eq x y z w j hp
    obtain ⟨aas, m, d', bbs, haa, hx, hn, hbb, hy⟩ := (mem_seq2 h2).1 ((eq x y z w j).1 hp)
    obtain ⟨as, as', ha, ha', hx1, hx2⟩ := (mem_all2 haa).1 hx
    obtain ⟨bs, bs', hb, hb', hy1, hy2⟩ := (mem_all2 hbb).1 hy
    exact ⟨as, as', m, d', bs, bs', ha, ha', hx1, hx2, hn, hb, hb', hy1, hy2⟩
  · intro meet x y z w j
    refine ⟨fun hp => ?_, (C108_interchange_partial a b a' b' d l out1 out2 h1 h2 x y z w j).1⟩
    obtain ⟨as, as', m, d', bs, bs', ha, ha', hx1, hx2, hn, hb, hb', hy1, hy2⟩ := meet x y z w j hp
    have haa := all2_ok_iff.2 ⟨as, as', ha, ha', rfl⟩
    have hbb := all2_ok_iff.2 ⟨bs, bs', hb, hb', rfl⟩
    exact (mem_seq2 h2).2 ⟨_, m, d', _, haa, (mem_all2 haa).2 ⟨as, as', ha, ha', hx1, hx2⟩, hn, hbb,
      (mem_all2 hbb).2 ⟨bs, bs', hb, hb', hy1, hy2⟩⟩

/-- assigns `x` to the first token, `y` to the first two, `z` to the last two of three tokens -/
def Demo.forkRes : Resolver Demo.W where
  attr := Ty.user 2
  go := fun _ => .ok ([⟨0, 0, (['x'] : Str)⟩, ⟨0, 1, (['y'] : Str)⟩, ⟨1, 2, (['z'] : Str)⟩], false)
/-- "a b" with these attributes -/
def Demo.forkLine : LLLine Demo.W := Demo.getOk Demo.emptyLine (Demo.nestLine0.run 0 Demo.forkRes)
theorem Demo.forkReach : ∃ h, Reachable Demo.forkLine h :=
  ⟨_, .run Demo.nestLine0 _ 0 Demo.forkRes _ false _
    (.create [.Text ['a', ' ', 'b'] []] utf8Len _ (by simp [InputToken.WF, InputToken.attrList]) rfl)
    (by intro h; cases h) rfl rfl⟩

/-- C108, first law refuted: after `x` a blank follows, after `y` the letter b; the choice of sequences commits to
the first. -/
theorem C108_sequence_false : ¬ C108_sequence_claim := by
  intro claim
  obtain ⟨h, hr⟩ := Demo.forkReach
  have := (claim Demo.W Demo.forkLine h _ _ _ (X.attr (Ty.user 2)) (X.attrEq (W := Demo.W) .char ' ')
    (X.attrEq (W := Demo.W) .char 'b') (.fwd 0) _ _ hr (.attr _ trivial) (.attrEq _ trivial _) (.attrEq _ trivial _) rfl rfl
    (((['y'] : Str), AnyOf2.B ()), 2)).1 (List.mem_cons_of_mem _ (List.mem_cons_self ..))
  obtain ⟨q, hq, e⟩ := List.mem_map.1 this
  have : q.2 = 1 := by
    rcases List.mem_cons.1 hq with rfl | hq
    · rfl
    · cases hq
  rw [Prod.mk.injEq] at e
  omega

/-- C108, second law refuted: `y` is there but on two tokens, so `all` finds nothing, and `x` is not tried. -/
theorem C108_all_false : ¬ C108_all_claim := by
  intro claim
  obtain ⟨h, hr⟩ := Demo.forkReach
  have := (claim Demo.W Demo.forkLine h _ _ _ (X.tokenText (W := Demo.W)) (X.attrEq (Ty.user 2) (['y'] : Str))
    (X.attrEq (Ty.user 2) (['x'] : Str)) (.fwd 0) _ _ hr .tokenText (.attrEq _ trivial _) (.attrEq _ trivial _) rfl rfl
    ((['a'], AnyOf2.B ()), 0)).2 (List.mem_cons_self ..)
  cases this

/-- C108, third law refuted: `x z` and `y` followed by a text lie on the same range but meet at different tokens. -/
theorem C108_interchange_false : ¬ C108_interchange_claim := by
  intro claim
  obtain ⟨h, hr⟩ := Demo.forkReach
  have := (claim Demo.W Demo.forkLine h _ _ _ _ (X.attrEq (Ty.user 2) (['x'] : Str)) (X.attrEq (Ty.user 2) (['z'] : Str))
    (X.attrEq (Ty.user 2) (['y'] : Str)) (X.tokenText (W := Demo.W)) (.fwd 0) _ _ hr (.attrEq _ trivial _) (.attrEq _ trivial _)
    (.attrEq _ trivial _) .tokenText rfl rfl () () () ['b'] 2).1 (List.mem_cons_self ..)
  cases this

example := C108_sequence_partial (X.attr (Ty.user 2)) (X.attrEq (W := Demo.W) .char 'c')
  (X.attrEq (W := Demo.W) .char ' ') (.fwd 0) Demo.forkLine _ _ rfl rfl
example := (C108_sequence_partial (X.attr (Ty.user 2)) (X.attrEq (W := Demo.W) .char 'c')
  (X.attrEq (W := Demo.W) .char ' ') (.fwd 0) Demo.forkLine _ _ rfl rfl).2 rfl
example := C108_all_partial (X.attr (Ty.user 2)) (X.attrEq (W := Demo.W) .char 'a')
  (X.tokenText (W := Demo.W)) (.fwd 0) Demo.forkLine _ _ rfl rfl
example := (C108_interchange_partial (X.attrEq (W := Demo.W) (Ty.user 2) (['x'] : Str)) (X.tokenText (W := Demo.W))
  (X.tokenText (W := Demo.W)) (X.tokenText (W := Demo.W)) (.fwd 0) Demo.forkLine _ _ rfl rfl () [' '] ['a'] [' '] 1).1
  (List.mem_cons_self ..)
-- the first law fails where `x` is followed by a blank and `y` only by the letter b
example := (C108_sequence_exact (X.attr (Ty.user 2)) (X.attrEq (W := Demo.W) .char ' ')
  (X.attrEq (W := Demo.W) .char 'b') (.fwd 0) Demo.forkLine _ _ rfl rfl).1
example := (C108_sequence_exact (X.attr (Ty.user 2)) (X.attrEq (W := Demo.W) .char 'c')
  (X.attrEq (W := Demo.W) .char ' ') (.fwd 0) Demo.forkLine _ _ rfl rfl).2 (Or.inl rfl)
example := (C108_all_exact (X.tokenText (W := Demo.W)) (X.attrEq (Ty.user 2) (['y'] : Str))
  (X.attrEq (Ty.user 2) (['x'] : Str)) (.fwd 0) Demo.forkLine _ _ rfl rfl).2
  ⟨[(['a'], 0)], [((), 1)], [((), 0)], rfl, rfl, rfl, by simp, by simp, by simp⟩
example := (C108_interchange_exact (X.attrEq (W := Demo.W) (Ty.user 2) (['x'] : Str)) (X.tokenText (W := Demo.W))
  (X.tokenText (W := Demo.W)) (X.tokenText (W := Demo.W)) (.fwd 0) Demo.forkLine _ _ rfl rfl).1
end LNlp
