import Verif.Spec.Phrase
import Verif.Lemmas.Resolve
import Verif.Lemmas.Plain
import Verif.Lemmas.EndToEnd
import Verif.Props.Match
/- Lemmas for C106. -/
namespace LNlp
variable {W : World} {α : Type}

theorem after_eq_onwards (d : Dir) (idx : Nat) (l : LLLine W) : d.after idx l = d.onwards l.ll_tokens.length idx := by
  cases d with
  | fwd i => rfl
  | bwd i =>
    cases idx with
    | zero => rfl
    | succ n => simp [Dir.after, Dir.onwards]

theorem onwards_onwards {n i : Nat} {d d' : Dir} (h : d.onwards n i = some d') (j : Nat) : d'.onwards n j = d.onwards n j := by
  cases d with
  | fwd a => simp only [Dir.onwards] at h; split at h <;> cases h; rfl
  | bwd a => simp only [Dir.onwards] at h; split at h <;> cases h; rfl

theorem onwards_at {n i : Nat} {d d' : Dir} (h : d.onwards n i = some d') (hi : i < n) : d'.at < n := by
  cases d with
  | fwd a => simp only [Dir.onwards] at h; split at h <;> cases h; assumption
  | bwd a => simp only [Dir.onwards] at h; split at h <;> cases h; show i - 1 < n; omega

theorem chains_append (l : LLLine W) (ys : List (XMatch W α)) (hy : ys ≠ []) : ∀ (xs : List (XMatch W α)) (d : Dir), xs ≠ [] →
    chains l d (xs ++ ys) = (chains l d xs).flatMap (fun p =>
      match d.onwards l.ll_tokens.length p.2 with
      | none => []
      | some d' => (chains l d' ys).map (fun q => (p.1 ++ q.1, q.2)))
  | [], _, h => absurd rfl h
  | [m], d, _ => by
    cases ys with
    | nil => exact absurd rfl hy
    | cons y ys =>
      simp only [List.cons_append, List.nil_append, chains, List.flatMap_map]
      congr 1
  | m :: m' :: ms, d, _ => by
    have ih := fun d' => chains_append l ys hy (m' :: ms) d' (by simp)
    simp only [List.cons_append] at ih
    simp only [List.cons_append, chains, List.flatMap_assoc, ih]
    congr 1
    funext p
    cases hd : d.onwards l.ll_tokens.length p.2 with
    | none => rfl
    | some d' =>
      simp only [List.flatMap_map, List.map_flatMap]
      congr 1
      funext q
      rw [onwards_onwards hd]
      cases d.onwards l.ll_tokens.length q.2 with
      | none => rfl
      | some d2 => simp only [List.map_map]; rfl

theorem SeqTree.leaves_ne : ∀ t : SeqTree W α, t.leaves ≠ []
  | .leaf _ => by simp [SeqTree.leaves]
  | .two a b => by simp [SeqTree.leaves, a.leaves_ne]
  | .three a b c => by simp [SeqTree.leaves, a.leaves_ne]

/-- what a two-part sequence of total matchers gives -/
theorem seq2_total {β γ : Type} {a : XMatch W β} {b : XMatch W γ} {l : LLLine W} (ha : TotalOn l a) (hb : TotalOn l b) (d : Dir)
    (hd : d.at < l.ll_tokens.length) :
    (X.seq2 a b).go d l = .ok ((resultsOf a d l).flatMap (fun p =>
      match d.onwards l.ll_tokens.length p.2 with
      | none => []
      | some d' => (resultsOf b d' l).map (fun q => ((p.1, q.1), q.2)))) := by
  obtain ⟨as, ha1, ha2⟩ := ha d hd
  have hg : ∀ p ∈ as, X.goAfter b d p.2 l = .ok (match d.onwards l.ll_tokens.length p.2 with
      | none => []
      | some d' => resultsOf b d' l) := by
    intro p hp
    unfold X.goAfter
    rw [after_eq_onwards]
    cases hn : d.onwards l.ll_tokens.length p.2 with
    | none => rfl
    | some d' =>
      obtain ⟨bs, hb1, _⟩ := hb d' (onwards_at hn (ha2 p hp))
      simp only [resultsOf, hb1]
  refine seq2_ok_iff.2 ⟨as, ha1, fun p hp => ⟨_, hg p hp⟩, ?_⟩
  have hres : resultsOf a d l = as := by simp only [resultsOf, ha1]
  rw [hres]
  clear ha1 hres
  induction as with
  | nil => rfl
  | cons p as ih =>
    simp only [List.flatMap_cons]
    rw [ih (fun r hr => ha2 r (by simp [hr])) (fun r hr => hg r (by simp [hr])), hg p (by simp)]
    congr 1
    cases d.onwards l.ll_tokens.length p.2 <;> rfl

theorem seq2_totalOn {β γ : Type} {a : XMatch W β} {b : XMatch W γ} {l : LLLine W} (ha : TotalOn l a) (hb : TotalOn l b) :
    TotalOn l (X.seq2 a b) := by
  intro d hd
  refine ⟨_, seq2_total ha hb d hd, ?_⟩
  intro r hr
  obtain ⟨p, hp, hr⟩ := List.mem_flatMap.1 hr
  obtain ⟨as, ha1, ha2⟩ := ha d hd
  have hres : resultsOf a d l = as := by simp only [resultsOf, ha1]
  rw [hres] at hp
  cases hn : d.onwards l.ll_tokens.length p.2 with
  | none => rw [hn] at hr; cases hr
  | some d' =>
    rw [hn] at hr
    obtain ⟨bs, hb1, hb2⟩ := hb d' (onwards_at hn (ha2 p hp))
    have hres : resultsOf b d' l = bs := by simp only [resultsOf, hb1]
    simp only [hres, List.mem_map] at hr
    obtain ⟨q, hq, rfl⟩ := hr
    exact hb2 q hq

theorem resultsOf_of {m : XMatch W α} {d : Dir} {l : LLLine W} {rs : List (α × Nat)} (h : m.go d l = .ok rs) : resultsOf m d l = rs := by
  simp only [resultsOf, h]

theorem seqTree_spec {l : LLLine W} : ∀ (t : SeqTree W α), (∀ m ∈ t.leaves, TotalOn l m) →
    TotalOn l t.matcher ∧ ∀ d : Dir, d.at < l.ll_tokens.length →
      (resultsOf t.matcher d l).map (fun p => (t.values p.1, p.2)) = chains l d t.leaves
  | .leaf m, hm => ⟨hm m (by simp [SeqTree.leaves]), fun d _ => rfl⟩
  | .two a b, hm => by
    obtain ⟨ta, ca⟩ := seqTree_spec a (fun m h => hm m (by simp [SeqTree.leaves, h]))
    obtain ⟨tb, cb⟩ := seqTree_spec b (fun m h => hm m (by simp [SeqTree.leaves, h]))
    refine ⟨seq2_totalOn ta tb, fun d hd => ?_⟩
    show (resultsOf (X.seq2 a.matcher b.matcher) d l).map
      (fun (p : (a.Out × b.Out) × Nat) => (a.values p.1.1 ++ b.values p.1.2, p.2)) = chains l d (a.leaves ++ b.leaves)
    rw [chains_append l _ b.leaves_ne _ d a.leaves_ne, resultsOf_of (seq2_total ta tb d hd), ← ca d hd, List.map_flatMap, List.flatMap_map]
    obtain ⟨as, ha1, ha2⟩ := ta d hd
    rw [resultsOf_of ha1]
    clear ha1
    induction as with
    | nil => rfl
    | cons p as ih =>
      simp only [List.flatMap_cons]
      rw [ih (fun r hr => ha2 r (by simp [hr]))]
      congr 1
      cases hn : d.onwards l.ll_tokens.length p.2 with
      | none => rfl
      | some d' =>
        simp only [← cb d' (onwards_at hn (ha2 p (by simp))), List.map_map]
        rfl
  | .three a b c, hm => by
    obtain ⟨ta, ca⟩ := seqTree_spec a (fun m h => hm m (by simp [SeqTree.leaves, h]))
    obtain ⟨tb, cb⟩ := seqTree_spec b (fun m h => hm m (by simp [SeqTree.leaves, h]))
    obtain ⟨tc, cc⟩ := seqTree_spec c (fun m h => hm m (by simp [SeqTree.leaves, h]))
    have tbc := seq2_totalOn tb tc
    have e : X.seq3 a.matcher b.matcher c.matcher = X.seq2 a.matcher (X.seq2 b.matcher c.matcher) := seq3_eq _ _ _
    refine ⟨?_, fun d hd => ?_⟩
    · show TotalOn l (X.seq3 a.matcher b.matcher c.matcher)
      rw [e]
      exact seq2_totalOn ta tbc
    show (resultsOf (X.seq3 a.matcher b.matcher c.matcher) d l).map
      (fun (p : (a.Out × b.Out × c.Out) × Nat) => (a.values p.1.1 ++ b.values p.1.2.1 ++ c.values p.1.2.2, p.2)) =
        chains l d (a.leaves ++ b.leaves ++ c.leaves)
    rw [e, List.append_assoc, chains_append l _ (by simp [b.leaves_ne]) _ d a.leaves_ne,
      resultsOf_of (seq2_total ta tbc d hd), ← ca d hd, List.map_flatMap, List.flatMap_map]
    obtain ⟨as, ha1, ha2⟩ := ta d hd
    rw [resultsOf_of ha1]
    clear ha1
    induction as with
    | nil => rfl
    | cons p as ih =>
      simp only [List.flatMap_cons]
      rw [ih (fun r hr => ha2 r (by simp [hr]))]
      congr 1
      cases hn : d.onwards l.ll_tokens.length p.2 with
      | none => rfl
      | some d' =>
        have hd' := onwards_at hn (ha2 p (by simp))
        simp only
        rw [chains_append l _ c.leaves_ne _ d' b.leaves_ne, resultsOf_of (seq2_total tb tc d' hd'), ← cb d' hd', List.flatMap_map]
        simp only [List.map_flatMap, List.map_map]
        obtain ⟨bs, hb1, hb2⟩ := tb d' hd'
        rw [resultsOf_of hb1]
        clear hb1
        induction bs with
        | nil => rfl
        | cons q bs ih2 =>
          simp only [List.flatMap_cons]
          rw [ih2 (fun r hr => hb2 r (by simp [hr]))]
          congr 1
          cases hn2 : d'.onwards l.ll_tokens.length q.2 with
          | none => rfl
          | some d2 =>
            simp only [← cc d2 (onwards_at hn2 (hb2 q (by simp))), List.map_map]
            apply List.map_congr_left
            intro z _
            simp [Function.comp]

/-! ### phrases -/

theorem built_totalOn {m : XMatch W α} {T : Ty W → Prop} (hm : Built T false m) {l : LLLine W} {h : History W}
    (hr : Reachable l h) : TotalOn l m := by
  intro d hd
  cases hg : m.go d l with
  | error e => exact absurd (C36_panics hm hr d hd e hg).2.1 (by simp)
  | ok rs =>
    refine ⟨rs, rfl, fun r hmem => ?_⟩
    have := built_results hm hr.rep False (fun h => h.elim) d rs hg r hmem
    exact this.1

theorem attrEq_single {l : LLLine W} {h : History W} (hr : Reachable l h) (k : Ty W) (v : Val k)
    (single : ∀ x ∈ h, x.ty = k → x.range.1 = x.range.2) {i : Nat} (hi : i < l.ll_tokens.length) :
    (X.attrEq k v).go (.fwd i) l = .ok (((valuesOf k (i, i) h).filter (fun w => valEq k w v)).map (fun _ => ((), i))) := by
  obtain ⟨out, ho, hf⟩ := C27_attr_eq_forwards hr k v i hi
  have hend : ∀ p ∈ out, p.2 = i := by
    intro p hp
    have h1 : p ∈ out.filter (fun q => decide (q.2 = p.2)) := List.mem_filter.2 ⟨hp, by simp⟩
    rw [hf] at h1
    obtain ⟨w, hw, _⟩ := List.mem_map.1 h1
    have := single _ (mem_valuesOf.1 (List.mem_filter.1 hw).1) rfl
    exact this.symm
  have : out.filter (fun p => decide (p.2 = i)) = out := by
    rw [List.filter_eq_self]
    intro p hp
    simp [hend p hp]
  rw [ho, ← hf i, this]

/-- the values of the table's type after the table has run -/
theorem table_valuesOf {k : Ty W} (r : TextMatchAssignResolver W k) (l : LLLine W) {h : History W} (hn : ∀ x ∈ h, x.ty ≠ k) {i : Nat}
    (hi : i < l.ll_tokens.length) :
    valuesOf k (i, i) (h ++ (between 0 (l.ll_tokens.length - 1)).flatMap (fun i =>
      (tableValues r l i).map (fun v => ⟨k, (i, i), v⟩))) = tableValues r l i := by
  rw [between_all l (by intro e; rw [e] at hi; cases hi)]
  have hnd : ((List.range l.ll_tokens.length).map (fun i => ((i, i) : LRange))).Nodup := by
    rw [List.nodup_iff_pairwise_ne, List.pairwise_map]
    exact (List.nodup_iff_pairwise_ne.1 List.nodup_range).imp (fun h e => h (congrArg Prod.fst e))
  obtain ⟨_, hb2⟩ := blocks_history k (fun i : Nat => ((i, i) : LRange))
    (fun i => (tableValues r l i).map (fun v => (⟨k, (i, i), v⟩ : Rec W))) (List.range l.ll_tokens.length) hnd (by
      intro x _ y hy; obtain ⟨v, _, rfl⟩ := List.mem_map.1 hy; rfl)
  simp only [values_block] at hb2
  rw [valuesOf_append, valuesOf_none k _ _ hn, List.nil_append, hb2 i (List.mem_range.2 hi)]

theorem chains_le_one {l : LLLine W} : ∀ (ms : List (XMatch W α)) (d : Dir), d.at < l.ll_tokens.length →
    (∀ m ∈ ms, TotalOn l m) → (∀ m ∈ ms, ∀ d : Dir, d.at < l.ll_tokens.length → (∃ i, d = .fwd i) → (resultsOf m d l).length ≤ 1) →
    (∃ i, d = .fwd i) → (chains l d ms).length ≤ 1
  | [], d, _, _, _, _ => by simp [chains]
  | [m], d, hd, _, h1, hf => by
    simp only [chains, List.length_map]
    exact h1 m (by simp) d hd hf
  | m :: m' :: ms, d, hd, ht, h1, hf => by
    have hl := h1 m (by simp) d hd hf
    obtain ⟨rs, hg, hrs⟩ := ht m (by simp) d hd
    rw [resultsOf_of hg] at hl
    simp only [chains, resultsOf_of hg]
    match rs, hl, hrs with
    | [], _, _ => simp
    | [p], _, hrs =>
      simp only [List.flatMap_cons, List.flatMap_nil, List.append_nil]
      cases hn : d.onwards l.ll_tokens.length p.2 with
      | none => simp
      | some d' =>
        simp only [List.length_map]
        refine chains_le_one (m' :: ms) d' (onwards_at hn (hrs p (by simp))) (fun x hx => ht x (by simp [hx]))
          (fun x hx => h1 x (by simp [hx])) ?_
        obtain ⟨i, rfl⟩ := hf
        simp only [Dir.onwards] at hn
        split at hn <;> cases hn
        exact ⟨_, rfl⟩

theorem phraseParts_ne {k : Ty W} (w : Val k) (ws : List (Val k)) : ∃ m ms, phraseParts (w :: ws) = m :: ms := by
  cases ws with
  | nil => exact ⟨_, _, rfl⟩
  | cons w' ws => exact ⟨_, _, rfl⟩

theorem phraseParts_mem {k : Ty W} : ∀ (ws : List (Val k)) (m : XMatch W Unit), m ∈ phraseParts ws →
    (∃ w, m = X.attrEq k w) ∨ m = X.whitespace
  | [], m, h => by cases h
  | [w], m, h => by
    simp only [phraseParts, List.mem_singleton] at h
    exact Or.inl ⟨w, h⟩
  | w :: w' :: ws, m, h => by
    simp only [phraseParts, List.mem_cons] at h
    rcases h with rfl | rfl | h
    · exact Or.inl ⟨w, rfl⟩
    · exact Or.inr rfl
    · exact phraseParts_mem (w' :: ws) m h

/-- the chains of a phrase -/
theorem phrase_chains {k : Ty W} (r : TextMatchAssignResolver W k) {l l' : LLLine W} (hlen : l'.ll_tokens.length = l.ll_tokens.length)
    (hattr : ∀ i, i < l.ll_tokens.length → ∀ w, ∃ n, resultsOf (X.attrEq k w) (.fwd i) l' = List.replicate n ((), i) ∧
      (n ≠ 0 ↔ ∃ v ∈ tableValues r l i, valEq k v w = true))
    (hsp : ∀ i, i < l.ll_tokens.length → ∃ n, resultsOf (X.whitespace (W := W)) (.fwd i) l' = List.replicate n ((), i) ∧
      (n ≠ 0 ↔ tagAt l i = some .SPACE)) :
    ∀ (ws : List (Val k)) (i j : Nat), i < l.ll_tokens.length →
      ((∃ os, (os, j) ∈ chains l' (.fwd i) (phraseParts ws)) ↔ PhraseAt r l ws i j)
  | [], i, j, _ => by simp [phraseParts, chains, PhraseAt]
  | [w], i, j, hi => by
    obtain ⟨n, hn, hiff⟩ := hattr i hi w
    simp only [phraseParts, chains, PhraseAt, ← hiff, hn]
    simp only [List.map_replicate, List.mem_replicate, Prod.mk.injEq]
    constructor
    · rintro ⟨_, h0, _, rfl⟩; exact ⟨rfl, h0⟩
    · rintro ⟨rfl, h0⟩; exact ⟨_, h0, rfl, rfl⟩
  | w :: w' :: ws, i, j, hi => by
    obtain ⟨n, hn, hiff⟩ := hattr i hi w
    obtain ⟨m, ms, hm⟩ := phraseParts_ne w' ws
    have hin : ∀ i', PhraseAt r l (w' :: ws) i' j → i' < l.ll_tokens.length := by
      intro i' hp
      have ht : ∃ v, v ∈ tableValues r l i' := by
        cases ws with
        | nil => exact ⟨_, hp.2.choose_spec.1⟩
        | cons w2 ws => exact ⟨_, hp.1.choose_spec.1⟩
      obtain ⟨v, hv⟩ := ht
      unfold tableValues textAt at hv
      cases ht : l.ll_tokens[i']? with
      | none => rw [ht] at hv; cases hv
      | some t => exact (List.getElem?_eq_some_iff.1 ht).1
    simp only [phraseParts, PhraseAt, ← hiff]
    simp only [chains, hn, List.mem_flatMap, List.mem_replicate, Dir.onwards, hlen]
    constructor
    · rintro ⟨os, p, ⟨h0, rfl⟩, hos⟩
      simp only at hos
      split at hos
      · cases hos
      · next d' hd' =>
        split at hd'
        · next hlt =>
          cases hd'
          obtain ⟨n2, hn2, hiff2⟩ := hsp (i + 1) hlt
          rw [hm] at hos
          simp only [chains, hn2, Dir.onwards, hlen] at hos
          obtain ⟨q, hq, e⟩ := List.mem_map.1 hos
          obtain ⟨p2, hp2, hq⟩ := List.mem_flatMap.1 hq
          obtain ⟨h2, rfl⟩ := List.mem_replicate.1 hp2
          simp only at hq
          split at hq
          · cases hq
          · next d2 hd2 =>
            split at hd2
            · next hlt2 =>
              cases hd2
              obtain ⟨q3, hq3, e3⟩ := List.mem_map.1 hq
              subst e3
              simp only [Prod.mk.injEq] at e
              obtain ⟨_, rfl⟩ := e
              refine ⟨h0, hiff2.1 h2, (phrase_chains r hlen hattr hsp (w' :: ws) (i + 2) q3.2 hlt2).1 ⟨q3.1, ?_⟩⟩
              rw [hm]; exact hq3
            · cases hd2
        · cases hd'
    · rintro ⟨h0, h1, h2⟩
      have hlt2 := hin _ h2
      have hlt : i + 1 < l.ll_tokens.length := by omega
      obtain ⟨n2, hn2, hiff2⟩ := hsp (i + 1) hlt
      obtain ⟨os, hos⟩ := (phrase_chains r hlen hattr hsp (w' :: ws) (i + 2) j hlt2).2 h2
      rw [hm] at hos ⊢
      refine ⟨() :: () :: os, ((), i), ⟨h0, rfl⟩, ?_⟩
      simp only [hlt, if_true, chains, hn2, Dir.onwards, hlen]
      refine List.mem_map.2 ⟨(() :: os, j), List.mem_flatMap.2 ⟨((), i + 1), List.mem_replicate.2 ⟨hiff2.2 h1, rfl⟩, ?_⟩, rfl⟩
      simp only [hlt2, if_true]
      exact List.mem_map.2 ⟨(os, j), hos, rfl⟩

end LNlp
