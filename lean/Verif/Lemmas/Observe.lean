import Verif.Spec.Observe
import Verif.Lemmas.Pipeline
/- Helper lemmas for Props/Observe. -/
namespace LNlp
variable {W : World}

/-! ### a bucket as a family of lists -/

/-- the bucket holds exactly the lists `vs` -/
def BRep (b : TypeBucket W) (vs : ∀ k, List (Val (W := W) k)) : Prop :=
  ∀ k, b.map.get? k = if vs k = [] then none else some ⟨k, vs k⟩

theorem brep_empty : BRep (TypeBucket.empty : TypeBucket W) (fun _ => []) := fun _ => rfl

theorem brep_insert {b : TypeBucket W} {vs : ∀ k, List (Val (W := W) k)} (h : BRep b vs) (k : Ty W) (v : Val k) :
    ∃ b', b.insert k v = .ok b' ∧ b.insertAnyAttribute (AnyAttribute.new k v) = .ok b' ∧
      BRep b' (fun k' => vs k' ++ (if e : k = k' then [e ▸ v] else [])) := by
  refine ⟨⟨HMap.set b.map k ⟨k, vs k ++ [v]⟩⟩, ?_, ?_, ?_⟩
  · simp only [TypeBucket.insert, h k]
    by_cases he : vs k = [] <;> simp [he]
  · have self : ∀ vs, (DynBucket.mk k vs).insertAny ⟨k, v⟩ = .ok ⟨k, vs ++ [v]⟩ := by
      intro vs; simp [DynBucket.insertAny]
    by_cases he : vs k = [] <;>
      simp [TypeBucket.insertAnyAttribute, AnyAttribute.new, h k, he, self]
  · intro k'
    rw [HMap.get?_set]
    by_cases hk : k' = k
    · subst hk; simp
    · have hk' : ¬ k = k' := fun e => hk e.symm
      rw [if_neg hk, h k']
      simp [hk']

theorem brep_get {b : TypeBucket W} {vs : ∀ k, List (Val (W := W) k)} (h : BRep b vs) (k : Ty W) :
    b.get k = .ok (vs k) ∧ b.getDebug k = .ok ((vs k).map (valDbg k)) := by
  simp only [TypeBucket.get, TypeBucket.getDebug, h k]
  by_cases he : vs k = [] <;> simp [he, expect]

theorem brep_run : ∀ (ops : List (BucketOp W)) {b : TypeBucket W} {vs : ∀ k, List (Val (W := W) k)}, BRep b vs →
    ∃ b', b.runOps ops = .ok b' ∧ BRep b' (fun k => ops.foldl (fun acc o => if o.isClear then [] else acc ++ (o.valAs k).toList) (vs k))
  | [], b, vs, h => ⟨b, rfl, h⟩
  | .insert k v :: ops, b, vs, h => by
    obtain ⟨b1, h1, _, h3⟩ := brep_insert h k v
    obtain ⟨b2, h4, h5⟩ := brep_run ops h3
    refine ⟨b2, by simp only [TypeBucket.runOps, h1]; exact h4, ?_⟩
    intro k'
    have := h5 k'
    simp only [List.foldl_cons, BucketOp.isClear, BucketOp.valAs] at this ⊢
    rw [this]
    by_cases e : k = k'
    · subst e; simp
    · simp [e]
  | .insertAny k v :: ops, b, vs, h => by
    obtain ⟨b1, _, h1, h3⟩ := brep_insert h k v
    obtain ⟨b2, h4, h5⟩ := brep_run ops h3
    refine ⟨b2, by simp only [TypeBucket.runOps, h1]; exact h4, ?_⟩
    intro k'
    have := h5 k'
    simp only [List.foldl_cons, BucketOp.isClear, BucketOp.valAs] at this ⊢
    rw [this]
    by_cases e : k = k'
    · subst e; simp
    · simp [e]
  | .clear :: ops, b, vs, h => by
    obtain ⟨b2, h4, h5⟩ := brep_run ops (b := b.clear) brep_empty
    exact ⟨b2, h4, h5⟩

theorem sinceClear_snoc (ops : List (BucketOp W)) (o : BucketOp W) :
    sinceClear (ops ++ [o]) = if o.isClear then [] else sinceClear ops ++ [o] := by
  simp only [sinceClear, List.reverse_append, List.reverse_cons, List.reverse_nil, List.nil_append, List.singleton_append,
    List.takeWhile_cons]
  cases o.isClear <;> simp

theorem fold_sinceClear (k : Ty W) (ops : List (BucketOp W)) :
    ops.foldl (fun acc o => if o.isClear then [] else acc ++ (o.valAs k).toList) [] =
      (sinceClear ops).filterMap (BucketOp.valAs k) := by
  have : ∀ (rev : List (BucketOp W)), rev.reverse.foldl (fun acc o => if o.isClear then [] else acc ++ (o.valAs k).toList) [] =
      (sinceClear rev.reverse).filterMap (BucketOp.valAs k) := by
    intro rev
    induction rev with
    | nil => rfl
    | cons o os ih =>
      rw [List.reverse_cons, List.foldl_append, ih, sinceClear_snoc]
      cases ho : o.isClear
      · cases hv : BucketOp.valAs k o <;> simp [ho, hv, List.filterMap_append]
      · simp [ho]
  have h := this ops.reverse
  rwa [List.reverse_reverse] at h

/-! ### interleaving -/

theorem filter_swap {k1 k2 : Ty W} (hk : k1 ≠ k2) (h : History W) (a1 : List (LLCursorAssignment (Val k1)))
    (a2 : List (LLCursorAssignment (Val k2))) (k : Ty W) :
    (h ++ a1.map (recOf k1) ++ a2.map (recOf k2)).filter (fun x => decide (x.ty = k)) =
      (h ++ a2.map (recOf k2) ++ a1.map (recOf k1)).filter (fun x => decide (x.ty = k)) := by
  have nil : ∀ {k' : Ty W} (a : List (LLCursorAssignment (Val k'))), k' ≠ k →
      (a.map (recOf k')).filter (fun x => decide (x.ty = k)) = [] := by
    intro k' a hne
    rw [List.filter_eq_nil_iff]
    intro x hx
    rw [recOf_ty k' a x hx]
    simpa using hne
  simp only [List.filter_append]
  by_cases h1 : k1 = k
  · rw [nil a2 (fun e => hk (h1.trans e.symm))]; simp
  · rw [nil a1 h1]; simp

/-! ### growing histories -/

theorem flatMap_sublist {α β : Type} {f g : α → List β} {as bs : List α} (h : as.Sublist bs)
    (hfg : ∀ a ∈ as, (f a).Sublist (g a)) : (as.flatMap f).Sublist (bs.flatMap g) := by
  induction h with
  | slnil => simp
  | cons a _ ih => rw [List.flatMap_cons]; exact (ih hfg).trans (List.sublist_append_right _ _)
  | cons_cons a _ ih =>
    rw [List.flatMap_cons, List.flatMap_cons]
    exact (hfg a (by simp)).append (ih (fun x hx => hfg x (by simp [hx])))

theorem values_grow (k : Ty W) (r : LRange) (h more : History W) :
    (valuesOf k r h).Sublist (valuesOf k r (h ++ more)) := by
  rw [valuesOf_append]; exact List.sublist_append_left _ _

/-- `l'` is `l` with more records -/
structure Grown (l l' : LLLine W) (h more : History W) : Prop where
  rep : Rep l h
  rep' : Rep l' (h ++ more)
  toks : l'.ll_tokens = l.ll_tokens

theorem after_congr {l l' : LLLine W} (ht : l'.ll_tokens = l.ll_tokens) (d : Dir) (i : Nat) : d.after i l' = d.after i l := by
  cases d <;> simp [Dir.after, ht]

theorem grow_go {has : Bool} {Out : Type} {m : XMatch W Out} (hm : ChoiceFree has m) {l l' : LLLine W} {h more : History W}
    (g : Grown l l' h more) : ∀ d out out', m.go d l = .ok out → m.go d l' = .ok out' → out.Sublist out' := by
  have lt : ∀ {i}, i < l.ll_tokens.length → i < l'.ll_tokens.length := fun hi => by rw [g.toks]; exact hi
  have s2 : ∀ {α β : Type} {a : XMatch W α} {b : XMatch W β},
      (∀ d out out', a.go d l = .ok out → a.go d l' = .ok out' → out.Sublist out') →
      (∀ d out out', b.go d l = .ok out → b.go d l' = .ok out' → out.Sublist out') →
      ∀ d out out', (X.seq2 a b).go d l = .ok out → (X.seq2 a b).go d l' = .ok out' → out.Sublist out' := by
    intro α β a b iha ihb d out out' h1 h2
    obtain ⟨as, ha, hoka, rfl⟩ := seq2_ok_iff.1 h1
    obtain ⟨as', ha', hoka', rfl⟩ := seq2_ok_iff.1 h2
    have hsub := iha d _ _ ha ha'
    refine flatMap_sublist hsub (fun p hp => List.Sublist.map _ ?_)
    obtain ⟨bs, hb⟩ := hoka p hp
    obtain ⟨bs', hb'⟩ := hoka' p (hsub.subset hp)
    rw [okD_of hb, okD_of hb']
    simp only [X.goAfter, after_congr g.toks] at hb hb'
    cases ha : d.after p.2 l with
    | none => rw [ha] at hb hb'; cases hb; exact List.nil_sublist _
    | some d' => rw [ha] at hb hb'; exact ihb d' _ _ hb hb'
  have a2 : ∀ {α β : Type} {a : XMatch W α} {b : XMatch W β},
      (∀ d out out', a.go d l = .ok out → a.go d l' = .ok out' → out.Sublist out') →
      (∀ d out out', b.go d l = .ok out → b.go d l' = .ok out' → out.Sublist out') →
      ∀ d out out', (X.all2 a b).go d l = .ok out → (X.all2 a b).go d l' = .ok out' → out.Sublist out' := by
    intro α β a b iha ihb d out out' h1 h2
    obtain ⟨as, bs, ha, hb, rfl⟩ := all2_ok_iff.1 h1
    obtain ⟨as', bs', ha', hb', rfl⟩ := all2_ok_iff.1 h2
    exact flatMap_sublist (iha d _ _ ha ha') (fun p _ => (ihb d _ _ hb hb').filterMap _)
  induction hm with
  | attr k =>
    intro d out out' h1 h2
    change d.attr k l = .ok out at h1
    change d.attr k l' = .ok out' at h2
    cases d with
    | fwd i =>
      by_cases hi : i < l.ll_tokens.length
      · rw [rep_attr_fwd g.rep k hi] at h1
        rw [rep_attr_fwd g.rep' k (lt hi)] at h2
        cases h1; cases h2
        exact flatMap_sublist ((rangesOf_prefix k h more).sublist.filter _) (fun r _ => (values_grow k r h more).map _)
      · rw [(rep_attr_oob g.rep k hi).1] at h1; cases h1
    | bwd i =>
      by_cases hi : i < l.ll_tokens.length
      · rw [rep_attr_bwd g.rep k hi] at h1
        rw [rep_attr_bwd g.rep' k (lt hi)] at h2
        cases h1; cases h2
        exact flatMap_sublist ((rangesOf_prefix k h more).sublist.filter _) (fun r _ => (values_grow k r h more).map _)
      · rw [(rep_attr_oob g.rep k hi).2] at h1; cases h1
  | attrEq k v =>
    intro d out out' h1 h2
    change d.attrEq k v l = .ok out at h1
    change d.attrEq k v l' = .ok out' at h2
    cases d with
    | fwd i =>
      by_cases hi : i < l.ll_tokens.length
      · rw [rep_attrEq_fwd g.rep k v hi] at h1
        rw [rep_attrEq_fwd g.rep' k v (lt hi)] at h2
        cases h1; cases h2
        exact flatMap_sublist ((rangesOf_prefix k h more).sublist.filter _)
          (fun r _ => ((values_grow k r h more).filter _).map _)
      · rw [(rep_attrEq_oob g.rep k v hi).1] at h1; cases h1
    | bwd i =>
      by_cases hi : i < l.ll_tokens.length
      · rw [rep_attrEq_bwd g.rep k v hi] at h1
        rw [rep_attrEq_bwd g.rep' k v (lt hi)] at h2
        cases h1; cases h2
        exact flatMap_sublist ((rangesOf_prefix k h more).sublist.filter _)
          (fun r _ => ((values_grow k r h more).filter _).map _)
      · rw [(rep_attrEq_oob g.rep k v hi).2] at h1; cases h1
  | tokenHasAny k hh set =>
    intro d out out' h1 h2
    change d.tokenAttrOneOf k set l = .ok out at h1
    change d.tokenAttrOneOf k set l' = .ok out' at h2
    cases d with
    | fwd i =>
      rw [rep_oneOf_fwd g.rep k set] at h1
      rw [rep_oneOf_fwd g.rep' k set] at h2
      split at h1
      · split at h2
        · cases h1; cases h2
          exact ((values_grow k _ h more).filter _).map _
        · cases h2
      · cases h1
    | bwd i =>
      by_cases hi : i < l.ll_tokens.length
      · rw [rep_oneOf_bwd g.rep k set hi] at h1
        rw [rep_oneOf_bwd g.rep' k set (lt hi)] at h2
        cases h1; cases h2
        exact flatMap_sublist ((rangesOf_prefix k h more).sublist.filter _)
          (fun r _ => ((values_grow k r h more).filter _).map _)
      · rw [rep_oneOf_bwd_oob g.rep k set hi] at h1; cases h1
  | tokenText =>
    intro d out out' h1 h2
    have : (X.tokenText (W := W)).go d l' = X.tokenText.go d l := by
      cases d <;> simp [X.tokenText, Dir.textToken, g.toks]
    rw [this, h1] at h2
    cases h2
    exact List.Sublist.refl _
  | all2 _ _ iha ihb => exact a2 iha ihb
  | all3 _ _ _ iha ihb ihc =>
    intro d out out' h1 h2
    exact a2 iha (a2 ihb ihc) d out out' ((all3_ok_eq _ _ _ d l out).1 h1) ((all3_ok_eq _ _ _ d l' out').1 h2)
  | seq2 _ _ iha ihb => exact s2 iha ihb
  | seq3 _ _ _ iha ihb ihc =>
    intro d out out' h1 h2
    rw [seq3_eq] at h1 h2
    exact s2 iha (s2 ihb ihc) d out out' h1 h2

end LNlp
