import Verif.Lemmas.Basic
/- The four-index attribute store represents the history list. -/
namespace LNlp
variable {W : World}

theorem Rec.valAs_eq_some {x : Rec W} {k : Ty W} {v : Val k} :
    x.valAs k = some v ↔ x = ⟨k, x.range, v⟩ := by
  obtain ⟨t, r, w⟩ := x
  simp only [Rec.valAs]
  by_cases h : t = k
  · subst h; simp
  · simp [h]

@[simp] theorem Rec.valAs_self (k : Ty W) (r : LRange) (v : Val k) :
    Rec.valAs ⟨k, r, v⟩ k = some v := by simp [Rec.valAs]

theorem Rec.valAs_ne {x : Rec W} {k : Ty W} (h : x.ty ≠ k) : x.valAs k = none := by
  simp [Rec.valAs, h]

theorem mem_valuesOf {k : Ty W} {r : LRange} {h : History W} {v : Val k} :
    v ∈ valuesOf k r h ↔ (⟨k, r, v⟩ : Rec W) ∈ h := by
  simp only [valuesOf, List.mem_filterMap]
  constructor
  · rintro ⟨x, hx, he⟩
    split at he
    · next hr =>
      have := Rec.valAs_eq_some.1 he
      rw [hr] at this; rw [← this]; exact hx
    · cases he
  · intro hx
    exact ⟨_, hx, by simp⟩

theorem mem_rangesOf {k : Ty W} {r : LRange} {h : History W} :
    r ∈ rangesOf k h ↔ ∃ v : Val k, (⟨k, r, v⟩ : Rec W) ∈ h := by
  simp only [rangesOf, mem_firsts, List.mem_map, List.mem_filter, decide_eq_true_eq]
  constructor
  · rintro ⟨⟨t, r', v⟩, ⟨hx, ht⟩, hr⟩
    simp at ht hr; subst ht; subst hr; exact ⟨v, hx⟩
  · rintro ⟨v, hv⟩
    exact ⟨_, ⟨hv, rfl⟩, rfl⟩

theorem mem_rangesOf_iff_values {k : Ty W} {r : LRange} {h : History W} :
    r ∈ rangesOf k h ↔ valuesOf k r h ≠ [] := by
  rw [mem_rangesOf]
  constructor
  · rintro ⟨v, hv⟩ he
    have := mem_valuesOf.2 hv
    rw [he] at this; simp at this
  · intro hne
    obtain ⟨v, hv⟩ := List.exists_mem_of_ne_nil _ hne
    exact ⟨v, mem_valuesOf.1 hv⟩

@[simp] theorem valuesOf_nil (k : Ty W) (r : LRange) : valuesOf k r [] = [] := rfl

theorem valuesOf_append (k : Ty W) (r : LRange) (h1 h2 : History W) :
    valuesOf k r (h1 ++ h2) = valuesOf k r h1 ++ valuesOf k r h2 := by
  simp [valuesOf, List.filterMap_append]

theorem valuesOf_snoc_self (k : Ty W) (r : LRange) (h : History W) (v : Val k) :
    valuesOf k r (h ++ [⟨k, r, v⟩]) = valuesOf k r h ++ [v] := by
  simp [valuesOf, List.filterMap_append]

theorem valuesOf_snoc_ne_ty (k : Ty W) (r : LRange) (h : History W) (x : Rec W) (hk : x.ty ≠ k) :
    valuesOf k r (h ++ [x]) = valuesOf k r h := by
  simp [valuesOf, List.filterMap_append, Rec.valAs_ne hk]

theorem valuesOf_snoc_ne_range (k : Ty W) (r : LRange) (h : History W) (x : Rec W)
    (hr : x.range ≠ r) : valuesOf k r (h ++ [x]) = valuesOf k r h := by
  simp [valuesOf, List.filterMap_append, hr]

theorem rangesOf_snoc_self (k : Ty W) (r : LRange) (h : History W) (v : Val k) :
    rangesOf k (h ++ [⟨k, r, v⟩]) = if r ∈ rangesOf k h then rangesOf k h else rangesOf k h ++ [r] := by
  have e : rangesOf k (h ++ [⟨k, r, v⟩]) =
      firsts ((h.filter (fun x => decide (x.ty = k))).map (·.range) ++ [r]) := by
    simp [rangesOf, List.filter_append]
  rw [e, firsts_append_singleton]
  by_cases hm : r ∈ (h.filter (fun x => decide (x.ty = k))).map (·.range)
  · rw [if_pos hm, if_pos (show r ∈ rangesOf k h from mem_firsts.2 hm)]; rfl
  · rw [if_neg hm, if_neg (show ¬ r ∈ rangesOf k h from fun h => hm (mem_firsts.1 h))]; rfl

theorem rangesOf_snoc_ne (k : Ty W) (h : History W) (x : Rec W) (hk : x.ty ≠ k) :
    rangesOf k (h ++ [x]) = rangesOf k h := by
  simp [rangesOf, List.filter_append, hk]

theorem rangesOf_prefix (k : Ty W) (h1 h2 : History W) :
    rangesOf k h1 <+: rangesOf k (h1 ++ h2) := by
  simp only [rangesOf, List.filter_append, List.map_append]
  exact firsts_prefix _ _

theorem rangesOf_nodup (k : Ty W) (h : History W) : (rangesOf k h).Nodup := nodup_firsts _

/-- no type has an entry with no values -/
def TypeIdToMany.Tight {α : Type} (m : TypeIdToMany W α) : Prop := ∀ k, m.map.get? k ≠ some []

/-- Attribute store `a` of a line with `n` tokens represents history `h`. -/
structure RepA (n : Nat) (a : LLLineAttrs W) (h : History W) : Prop where
  lenS : a.starts_at.length = n
  lenE : a.ends_at.length = n
  bounds : ∀ x ∈ h, x.range.1 < n ∧ x.range.2 < n
  ranges : ∀ k, a.ranges.get k = rangesOf k h
  starts : ∀ i m, a.starts_at[i]? = some m → ∀ k,
    m.get k = (rangesOf k h).filter (fun r => decide (r.1 = i))
  ends : ∀ i m, a.ends_at[i]? = some m → ∀ k,
    m.get k = (rangesOf k h).filter (fun r => decide (r.2 = i))
  absent : ∀ r, a.values.get? r = none ↔ ∀ x ∈ h, x.range ≠ r
  buckets : ∀ r b, a.values.get? r = some b → ∀ k,
    b.map.get? k = if valuesOf k r h = [] then none else some ⟨k, valuesOf k r h⟩
  tightR : a.ranges.Tight
  tightS : ∀ m ∈ a.starts_at, m.Tight
  tightE : ∀ m ∈ a.ends_at, m.Tight

theorem TypeIdToMany.tight_insertDistinct {α : Type} [DecidableEq α] {m : TypeIdToMany W α} (ht : m.Tight)
    (k : Ty W) (x : α) : (m.insertDistinct k x).Tight := by
  intro k'
  simp only [TypeIdToMany.insertDistinct, HMap.get?_set]
  by_cases h : k' = k
  · rw [if_pos h]
    intro hc
    have hc := Option.some.inj hc
    split at hc
    · next hm => rw [hc] at hm; simp at hm
    · simp at hc
  · rw [if_neg h]; exact ht k'

theorem TypeIdToMany.get_insertDistinct {α : Type} [DecidableEq α] (m : TypeIdToMany W α) (k k' : Ty W)
    (x : α) : (m.insertDistinct k x).get k' =
      if k' = k then (if x ∈ m.get k then m.get k else m.get k ++ [x]) else m.get k' := by
  have hg : ∀ k, (m.map.get? k).getD [] = m.get k := by
    intro k; simp only [TypeIdToMany.get]; cases m.map.get? k <;> rfl
  have hu : (m.insertDistinct k x).get k' = ((m.insertDistinct k x).map.get? k').getD [] := by
    simp only [TypeIdToMany.get]; cases (m.insertDistinct k x).map.get? k' <;> rfl
  rw [hu]
  simp only [TypeIdToMany.insertDistinct, HMap.get?_set]
  by_cases h : k' = k
  · subst h; simp only [if_true, List.contains_iff_mem, hg, Option.getD_some]
  · simp [h, hg]

theorem TypeIdToMany.insertAnyDistinct_eq {α : Type} [DecidableEq α] (m : TypeIdToMany W α) (k : Ty W)
    (x : α) : m.insertAnyDistinct k x = m.insertDistinct k x := rfl

@[simp] theorem DynBucket.downcast_self (k : Ty W) (l : List (Val k)) :
    (DynBucket.mk k l).downcast k = some l := by simp [DynBucket.downcast]

@[simp] theorem DynAny.downcast_self (k : Ty W) (v : Val k) :
    (DynAny.mk k v).downcast k = some v := by simp [DynAny.downcast]

theorem updateAt_ok {α : Type} {l : List α} {i : Nat} {p : Panic} {f : α → α} (h : i < l.length) :
    updateAt l i p f = .ok (l.set i (f l[i])) := by
  simp [updateAt, h]

theorem updateAt_oob {α : Type} {l : List α} {i : Nat} {p : Panic} {f : α → α} (h : ¬ i < l.length) :
    updateAt l i p f = .error p := by
  have : l[i]? = none := by simp; omega
  simp [updateAt, this]

/-- the bucket that `values[range]` becomes -/
theorem bucket_step {n : Nat} {a : LLLineAttrs W} {h : History W} (rep : RepA n a h)
    (range : LRange) (k : Ty W) (v : Val k) :
    ∃ b, ((a.values.get? range).getD TypeBucket.empty).insert k v = .ok b ∧
      ∀ k', b.map.get? k' = if valuesOf k' range (h ++ [⟨k, range, v⟩]) = [] then none
        else some ⟨k', valuesOf k' range (h ++ [⟨k, range, v⟩])⟩ := by
  have old : ∀ k', ((a.values.get? range).getD TypeBucket.empty).map.get? k' =
      if valuesOf k' range h = [] then none else some ⟨k', valuesOf k' range h⟩ := by
    intro k'
    cases hv : a.values.get? range with
    | some b => simpa using rep.buckets range b hv k'
    | none =>
      have hne := (rep.absent range).1 hv
      have : valuesOf k' range h = [] := by
        simp only [valuesOf, List.filterMap_eq_nil_iff]
        intro x hx; simp [hne x hx]
      simp [this, TypeBucket.empty]
  have fin : ∀ k', (HMap.set ((a.values.get? range).getD TypeBucket.empty).map k
      ⟨k, valuesOf k range h ++ [v]⟩).get? k' =
      if valuesOf k' range (h ++ [⟨k, range, v⟩]) = [] then none
        else some ⟨k', valuesOf k' range (h ++ [⟨k, range, v⟩])⟩ := by
    intro k'
    rw [HMap.get?_set]
    by_cases hk : k' = k
    · subst hk; simp [valuesOf_snoc_self]
    · rw [if_neg hk, valuesOf_snoc_ne_ty k' range h _ (fun e => hk e.symm)]
      exact old k'
  refine ⟨⟨HMap.set ((a.values.get? range).getD TypeBucket.empty).map k
      ⟨k, valuesOf k range h ++ [v]⟩⟩, ?_, fin⟩
  simp only [TypeBucket.insert, old k]
  by_cases he : valuesOf k range h = []
  · simp [he]
  · simp [he]

/-- type-erased insertion of an `AnyAttribute::new(v)` is the typed insertion -/
theorem addAny_eq_insert {n : Nat} {a : LLLineAttrs W} {h : History W} (rep : RepA n a h)
    (range : LRange) (k : Ty W) (v : Val k) :
    LLLineAttrs.addAny range a (AnyAttribute.new k v) = a.insert range k v := by
  have hins : ((a.values.get? range).getD TypeBucket.empty).insertAnyAttribute (AnyAttribute.new k v)
      = ((a.values.get? range).getD TypeBucket.empty).insert k v := by
    have old : ((a.values.get? range).getD TypeBucket.empty).map.get? k = none ∨
        ∃ vs, ((a.values.get? range).getD TypeBucket.empty).map.get? k = some ⟨k, vs⟩ := by
      cases hv : a.values.get? range with
      | none => left; rfl
      | some b =>
        have hb := rep.buckets range b hv k
        simp only [Option.getD_some, hb]
        by_cases he : valuesOf k range h = []
        · left; simp [he]
        · right; exact ⟨valuesOf k range h, by simp [he]⟩
    have self : ∀ vs, (DynBucket.mk k vs).insertAny ⟨k, v⟩ = .ok ⟨k, vs ++ [v]⟩ := by
      intro vs; simp [DynBucket.insertAny]
    rcases old with e | ⟨vs, e⟩
    · simp only [TypeBucket.insertAnyAttribute, TypeBucket.insert, AnyAttribute.new, e, self,
        DynBucket.downcast_self]
    · simp only [TypeBucket.insertAnyAttribute, TypeBucket.insert, AnyAttribute.new, e, self,
        DynBucket.downcast_self]
  simp only [LLLineAttrs.addAny, LLLineAttrs.insert, hins, TypeIdToMany.insertAnyDistinct_eq]
  rfl

theorem filter_insert_aux {k' k : Ty W} (range : LRange) (v : Val k) (h : History W)
    (p : LRange → Bool) (m : List LRange) (hm : m = (rangesOf k h).filter p) (hp : p range = true) :
    (if range ∈ m then m else m ++ [range]) = (rangesOf k (h ++ [⟨k, range, v⟩])).filter p := by
  rw [rangesOf_snoc_self]
  by_cases hin : range ∈ rangesOf k h
  · have : range ∈ m := by rw [hm]; exact List.mem_filter.2 ⟨hin, hp⟩
    rw [if_pos this, if_pos hin, hm]
  · have : range ∉ m := by rw [hm]; intro hc; exact hin (List.mem_filter.1 hc).1
    rw [if_neg this, if_neg hin, hm]
    simp [List.filter_append, hp]

/-- one insertion, inside the line -/
theorem insert_rep {n : Nat} {a : LLLineAttrs W} {h : History W} (rep : RepA n a h)
    (range : LRange) (k : Ty W) (v : Val k) (h1 : range.1 < n) (h2 : range.2 < n) :
    ∃ a', a.insert range k v = .ok a' ∧ RepA n a' (h ++ [⟨k, range, v⟩]) := by
  obtain ⟨b, hb, hbk⟩ := bucket_step rep range k v
  have hs : range.1 < a.starts_at.length := by rw [rep.lenS]; exact h1
  have he : range.2 < a.ends_at.length := by rw [rep.lenE]; exact h2
  refine ⟨_, by simp only [LLLineAttrs.insert, updateAt_ok hs, updateAt_ok he, hb]; rfl, ?_⟩
  have filt_ne : ∀ (k' : Ty W) (p : LRange → Bool), p range = false →
      (rangesOf k' (h ++ [⟨k, range, v⟩])).filter p = (rangesOf k' h).filter p := by
    intro k' p hp
    by_cases hk : k = k'
    · subst hk; rw [rangesOf_snoc_self]; split
      · rfl
      · simp [List.filter_append, hp]
    · rw [rangesOf_snoc_ne k' h _ hk]
  constructor
  · simpa using rep.lenS
  · simpa using rep.lenE
  · intro x hx
    rcases List.mem_append.1 hx with hx | hx
    · exact rep.bounds x hx
    · simp at hx; subst hx; exact ⟨h1, h2⟩
  · intro k'
    show (a.ranges.insertDistinct k range).get k' = _
    rw [TypeIdToMany.get_insertDistinct]
    by_cases hk : k' = k
    · subst hk; rw [if_pos rfl, rangesOf_snoc_self, rep.ranges k']; congr
    · rw [if_neg hk, rangesOf_snoc_ne k' h _ (fun e => hk e.symm)]; exact rep.ranges k'
  · intro i m hm k'
    have hm : (a.starts_at.set range.1 (a.starts_at[range.1].insertDistinct k range))[i]? = some m := hm
    rw [List.getElem?_set] at hm
    by_cases hi : range.1 = i
    · rw [if_pos hi, if_pos hs] at hm
      obtain rfl := Option.some.inj hm
      rw [TypeIdToMany.get_insertDistinct]
      have hold := rep.starts range.1 _ (List.getElem?_eq_getElem hs)
      by_cases hk : k' = k
      · subst hk
        rw [if_pos rfl]
        have := filter_insert_aux (k' := k') range v h (fun r => decide (r.1 = i))
          (a.starts_at[range.1].get k') (by rw [hold k', hi]) (by simp [hi])
        refine Eq.trans ?_ this
        congr
      · rw [if_neg hk, rangesOf_snoc_ne k' h _ (fun e => hk e.symm), hold k', hi]
    · rw [if_neg hi] at hm
      rw [filt_ne k' _ (by simp [hi])]
      exact rep.starts i m hm k'
  · intro i m hm k'
    have hm : (a.ends_at.set range.2 (a.ends_at[range.2].insertDistinct k range))[i]? = some m := hm
    rw [List.getElem?_set] at hm
    by_cases hi : range.2 = i
    · rw [if_pos hi, if_pos he] at hm
      obtain rfl := Option.some.inj hm
      rw [TypeIdToMany.get_insertDistinct]
      have hold := rep.ends range.2 _ (List.getElem?_eq_getElem he)
      by_cases hk : k' = k
      · subst hk
        rw [if_pos rfl]
        have := filter_insert_aux (k' := k') range v h (fun r => decide (r.2 = i))
          (a.ends_at[range.2].get k') (by rw [hold k', hi]) (by simp [hi])
        refine Eq.trans ?_ this
        congr
      · rw [if_neg hk, rangesOf_snoc_ne k' h _ (fun e => hk e.symm), hold k', hi]
    · rw [if_neg hi] at hm
      rw [filt_ne k' _ (by simp [hi])]
      exact rep.ends i m hm k'
  · intro r
    show (a.values.set range b).get? r = none ↔ _
    rw [HMap.get?_set]
    by_cases hr : r = range
    · subst hr; simp
    · rw [if_neg hr, rep.absent r]
      simp only [List.mem_append, List.mem_singleton]
      constructor
      · rintro h' x (hx | rfl)
        · exact h' x hx
        · exact fun e => hr e.symm
      · intro h' x hx; exact h' x (Or.inl hx)
  · intro r b' hb' k'
    have hb' : (a.values.set range b).get? r = some b' := hb'
    rw [HMap.get?_set] at hb'
    by_cases hr : r = range
    · subst hr; rw [if_pos rfl] at hb'; obtain rfl := Option.some.inj hb'; exact hbk k'
    · rw [if_neg hr] at hb'
      rw [valuesOf_snoc_ne_range k' r h _ (fun e => hr e.symm)]
      exact rep.buckets r b' hb' k'
  · exact TypeIdToMany.tight_insertDistinct rep.tightR k range
  · intro m hm
    rcases List.mem_or_eq_of_mem_set hm with hm | rfl
    · exact rep.tightS m hm
    · exact TypeIdToMany.tight_insertDistinct (rep.tightS _ (List.getElem_mem _)) k range
  · intro m hm
    rcases List.mem_or_eq_of_mem_set hm with hm | rfl
    · exact rep.tightE m hm
    · exact TypeIdToMany.tight_insertDistinct (rep.tightE _ (List.getElem_mem _)) k range

/-- insertion fails exactly outside the line -/
theorem insert_oob {n : Nat} {a : LLLineAttrs W} {h : History W} (rep : RepA n a h)
    (range : LRange) (k : Ty W) (v : Val k) (ho : ¬ (range.1 < n ∧ range.2 < n)) :
    a.insert range k v = .error .startsAtOob ∨ a.insert range k v = .error .endsAtOob := by
  by_cases h1 : range.1 < n
  · right
    have h2 : ¬ range.2 < n := fun h2 => ho ⟨h1, h2⟩
    have hs : range.1 < a.starts_at.length := by rw [rep.lenS]; exact h1
    have he : ¬ range.2 < a.ends_at.length := by rw [rep.lenE]; exact h2
    simp only [LLLineAttrs.insert, updateAt_ok hs, updateAt_oob he]
  · left
    have hs : ¬ range.1 < a.starts_at.length := by rw [rep.lenS]; exact h1
    simp only [LLLineAttrs.insert, updateAt_oob hs]

/-- a line represents a history -/
def Rep (l : LLLine W) (h : History W) : Prop := RepA l.ll_tokens.length l.attrs h

theorem empty_rep (n : Nat) : RepA n
    { ranges := TypeIdToMany.empty
      starts_at := (List.range n).map (fun _ => TypeIdToMany.empty)
      ends_at := (List.range n).map (fun _ => TypeIdToMany.empty)
      values := HMap.empty : LLLineAttrs W } [] := by
  have hg : ∀ k, (TypeIdToMany.empty : TypeIdToMany W LRange).get k = [] := fun k => rfl
  constructor
  · simp
  · simp
  · simp
  · intro k; rfl
  · intro i m hm k
    simp at hm
    obtain ⟨_, rfl⟩ := hm
    simp [hg, rangesOf, firsts]
  · intro i m hm k
    simp at hm
    obtain ⟨_, rfl⟩ := hm
    simp [hg, rangesOf, firsts]
  · intro r; simp
  · intro r b hb; simp at hb
  · intro k hc; cases hc
  · intro m hm k hc
    obtain ⟨_, _, rfl⟩ := List.mem_map.1 hm
    cases hc
  · intro m hm k hc
    obtain ⟨_, _, rfl⟩ := List.mem_map.1 hm
    cases hc

theorem TypeIdToMany.ext_get {α : Type} {m m' : TypeIdToMany W α} (ht : m.Tight) (ht' : m'.Tight)
    (h : ∀ k, m.get k = m'.get k) : m = m' := by
  have hm : m.map = m'.map := by
    funext k
    have h1 := ht k; have h2 := ht' k; have h3 := h k
    simp only [TypeIdToMany.get, HMap.get?] at h1 h2 h3
    cases e : m.map k with
    | none =>
      cases e' : m'.map k with
      | none => rfl
      | some v => rw [e, e'] at h3; rw [e'] at h2; exact absurd (congrArg some h3.symm) h2
    | some v =>
      cases e' : m'.map k with
      | none => rw [e, e'] at h3; rw [e] at h1; exact absurd (congrArg some h3) h1
      | some v' => rw [e, e'] at h3; exact congrArg some h3
  cases m; cases m'; exact congrArg TypeIdToMany.mk hm

/-- What a line stores is a function of its tokens, of the ranges of each type and of the values of each
type on each range. -/
theorem rep_ext {l l' : LLLine W} {h h' : History W} (rep : Rep l h) (rep' : Rep l' h')
    (ht : l.ll_tokens = l'.ll_tokens) (hr : ∀ k, rangesOf k h = rangesOf k h')
    (hv : ∀ k r, valuesOf k r h = valuesOf k r h') : l = l' := by
  have hlen : l.ll_tokens.length = l'.ll_tokens.length := by rw [ht]
  have e1 : l.attrs.ranges = l'.attrs.ranges :=
    TypeIdToMany.ext_get rep.tightR rep'.tightR (fun k => by rw [rep.ranges, rep'.ranges, hr])
  have e2 : l.attrs.starts_at = l'.attrs.starts_at := by
    apply List.ext_getElem (by rw [rep.lenS, rep'.lenS, hlen])
    intro i h1 h2
    refine TypeIdToMany.ext_get (rep.tightS _ (List.getElem_mem _)) (rep'.tightS _ (List.getElem_mem _)) (fun k => ?_)
    rw [rep.starts i _ (List.getElem?_eq_getElem h1), rep'.starts i _ (List.getElem?_eq_getElem h2), hr]
  have e3 : l.attrs.ends_at = l'.attrs.ends_at := by
    apply List.ext_getElem (by rw [rep.lenE, rep'.lenE, hlen])
    intro i h1 h2
    refine TypeIdToMany.ext_get (rep.tightE _ (List.getElem_mem _)) (rep'.tightE _ (List.getElem_mem _)) (fun k => ?_)
    rw [rep.ends i _ (List.getElem?_eq_getElem h1), rep'.ends i _ (List.getElem?_eq_getElem h2), hr]
  have some_iff : ∀ (h : History W) r, (∀ x ∈ h, x.range ≠ r) ↔ ∀ k, valuesOf k r h = [] := by
    intro h r
    constructor
    · intro hx k
      simp only [valuesOf, List.filterMap_eq_nil_iff]
      intro x hx'; simp [hx x hx']
    · intro hk x hx hxr
      have hnil := hk x.ty
      have := List.filterMap_eq_nil_iff.1 hnil x hx
      simp [hxr, Rec.valAs] at this
  have e4 : l.attrs.values = l'.attrs.values := by
    funext r
    show l.attrs.values.get? r = l'.attrs.values.get? r
    have ha := rep.absent r
    have ha' := rep'.absent r
    rw [some_iff] at ha ha'
    simp only [hv] at ha
    cases e : l.attrs.values.get? r with
    | none => exact (ha'.2 (ha.1 e)).symm
    | some b =>
      cases e' : l'.attrs.values.get? r with
      | none => rw [ha.2 (ha'.1 e')] at e; cases e
      | some b' =>
        have hb := rep.buckets r b e
        have hb' := rep'.buckets r b' e'
        have : b.map = b'.map := by
          funext k
          show b.map.get? k = b'.map.get? k
          rw [hb k, hb' k, hv]
        cases b; cases b'; cases this; rfl
  obtain ⟨t, ⟨a1, a2, a3, a4⟩⟩ := l
  obtain ⟨t', ⟨a1', a2', a3', a4'⟩⟩ := l'
  cases ht; cases e1; cases e2; cases e3; cases e4
  rfl

/-- the assignment loop of `run` -/
theorem assign_fold {n : Nat} {k : Ty W} : ∀ (asgs : List (LLCursorAssignment (Val k)))
    {a : LLLineAttrs W} {h : History W}, RepA n a h →
    (∀ x ∈ asgs, x.start_idx < n ∧ x.end_idx < n) →
    ∃ a', foldR (LLLineAttrs.assign k) a asgs = .ok a' ∧ RepA n a' (h ++ asgs.map (recOf k))
  | [], a, h, rep, _ => ⟨a, rfl, by simpa using rep⟩
  | x :: xs, a, h, rep, hb => by
    obtain ⟨h1, h2⟩ := hb x (by simp)
    obtain ⟨a1, e1, r1⟩ := insert_rep rep (x.start_idx, x.end_idx) k x.value h1 h2
    obtain ⟨a2, e2, r2⟩ := assign_fold xs r1 (fun y hy => hb y (by simp [hy]))
    refine ⟨a2, ?_, ?_⟩
    · simp only [foldR, LLLineAttrs.assign, e1]; exact e2
    · simpa [recOf, List.append_assoc] using r2

theorem assign_fold_oob {n : Nat} {k : Ty W} : ∀ (asgs : List (LLCursorAssignment (Val k)))
    {a : LLLineAttrs W} {h : History W}, RepA n a h →
    (∃ x ∈ asgs, ¬ (x.start_idx < n ∧ x.end_idx < n)) →
    foldR (LLLineAttrs.assign k) a asgs = .error .startsAtOob ∨
    foldR (LLLineAttrs.assign k) a asgs = .error .endsAtOob
  | [], _, _, _, hx => by simp at hx
  | x :: xs, a, h, rep, hx => by
    by_cases hb : x.start_idx < n ∧ x.end_idx < n
    · obtain ⟨a1, e1, r1⟩ := insert_rep rep (x.start_idx, x.end_idx) k x.value hb.1 hb.2
      have : ∃ y ∈ xs, ¬ (y.start_idx < n ∧ y.end_idx < n) := by
        obtain ⟨y, hy, hn⟩ := hx
        rcases List.mem_cons.1 hy with rfl | hy
        · exact absurd hb hn
        · exact ⟨y, hy, hn⟩
      have := assign_fold_oob xs r1 this
      simpa only [foldR, LLLineAttrs.assign, e1] using this
    · have := insert_oob rep (x.start_idx, x.end_idx) k x.value hb
      rcases this with e | e
      · left; simp only [foldR, LLLineAttrs.assign, e]
      · right; simp only [foldR, LLLineAttrs.assign, e]

end LNlp
