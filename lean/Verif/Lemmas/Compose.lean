import Verif.Lemmas.TokenProps
import Verif.Lemmas.StoreProps
import Verif.Lemmas.Plain
import Verif.Spec.Compose
/- Lemmas for C78–C81: creation of concatenated inputs, source slices. -/
namespace LNlp
variable {W : World}

/-! ### attribute lookups depend only on the records that start (end) at the token -/

/-- what `x::attr` yields forwards at token `i` of a line with history `h` -/
def attrF (k : Ty W) (h : History W) (i : Nat) : List (Val k × Nat) :=
  ((rangesOf k h).filter (fun r => decide (r.1 = i))).flatMap (fun r => (valuesOf k r h).map (fun v => (v, r.2)))

/-- what `x::attr` yields backwards at token `i` of a line with history `h` -/
def attrB (k : Ty W) (h : History W) (i : Nat) : List (Val k × Nat) :=
  ((rangesOf k h).filter (fun r => decide (r.2 = i))).flatMap (fun r => (valuesOf k r h).map (fun v => (v, r.1)))

theorem firsts_map {α β : Type} [DecidableEq α] [DecidableEq β] (f : α → β)
    (inj : ∀ a b, f a = f b → a = b) : ∀ l : List α, firsts (l.map f) = (firsts l).map f
  | [] => rfl
  | x :: xs => by
    simp only [List.map_cons, firsts, firsts_map f inj xs, List.filter_map]
    congr 2
    apply List.filter_congr
    intro y _
    simp only [Function.comp, ne_eq, decide_eq_decide]
    exact ⟨fun h e => h (by rw [e]), fun h e => h (inj _ _ e)⟩

theorem rangesOf_filter (k : Ty W) (h : History W) (p : LRange → Bool) :
    rangesOf k (h.filter (fun x => p x.range)) = (rangesOf k h).filter p := by
  unfold rangesOf
  rw [firsts_filter, List.filter_filter, List.filter_map, List.filter_filter]
  congr 2
  apply List.filter_congr
  intro x _
  simp [Function.comp, Bool.and_comm]

theorem valuesOf_filter (k : Ty W) (h : History W) (p : LRange → Bool) {r : LRange} (hr : p r = true) :
    valuesOf k r (h.filter (fun x => p x.range)) = valuesOf k r h := by
  unfold valuesOf
  induction h with
  | nil => rfl
  | cons x xs ih =>
    rw [List.filter_cons]
    by_cases hx : x.range = r
    · rw [if_pos (by rw [hx]; exact hr), List.filterMap_cons, List.filterMap_cons, ih]
    · by_cases hp : p x.range = true
      · rw [if_pos hp, List.filterMap_cons, List.filterMap_cons, ih]
      · rw [if_neg hp, List.filterMap_cons, ih]; simp [hx]

theorem attrF_local (k : Ty W) (h : History W) (i : Nat) :
    attrF k h i = attrF k (h.filter (fun x => decide (x.range.1 = i))) i := by
  unfold attrF
  rw [rangesOf_filter k h (fun r => decide (r.1 = i)), List.filter_filter]
  simp only [Bool.and_self]
  have : ∀ L : List LRange, (∀ r ∈ L, r.1 = i) →
      L.flatMap (fun r => (valuesOf k r h).map (fun v => (v, r.2))) =
      L.flatMap (fun r => (valuesOf k r (h.filter (fun x => decide (x.range.1 = i)))).map (fun v => (v, r.2))) := by
    intro L hL
    induction L with
    | nil => rfl
    | cons r rs ih =>
      rw [List.flatMap_cons, List.flatMap_cons, ih (fun x hx => hL x (by simp [hx])),
        valuesOf_filter k h (fun r => decide (r.1 = i)) (by simpa using hL r (by simp))]
  exact this _ (fun r hr => by simpa using (List.mem_filter.1 hr).2)

theorem attrB_local (k : Ty W) (h : History W) (i : Nat) :
    attrB k h i = attrB k (h.filter (fun x => decide (x.range.2 = i))) i := by
  unfold attrB
  rw [rangesOf_filter k h (fun r => decide (r.2 = i)), List.filter_filter]
  simp only [Bool.and_self]
  have : ∀ L : List LRange, (∀ r ∈ L, r.2 = i) →
      L.flatMap (fun r => (valuesOf k r h).map (fun v => (v, r.1))) =
      L.flatMap (fun r => (valuesOf k r (h.filter (fun x => decide (x.range.2 = i)))).map (fun v => (v, r.1))) := by
    intro L hL
    induction L with
    | nil => rfl
    | cons r rs ih =>
      rw [List.flatMap_cons, List.flatMap_cons, ih (fun x hx => hL x (by simp [hx])),
        valuesOf_filter k h (fun r => decide (r.2 = i)) (by simpa using hL r (by simp))]
  exact this _ (fun r hr => by simpa using (List.mem_filter.1 hr).2)

/-! ### shifting histories -/

def shiftR (n : Nat) (r : LRange) : LRange := (r.1 + n, r.2 + n)

def Rec.shift (n : Nat) (x : Rec W) : Rec W := { x with range := shiftR n x.range }

theorem shiftR_inj {n : Nat} {a b : LRange} (h : shiftR n a = shiftR n b) : a = b := by
  simp only [shiftR, Prod.mk.injEq] at h
  exact Prod.ext (by omega) (by omega)

theorem rangesOf_shift (k : Ty W) (h : History W) (n : Nat) :
    rangesOf k (h.map (Rec.shift n)) = (rangesOf k h).map (shiftR n) := by
  unfold rangesOf
  rw [← firsts_map _ (fun a b => shiftR_inj), List.filter_map, List.map_map, List.map_map]
  rfl

theorem valuesOf_shift (k : Ty W) (h : History W) (n : Nat) (r : LRange) :
    valuesOf k (shiftR n r) (h.map (Rec.shift n)) = valuesOf k r h := by
  unfold valuesOf
  rw [List.filterMap_map]
  congr 1
  funext x
  simp only [Function.comp]
  by_cases hx : x.range = r
  · rw [if_pos hx, if_pos (by simp [Rec.shift, hx])]; rfl
  · rw [if_neg hx, if_neg (fun h : (Rec.shift n x).range = shiftR n r => hx (shiftR_inj h))]

theorem attrF_shift (k : Ty W) (h : History W) (n i : Nat) :
    attrF k (h.map (Rec.shift n)) (n + i) = (attrF k h i).map (fun r => (r.1, r.2 + n)) := by
  unfold attrF
  rw [rangesOf_shift, List.filter_map, List.flatMap_map, List.map_flatMap]
  have : (fun r : LRange => decide (r.1 = n + i)) ∘ shiftR n = fun r => decide (r.1 = i) := by
    funext r; simp only [Function.comp, shiftR]; congr 1; apply propext; omega
  rw [this]
  congr 1
  funext r
  rw [valuesOf_shift, List.map_map]
  rfl

theorem attrB_shift (k : Ty W) (h : History W) (n i : Nat) :
    attrB k (h.map (Rec.shift n)) (n + i) = (attrB k h i).map (fun r => (r.1, r.2 + n)) := by
  unfold attrB
  rw [rangesOf_shift, List.filter_map, List.flatMap_map, List.map_flatMap]
  have : (fun r : LRange => decide (r.2 = n + i)) ∘ shiftR n = fun r => decide (r.2 = i) := by
    funext r; simp only [Function.comp, shiftR]; congr 1; apply propext; omega
  rw [this]
  congr 1
  funext r
  rw [valuesOf_shift, List.map_map]
  rfl

/-! ### creation histories of concatenated inputs -/

theorem builtinOf_shift (t : LToken) (i n : Nat) :
    builtinOf W t (i + n) = (builtinOf W t i).map (Rec.shift n) := by
  unfold builtinOf
  split <;> rfl

theorem builtinHistory_append (a b : List LToken) :
    builtinHistory W (a ++ b) = builtinHistory W a ++ (builtinHistory W b).map (Rec.shift a.length) := by
  unfold builtinHistory
  rw [List.zipIdx_append, List.flatMap_append, List.map_flatMap]
  congr 1
  rw [Nat.zero_add, List.zipIdx_eq_map_add, List.flatMap_map]
  congr 1
  funext p
  rw [← builtinOf_shift]
  simp [Nat.add_comm]

theorem inputHistory_append (size : Str → Nat) : ∀ (xs ys : List (InputToken W)) (i : Nat),
    inputHistory W size i (xs ++ ys) =
      inputHistory W size i xs ++ inputHistory W size (i + (xs.flatMap (tokensOf W size)).length) ys
  | [], ys, i => by simp [inputHistory]
  | x :: xs, ys, i => by
    simp only [List.cons_append, inputHistory, inputHistory_append size xs ys, List.append_assoc,
      List.flatMap_cons, List.length_append, Nat.add_assoc]

theorem inputHistory_shift (size : Str → Nat) (n : Nat) : ∀ (ys : List (InputToken W)) (i : Nat),
    (∀ t ∈ ys, tokensOf W size t ≠ []) →
    inputHistory W size (i + n) ys = (inputHistory W size i ys).map (Rec.shift n)
  | [], _, _ => rfl
  | y :: ys, i, h => by
    have hne : 0 < (tokensOf W size y).length := List.length_pos_iff.2 (h y (by simp))
    simp only [inputHistory, List.map_append, List.map_map]
    rw [show i + n + (tokensOf W size y).length = i + (tokensOf W size y).length + n by omega,
      inputHistory_shift size n ys _ (fun t ht => h t (by simp [ht]))]
    congr 1
    apply List.map_congr_left
    intro a _
    simp only [Function.comp, Rec.shift, shiftR, Rec.mk.injEq, true_and, heq_eq_eq, and_true, Prod.mk.injEq]
    omega

/-- the parts of the history of a concatenated creation -/
theorem creationHistory_append (size : Str → Nat) (xs ys : List (InputToken W))
    (hy : ∀ t ∈ ys, tokensOf W size t ≠ []) :
    ∃ bx by' ix iy : History W, creationHistory W size xs = bx ++ ix ∧ creationHistory W size ys = by' ++ iy ∧
      creationHistory W size (xs ++ ys) =
        (bx ++ by'.map (Rec.shift (xs.flatMap (tokensOf W size)).length)) ++
          (ix ++ iy.map (Rec.shift (xs.flatMap (tokensOf W size)).length)) := by
  refine ⟨_, _, _, _, rfl, rfl, ?_⟩
  unfold creationHistory
  rw [List.flatMap_append, List.map_append, builtinHistory_append, List.length_map, inputHistory_append,
    inputHistory_shift size _ ys 0 hy]

theorem filter_shift_none {P : LRange → Bool} {n : Nat} {h : History W}
    (hp : ∀ r : LRange, P (shiftR n r) = false) : (h.map (Rec.shift n)).filter (fun x => P x.range) = [] := by
  rw [List.filter_eq_nil_iff]
  intro x hx
  obtain ⟨y, _, rfl⟩ := List.mem_map.1 hx
  simp [Rec.shift, hp]

theorem creation_filter_left (size : Str → Nat) (xs ys : List (InputToken W))
    (hy : ∀ t ∈ ys, tokensOf W size t ≠ []) (P : LRange → Bool)
    (hp : ∀ r : LRange, P (shiftR (xs.flatMap (tokensOf W size)).length r) = false) :
    (creationHistory W size (xs ++ ys)).filter (fun x => P x.range) =
      (creationHistory W size xs).filter (fun x => P x.range) := by
  obtain ⟨bx, by', ix, iy, e1, e2, e3⟩ := creationHistory_append size xs ys hy
  rw [e3, e1]
  simp only [List.filter_append, filter_shift_none hp, List.append_nil]

theorem creation_filter_right (size : Str → Nat) (xs ys : List (InputToken W))
    (hy : ∀ t ∈ ys, tokensOf W size t ≠ []) (P : LRange → Bool)
    (hx : ∀ x ∈ creationHistory W size xs, P x.range = false) :
    (creationHistory W size (xs ++ ys)).filter (fun x => P x.range) =
      ((creationHistory W size ys).filter
        (fun x => P (shiftR (xs.flatMap (tokensOf W size)).length x.range))).map
        (Rec.shift (xs.flatMap (tokensOf W size)).length) := by
  obtain ⟨bx, by', ix, iy, e1, e2, e3⟩ := creationHistory_append size xs ys hy
  rw [e1] at hx
  have hb : bx.filter (fun x => P x.range) = [] := by
    rw [List.filter_eq_nil_iff]; intro x h; simp [hx x (by simp [h])]
  have hi : ix.filter (fun x => P x.range) = [] := by
    rw [List.filter_eq_nil_iff]; intro x h; simp [hx x (by simp [h])]
  rw [e3, e2]
  simp only [List.filter_append, hb, hi, List.nil_append, List.map_append, List.filter_map]
  rfl

/-! ### positions -/

theorem layoutM_shift {B : Nat} (n q : Nat) : ∀ (toks : List (LToken × Nat)) (i p : Nat),
    p + q + totalSize toks < B →
    layoutM B (i + n) (p + q) toks = (layoutM B i p toks).map (LLToken.shift n q)
  | [], _, _, _ => rfl
  | (t, m) :: rest, i, p, h => by
    have hs : totalSize ((t, m) :: rest) = m + totalSize rest := by simp [totalSize]
    rw [hs] at h
    simp only [layoutM, List.map_cons]
    rw [Nat.mod_eq_of_lt (by omega), Nat.mod_eq_of_lt (by omega)]
    rw [show i + n + 1 = i + 1 + n by omega, show p + q + m = p + m + q by omega,
      layoutM_shift n q rest (i + 1) (p + m) (by omega)]
    rfl

theorem endOf_layoutM {B : Nat} : ∀ (toks : List (LToken × Nat)) (i p : Nat), toks ≠ [] →
    ((layoutM B i p toks).getLast?.map (·.pos_ends_at)).getD 0 = endPosM B p toks
  | [], _, _, h => absurd rfl h
  | [(t, m)], i, p, _ => by simp [layoutM, endPosM]
  | (t, m) :: b :: rest, i, p, _ => by
    have ih := endOf_layoutM (B := B) (b :: rest) (i + 1) ((p + m) % B) (by simp)
    rw [show endPosM B p ((t, m) :: b :: rest) = endPosM B ((p + m) % B) (b :: rest) from rfl, ← ih]
    simp only [layoutM, List.getLast?_cons_cons]

theorem endOf_layout {B : Nat} (toks : List (LToken × Nat)) (i : Nat) :
    endOf (layoutM B i 0 toks) = endPosM B 0 toks := by
  by_cases h : toks = []
  · subst h; rfl
  · exact endOf_layoutM toks i 0 h

theorem totalSize_append (a b : List (LToken × Nat)) : totalSize (a ++ b) = totalSize a + totalSize b := by
  simp [totalSize]

/-! ### inputs without attributes -/

theorem bare_tokens (size : Str → Nat) (t : InputToken W) : tokensOf W size t.bare = tokensOf W size t := by
  cases t <;> rfl

theorem bare_flat (size : Str → Nat) (input : List (InputToken W)) :
    (input.map InputToken.bare).flatMap (tokensOf W size) = input.flatMap (tokensOf W size) := by
  rw [List.flatMap_map]; congr 1; funext t; exact bare_tokens size t

theorem bare_good (t : InputToken W) : GoodInput W t.bare ↔ GoodInput W t := by cases t <;> exact Iff.rfl

theorem tokensOf_tokens (size size' : Str → Nat) (t : InputToken W) :
    (tokensOf W size t).map (·.1) = (tokensOf W size' t).map (·.1) := by
  cases t with
  | Text s as => simp [tokensOf, Function.comp_def]
  | Custom n as => rfl

theorem flat_tokens (size size' : Str → Nat) (input : List (InputToken W)) :
    (input.flatMap (tokensOf W size)).map (·.1) = (input.flatMap (tokensOf W size')).map (·.1) := by
  rw [List.map_flatMap, List.map_flatMap]; congr 1; funext t; exact tokensOf_tokens size size' t

/-! ### runs -/

theorem runsTo_tokens {l0 l : LLLine W} (h : RunsTo l0 l) : l.ll_tokens = l0.ll_tokens := by
  induction h with
  | refl => rfl
  | run ptr r _ ok ih => rw [run_tokens ok, ih]

theorem runsTo_reachable {l0 l : LLLine W} {h0 : History W} (hr : Reachable l0 h0) (h : RunsTo l0 l) :
    ∃ h, Reachable l h := by
  induction h with
  | refl => exact ⟨_, hr⟩
  | run ptr r _ ok ih =>
    obtain ⟨h, ih⟩ := ih
    rename_i l1 l2 _
    by_cases he : l1.ll_tokens = []
    · exact ⟨_, .runEmpty l1 h ptr r l2 ih he ok⟩
    · obtain ⟨asgs, a', hg, _, _⟩ := run_inv he ok
      exact ⟨_, .run l1 h ptr r asgs false l2 ih he hg ok⟩

theorem size_flatten {size : Str → Nat} (A : Additive size) : ∀ ps : List (Str × TextTag),
    totalSize (ps.map (fun p => (LToken.Text p.1 p.2, size p.1))) = size ((ps.map (·.1)).flatten)
  | [] => by simp [totalSize, A.nil]
  | p :: ps => by
    have ih := size_flatten A ps
    simp only [totalSize, List.map_cons, List.sum_cons, List.flatten_cons] at ih ⊢
    rw [A.append, ih]

end LNlp
