import Verif.Lemmas.Show
import Verif.Lemmas.WrittenIn
import Verif.Lemmas.DisplayProps
import Verif.Lemmas.Layers
import Verif.Spec.Beside
/- Rendering lines put together from two parts. -/
namespace LNlp
variable {W : World}

theorem headerOf_tokens {a b : List LLToken} (h : a.map (·.token) = b.map (·.token)) : headerOf a = headerOf b := by
  have e : ∀ t : List LLToken, t.map shown = (t.map (·.token)).map (fun t => match t with | .Text s _ => s | .Value => ['<', '>']) := by
    intro t
    rw [List.map_map]
    exact List.map_congr_left fun x _ => rfl
  unfold headerOf
  rw [e a, e b, h]

theorem take_tokens {a b : List LLToken} (h : a.map (·.token) = b.map (·.token)) (i : Nat) :
    (a.take i).map (·.token) = (b.take i).map (·.token) := by
  rw [List.map_take, List.map_take, h]

theorem attrLine_tokens {a b : List LLToken} (h : a.map (·.token) = b.map (·.token)) (item : LRange × Str) :
    attrLine W a item = attrLine W b item := by
  unfold attrLine colStart colEnd
  rw [headerOf_tokens (take_tokens h _), headerOf_tokens (take_tokens h _)]

theorem colStart_left (a b : List LLToken) {i : Nat} (h : i ≤ a.length) : colStart W (a ++ b) i = colStart W a i := by
  unfold colStart
  rw [List.take_append_of_le_length h]

theorem colEnd_left (a b : List LLToken) {i : Nat} (h : i < a.length) : colEnd W (a ++ b) i = colEnd W a i := by
  unfold colEnd
  rw [List.take_append_of_le_length h]

theorem attrLine_left (a b : List LLToken) {item : LRange × Str} (h1 : item.1.1 < a.length) (h2 : item.1.2 < a.length) :
    attrLine W (a ++ b) item = attrLine W a item := by
  unfold attrLine
  rw [colStart_left a b (Nat.le_of_lt h1), colEnd_left a b h2]

theorem take_ne_nil {b : List LLToken} (hb : b ≠ []) {i : Nat} (hi : i ≠ 0) : b.take i ≠ [] := by
  cases b with
  | nil => exact absurd rfl hb
  | cons x xs => cases i with
    | zero => exact absurd rfl hi
    | succ i => simp

theorem colStart_right (L : AdditiveWidth W) {a b : List LLToken} (ha : a ≠ []) (hb : b ≠ []) (i : Nat) :
    colStart W (a ++ b) (i + a.length) = W.strWidth (headerOf a) + W.strWidth [' ', ' '] + colStart W b i := by
  have hl := List.length_pos_iff.2 ha
  unfold colStart
  rw [if_neg (by omega), Nat.add_comm, List.take_length_add_append]
  by_cases hi : i = 0
  · subst hi
    have := L.append (headerOf a) []
    simpa [L.nil] using this
  · rw [if_neg hi, headerOf_append ha (take_ne_nil hb hi), List.append_assoc (headerOf a ++ [' ', ' ']), L.append]

theorem colEnd_right (L : AdditiveWidth W) {a b : List LLToken} (ha : a ≠ []) (hb : b ≠ []) (i : Nat) :
    colEnd W (a ++ b) (i + a.length) = W.strWidth (headerOf a) + W.strWidth [' ', ' '] + colEnd W b i := by
  unfold colEnd
  rw [show i + a.length + 1 = a.length + (i + 1) by omega, List.take_length_add_append,
    headerOf_append ha (take_ne_nil hb (by omega)), L.append]

theorem attrLine_right (L : AdditiveWidth W) {a b : List LLToken} (ha : a ≠ []) (hb : b ≠ []) (r : LRange) (s : Str) :
    attrLine W (a ++ b) ((r.1 + a.length, r.2 + a.length), s) =
      movedRight (W.strWidth (headerOf a) + W.strWidth [' ', ' ']) (attrLine W b (r, s)) := by
  unfold attrLine
  rw [colStart_right L ha hb, colEnd_right L ha hb]
  simp only [List.cons_append, List.nil_append, movedRight, ← List.append_assoc, List.replicate_append_replicate]
  rw [show ∀ x y z : Nat, x + y - (x + z) = y - z from fun x y z => by omega]

/-! ### queries -/

theorem firsts_append_disjoint {α : Type} [DecidableEq α] : ∀ (a b : List α), (∀ x ∈ a, x ∉ b) →
    firsts (a ++ b) = firsts a ++ firsts b
  | [], _, _ => rfl
  | x :: a, b, h => by
    simp only [List.cons_append, firsts]
    rw [firsts_append_disjoint a b (fun y hy => h y (by simp [hy])), List.filter_append]
    congr 2
    refine List.filter_eq_self.2 fun y hy => ?_
    have : y ∈ b := mem_firsts.1 hy
    exact decide_eq_true (fun e => h x (by simp) (e ▸ this))

theorem query_history {l : LLLine W} {h : History W} (hr : Reachable l h) (ho : Ordered h) (k : Ty W) :
    queried l k = (rangesOf k h).map (fun r => (r, coveredText l.ll_tokens r, valuesOf k r h)) := by
  have : l.query k = .ok ((rangesOf k h).map (fun r => (r, coveredText l.ll_tokens r, valuesOf k r h))) := by
    refine C13_query_is_history hr k (fun r hm => ?_)
    obtain ⟨v, hv⟩ := mem_rangesOf.1 hm
    exact Nat.le_succ_of_le (ho _ hv)
  unfold queried
  rw [this]

theorem entryLines_append (k : Ty W) (a b : List (LRange × Str × List (Val k))) :
    entryLines k (a ++ b) = entryLines k a ++ entryLines k b := List.flatMap_append ..

theorem entryLines_shift (k : Ty W) (n : Nat) (a : List (LRange × Str × List (Val k))) :
    entryLines k (a.map (shiftEntry n)) = (entryLines k a).map (fun x => ((x.1.1 + n, x.1.2 + n), x.2)) := by
  unfold entryLines
  rw [List.flatMap_map, List.map_flatMap]
  congr 1
  funext e
  rw [List.map_map]
  rfl

theorem entryLines_bounds {l : LLLine W} {h : History W} (hr : Reachable l h) (ho : Ordered h) {k : Ty W} {x : LRange × Str}
    (hx : x ∈ entryLines k (queried l k)) : x.1.1 < l.ll_tokens.length ∧ x.1.2 < l.ll_tokens.length := by
  rw [query_history hr ho k] at hx
  obtain ⟨e, he, hx⟩ := List.mem_flatMap.1 hx
  obtain ⟨r, hm, rfl⟩ := List.mem_map.1 he
  obtain ⟨v, _, rfl⟩ := List.mem_map.1 hx
  obtain ⟨v, hv⟩ := mem_rangesOf.1 hm
  exact hr.rep.bounds _ hv

/-- histories side by side list the same side by side -/
theorem entries_beside {l lx ly : LLLine W} {h hx hy : History W} (hrx : Reachable lx hx) (hry : Reachable ly hy)
    (hox : Ordered hx) (hoy : Ordered hy) (ht : TokensBeside l lx ly) {k : Ty W}
    (hk : ofType k h = ofType k hx ++ (ofType k hy).map (Rec.shift lx.ll_tokens.length)) :
    (rangesOf k h).map (fun r => (r, coveredText l.ll_tokens r, valuesOf k r h)) =
      queried lx k ++ (queried ly k).map (shiftEntry lx.ll_tokens.length) := by
  have hb : ∀ x ∈ ofType k hx, x.range.1 < lx.ll_tokens.length ∧ x.range.2 < lx.ll_tokens.length :=
    fun x hm => hrx.rep.bounds x (List.mem_filter.1 hm).1
  have hbe : ∀ r ∈ rangesOf k hx, r.1 < lx.ll_tokens.length ∧ r.2 < lx.ll_tokens.length := by
    intro r hm
    obtain ⟨v, hv⟩ := mem_rangesOf.1 hm
    exact hrx.rep.bounds _ hv
  have hranges : rangesOf k h = rangesOf k hx ++ (rangesOf k hy).map (shiftR lx.ll_tokens.length) := by
    have e2 := rangesOf_shift k hy lx.ll_tokens.length
    unfold rangesOf at e2 ⊢
    have e1 : (h.filter (fun x => decide (x.ty = k))) = _ := hk
    rw [e1, List.map_append, firsts_append_disjoint]
    · rw [← e2, List.filter_map]; rfl
    · intro r h1 h2
      obtain ⟨x, hx1, rfl⟩ := List.mem_map.1 h1
      obtain ⟨y, hy1, e⟩ := List.mem_map.1 h2
      obtain ⟨z, hz, rfl⟩ := List.mem_map.1 hy1
      have := (hb x hx1).1
      have := congrArg Prod.fst e
      simp only [Rec.shift, shiftR] at this
      omega
  have hval : ∀ r, valuesOf k r h = valuesOf k r hx ++ valuesOf k r ((ofType k hy).map (Rec.shift lx.ll_tokens.length)) := by
    intro r
    rw [valuesOf_ofType k r h, hk, valuesOf_ofType k r hx]
    exact List.filterMap_append ..
  have htl : ∀ r : LRange, r.2 < lx.ll_tokens.length → coveredText l.ll_tokens r = coveredText lx.ll_tokens r := by
    intro r h2
    rw [coveredText_tokens, coveredText_tokens, show l.ll_tokens.map (·.token) = _ from ht, List.drop_append,
      List.take_append]
    by_cases h1 : r.1 ≤ lx.ll_tokens.length
    · rw [show r.2 + 1 - r.1 - ((lx.ll_tokens.map (·.token)).drop r.1).length = 0 by simp; omega]
      simp
    · rw [show r.2 + 1 - r.1 = 0 by omega]; simp
  have htr : ∀ r : LRange, coveredText l.ll_tokens (shiftR lx.ll_tokens.length r) = coveredText ly.ll_tokens r := by
    intro r
    rw [coveredText_tokens, coveredText_tokens, show l.ll_tokens.map (·.token) = _ from ht]
    simp only [shiftR]
    rw [show r.1 + lx.ll_tokens.length = (lx.ll_tokens.map (·.token)).length + r.1 by simp; omega, List.drop_length_add_append]
    rw [show r.2 + lx.ll_tokens.length + 1 - ((lx.ll_tokens.map (·.token)).length + r.1) = r.2 + 1 - r.1 by
      rw [List.length_map]; omega]
  rw [query_history hrx hox k, query_history hry hoy k, hranges, List.map_append, List.map_map, List.map_map]
  congr 1
  · refine List.map_congr_left fun r hm => ?_
    rw [htl r (hbe r hm).2, hval r]
    have : valuesOf k r ((ofType k hy).map (Rec.shift lx.ll_tokens.length)) = [] := by
      refine List.filterMap_eq_nil_iff.2 fun x hx1 => ?_
      obtain ⟨z, _, rfl⟩ := List.mem_map.1 hx1
      rw [if_neg]
      intro e
      have h1 := (hbe r hm).1
      have h2 := congrArg Prod.fst e
      simp only [Rec.shift, shiftR] at h2
      omega
    rw [this, List.append_nil]
  · refine List.map_congr_left fun r _ => ?_
    have h1 : valuesOf k (shiftR lx.ll_tokens.length r) hx = [] := by
      refine List.filterMap_eq_nil_iff.2 fun x hx1 => ?_
      rw [if_neg]
      intro e
      have h1 := (hrx.rep.bounds x hx1).1
      have h2 := congrArg Prod.fst e
      simp only [shiftR] at h2
      omega
    simp only [Function.comp]
    rw [htr, hval, h1, List.nil_append, valuesOf_shift, ← valuesOf_ofType]
    rfl

/-- histories side by side give queries side by side -/
theorem queryBeside_of_history {l lx ly : LLLine W} {h hx hy : History W} (hr : Reachable l h) (hrx : Reachable lx hx)
    (hry : Reachable ly hy) (ho : Ordered h) (hox : Ordered hx) (hoy : Ordered hy) (ht : TokensBeside l lx ly) {k : Ty W}
    (hk : ofType k h = ofType k hx ++ (ofType k hy).map (Rec.shift lx.ll_tokens.length)) : QueryBeside l lx ly k := by
  unfold QueryBeside
  rw [query_history hr ho k]
  exact entries_beside hrx hry hox hoy ht hk

/-! ### creation -/

theorem tokensBeside_create {size : Str → Nat} {xs ys : List (InputToken W)} {l lx ly : LLLine W}
    (wf : ∀ t ∈ xs ++ ys, t.WF) (ok : createLineFromInputTokens W (xs ++ ys) size = .ok l)
    (okx : createLineFromInputTokens W xs size = .ok lx) (oky : createLineFromInputTokens W ys size = .ok ly) :
    TokensBeside l lx ly := by
  obtain ⟨_, ht, _⟩ := create_inv wf ok
  obtain ⟨_, htx, _⟩ := create_inv (fun t ht => wf t (by simp [ht])) okx
  obtain ⟨_, hty, _⟩ := create_inv (fun t ht => wf t (by simp [ht])) oky
  unfold TokensBeside
  rw [ht, htx, hty, layoutM_tokens, layoutM_tokens, layoutM_tokens, List.flatMap_append, List.map_append]

theorem ofType_shift (k : Ty W) (n : Nat) (h : History W) : ofType k (h.map (Rec.shift n)) = (ofType k h).map (Rec.shift n) := by
  unfold ofType
  rw [List.filter_map]
  rfl

theorem ofType_builtin {k : Ty W} (h1 : k ≠ .char) (h2 : k ≠ .textTag) (toks : List LToken) :
    ofType k (builtinHistory W toks) = [] := by
  refine List.filter_eq_nil_iff.2 fun x hx => ?_
  rcases builtinHistory_ty toks x hx with h | h <;> simp [h, Ne.symm h1, Ne.symm h2]

theorem ofType_input {k : Ty W} {size : Str → Nat} {input : List (InputToken W)} (h : NoCustom k input) (i : Nat) :
    ofType k (inputHistory W size i input) = [] := by
  induction input generalizing i with
  | nil => rfl
  | cons t ts ih =>
    rw [inputHistory, ofType_append, ih (fun x hx => h x (by simp [hx])), List.append_nil]
    refine List.filter_eq_nil_iff.2 fun x hx => ?_
    obtain ⟨a, ha, rfl⟩ := List.mem_map.1 hx
    simpa using h t (by simp) a ha

theorem ofType_create_new {k : Ty W} (h1 : k ≠ .char) (h2 : k ≠ .textTag) {size : Str → Nat} {input : List (InputToken W)}
    (h : NoCustom k input) : ofType k (creationHistory W size input) = [] := by
  rw [creationHistory, ofType_append, ofType_builtin h1 h2, ofType_input h]
  rfl

theorem ofType_create {size : Str → Nat} {xs ys : List (InputToken W)} {l lx ly : LLLine W}
    (wf : ∀ t ∈ xs ++ ys, t.WF) (_ok : createLineFromInputTokens W (xs ++ ys) size = .ok l)
    (okx : createLineFromInputTokens W xs size = .ok lx) (oky : createLineFromInputTokens W ys size = .ok ly) {k : Ty W}
    (hk : k = .char ∨ k = .textTag → NoCustom k (xs ++ ys)) :
    ofType k (creationHistory W size (xs ++ ys)) = ofType k (creationHistory W size xs) ++
      (ofType k (creationHistory W size ys)).map (Rec.shift lx.ll_tokens.length) := by
  obtain ⟨_, htx, _⟩ := create_inv (fun t ht => wf t (by simp [ht])) okx
  obtain ⟨hgy, _, _⟩ := create_inv (fun t ht => wf t (by simp [ht])) oky
  have hy : ∀ t ∈ ys, tokensOf W size t ≠ [] := fun t ht => (inputTokens_ok size (hgy t ht)).2
  have hn : lx.ll_tokens.length = (xs.flatMap (tokensOf W size)).length := by rw [htx, layoutM_length]
  have e1 : builtinHistory W (((xs ++ ys).flatMap (tokensOf W size)).map (·.1)) =
      builtinHistory W ((xs.flatMap (tokensOf W size)).map (·.1)) ++
        (builtinHistory W ((ys.flatMap (tokensOf W size)).map (·.1))).map (Rec.shift lx.ll_tokens.length) := by
    rw [List.flatMap_append, List.map_append, builtinHistory_append, List.length_map, hn]
  have e2 : inputHistory W size 0 (xs ++ ys) = inputHistory W size 0 xs ++
      (inputHistory W size 0 ys).map (Rec.shift lx.ll_tokens.length) := by
    rw [inputHistory_append, inputHistory_shift size _ ys 0 hy, hn]
  simp only [creationHistory, ofType_append, e1, e2, ofType_shift, List.map_append]
  by_cases hb : k = .char ∨ k = .textTag
  · have hc := hk hb
    rw [ofType_input (fun t ht => hc t (by simp [ht])), ofType_input (fun t ht => hc t (by simp [ht]))]
    simp
  · rw [ofType_builtin (fun h => hb (.inl h)) (fun h => hb (.inr h)), ofType_builtin (fun h => hb (.inl h)) (fun h => hb (.inr h))]
    simp

end LNlp
