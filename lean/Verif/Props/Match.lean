import Verif.Lemmas.Match
import Verif.Demo.Examples
/-
C27–C36 (and the matcher part of C18): what the matchers `x::*` find on a line.
Matchers are run by `.go (.fwd i)` (forwards from token `i`) or `.go (.bwd i)` (backwards from token
`i`); a result `(value, j)` says that the match ends (or, backwards, starts) at token `j`.
-/
namespace LNlp
variable {W : World} {α β γ : Type}

/-- a line with one custom token that has no attribute -/
def Demo.bare : LLLine Demo.W :=
  Demo.getOk Demo.emptyLine (createLineFromInputTokens Demo.W [.Custom 4 []] List.length)
theorem Demo.bareReach : Reachable Demo.bare (creationHistory Demo.W List.length [.Custom 4 []]) :=
  .create [.Custom 4 []] List.length _ (by simp [InputToken.WF, InputToken.attrList]) rfl

/-! ### C27: attr_eq -/

/-- C27 forwards: for every end `j`, one match per value equal to `v` assigned on `(i, j)`. -/
theorem C27_attr_eq_forwards {l : LLLine W} {h : History W} (hr : Reachable l h) (k : Ty W) (v : Val k)
    (i : Nat) (hi : i < l.ll_tokens.length) :
    ∃ out, (X.attrEq k v).go (.fwd i) l = .ok out ∧
      ∀ j, out.filter (fun p => decide (p.2 = j)) =
        ((valuesOf k (i, j) h).filter (fun w => valEq k w v)).map (fun _ => ((), j)) := by
  refine ⟨_, rep_attrEq_fwd hr.rep k v hi, fun j => ?_⟩
  exact filter_ranges (fun r => (valuesOf k r h).filter (fun w => valEq k w v)) (fun _ => ())
    (fun r => r.1 = i) (fun r => r.2) j (i, j) (by rintro ⟨a, b⟩; simp) _ (rangesOf_nodup k h)
    (fun hn => by simp only [valuesOf_not_mem hn, List.filter_nil])

example := C27_attr_eq_forwards Demo.exReach2 (Ty.user 2) (['x'] : Str) 0 (by decide)

/-- C27 backwards: for every start `i`, one match per value equal to `v` assigned on `(i, j)`. -/
theorem C27_attr_eq_backwards {l : LLLine W} {h : History W} (hr : Reachable l h) (k : Ty W) (v : Val k)
    (j : Nat) (hj : j < l.ll_tokens.length) :
    ∃ out, (X.attrEq k v).go (.bwd j) l = .ok out ∧
      ∀ i, out.filter (fun p => decide (p.2 = i)) =
        ((valuesOf k (i, j) h).filter (fun w => valEq k w v)).map (fun _ => ((), i)) := by
  refine ⟨_, rep_attrEq_bwd hr.rep k v hj, fun i => ?_⟩
  exact filter_ranges (fun r => (valuesOf k r h).filter (fun w => valEq k w v)) (fun _ => ())
    (fun r => r.2 = j) (fun r => r.1) i (i, j) (by rintro ⟨a, b⟩; simp [and_comm]) _ (rangesOf_nodup k h)
    (fun hn => by simp only [valuesOf_not_mem hn, List.filter_nil])

example := C27_attr_eq_backwards Demo.exReach2 (Ty.user 2) (['x'] : Str) 2 (by decide)

/-- C27: the values of the types that come with the crates and derive `PartialEq` are equal exactly if they are the
same, so `attr_eq(&v)` finds exactly the places where `v` itself was assigned. -/
theorem C27_same_value {l : LLLine W} {h : History W} (hr : Reachable l h) (k : Ty W) (v : Val k)
    (hk : k = .char ∨ k = .textTag ∨ k = .clauseKeyword ∨ k = .clause) (i : Nat) (hi : i < l.ll_tokens.length) :
    ∃ outF outB, (X.attrEq k v).go (.fwd i) l = .ok outF ∧ (X.attrEq k v).go (.bwd i) l = .ok outB ∧
      ∀ j, (((), j) ∈ outF ↔ (⟨k, (i, j), v⟩ : Rec W) ∈ h) ∧ (((), j) ∈ outB ↔ (⟨k, (j, i), v⟩ : Rec W) ∈ h) := by
  have heq : ∀ w : Val k, valEq k w v = true ↔ w = v := by
    rcases hk with rfl | rfl | rfl | rfl <;> intro w
    · exact beq_iff_eq (α := Char)
    · exact beq_iff_eq (α := TextTag)
    · exact beq_iff_eq (α := ClauseKeyword)
    · exact beq_iff_eq (α := Clause)
  have mem : ∀ {out : List (Unit × Nat)} {j : Nat} {r : LRange},
      out.filter (fun p => decide (p.2 = j)) = ((valuesOf k r h).filter (fun w => valEq k w v)).map (fun _ => ((), j)) →
      (((), j) ∈ out ↔ (⟨k, r, v⟩ : Rec W) ∈ h) := by
    intro out j r e
    have h1 : ((), j) ∈ out ↔ ((), j) ∈ out.filter (fun p => decide (p.2 = j)) := by simp [List.mem_filter]
    rw [h1, e, ← mem_valuesOf]
    simp only [List.mem_map, List.mem_filter, heq, and_true]
    constructor
    · rintro ⟨w, hw, rfl⟩; exact hw
    · intro hw; exact ⟨v, hw, rfl⟩
  obtain ⟨outF, hF, eF⟩ := C27_attr_eq_forwards hr k v i hi
  obtain ⟨outB, hB, eB⟩ := C27_attr_eq_backwards hr k v i hi
  exact ⟨outF, outB, hF, hB, fun j => ⟨mem (eF j), mem (eB j)⟩⟩

example := C27_same_value Demo.exReach2 .textTag TextTag.WORD (by simp) 0 (by decide)

/-- C27: on a line without assignments of `TextTag` other than the built-in ones, `x::whitespace()`
matches exactly the tokens tagged SPACE, one token each, in both directions. -/
theorem C27_whitespace (size : Str → Nat) (input : List (InputToken W)) (l : LLLine W)
    (noattrs : ∀ t ∈ input, ∀ a ∈ t.attrList, a.value.ty ≠ .textTag) (wf : ∀ t ∈ input, t.WF)
    (ok : createLineFromInputTokens W input size = .ok l) (i : Nat) (t : LLToken)
    (ht : l.ll_tokens[i]? = some t) :
    ∃ outF outB, (X.whitespace (W := W)).go (.fwd i) l = .ok outF ∧
      (X.whitespace (W := W)).go (.bwd i) l = .ok outB ∧
      ∀ j, (((), j) ∈ outF ↔ j = i ∧ ∃ s, t.token = .Text s .SPACE) ∧
           (((), j) ∈ outB ↔ j = i ∧ ∃ s, t.token = .Text s .SPACE) := by
  have hi : i < l.ll_tokens.length := (List.getElem?_eq_some_iff.1 ht).1
  obtain ⟨_, htoks, rep⟩ := create_inv wf ok
  have hmap : (input.flatMap (tokensOf W size)).map (·.1) = l.ll_tokens.map (·.token) := by
    rw [htoks, layoutM_tokens]
  have key : ∀ a b, (⟨.textTag, (a, b), TextTag.SPACE⟩ : Rec W) ∈ creationHistory W size input ↔
      a = b ∧ ∃ t s, l.ll_tokens[a]? = some t ∧ t.token = .Text s .SPACE := by
    intro a b
    rw [creationHistory, List.mem_append, hmap, builtinHistory, List.mem_flatMap]
    constructor
    · rintro (⟨⟨tok, n⟩, hp, hx⟩ | hx)
      · rw [List.mem_zipIdx_iff_getElem?] at hp
        simp only [List.getElem?_map, Option.map_eq_some_iff] at hp
        obtain ⟨t', ht', rfl⟩ := hp
        simp only at hx
        have hrange := builtinOf_range _ _ _ hx
        simp only [Prod.mk.injEq] at hrange
        obtain ⟨rfl, rfl⟩ := hrange
        refine ⟨rfl, t', ?_⟩
        unfold builtinOf at hx
        split at hx
        · next c tag heq =>
          rcases List.mem_cons.1 hx with hx | hx
          · exact absurd (congrArg Rec.ty hx) (by simp)
          · rw [List.mem_singleton] at hx
            injection hx with _ _ hx
            cases hx; exact ⟨_, ht', heq⟩
        · next s tag _ heq =>
          rw [List.mem_singleton] at hx
          injection hx with _ _ hx
          cases hx; exact ⟨_, ht', heq⟩
        · cases hx
      · exfalso
        rw [inputHistory_eq, List.mem_flatMap] at hx
        obtain ⟨q, hq, hx⟩ := hx
        obtain ⟨x, hxa, hx⟩ := List.mem_map.1 hx
        have hq2 : q.2 ∈ input := by
          have : ∀ (input : List (InputToken W)) (i : Nat), ∀ q ∈ inputSpans W size i input, q.2 ∈ input := by
            intro input
            induction input with
            | nil => intro i q hq; cases hq
            | cons t ts ih =>
              intro i q hq
              simp only [inputSpans, List.mem_cons] at hq
              rcases hq with rfl | hq
              · simp
              · exact List.mem_cons_of_mem _ (ih _ q hq)
          exact this input 0 q hq
        exact noattrs q.2 hq2 x hxa (congrArg Rec.ty hx)
    · rintro ⟨rfl, t', s, ht', hs⟩
      left
      refine ⟨(t'.token, a), ?_, ?_⟩
      · rw [List.mem_zipIdx_iff_getElem?]; simp [ht']
      · simp only [hs, builtinOf]; split <;> simp_all
  refine ⟨_, _, rep_attrEq_fwd rep .textTag TextTag.SPACE hi, rep_attrEq_bwd rep .textTag TextTag.SPACE hi, ?_⟩
  intro j
  have tageq : ∀ w : TextTag, valEq (W := W) .textTag w TextTag.SPACE = true ↔ w = .SPACE := by
    intro w; cases w <;> simp [valEq]
  constructor
  · rw [mem_oneOf_list (p := fun r => r.1 = i) (f := fun r => r.2) (g := fun _ => ())]
    constructor
    · rintro ⟨⟨a, b⟩, w, rfl, rfl, hw, _, hm⟩
      rw [(tageq w).1 hw] at hm
      obtain ⟨e, t', s, ht', hs⟩ := (key _ _).1 hm
      rw [ht] at ht'; cases ht'
      exact ⟨e.symm, s, hs⟩
    · rintro ⟨rfl, s, hs⟩
      exact ⟨(j, j), .SPACE, rfl, rfl, (tageq _).2 rfl, rfl, (key _ _).2 ⟨rfl, t, s, ht, hs⟩⟩
  · rw [mem_oneOf_list (p := fun r => r.2 = i) (f := fun r => r.1) (g := fun _ => ())]
    constructor
    · rintro ⟨⟨a, b⟩, w, rfl, rfl, hw, _, hm⟩
      rw [(tageq w).1 hw] at hm
      obtain ⟨e, t', s, ht', hs⟩ := (key _ _).1 hm
      simp only at e ht ⊢
      rw [← e] at ht; rw [ht] at ht'; cases ht'
      exact ⟨e, s, hs⟩
    · rintro ⟨rfl, s, hs⟩
      exact ⟨(j, j), .SPACE, rfl, rfl, (tageq _).2 rfl, rfl, (key _ _).2 ⟨rfl, t, s, ht, hs⟩⟩

example := C27_whitespace List.length Demo.exInput Demo.exLine (by
  intro t ht a ha
  simp [Demo.exInput] at ht
  rcases ht with rfl | rfl | rfl <;> simp [InputToken.attrList] at ha
  · subst ha; simp [AnyAttribute.new]
  · rcases ha with rfl | rfl <;> simp [AnyAttribute.new]) Demo.exInput_wf Demo.exLine_ok 1 _ rfl

/-! ### C28: token_text -/

/-- C28: `x::token_text()` yields exactly the text of a text token, in both directions, ends on that token, and yields
nothing on a custom token. -/
theorem C28_token_text (l : LLLine W) (i : Nat) (t : LLToken) (ht : l.ll_tokens[i]? = some t) :
    (∀ s tag, t.token = .Text s tag → (X.tokenText (W := W)).go (.fwd i) l = .ok [(s, i)] ∧
      (X.tokenText (W := W)).go (.bwd i) l = .ok [(s, i)]) ∧
    (t.token = .Value → (X.tokenText (W := W)).go (.fwd i) l = .ok [] ∧
      (X.tokenText (W := W)).go (.bwd i) l = .ok []) := by
  refine ⟨fun s tag hs => ?_, fun hs => ?_⟩ <;> rw [textToken_fwd, textToken_bwd, ht] <;> simp [hs]

example := C28_token_text Demo.exLine 6 _ rfl

/-! ### C29, C30: token_has_any -/

/-- C29, full claim -/
def C29_claim : Prop :=
  ∀ (W : World) (l : LLLine W) (h : History W), Reachable l h → ∀ (k : Ty W) (set : List (Val k)) i,
    i < l.ll_tokens.length → ∃ out, (X.tokenHasAny k set).go (.fwd i) l = .ok out

/-- C29 is false: `token_has_any` panics on a custom token without attributes. -/
theorem C29_never_panics_false : ¬ C29_claim := by
  intro claim
  obtain ⟨out, h⟩ := claim Demo.W Demo.bare _ Demo.bareReach .char [] 0 (by decide)
  have h1 : (X.tokenHasAny (W := Demo.W) .char []).go (.fwd 0) Demo.bare = .error .noTokenAttrs := rfl
  rw [h1] at h; cases h

/-- C29, what holds: forwards it panics exactly on tokens with no attribute of any type on their own
range, never on text tokens, never backwards; results are exactly the one-token attributes of the
token that equal an element of the set. -/
theorem C29_partial {l : LLLine W} {h : History W} (hr : Reachable l h) (k : Ty W) (set : List (Val k))
    (i : Nat) (hi : i < l.ll_tokens.length) :
    ((∃ e, (X.tokenHasAny k set).go (.fwd i) l = .error e) ↔ ∀ x ∈ h, x.range ≠ (i, i)) ∧
    (∀ t s tag, l.ll_tokens[i]? = some t → t.token = .Text s tag →
      ∃ out, (X.tokenHasAny k set).go (.fwd i) l = .ok out) ∧
    (∃ out, (X.tokenHasAny k set).go (.bwd i) l = .ok out) ∧
    (∀ out, (X.tokenHasAny k set).go (.fwd i) l = .ok out →
      out = ((valuesOf k (i, i) h).filter (fun v => set.any (fun s => valEq k s v))).map (fun v => (v, i))) := by
  have hf : (X.tokenHasAny k set).go (.fwd i) l = _ := rep_oneOf_fwd hr.rep k set i
  refine ⟨?_, ?_, ⟨_, rep_oneOf_bwd hr.rep k set hi⟩, ?_⟩
  · rw [hf]
    by_cases hx : ∃ x ∈ h, x.range = (i, i)
    · rw [if_pos hx]
      constructor
      · rintro ⟨e, he⟩; cases he
      · intro hn; obtain ⟨x, hx, he⟩ := hx; exact absurd he (hn x hx)
    · rw [if_neg hx]
      exact ⟨fun _ x hx' he => hx ⟨x, hx', he⟩, fun _ => ⟨_, rfl⟩⟩
  · intro t s tag ht hs
    rw [hf, if_pos ⟨_, text_token_record hr i t s tag ht hs, rfl⟩]
    exact ⟨_, rfl⟩
  · intro out ho
    rw [hf] at ho
    split at ho
    · cases ho; rfl
    · cases ho

example := C29_partial Demo.exReach2 .textTag [TextTag.NATN] 2 (by decide)

/-- C30, full claim: the same matches in both directions -/
def C30_claim : Prop :=
  ∀ (W : World) (l : LLLine W) (h : History W), Reachable l h → ∀ (k : Ty W) (set : List (Val k)) i j,
    i < l.ll_tokens.length → j < l.ll_tokens.length → ∀ v,
    ((∃ out, (X.tokenHasAny k set).go (.fwd i) l = .ok out ∧ (v, j) ∈ out) ↔
     (∃ out, (X.tokenHasAny k set).go (.bwd j) l = .ok out ∧ (v, i) ∈ out))

/-- C30 is false: backwards an attribute on several tokens matches, forwards it does not. -/
theorem C30_direction_independent_false : ¬ C30_claim := by
  intro claim
  have h := (claim Demo.W Demo.exLine2 _ Demo.exReach2 (Ty.user 2) [(['x'] : Str)] 0 2 (by decide)
    (by decide) (['x'] : Str)).2 ⟨_, rfl, List.mem_cons_self ..⟩
  obtain ⟨out, h1, h2⟩ := h
  have h0 : (X.tokenHasAny (W := Demo.W) (Ty.user 2) [(['x'] : Str)]).go (.fwd 0) Demo.exLine2 = .ok [] := rfl
  rw [h0] at h1; cases h1; cases h2

/-- C30, what holds: backwards it matches the attributes on all ranges ending here, forwards only
those on the token alone; on one-token ranges the directions agree. -/
theorem C30_partial {l : LLLine W} {h : History W} (hr : Reachable l h) (k : Ty W) (set : List (Val k))
    (j : Nat) (hj : j < l.ll_tokens.length) :
    ∃ outB, (X.tokenHasAny k set).go (.bwd j) l = .ok outB ∧
      (∀ v i, (v, i) ∈ outB ↔ (⟨k, (i, j), v⟩ : Rec W) ∈ h ∧ ∃ s ∈ set, valEq k s v = true) ∧
      (∀ outF, (X.tokenHasAny k set).go (.fwd j) l = .ok outF → ∀ v i,
        (v, i) ∈ outF ↔ i = j ∧ (v, j) ∈ outB) := by
  refine ⟨_, rep_oneOf_bwd hr.rep k set hj, ?_, ?_⟩
  · intro v i
    rw [mem_oneOf_list (p := fun r => r.2 = j) (f := fun r => r.1) (g := fun v => v)]
    simp only [setContains, List.any_eq_true]
    constructor
    · rintro ⟨⟨a, b⟩, w, rfl, rfl, hs, rfl, hm⟩; exact ⟨hm, hs⟩
    · rintro ⟨hm, hs⟩; exact ⟨(i, j), v, rfl, rfl, hs, rfl, hm⟩
  · intro outF hF v i
    have hf : (X.tokenHasAny k set).go (.fwd j) l = _ := rep_oneOf_fwd hr.rep k set j
    rw [hf] at hF
    split at hF
    · cases hF
      rw [mem_oneOf_list (p := fun r => r.2 = j) (f := fun r => r.1) (g := fun v => v)]
      simp only [List.mem_map, List.mem_filter, Prod.mk.injEq]
      constructor
      · rintro ⟨w, ⟨hw, hs⟩, rfl, rfl⟩
        exact ⟨rfl, (j, j), w, rfl, rfl, hs, rfl, mem_valuesOf.1 hw⟩
      · rintro ⟨rfl, ⟨a, b⟩, w, e1, e2, hs, rfl, hm⟩
        simp only at e1 e2
        subst e1; subst e2
        exact ⟨w, ⟨mem_valuesOf.2 hm, hs⟩, rfl, rfl⟩
    · cases hF

example := C30_partial Demo.exReach2 (Ty.user 2) [(['x'] : Str)] 2 (by decide)

/-! ### C31: all -/

/-- C31: `all((A, B))` yields `(x, y)` ending at `j` as often as `x` and `y` do independently (product
of the multiplicities); it panics exactly if a part does. -/
theorem C31_all2 [DecidableEq α] [DecidableEq β] (a : XMatch W α) (b : XMatch W β) (d : Dir) (l : LLLine W) :
    ((∃ e, (X.all2 a b).go d l = .error e) ↔ (∃ e, a.go d l = .error e) ∨ ∃ e, b.go d l = .error e) ∧
    ∀ as bs, a.go d l = .ok as → b.go d l = .ok bs →
      ∃ out, (X.all2 a b).go d l = .ok out ∧
        ∀ x y j, out.count ((x, y), j) = as.count (x, j) * bs.count (y, j) := by
  constructor
  · constructor
    · rintro ⟨e, h⟩
      rcases all2_error h with h | h
      · exact Or.inl ⟨e, h⟩
      · exact Or.inr ⟨e, h⟩
    · intro h
      cases hg : (X.all2 a b).go d l with
      | error e => exact ⟨e, rfl⟩
      | ok out =>
        obtain ⟨as, bs, ha, hb, _⟩ := all2_ok_iff.1 hg
        rcases h with ⟨e, h⟩ | ⟨e, h⟩
        · rw [ha] at h; cases h
        · rw [hb] at h; cases h
  · intro as bs ha hb
    exact ⟨_, all2_ok_iff.2 ⟨as, bs, ha, hb, rfl⟩, fun x y j => count_all2 bs x y j as⟩

example := C31_all2 (X.attrEq (W := Demo.W) (Ty.user 2) (['x'] : Str)) X.tokenText (.fwd 0) Demo.exLine2

/-- C31: as a set of results. -/
theorem C31_all2_mem (a : XMatch W α) (b : XMatch W β) (d : Dir) (l : LLLine W)
    (as : List (α × Nat)) (bs : List (β × Nat)) (ha : a.go d l = .ok as) (hb : b.go d l = .ok bs)
    (out : List ((α × β) × Nat)) (ho : (X.all2 a b).go d l = .ok out) (x : α) (y : β) (j : Nat) :
    ((x, y), j) ∈ out ↔ (x, j) ∈ as ∧ (y, j) ∈ bs := by
  rw [mem_all2 ho]
  constructor
  · rintro ⟨as', bs', ha', hb', hx, hy⟩
    rw [ha] at ha'; rw [hb] at hb'; cases ha'; cases hb'
    exact ⟨hx, hy⟩
  · rintro ⟨hx, hy⟩; exact ⟨as, bs, ha, hb, hx, hy⟩

example := C31_all2_mem (X.attr (W := Demo.W) (Ty.user 2)) (X.attr (Ty.user 2)) (.fwd 0) Demo.exLine2
  _ _ rfl rfl _ rfl

/-- C31: swapping the parts only permutes the results. -/
theorem C31_order_irrelevant (a : XMatch W α) (b : XMatch W β) (d : Dir) (l : LLLine W)
    (out : List ((α × β) × Nat)) (out' : List ((β × α) × Nat))
    (h : (X.all2 a b).go d l = .ok out) (h' : (X.all2 b a).go d l = .ok out') :
    (out.map (fun p => ((p.1.2, p.1.1), p.2))).Perm out' := by
  obtain ⟨as, bs, ha, hb, rfl⟩ := all2_ok_iff.1 h
  obtain ⟨bs', as', hb', ha', rfl⟩ := all2_ok_iff.1 h'
  rw [ha] at ha'; rw [hb] at hb'; cases ha'; cases hb'
  rw [List.map_flatMap]
  have e : ∀ pa : α × Nat, (bs.filterMap (fun pb =>
      if pa.2 = pb.2 then some ((pa.1, pb.1), pa.2) else none)).map (fun p => ((p.1.2, p.1.1), p.2)) =
      bs.filterMap (fun pb => if pb.2 = pa.2 then some ((pb.1, pa.1), pb.2) else none) := by
    intro pa
    rw [List.map_filterMap]
    congr 1; funext pb
    by_cases e : pa.2 = pb.2
    · simp [e]
    · have : ¬ pb.2 = pa.2 := fun h => e h.symm
      simp [e, this]
  simp only [e]
  exact loops_perm (fun pa pb => if pb.2 = pa.2 then some ((pb.1, pa.1), pb.2) else none) bs as

example := C31_order_irrelevant (X.attr (W := Demo.W) (Ty.user 2)) (X.attr (Ty.user 2)) (.fwd 0) Demo.exLine2
  _ _ rfl rfl

/-- C31: three parts give the results of nested pairs, in the same order; and panic exactly if a part
panics. -/
theorem C31_all3_nested (a : XMatch W α) (b : XMatch W β) (c : XMatch W γ) (d : Dir) (l : LLLine W) :
    (∀ out, (X.all3 a b c).go d l = .ok out ↔ (X.all2 a (X.all2 b c)).go d l = .ok out) ∧
    ((∃ e, (X.all3 a b c).go d l = .error e) ↔
      (∃ e, a.go d l = .error e) ∨ (∃ e, b.go d l = .error e) ∨ ∃ e, c.go d l = .error e) := by
  refine ⟨all3_ok_eq a b c d l, ?_⟩
  constructor
  · rintro ⟨e, h⟩
    rcases all3_error h with h | h | h
    · exact Or.inl ⟨e, h⟩
    · exact Or.inr (Or.inl ⟨e, h⟩)
    · exact Or.inr (Or.inr ⟨e, h⟩)
  · intro h
    cases hg : (X.all3 a b c).go d l with
    | error e => exact ⟨e, rfl⟩
    | ok out =>
      obtain ⟨as, bs, cs, ha, hb, hc, _⟩ := all3_ok_iff.1 hg
      rcases h with ⟨e, h⟩ | ⟨e, h⟩ | ⟨e, h⟩
      · rw [ha] at h; cases h
      · rw [hb] at h; cases h
      · rw [hc] at h; cases h

example := C31_all3_nested (X.attr (W := Demo.W) (Ty.user 2)) X.tokenText X.whitespace (.fwd 0) Demo.exLine2

/-! ### C32: any_of -/

/-- C32: the second part is consulted only when the first has no result. -/
theorem C32_any_of2 (a : XMatch W α) (b : XMatch W β) (d : Dir) (l : LLLine W) :
    (∀ p as, a.go d l = .ok (p :: as) →
      (X.anyOf2 a b).go d l = .ok ((p :: as).map (fun q => (.A q.1, q.2)))) ∧
    (∀ bs, a.go d l = .ok [] → b.go d l = .ok bs →
      (X.anyOf2 a b).go d l = .ok (bs.map (fun q => (.B q.1, q.2)))) ∧
    (∀ e, (X.anyOf2 a b).go d l = .error e ↔
      a.go d l = .error e ∨ (a.go d l = .ok [] ∧ b.go d l = .error e)) := by
  refine ⟨?_, ?_, ?_⟩
  · intro p as h; simp [X.anyOf2, h]
  · intro bs h1 h2; simp [X.anyOf2, h1, h2]
  · intro e
    cases ha : a.go d l with
    | error e' => simp [X.anyOf2, ha]
    | ok as =>
      cases as with
      | nil => cases hb : b.go d l <;> simp [X.anyOf2, ha, hb]
      | cons p as => simp [X.anyOf2, ha]

example := (C32_any_of2 (X.attr (W := Demo.W) (Ty.user 2)) X.tokenText (.fwd 0) Demo.exLine2).1 _ _ rfl
example := (C32_any_of2 (X.attr (W := Demo.W) (Ty.user 2)) X.tokenText (.fwd 1) Demo.exLine2).2.1 _ rfl rfl

/-- C32: three parts are nested pairs with the labels A, B, C; same results, same panics. -/
theorem C32_any_of3_nested (a : XMatch W α) (b : XMatch W β) (c : XMatch W γ) (d : Dir) (l : LLLine W) :
    (∀ e, (X.anyOf3 a b c).go d l = .error e ↔ (X.anyOf2 a (X.anyOf2 b c)).go d l = .error e) ∧
    (∀ out, (X.anyOf2 a (X.anyOf2 b c)).go d l = .ok out →
      (X.anyOf3 a b c).go d l = .ok (out.map (fun p => (match p.1 with
        | .A x => .A x
        | .B (.A y) => .B y
        | .B (.B z) => .C z, p.2)))) := by
  rw [anyOf3_eq]
  cases hg : (X.anyOf2 a (X.anyOf2 b c)).go d l with
  | error e' => simp
  | ok out =>
    constructor
    · intro e; simp
    · intro out' h
      cases h
      have : (fun p : AnyOf2 α (AnyOf2 β γ) × Nat => (p.1.to3, p.2)) = fun p => ((match p.1 with
        | .A x => .A x
        | .B (.A y) => .B y
        | .B (.B z) => .C z : AnyOf3 α β γ), p.2) := by
        funext p
        obtain ⟨x, n⟩ := p
        cases x with
        | A a => rfl
        | B y => cases y <;> rfl
      simp only [this]

example := (C32_any_of3_nested (X.attr (W := Demo.W) (Ty.user 2)) X.tokenText X.whitespace (.fwd 0)
  Demo.exLine2).2 _ rfl

/-! ### C33: seq -/

/-- C33: `seq((A, B))` yields exactly the chains: `A` matches here and ends at some `m`, and `B` matches
from the next token in the direction of matching; nothing crosses the edges of the line. -/
theorem C33_seq2 (a : XMatch W α) (b : XMatch W β) (d : Dir) (l : LLLine W)
    (out : List ((α × β) × Nat)) (ho : (X.seq2 a b).go d l = .ok out) (x : α) (y : β) (j : Nat) :
    ((x, y), j) ∈ out ↔ ∃ m d', (∃ as, a.go d l = .ok as ∧ (x, m) ∈ as) ∧
      d.Next m l d' ∧ ∃ bs, b.go d' l = .ok bs ∧ (y, j) ∈ bs := by
  rw [mem_seq2 ho]
  constructor
  · rintro ⟨as, m, d', bs, ha, hx, hn, hb, hy⟩; exact ⟨m, d', ⟨as, ha, hx⟩, hn, bs, hb, hy⟩
  · rintro ⟨m, d', ⟨as, ha, hx⟩, hn, bs, hb, hy⟩; exact ⟨as, m, d', bs, ha, hx, hn, hb, hy⟩

example := C33_seq2 (X.attr (W := Demo.W) (Ty.user 2)) (X.attr (Ty.user 2)) (.fwd 0) Demo.exLine2 _ rfl
  (['x'] : Str) (['y'] : Str) 4
example : ((((['x'] : Str), (['y'] : Str)), 4) : (Val (W := Demo.W) (Ty.user 2) × Val (W := Demo.W) (Ty.user 2)) × Nat) ∈
    okD ((X.seq2 (X.attr (W := Demo.W) (Ty.user 2)) (X.attr (Ty.user 2))).go (.fwd 0) Demo.exLine2) :=
  List.mem_cons_self ..

/-- C33, with order and multiplicity: the chains are listed by the first part's results, and for each
of them by the second part's results from the next token. -/
theorem C33_seq2_exact (a : XMatch W α) (b : XMatch W β) (d : Dir) (l : LLLine W)
    (as : List (α × Nat)) (ha : a.go d l = .ok as) (nextB : α × Nat → List (β × Nat))
    (hsome : ∀ p ∈ as, ∀ d', d.Next p.2 l d' → b.go d' l = .ok (nextB p))
    (hnone : ∀ p ∈ as, (¬ ∃ d', d.Next p.2 l d') → nextB p = []) :
    (X.seq2 a b).go d l = .ok (as.flatMap (fun p => (nextB p).map (fun q => ((p.1, q.1), q.2)))) := by
  have hg : ∀ p ∈ as, X.goAfter b d p.2 l = .ok (nextB p) := fun p hp =>
    goAfter_ok_iff.2 ⟨hsome p hp, hnone p hp⟩
  rw [seq2_ok_iff]
  refine ⟨as, ha, fun p hp => ⟨_, hg p hp⟩, ?_⟩
  clear ha hsome hnone
  induction as with
  | nil => rfl
  | cons p as ih =>
    simp only [List.flatMap_cons]
    rw [ih (fun q hq => hg q (by simp [hq])), hg p (by simp)]; rfl

example := C33_seq2_exact (X.tokenText (W := Demo.W)) (X.tokenText) (.fwd 0) Demo.exLine2 _ rfl
  (fun _ => [([' '], 1)]) (by
    intro p hp d' hn
    have : p = (['P', 'a', 'y'], 0) := List.mem_singleton.1 hp
    subst this
    obtain ⟨rfl, _⟩ := hn
    rfl) (by
    intro p hp hn
    have : p = (['P', 'a', 'y'], 0) := List.mem_singleton.1 hp
    subst this
    exact absurd ⟨.fwd 1, rfl, by decide⟩ hn)

/-- C33: when `seq((A, B))` panics. -/
theorem C33_seq2_panics_iff (a : XMatch W α) (b : XMatch W β) (d : Dir) (l : LLLine W) :
    (∃ e, (X.seq2 a b).go d l = .error e) ↔ (∃ e, a.go d l = .error e) ∨
      ∃ as p d' e, a.go d l = .ok as ∧ p ∈ as ∧ d.Next p.2 l d' ∧ b.go d' l = .error e := by
  constructor
  · rintro ⟨e, h⟩
    rcases seq2_error h with h | ⟨as, p, d', ha, hp, hn, hb⟩
    · exact Or.inl ⟨e, h⟩
    · exact Or.inr ⟨as, p, d', e, ha, hp, hn, hb⟩
  · intro h
    cases hg : (X.seq2 a b).go d l with
    | error e => exact ⟨e, rfl⟩
    | ok out =>
      obtain ⟨as', ha', hok, _⟩ := seq2_ok_iff.1 hg
      rcases h with ⟨e, h⟩ | ⟨as, p, d', e, ha, hp, hn, hb⟩
      · rw [ha'] at h; cases h
      · rw [ha'] at ha; cases ha
        obtain ⟨bs, hbs⟩ := hok p hp
        rw [(goAfter_ok_iff.1 hbs).1 d' hn] at hb; cases hb

example := C33_seq2_panics_iff (X.tokenText (W := Demo.W)) (X.tokenHasAny .char []) (.fwd 5) Demo.exLine2

/-- C33: three parts are exactly nested pairs (results, order and panics). -/
theorem C33_seq3_nested (a : XMatch W α) (b : XMatch W β) (c : XMatch W γ) :
    X.seq3 a b c = X.seq2 a (X.seq2 b c) := seq3_eq a b c

/-- C33: sequencing is associative up to re-association of the values, whenever no part panics. -/
theorem C33_seq_assoc (a : XMatch W α) (b : XMatch W β) (c : XMatch W γ) (d : Dir) (l : LLLine W)
    (out1 : List ((α × β × γ) × Nat)) (out2 : List (((α × β) × γ) × Nat))
    (h1 : (X.seq2 a (X.seq2 b c)).go d l = .ok out1) (h2 : (X.seq2 (X.seq2 a b) c).go d l = .ok out2)
    (x : α) (y : β) (z : γ) (j : Nat) : ((x, y, z), j) ∈ out1 ↔ (((x, y), z), j) ∈ out2 := by
  have nn : ∀ {m d1 n d2}, d.Next m l d1 → (d1.Next n l d2 ↔ d.Next n l d2) := by
    intro m d1 n d2 hn
    rw [← after_iff, ← after_iff, after_after (after_iff.2 hn)]
  rw [mem_seq2 h1, mem_seq2 h2]
  constructor
  · rintro ⟨as, m, d1, bcs, ha, hx, hn, hbc, hyz⟩
    obtain ⟨bs, n, d2, cs, hb, hy, hn2, hc, hz⟩ := (mem_seq2 hbc).1 hyz
    obtain ⟨abs, hab, _⟩ := seq2_ok_iff.1 h2
    exact ⟨abs, n, d2, cs, hab, (mem_seq2 hab).2 ⟨as, m, d1, bs, ha, hx, hn, hb, hy⟩,
      (nn hn).1 hn2, hc, hz⟩
  · rintro ⟨abs, n, d2, cs, hab, hxy, hn2, hc, hz⟩
    obtain ⟨as, m, d1, bs, ha, hx, hn, hb, hy⟩ := (mem_seq2 hab).1 hxy
    obtain ⟨as', ha', hok, _⟩ := seq2_ok_iff.1 h1
    rw [ha] at ha'; cases ha'
    obtain ⟨bcs, hbc⟩ := hok _ hx
    have hbc' := (goAfter_ok_iff.1 hbc).1 d1 hn
    exact ⟨as, m, d1, bcs, ha, hx, hn, hbc', (mem_seq2 hbc').2 ⟨bs, n, d2, cs, hb, hy,
      (nn hn).2 hn2, hc, hz⟩⟩

example := C33_seq_assoc (X.tokenText (W := Demo.W)) X.tokenText X.tokenText (.bwd 5) Demo.exLine2 _ _ rfl rfl

/-! ### C34: results stay in the line -/

/-- a user matcher expression used in examples -/
theorem Demo.exBuiltin : Builtin (W := Demo.W) (X.seq2 (X.attr (Ty.user 2))
    (X.anyOf2 (X.attrEq (Ty.user 2) (['y'] : Str)) (X.tokenHasAny .textTag [TextTag.NATN]))) :=
  .seq2 (.attr _ trivial) (.anyOf2 (.attrEq _ trivial _) (.tokenHasAny _ trivial rfl _))

/-- C34: on a line whose attributes all start at or before their end (C23: all lines whose resolvers
assign selections obtained through the API other than `after`), every result of a matcher expression
forwards from `i` ends at `i ≤ j < len`, backwards from `i` at `j ≤ i`. -/
theorem C34_results_inside {Out : Type} {m : XMatch W Out} (hm : Builtin m) {l : LLLine W} {h : History W}
    (hr : Reachable l h) (ho : Ordered h) (i : Nat) :
    (∀ out, m.go (.fwd i) l = .ok out → ∀ r ∈ out, i ≤ r.2 ∧ r.2 < l.ll_tokens.length) ∧
    (∀ out, m.go (.bwd i) l = .ok out → ∀ r ∈ out, r.2 ≤ i ∧ r.2 < l.ll_tokens.length) := by
  refine ⟨fun out hg r hr' => ?_, fun out hg r hr' => ?_⟩
  · have := built_results hm hr.rep True (fun _ => ho) (.fwd i) out hg r hr'
    exact ⟨this.2 trivial, this.1⟩
  · have := built_results hm hr.rep True (fun _ => ho) (.bwd i) out hg r hr'
    exact ⟨this.2 trivial, this.1⟩

theorem Demo.exHist2_ordered : Ordered Demo.exHist2 := by unfold Ordered; decide

example := C34_results_inside Demo.exBuiltin Demo.exReach2 Demo.exHist2_ordered 0

/-- C34, without any condition on the attributes: results never leave the line. -/
theorem C34_results_in_line {Out : Type} {m : XMatch W Out} (hm : Builtin m) {l : LLLine W} {h : History W}
    (hr : Reachable l h) (d : Dir) (out : List (Out × Nat)) (hg : m.go d l = .ok out) :
    ∀ r ∈ out, r.2 < l.ll_tokens.length :=
  fun r hr' => (built_results hm hr.rep False (fun h => h.elim) d out hg r hr').1

example := C34_results_in_line Demo.exBuiltin Demo.exReach2 (.fwd 0) _ rfl

/-! ### C35: mirror images -/

/-- C35: `m` matches `(i, j)` forwards from `i` with value `x` exactly if the mirrored expression
matches it backwards from `j` with the correspondingly reordered value. -/
theorem C35_mirror {Out Out' : Type} {m : XMatch W Out} {m' : XMatch W Out'} {f : Out → Out'}
    (hm : Mirrored m m' f) {l : LLLine W} {h : History W} (hr : Reachable l h) (i j : Nat)
    (hi : i < l.ll_tokens.length) (hj : j < l.ll_tokens.length) :
    ∃ outF outB, m.go (.fwd i) l = .ok outF ∧ m'.go (.bwd j) l = .ok outB ∧
      ∀ y, (y, i) ∈ outB ↔ ∃ x, f x = y ∧ (x, j) ∈ outF := by
  obtain ⟨outF, hF⟩ := built_false_ok hm.built.1 hr.rep (.fwd i) hi
  obtain ⟨outB, hB⟩ := built_false_ok hm.built.2 hr.rep (.bwd j) hj
  refine ⟨outF, outB, hF, hB, fun y => ?_⟩
  have := mirror hm hr.rep i j hi hj y
  simp only [Yields, hF, hB, Except.ok.injEq, exists_eq_left'] at this
  exact this

example := C35_mirror (W := Demo.W) (.seq2 (.attr (Ty.user 2)) (.attrEq (Ty.user 2) (show Val (W := Demo.W) (Ty.user 2) from (['y'] : Str))))
  Demo.exReach2 0 4 (by decide) (by decide)

/-! ### C36: panics -/

/-- C36: the only panic of a matcher expression at a token of the line is the one of `token_has_any`
matching forwards at a token that has no attribute; so there is none on lines of which every token has
an attribute, none backwards, and none without `token_has_any`. -/
theorem C36_panics {Out : Type} {T : Ty W → Prop} {has : Bool} {m : XMatch W Out} (hm : Built T has m)
    {l : LLLine W} {h : History W} (hr : Reachable l h) (d : Dir) (hd : d.at < l.ll_tokens.length)
    (e : Panic) (hg : m.go d l = .error e) :
    e = .noTokenAttrs ∧ has = true ∧ (∃ i, d = .fwd i) ∧
      ∃ p t, l.ll_tokens[p]? = some t ∧ t.token = .Value ∧ ∀ x ∈ h, x.range ≠ (p, p) := by
  obtain ⟨h1, h2, h3, p, hp, hx⟩ := built_error hm hr.rep d e hd hg
  refine ⟨h1, h2, h3, p, _, List.getElem?_eq_getElem hp, ?_, hx⟩
  cases ht : (l.ll_tokens[p]'hp).token with
  | Value => rfl
  | Text s tag => exact absurd rfl (hx _ (text_token_record hr p _ s tag (List.getElem?_eq_getElem hp) ht))

example := C36_panics (W := Demo.W) (T := fun _ => True) (has := true) (.tokenHasAny .char trivial rfl [])
  Demo.bareReach (.fwd 0) (by decide) _ rfl

/-- C36: text-only lines never make a matcher expression panic. -/
theorem C36_text_only {Out : Type} {m : XMatch W Out} (hm : Builtin m) {l : LLLine W} {h : History W}
    (hr : Reachable l h) (text : ∀ t ∈ l.ll_tokens, ∃ s tag, t.token = .Text s tag)
    (d : Dir) (hd : d.at < l.ll_tokens.length) : ∃ out, m.go d l = .ok out := by
  cases hg : m.go d l with
  | ok out => exact ⟨out, rfl⟩
  | error e =>
    obtain ⟨_, _, _, p, t, ht, hv, _⟩ := C36_panics hm hr d hd e hg
    obtain ⟨s, tag, hs⟩ := text t (List.mem_of_getElem? ht)
    rw [hs] at hv; cases hv

/-- a text-only line -/
def Demo.textLine : LLLine Demo.W :=
  Demo.getOk Demo.emptyLine (createLineFromString Demo.W ['a', ' ', '1', ',', 'b'])
theorem Demo.textReach : Reachable Demo.textLine
    (creationHistory Demo.W utf8Len [.Text ['a', ' ', '1', ',', 'b'] []]) :=
  .create _ utf8Len _ (by simp [InputToken.WF, InputToken.attrList]) rfl

example := C36_text_only Demo.exBuiltin Demo.textReach (by
  intro t ht
  have : ∀ t ∈ Demo.textLine.ll_tokens, t.token ≠ .Value := by decide
  cases h : t.token with
  | Value => exact absurd h (this t ht)
  | Text s tag => exact ⟨s, tag, rfl⟩) (.fwd 1) (by decide)

/-! ### C18 for matcher expressions -/

/-- C18: matcher expressions over other types keep their results when a resolver runs; those without
`token_has_any` do so exactly. -/
theorem C18_matchers_independent {Out : Type} {has : Bool} {m : XMatch W Out} {l l' : LLLine W}
    {h : History W} (hr : Reachable l h) (ptr : Nat) (r : Resolver W) (ok : l.run ptr r = .ok l')
    (hm : Built (fun k => k ≠ r.attr) has m) (d : Dir) :
    (∀ out, m.go d l = .ok out → m.go d l' = .ok out) ∧
    (has = false → d.at < l.ll_tokens.length → m.go d l' = m.go d l) := by
  have hmono : ∀ out, m.go d l = .ok out → m.go d l' = .ok out := by
    have ht : l'.ll_tokens = l.ll_tokens := by
      by_cases ne : l.ll_tokens = []
      · rw [run_empty ne] at ok; cases ok; rfl
      · obtain ⟨_, _, _, _, rfl⟩ := run_inv ne ok; rfl
    have leaf : ∀ k, k ≠ r.attr → (∀ d, (X.attr k).go d l' = (X.attr k).go d l) ∧
        (∀ v d, (X.attrEq k v).go d l' = (X.attrEq k v).go d l) ∧
        (∀ set d out, (X.tokenHasAny k set).go d l = .ok out → (X.tokenHasAny k set).go d l' = .ok out) :=
      fun k hk => run_leaf hr.rep ok k hk
    exact built_mono hm ht (fun k hk => (leaf k hk).1) (fun k hk => (leaf k hk).2.1)
      (fun k hk => (leaf k hk).2.2) d
  refine ⟨hmono, ?_⟩
  rintro rfl hd
  obtain ⟨out, ho⟩ := built_false_ok hm hr.rep d hd
  rw [ho, hmono out ho]

example := C18_matchers_independent Demo.exReach 7 Demo.exRes Demo.exLine2_ok
  (has := true) (m := X.seq2 (X.attr (Ty.user 0)) (X.tokenHasAny .textTag [TextTag.NATN]))
  (.seq2 (.attr _ (by intro h; cases h)) (.tokenHasAny _ (by intro h; cases h) rfl _)) (.fwd 0)

end LNlp
