import Verif.Spec.Edges
import Verif.Props.Select
import Verif.Lemmas.Plain
/- Helper lemmas for Props/Edges.lean. -/
namespace LNlp
variable {W : World}

theorem Dir.Next.to {h : History W} {l : LLLine W} {d d' : Dir} {m j : Nat} (hn : d.Next m l d') (hj : d'.To h j) : d.To h j := by
  cases d <;> simp only [Dir.Next] at hn
  · obtain ⟨rfl, _⟩ := hn; exact hj
  · obtain ⟨i, _, rfl⟩ := hn; exact hj

/-- matches start and end where attributes do -/
theorem built_edges {T : Ty W → Prop} {has : Bool} {Out : Type} {m : XMatch W Out}
    (hb : Built T has m) {l : LLLine W} {h : History W} (hr : Reachable l h) : ∀ d out, m.go d l = .ok out → ∀ r ∈ out,
      d.From h ∧ d.To h r.2 := by
  have rep := hr.rep
  induction hb with
  | attr k t =>
    intro d out hg r hr
    obtain ⟨v, j⟩ := r
    change d.attr k l = .ok out at hg
    cases d with
    | fwd i =>
      by_cases hi : i < l.ll_tokens.length
      · rw [rep_attr_fwd rep k hi] at hg
        cases hg
        obtain ⟨r, hp, rfl, hm⟩ := (mem_attr_list (p := fun r => r.1 = i) (f := fun r => r.2)).1 hr
        exact ⟨⟨_, hm, hp⟩, ⟨_, hm, rfl⟩⟩
      · rw [(rep_attr_oob rep k hi).1] at hg; cases hg
    | bwd i =>
      by_cases hi : i < l.ll_tokens.length
      · rw [rep_attr_bwd rep k hi] at hg
        cases hg
        obtain ⟨r, hp, rfl, hm⟩ := (mem_attr_list (p := fun r => r.2 = i) (f := fun r => r.1)).1 hr
        exact ⟨⟨_, hm, hp⟩, ⟨_, hm, rfl⟩⟩
      · rw [(rep_attr_oob rep k hi).2] at hg; cases hg
  | attrEq k t v =>
    intro d out hg r hr
    obtain ⟨u, j⟩ := r
    change d.attrEq k v l = .ok out at hg
    cases d with
    | fwd i =>
      by_cases hi : i < l.ll_tokens.length
      · rw [rep_attrEq_fwd rep k v hi] at hg
        cases hg
        obtain ⟨r, w, hp, rfl, _, _, hm⟩ := (mem_oneOf_list (p := fun r => r.1 = i) (f := fun r => r.2)
          (g := fun _ => ())).1 hr
        exact ⟨⟨_, hm, hp⟩, ⟨_, hm, rfl⟩⟩
      · rw [(rep_attrEq_oob rep k v hi).1] at hg; cases hg
    | bwd i =>
      by_cases hi : i < l.ll_tokens.length
      · rw [rep_attrEq_bwd rep k v hi] at hg
        cases hg
        obtain ⟨r, w, hp, rfl, _, _, hm⟩ := (mem_oneOf_list (p := fun r => r.2 = i) (f := fun r => r.1)
          (g := fun _ => ())).1 hr
        exact ⟨⟨_, hm, hp⟩, ⟨_, hm, rfl⟩⟩
      · rw [(rep_attrEq_oob rep k v hi).2] at hg; cases hg
  | tokenHasAny k t hh set =>
    intro d out hg r hr
    obtain ⟨u, j⟩ := r
    change d.tokenAttrOneOf k set l = .ok out at hg
    cases d with
    | fwd i =>
      rw [rep_oneOf_fwd rep] at hg
      split at hg
      · next hx =>
        cases hg
        obtain ⟨x, hx, hr2⟩ := hx
        simp only [List.mem_map, Prod.mk.injEq] at hr
        obtain ⟨_, _, _, rfl⟩ := hr
        exact ⟨⟨x, hx, by rw [hr2]⟩, ⟨x, hx, by rw [hr2]⟩⟩
      · cases hg
    | bwd i =>
      by_cases hi : i < l.ll_tokens.length
      · rw [rep_oneOf_bwd rep k set hi] at hg
        cases hg
        obtain ⟨r, w, hp, rfl, _, _, hm⟩ := (mem_oneOf_list (p := fun r => r.2 = i) (f := fun r => r.1)
          (g := id)).1 hr
        exact ⟨⟨_, hm, hp⟩, ⟨_, hm, rfl⟩⟩
      · rw [rep_oneOf_bwd_oob rep k set hi] at hg; cases hg
  | tokenText =>
    intro d out hg r hrm
    have key : ∀ i, d = .fwd i ∨ d = .bwd i → r.2 = i ∧ ∃ x ∈ h, x.range = (i, i) := by
      intro i hd
      cases ht : l.ll_tokens[i]? with
      | none =>
        rcases hd with rfl | rfl
        · rw [textToken_fwd, ht] at hg; cases hg
        · rw [textToken_bwd, ht] at hg; cases hg; cases hrm
      | some t =>
        have h2 : (∃ s tag, t.token = .Text s tag) ∧ r.2 = i := by
          rcases hd with rfl | rfl
          · rw [textToken_fwd, ht] at hg
            simp only at hg
            cases h2 : t.token <;> rw [h2] at hg <;> simp only at hg <;> cases hg
            · simp at hrm; simp [hrm]
            · cases hrm
          · rw [textToken_bwd, ht] at hg
            simp only at hg
            cases h2 : t.token <;> rw [h2] at hg <;> simp only at hg <;> cases hg
            · simp at hrm; simp [hrm]
            · cases hrm
        obtain ⟨⟨s, tag, he⟩, e⟩ := h2
        exact ⟨e, _, text_token_record hr i t s tag ht he, rfl⟩
    cases d with
    | fwd i => obtain ⟨e, x, hx, hx'⟩ := key i (Or.inl rfl); rw [e]; exact ⟨⟨x, hx, by rw [hx']⟩, ⟨x, hx, by rw [hx']⟩⟩
    | bwd i => obtain ⟨e, x, hx, hx'⟩ := key i (Or.inr rfl); rw [e]; exact ⟨⟨x, hx, by rw [hx']⟩, ⟨x, hx, by rw [hx']⟩⟩
  | all2 _ _ iha ihb =>
    intro d out hg r hr
    obtain ⟨⟨x, y⟩, j⟩ := r
    obtain ⟨as, bs, ha, hb, hx, hy⟩ := (mem_all2 hg).1 hr
    exact iha d as ha _ hx
  | all3 _ _ _ iha ihb ihc =>
    intro d out hg r hr
    rw [all3_ok_eq] at hg
    obtain ⟨⟨x, y⟩, j⟩ := r
    obtain ⟨as, bs, ha, hb, hx, hy⟩ := (mem_all2 hg).1 hr
    exact iha d as ha _ hx
  | anyOf2 _ _ iha ihb =>
    intro d out hg r hr
    obtain ⟨as, ha, h | h⟩ := anyOf2_ok_iff.1 hg
    · obtain ⟨_, rfl⟩ := h
      obtain ⟨p, hp, rfl⟩ := List.mem_map.1 hr
      exact iha d as ha p hp
    · obtain ⟨_, bs, hb, rfl⟩ := h
      obtain ⟨p, hp, rfl⟩ := List.mem_map.1 hr
      exact ihb d bs hb p hp
  | @anyOf3 α β γ a b c _ _ _ iha ihb ihc =>
    intro d out hg r hr
    rw [anyOf3_eq] at hg
    cases hq : (X.anyOf2 a (X.anyOf2 b c)).go d l with
    | error e => rw [hq] at hg; cases hg
    | ok out' =>
      rw [hq] at hg
      cases hg
      obtain ⟨p, hp, rfl⟩ := List.mem_map.1 hr
      obtain ⟨as, ha, h | h⟩ := anyOf2_ok_iff.1 hq
      · obtain ⟨_, rfl⟩ := h
        obtain ⟨p1, hp1, rfl⟩ := List.mem_map.1 hp
        exact iha d as ha p1 hp1
      · obtain ⟨_, bs, hb, rfl⟩ := h
        obtain ⟨p1, hp1, rfl⟩ := List.mem_map.1 hp
        obtain ⟨as, ha, h | h⟩ := anyOf2_ok_iff.1 hb
        · obtain ⟨_, rfl⟩ := h
          obtain ⟨p2, hp2, rfl⟩ := List.mem_map.1 hp1
          exact ihb d as ha p2 hp2
        · obtain ⟨_, cs, hc, rfl⟩ := h
          obtain ⟨p2, hp2, rfl⟩ := List.mem_map.1 hp1
          exact ihc d cs hc p2 hp2
  | seq2 _ _ iha ihb =>
    intro d out hg r hr
    obtain ⟨⟨x, y⟩, j⟩ := r
    obtain ⟨as, m, d', bs, ha, hx, hn, hb, hy⟩ := (mem_seq2 hg).1 hr
    exact ⟨(iha d as ha _ hx).1, hn.to (ihb d' bs hb _ hy).2⟩
  | seq3 _ _ _ iha ihb ihc =>
    intro d out hg r hr
    rw [seq3_eq] at hg
    obtain ⟨⟨x, y, z⟩, j⟩ := r
    obtain ⟨as, m, d', bs, ha, hx, hn, hb, hy⟩ := (mem_seq2 hg).1 hr
    obtain ⟨cs, m2, d2, ds, hc, hy2, hn2, hd, hz⟩ := (mem_seq2 hb).1 hy
    exact ⟨(iha d as ha _ hx).1, hn.to (hn2.to (ihc d2 ds hd _ hz).2)⟩
  | user part t _ ih =>
    intro d out hg r hr
    exact userTree_ends (P := fun j => d.From h ∧ d.To h j) part t d l (fun i rs hrs x hx => ih i d rs hrs x hx) []
      (by simp) out hg r hr
  | recursive f _ _ ih => exact fun d out hg r hr => ih _ d out hg r hr

theorem mem_attr_sel {l : LLLine W} {h : History W} (hr : Reachable l h) (ne : l.ll_tokens ≠ []) (ptr : Nat) {x : Rec W} (hx : x ∈ h) :
    ApiSel (fun m => Builtin m) (wholeLine l ptr) ⟨⟨ptr, l⟩, x.range.1, x.range.2⟩ := by
  have hb := hr.rep.bounds x hx
  obtain ⟨out, ho⟩ : ∃ out, (wholeLine l ptr).findBy (X.attr x.ty) = .ok out := by
    cases hf : (wholeLine l ptr).findBy (X.attr x.ty) with
    | ok out => exact ⟨out, rfl⟩
    | error e =>
      obtain ⟨i, e', hi, he⟩ := findBy_error_iff.1 ⟨e, hf⟩
      have := (C36_panics (T := fun _ => True) (has := false) (.attr x.ty trivial) hr (.fwd i)
        (Nat.lt_of_le_of_lt hi.2 (wholeLine_inside ne ptr).2) e' he).2.1
      cases this
  refine .findBy (x := x.val) .self (.attr x.ty trivial) ho ((mem_findBy ho).2 ⟨rfl, ⟨Nat.zero_le _, ?_⟩, ?_⟩)
  · show x.range.1 ≤ l.ll_tokens.length - 1; omega
  · refine ⟨_, rep_attr_fwd hr.rep x.ty hb.1, ?_⟩
    exact (mem_attr_list (p := fun r => r.1 = x.range.1) (f := fun r => r.2)).2 ⟨x.range, rfl, rfl, hx⟩

theorem sel_ext {s : LLSelection W} {rc : Rc (LLLine W)} {a b : Nat} (h1 : s.ll_line = rc) (h2 : s.start_idx = a) (h3 : s.end_idx = b) :
    s = ⟨rc, a, b⟩ := by
  obtain ⟨_, _, _⟩ := s
  simp only at h1 h2 h3
  simp only [h1, h2, h3]

/-- the part before another selection -/
theorem api_before {P : {Out : Type} → XMatch W Out → Prop} {s0 : LLSelection W} {rc : Rc (LLLine W)} {a b c d : Nat}
    (hs : ApiSel P s0 ⟨rc, a, b⟩) (ht : ApiSel P s0 ⟨rc, c, d⟩) (h1 : a < c) (h2 : c ≤ b + 1) : ApiSel P s0 ⟨rc, a, c - 1⟩ := by
  refine .splitWith hs ht (a := some ⟨rc, a, c - 1⟩) (b := (LLSelection.mk rc a b).selectionFrom (d + 1) b) ?_ (.inl rfl)
  unfold LLSelection.splitWith
  rw [if_pos rfl, if_pos (by simp only; omega)]
  unfold LLSelection.selectionFrom
  simp only [Nat.max_self]
  rw [show min (c - 1) b = c - 1 by omega, if_pos (show a ≤ c - 1 by omega)]

/-- the part behind another selection -/
theorem api_behind {P : {Out : Type} → XMatch W Out → Prop} {s0 : LLSelection W} {rc : Rc (LLLine W)} {a b c d : Nat}
    (hs : ApiSel P s0 ⟨rc, a, b⟩) (ht : ApiSel P s0 ⟨rc, c, d⟩) (h1 : a ≤ d + 1) (h2 : d < b) : ApiSel P s0 ⟨rc, d + 1, b⟩ := by
  refine .splitWith hs ht (b := some ⟨rc, d + 1, b⟩)
    (a := if c > 0 then (LLSelection.mk rc a b).selectionFrom a (c - 1) else none) ?_ (.inr rfl)
  unfold LLSelection.splitWith
  rw [if_pos rfl]
  have : (LLSelection.mk rc a b).selectionFrom (d + 1) b = some ⟨rc, d + 1, b⟩ := by
    unfold LLSelection.selectionFrom
    simp only [Nat.min_self]
    rw [show max (d + 1) a = d + 1 by omega, if_pos (show d + 1 ≤ b by omega)]
  simp only [this]

/-- a user's matcher that picks one result of `x::attr` -/
def X.pick {W : World} (k : Ty W) (n : Nat) : XMatch W Unit :=
  UserTree.matcher (I := Unit) (A := fun _ => Val k) (.ask () (fun _ _ => .answer [((), n)])) (fun _ => X.attr k)

/-- `trim_end` keeps token 0 of an attribute that begins there -/
theorem api_token0 {l : LLLine W} {h : History W} (hr : Reachable l h) (ne : l.ll_tokens ≠ []) (ptr : Nat)
    {x : Rec W} (hx : x ∈ h) (h0 : x.range.1 = 0) : ApiSel (fun m => Builtin m) (wholeLine l ptr) ⟨⟨ptr, l⟩, 0, 0⟩ := by
  have hsel := mem_attr_sel hr ne ptr hx
  rw [h0] at hsel
  have hb := hr.rep.bounds x hx
  have hg := rep_attr_bwd hr.rep x.ty hb.2
  have hm := (mem_attr_list (k := x.ty) (h := h) (v := x.val) (j := 0) (p := fun r => r.2 = x.range.2) (f := fun r => r.1)).2
    ⟨x.range, rfl, h0, hx⟩
  generalize ((rangesOf x.ty h).filter (fun r => decide (r.2 = x.range.2))).flatMap
    (fun r => (valuesOf x.ty r h).map (fun v => (v, r.1))) = rs at hg hm
  obtain ⟨n, hn, he⟩ := List.getElem_of_mem hm
  refine .trimEnd (m := X.pick x.ty n) hsel (.user _ _ (fun _ => .attr x.ty trivial)) ?_
  have hp : (X.pick x.ty n).go (.bwd x.range.2) l = .ok [((), 0)] := by
    show UserTree.run (fun _ => X.attr x.ty) (.bwd x.range.2) l [] _ = _
    simp only [UserTree.run]
    rw [show (X.attr x.ty).go (.bwd x.range.2) l = .ok rs from hg]
    simp only [List.nil_append, List.filterMap_cons, List.filterMap_nil, List.getElem?_map,
      List.getElem?_eq_getElem hn, he, Option.map_some]
  unfold LLSelection.trimEnd LLSelection.trimSelection
  simp only [if_neg Bool.false_ne_true, if_true, hp, List.head?_cons, checkedSub]
  rfl

/-- both sides of a place that can be cut -/
theorem api_cut {l : LLLine W} {h : History W} (hr : Reachable l h) (ne : l.ll_tokens ≠ []) (ptr : Nat)
    {c : Nat} (hc : Cuttable l h c) (h0 : 0 < c) (h1 : c < l.ll_tokens.length) :
    ApiSel (fun m => Builtin m) (wholeLine l ptr) ⟨⟨ptr, l⟩, 0, c - 1⟩ ∧
    ApiSel (fun m => Builtin m) (wholeLine l ptr) ⟨⟨ptr, l⟩, c, l.ll_tokens.length - 1⟩ := by
  have whole : ApiSel (fun m => Builtin m) (wholeLine l ptr) ⟨⟨ptr, l⟩, 0, l.ll_tokens.length - 1⟩ := .self
  have starts : ∀ e, ApiSel (fun m => Builtin m) (wholeLine l ptr) ⟨⟨ptr, l⟩, c, e⟩ →
      ApiSel (fun m => Builtin m) (wholeLine l ptr) ⟨⟨ptr, l⟩, 0, c - 1⟩ := fun e he => api_before whole he h0 (by omega)
  have ends : ∀ a e, e + 1 = c → ApiSel (fun m => Builtin m) (wholeLine l ptr) ⟨⟨ptr, l⟩, a, e⟩ →
      ApiSel (fun m => Builtin m) (wholeLine l ptr) ⟨⟨ptr, l⟩, c, l.ll_tokens.length - 1⟩ := fun a e hec he => by
    have := api_behind whole he (by omega) (by omega)
    rw [hec] at this
    exact this
  have fromEnd : ∀ a e, e + 1 = c → ApiSel (fun m => Builtin m) (wholeLine l ptr) ⟨⟨ptr, l⟩, a, e⟩ →
      ApiSel (fun m => Builtin m) (wholeLine l ptr) ⟨⟨ptr, l⟩, 0, c - 1⟩ ∧
      ApiSel (fun m => Builtin m) (wholeLine l ptr) ⟨⟨ptr, l⟩, c, l.ll_tokens.length - 1⟩ := fun a e hec he =>
    ⟨starts _ (ends a e hec he), ends a e hec he⟩
  rcases hc with hc | ⟨rfl, x, hx, hx0⟩
  · rcases hc with rfl | rfl | ⟨x, hx, hxc | hxc⟩
    · omega
    · omega
    · have hs := mem_attr_sel hr ne ptr hx
      rw [hxc] at hs
      have h2 := starts _ hs
      exact ⟨h2, ends 0 (c - 1) (by omega) h2⟩
    · exact fromEnd _ _ hxc (mem_attr_sel hr ne ptr hx)
  · exact fromEnd 0 0 rfl (api_token0 hr ne ptr hx hx0)

theorem Edge.grow {l l' : LLLine W} {h h' : History W} {c : Nat} (ht : l'.ll_tokens = l.ll_tokens) (hs : ∀ x ∈ h, x ∈ h')
    (he : Edge l h c) : Edge l' h' c := by
  rcases he with h0 | h0 | ⟨x, hx, h0⟩
  · exact .inl h0
  · exact .inr (.inl (by rw [ht]; exact h0))
  · exact .inr (.inr ⟨x, hs x hx, h0⟩)

/-- selections begin and end at places that can be cut -/
theorem apiSel_edges {l : LLLine W} {h : History W} (hr : Reachable l h) (ho : Ordered h) (ne : l.ll_tokens ≠ []) {ptr : Nat}
    {s : LLSelection W} (hs : ApiSel (fun m => Builtin m) (wholeLine l ptr) s) :
    Cuttable l h s.start_idx ∧ Cuttable l h (s.end_idx + 1) := by
  have hin : ∀ {s}, ApiSel (fun m => Builtin m) (wholeLine l ptr) s → s.ll_line = ⟨ptr, l⟩ ∧ s.Inside := fun h =>
    apiSel_inside (s0 := wholeLine l ptr) (fun m hm => builtin_wellBehaved hm hr.rep ho) (wholeLine_inside ne ptr) h
  have e1 : ∀ {x : Rec W}, x ∈ h → Cuttable l h x.range.1 := fun hx => .inl (.inr (.inr ⟨_, hx, .inl rfl⟩))
  have e2 : ∀ {x : Rec W}, x ∈ h → Cuttable l h (x.range.2 + 1) := fun hx => .inl (.inr (.inr ⟨_, hx, .inr rfl⟩))
  have fwd : ∀ {Out : Type} {m : XMatch W Out} {i : Nat} {out r}, Builtin m → m.go (.fwd i) l = .ok out → r ∈ out →
      Cuttable l h i ∧ Cuttable l h (r.2 + 1) := fun hm hg hr' => by
    obtain ⟨⟨x, hx, rfl⟩, y, hy, e⟩ := built_edges hm hr _ _ hg _ hr'
    rw [← e]
    exact ⟨e1 hx, e2 hy⟩
  have bwd : ∀ {Out : Type} {m : XMatch W Out} {i : Nat} {out r}, Builtin m → m.go (.bwd i) l = .ok out → r ∈ out →
      Cuttable l h (i + 1) ∧ Cuttable l h r.2 ∧ Cuttable l h (r.2 - 1 + 1) := fun hm hg hr' => by
    obtain ⟨⟨x, hx, rfl⟩, y, hy, e⟩ := built_edges hm hr _ _ hg _ hr'
    rw [← e]
    refine ⟨e2 hx, e1 hy, ?_⟩
    by_cases h0 : y.range.1 = 0
    · rw [h0]; exact .inr ⟨rfl, y, hy, h0⟩
    · rw [Nat.sub_add_cancel (by omega)]; exact e1 hy
  have hfind : ∀ {Out : Type} {m : XMatch W Out} {s s' : LLSelection W} {out x}, Builtin m → s.ll_line = ⟨ptr, l⟩ →
      s.findBy m = .ok out → (s', x) ∈ out → Cuttable l h s'.start_idx ∧ Cuttable l h (s'.end_idx + 1) :=
    fun hm hl hf hx => by
      obtain ⟨_, _, rs, hg, hr'⟩ := (mem_findBy hf).1 hx
      rw [hl] at hg
      exact fwd hm hg hr'
  have hmf : ∀ {Out : Type} {m : XMatch W Out} {s s' : LLSelection W} {out x}, Builtin m → s.ll_line = ⟨ptr, l⟩ →
      Cuttable l h s.start_idx → s.matchForwards m = .ok out → (s', x) ∈ out →
      Cuttable l h s'.start_idx ∧ Cuttable l h (s'.end_idx + 1) := fun hm hl hc hf hx => by
    rcases matchForwards_ok_iff.1 hf with ⟨_, rfl⟩ | ⟨_, rs, hg, rfl⟩
    · cases hx
    · simp only [List.mem_map, Prod.mk.injEq] at hx
      obtain ⟨r, hr', rfl, rfl⟩ := hx
      rw [hl] at hg
      exact ⟨hc, (fwd hm hg hr').2⟩
  have hmb : ∀ {Out : Type} {m : XMatch W Out} {s s' : LLSelection W} {out x}, Builtin m → s.ll_line = ⟨ptr, l⟩ →
      Cuttable l h (s.end_idx + 1) → s.matchBackwards m = .ok out → (s', x) ∈ out →
      Cuttable l h s'.start_idx ∧ Cuttable l h (s'.end_idx + 1) := fun hm hl hc hf hx => by
    rcases matchBackwards_ok_iff.1 hf with ⟨_, rfl⟩ | ⟨_, rs, hg, rfl⟩
    · cases hx
    · simp only [List.mem_map, Prod.mk.injEq] at hx
      obtain ⟨r, hr', rfl, rfl⟩ := hx
      rw [hl] at hg
      exact ⟨(bwd hm hg hr').2.1, hc⟩
  have htrim : ∀ {Out : Type} {m : XMatch W Out} {s s' : LLSelection W} {fs fe : Bool}, Builtin m → s.ll_line = ⟨ptr, l⟩ →
      Cuttable l h s.start_idx ∧ Cuttable l h (s.end_idx + 1) → s.trimSelection m fs fe = .ok (some s') →
      Cuttable l h s'.start_idx ∧ Cuttable l h (s'.end_idx + 1) := fun {Out m s s' fs fe} hm hl hc hf => by
    obtain ⟨lo, hi, h1, h2, h3⟩ := trimSelection_ok hf
    rw [hl] at h1 h2
    have hlo : Cuttable l h ((lo.map (· + 1)).getD s.start_idx) := by
      rcases trimFind_ok h1 with ⟨_, rfl⟩ | ⟨_, rs, hg, rfl⟩
      · exact hc.1
      · cases rs with
        | nil => exact hc.1
        | cons r rs => exact (fwd hm hg (List.mem_cons_self ..)).2
    have hhi : Cuttable l h ((hi.map (fun j => j - 1)).getD s.end_idx + 1) := by
      rcases trimFind_ok h2 with ⟨_, rfl⟩ | ⟨_, rs, hg, rfl⟩
      · exact hc.2
      · cases rs with
        | nil => exact hc.2
        | cons r rs => exact (bwd hm hg (List.mem_cons_self ..)).2.2
    split at h3
    · cases h3
      exact ⟨hlo, hhi⟩
    · cases h3
  have whole : Cuttable l h 0 ∧ Cuttable l h (l.ll_tokens.length - 1 + 1) := by
    have : 0 < l.ll_tokens.length := List.length_pos_iff.2 ne
    exact ⟨.inl (.inl rfl), .inl (.inr (.inl (by omega)))⟩
  induction hs with
  | self => exact whole
  | @fromLine s s' hp hf _ =>
    simp only [LLSelection.fromLine] at hf
    split at hf
    · cases hf
      simp only [(hin hp).1]
      exact whole
    · cases hf
  | findBy hp hm hf hx ih => exact hfind hm (hin hp).1 hf hx
  | @findFirstBy s s' _ m x hp hm hf ih =>
    unfold LLSelection.findFirstBy at hf
    cases hb : s.findBy m with
    | error e => simp [hb] at hf
    | ok out =>
      simp only [hb, Except.ok.injEq] at hf
      exact hfind hm (hin hp).1 hb (mem_of_head hf)
  | findBoth hp hm hf hx ih =>
    obtain ⟨fs, bs, hok, rfl⟩ := mem_findBoth hf
    simp only [(hin hp).1] at hok
    simp only [List.mem_flatMap, mem_rangeIncl, List.mem_append, List.mem_map, Prod.mk.injEq] at hx
    obtain ⟨i, hi, ⟨r, hr', rfl, rfl⟩ | ⟨r, hr', rfl, rfl⟩⟩ := hx
    · exact fwd hm (hok i hi).1 hr'
    · have := bwd hm (hok i hi).2 hr'
      exact ⟨this.2.1, this.1⟩
  | matchForwards hp hm hf hx ih => exact hmf hm (hin hp).1 ih.1 hf hx
  | @matchFirstForwards s s' _ m x hp hm hf ih =>
    unfold LLSelection.matchFirstForwards at hf
    cases hb : s.matchForwards m with
    | error e => simp [hb] at hf
    | ok out =>
      simp only [hb, Except.ok.injEq] at hf
      exact hmf hm (hin hp).1 ih.1 hb (mem_of_head hf)
  | matchBackwards hp hm hf hx ih => exact hmb hm (hin hp).1 ih.2 hf hx
  | @matchFirstBackwards s s' _ m x hp hm hf ih =>
    unfold LLSelection.matchFirstBackwards at hf
    cases hb : s.matchBackwards m with
    | error e => simp [hb] at hf
    | ok out =>
      simp only [hb, Except.ok.injEq] at hf
      exact hmb hm (hin hp).1 ih.2 hb (mem_of_head hf)
  | @splitBy s s' _ m out hp hm hf hx ih =>
    have hl := (hin hp).1
    obtain ⟨_, h1, h2⟩ := (C48_partial s m (hin hp).2 (by rw [hl]; exact builtin_wellBehaved hm hr.rep ho) out hf).1 s' hx
    constructor
    · rcases h1 with e | ⟨a, b, ⟨_, rs, x, hg, hx⟩, e⟩
      · rw [e]; exact ih.1
      · rw [hl] at hg; rw [← e]; exact (fwd hm hg hx).2
    · rcases h2 with e | ⟨a, b, ⟨_, rs, x, hg, hx⟩, e⟩
      · rw [e]; exact ih.2
      · rw [hl] at hg; rw [e]; exact (fwd hm hg hx).1
  | @splitWith s t s' a b hp hq hf hx ih iht =>
    unfold LLSelection.splitWith at hf
    split at hf
    · cases hf
      rcases hx with hx | hx
      · split at hx
        · next h0 =>
          obtain ⟨_, h1, h2, _⟩ := selectionFrom_some.1 hx
          rw [h1, h2, Nat.max_self]
          refine ⟨ih.1, ?_⟩
          by_cases hle : t.start_idx - 1 ≤ s.end_idx
          · rw [Nat.min_eq_left hle, Nat.sub_add_cancel (by omega)]; exact iht.1
          · rw [Nat.min_eq_right (by omega)]; exact ih.2
        · cases hx
      · obtain ⟨_, h1, h2, _⟩ := selectionFrom_some.1 hx
        rw [h1, h2, Nat.min_self]
        refine ⟨?_, ih.2⟩
        by_cases hle : t.end_idx + 1 ≤ s.start_idx
        · rw [Nat.max_eq_right hle]; exact ih.1
        · rw [Nat.max_eq_left (by omega)]; exact iht.2
    · cases hf
  | trimStart hp hm hf ih => exact htrim hm (hin hp).1 ih hf
  | trimEnd hp hm hf ih => exact htrim hm (hin hp).1 ih hf
  | trim hp hm hf ih => exact htrim hm (hin hp).1 ih hf

theorem HonestFrom.honest {l0 l : LLLine W} {h0 h : History W} (h1 : HonestFrom l0 h0 l h) (hh : Honest l0 h0) : Honest l h := by
  induction h1 with
  | refl => exact hh
  | run ptr r asgs _ ne honest ok ih => exact .run _ _ ptr r asgs _ ih ne honest ok
  | runEmpty ptr r _ empty ok ih => exact .runEmpty _ _ ptr r _ ih empty ok

theorem HonestFrom.grows {l0 l : LLLine W} {h0 h : History W} (h1 : HonestFrom l0 h0 l h) :
    l.ll_tokens = l0.ll_tokens ∧ ∀ x ∈ h0, x ∈ h := by
  induction h1 with
  | refl => exact ⟨rfl, fun _ h => h⟩
  | run ptr r asgs _ ne honest ok ih => exact ⟨(run_tokens ok).trans ih.1, fun x hx => List.mem_append_left _ (ih.2 x hx)⟩
  | runEmpty ptr r _ empty ok ih => exact ⟨(run_tokens ok).trans ih.1, ih.2⟩

theorem honest_edges {l0 l : LLLine W} {h0 h : History W} (hh : Honest l0 h0) (h1 : HonestFrom l0 h0 l h) :
    ∀ c, c ≠ 1 → Edge l h c → Edge l0 h0 c := by
  induction h1 with
  | refl => exact fun _ _ h => h
  | @run l h ptr r asgs l' prev ne honest ok ih =>
    intro c hc he
    have old : Cuttable l h c → Edge l0 h0 c := fun hcut => by
      rcases hcut with he | ⟨e, _⟩
      · exact ih c hc he
      · exact absurd e hc
    rcases he with e | e | ⟨x, hx, e⟩
    · exact .inl e
    · exact .inr (.inl (by rw [e, run_tokens ok, prev.grows.1]))
    · rcases List.mem_append.1 hx with hx | hx
      · exact ih c hc (.inr (.inr ⟨x, hx, e⟩))
      · obtain ⟨a, ha, rfl⟩ := List.mem_map.1 hx
        obtain ⟨s, v, hs, rfl⟩ := honest.2 a ha
        obtain ⟨hr, ho⟩ := (prev.honest hh).spec
        have := apiSel_edges hr ho ne hs
        rcases e with e | e
        · exact old (e ▸ this.1)
        · exact old (e ▸ this.2)
  | @runEmpty l h ptr r l' prev empty ok ih =>
    intro c hc he
    refine ih c hc (Edge.grow (run_tokens ok).symm (fun _ h => h) he)

theorem inputSpans_tokens (size : Str → Nat) : ∀ (input : List (InputToken W)) (i : Nat) (pre : List (LToken × Nat)), pre.length = i →
    (∀ t ∈ input, tokensOf W size t ≠ []) → ∀ p ∈ inputSpans W size i input, p.1.1 = p.1.2 ∨
      ∀ j, p.1.1 ≤ j → j ≤ p.1.2 → ∃ s tag n, (pre ++ input.flatMap (tokensOf W size))[j]? = some (.Text s tag, n)
  | [], _, _, _, _, p, h => by simp [inputSpans] at h
  | t :: ts, i, pre, hi, hne, p, h => by
    simp only [inputSpans, List.mem_cons] at h
    rcases h with rfl | h
    · cases t with
      | Custom n as => left; simp [tokensOf]
      | Text s as =>
        right
        intro j h1 h2
        simp only at h1 h2
        have hpos : 0 < (tokensOf W size (.Text s as)).length := List.length_pos_iff.2 (hne _ (by simp))
        rw [List.getElem?_append_right (by omega), List.flatMap_cons, List.getElem?_append_left (by omega)]
        simp only [tokensOf, List.getElem?_map] at *
        rw [List.length_map] at h2 hpos
        rw [List.getElem?_eq_getElem (by omega)]
        exact ⟨_, _, _, rfl⟩
    · have := inputSpans_tokens size ts (i + (tokensOf W size t).length) (pre ++ tokensOf W size t) (by simp [hi])
        (fun t h => hne t (by simp [h])) p h
      simpa [List.flatMap_cons, List.append_assoc] using this

/-- on a fresh line each edge comes from a token with an attribute of its own -/
theorem fresh_edge {size : Str → Nat} {input : List (InputToken W)} {l : LLLine W} (wf : ∀ t ∈ input, t.WF)
    (ok : createLineFromInputTokens W input size = .ok l) {i : Nat} (hi : i + 1 < l.ll_tokens.length)
    (he : Edge l (creationHistory W size input) (i + 1)) :
    ∃ x ∈ creationHistory W size input, x.range = (i, i) ∨ x.range = (i + 1, i + 1) := by
  obtain ⟨hg, htoks, _⟩ := create_inv wf ok
  have hr : Reachable l (creationHistory W size input) := .create input size l wf ok
  rcases he with e | e | ⟨x, hx, e⟩
  · omega
  · omega
  · have hx0 := hx
    rw [creationHistory, List.mem_append] at hx
    rcases hx with hx | hx
    · rw [builtinHistory, List.mem_flatMap] at hx
      obtain ⟨p, _, hx⟩ := hx
      have hrg := builtinOf_range _ _ _ hx
      rw [hrg] at e
      refine ⟨x, hx0, ?_⟩
      rcases e with e | e
      · right; rw [hrg, ← e]
      · left; rw [hrg]; rw [show p.2 = i by simp only at e; omega]
    · rw [inputHistory_eq, List.mem_flatMap] at hx
      obtain ⟨p, hp, hx⟩ := hx
      obtain ⟨a, _, rfl⟩ := List.mem_map.1 hx
      have hne : ∀ t ∈ input, tokensOf W size t ≠ [] := fun t ht => (inputTokens_ok size (hg t ht)).2
      have hord := inputSpans_ordered size input 0 hne p hp
      rcases inputSpans_tokens size input 0 [] rfl hne p hp with e1 | e1
      · refine ⟨_, hx0, ?_⟩
        simp only at e
        rcases e with e | e
        · right; exact Prod.ext e (e1.symm.trans e)
        · left; exact Prod.ext (by simp only; omega) (by simp only; omega)
      · have key : ∀ j, p.1.1 ≤ j → j ≤ p.1.2 → ∃ x ∈ creationHistory W size input, x.range = (j, j) := fun j h1 h2 => by
          obtain ⟨s, tag, n, hj⟩ := e1 j h1 h2
          have hmap : l.ll_tokens.map (·.token) = (input.flatMap (tokensOf W size)).map (·.1) := by rw [htoks, layoutM_tokens]
          have h3 : (l.ll_tokens.map (·.token))[j]? = some (.Text s tag) := by
            rw [hmap, List.getElem?_map]
            simp only [List.nil_append] at hj
            rw [hj]; rfl
          rw [List.getElem?_map, Option.map_eq_some_iff] at h3
          obtain ⟨t, ht, he⟩ := h3
          exact ⟨_, text_token_record hr j t s tag ht he, rfl⟩
        simp only at e
        rcases e with e | e
        · obtain ⟨x, hx, h⟩ := key (i + 1) (by omega) (by omega)
          exact ⟨x, hx, .inr h⟩
        · obtain ⟨x, hx, h⟩ := key i (by omega) (by omega)
          exact ⟨x, hx, .inl h⟩

end LNlp
