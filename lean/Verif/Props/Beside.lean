import Verif.Lemmas.Beside
import Verif.Props.Show
/- C155: renderings of lines put together from two parts. -/
namespace LNlp
variable {W : World}

/-- C155: if a line has the tokens of two lines one after the other, and the attributes of the rendered types too, then its
rendering is the renderings of the two lines side by side. -/
theorem C155_parts {l lx ly : LLLine W} {h hx hy : History W} (hr : Reachable l h) (hrx : Reachable lx hx)
    (hry : Reachable ly hy) (ho : Ordered h) (hox : Ordered hx) (hoy : Ordered hy) (L : AdditiveWidth W)
    (nex : lx.ll_tokens ≠ []) (ney : ly.ll_tokens ≠ []) (ht : TokensBeside l lx ly) {ks : List (Ty W)}
    (hq : ∀ k ∈ ks, QueryBeside l lx ly k) : RenderedBeside l lx ly ks := by
  have one : ∀ {l : LLLine W} {h : History W}, Reachable l h → Ordered h →
      Shows l ks (headerOf l.ll_tokens ++ (ks.flatMap (attrLines l)).flatten) := by
    intro l h hr ho
    have := (C111_rendering_of_queries hr ho (additive_mono L) ks).2
    unfold attrLines
    rwa [List.flatMap_def (l := ks.flatMap _), List.map_flatMap] at this
  refine ⟨one hrx hox, one hry hoy, ?_⟩
  have h1 := one hr ho
  have ht' : l.ll_tokens.map (·.token) = (lx.ll_tokens ++ ly.ll_tokens).map (·.token) := by rw [ht, List.map_append]
  rw [headerOf_tokens ht', headerOf_append nex ney] at h1
  have h2 : ks.flatMap (attrLines l) = ks.flatMap (fun k => attrLines lx k ++ (attrLines ly k).map
      (movedRight (W.strWidth (headerOf lx.ll_tokens) + W.strWidth [' ', ' ']))) := by
    rw [List.flatMap_def, List.flatMap_def]
    congr 1
    refine List.map_congr_left fun k hk => ?_
    unfold attrLines
    rw [hq k hk, entryLines_append, entryLines_shift, List.map_append, List.map_map, List.map_map]
    congr 1
    · refine List.map_congr_left fun x hx => ?_
      obtain ⟨b1, b2⟩ := entryLines_bounds hrx hox hx
      rw [attrLine_tokens ht', attrLine_left _ _ b1 b2]
    · refine List.map_congr_left fun x _ => ?_
      simp only [Function.comp]
      rw [attrLine_tokens ht', attrLine_right L nex ney]
  rw [h2] at h1
  exact h1

/-- C155: the line created from two lists of inputs is rendered as the two lines created from them side by side, for all
types, except that the input must not bring its own characters and text tags if these are rendered. -/
theorem C155_created {size : Str → Nat} {xs ys : List (InputToken W)} {l lx ly : LLLine W}
    (wf : ∀ t ∈ xs ++ ys, t.WF) (ok : createLineFromInputTokens W (xs ++ ys) size = .ok l)
    (okx : createLineFromInputTokens W xs size = .ok lx) (oky : createLineFromInputTokens W ys size = .ok ly)
    (nx : xs ≠ []) (ny : ys ≠ []) (L : AdditiveWidth W) {ks : List (Ty W)}
    (hk : ∀ k ∈ ks, k = .char ∨ k = .textTag → NoCustom k (xs ++ ys)) : RenderedBeside l lx ly ks := by
  have wfx : ∀ t ∈ xs, t.WF := fun t ht => wf t (by simp [ht])
  have wfy : ∀ t ∈ ys, t.WF := fun t ht => wf t (by simp [ht])
  have hh := (Honest.create _ size _ wf ok).spec
  have hhx := (Honest.create _ size _ wfx okx).spec
  have hhy := (Honest.create _ size _ wfy oky).spec
  have ht := tokensBeside_create wf ok okx oky
  refine C155_parts hh.1 hhx.1 hhy.1 hh.2 hhx.2 hhy.2 L (create_ne wfx okx nx) (create_ne wfy oky ny) ht fun k hm => ?_
  exact queryBeside_of_history hh.1 hhx.1 hhy.1 hh.2 hhx.2 hhy.2 ht (ofType_create wf ok okx oky (hk k hm))

theorem Demo.parts_plain (k : Ty Demo.W) : NoCustom k (Demo.partX ++ Demo.partY) := by
  intro t ht a ha
  simp only [Demo.partX, Demo.partY, List.cons_append, List.nil_append, List.mem_cons, List.not_mem_nil, or_false] at ht
  rcases ht with rfl | rfl <;> cases ha

example := C155_created Demo.parts_wf (size := utf8Len) rfl rfl rfl (by decide) (by decide) Demo.additive
  (ks := [.textTag, .char, .user (1 : Nat)]) (fun k _ _ => Demo.parts_plain k)

/-- C155: the same after running, on each of the three lines, a resolver of a new type that assigns on the whole line what
it assigns on the parts. -/
theorem C155_resolved {size : Str → Nat} {xs ys : List (InputToken W)} {l lx ly : LLLine W}
    (wf : ∀ t ∈ xs ++ ys, t.WF) (ok : createLineFromInputTokens W (xs ++ ys) size = .ok l)
    (okx : createLineFromInputTokens W xs size = .ok lx) (oky : createLineFromInputTokens W ys size = .ok ly)
    (nx : xs ≠ []) (ny : ys ≠ []) (L : AdditiveWidth W) (r : Resolver W) {p px py : Nat}
    {as bs : List (LLCursorAssignment (Val r.attr))} (hx : HonestRun lx px r as) (hy : HonestRun ly py r bs)
    (hl : HonestRun l p r (as ++ bs.map (LLCursorAssignment.shift lx.ll_tokens.length)))
    (new : r.attr ≠ .char ∧ r.attr ≠ .textTag ∧ NoCustom r.attr (xs ++ ys)) {ks : List (Ty W)}
    (hk : ∀ k ∈ ks, k = .char ∨ k = .textTag → NoCustom k (xs ++ ys)) :
    ∃ l' lx' ly', l.run p r = .ok l' ∧ lx.run px r = .ok lx' ∧ ly.run py r = .ok ly' ∧ RenderedBeside l' lx' ly' ks := by
  have wfx : ∀ t ∈ xs, t.WF := fun t ht => wf t (by simp [ht])
  have wfy : ∀ t ∈ ys, t.WF := fun t ht => wf t (by simp [ht])
  have nex := create_ne wfx okx nx
  have ney := create_ne wfy oky ny
  have ne := create_ne wf ok (by simp [nx])
  have ht := tokensBeside_create wf ok okx oky
  obtain ⟨l', run, hh⟩ := C23_honest_run_ok (.create _ size _ wf ok) ne p r _ hl
  obtain ⟨lx', runx, hhx⟩ := C23_honest_run_ok (.create _ size _ wfx okx) nex px r _ hx
  obtain ⟨ly', runy, hhy⟩ := C23_honest_run_ok (.create _ size _ wfy oky) ney py r _ hy
  refine ⟨l', lx', ly', run, runx, runy, ?_⟩
  have t := run_tokens run
  have tx := run_tokens runx
  have ty := run_tokens runy
  have hh := hh.spec
  have hhx := hhx.spec
  have hhy := hhy.spec
  have ht' : TokensBeside l' lx' ly' := by unfold TokensBeside; rw [t, tx, ty]; exact ht
  refine C155_parts hh.1 hhx.1 hhy.1 hh.2 hhx.2 hhy.2 L (by rw [tx]; exact nex) (by rw [ty]; exact ney) ht' fun k hm => ?_
  refine queryBeside_of_history hh.1 hhx.1 hhy.1 hh.2 hhx.2 hhy.2 ht' ?_
  rw [tx]
  have base := ofType_create wf ok okx oky (hk k hm)
  by_cases he : k = r.attr
  · subst he
    have z : ∀ zs, (∀ t ∈ zs, t ∈ xs ++ ys) → ofType r.attr (creationHistory W size zs) = [] :=
      fun zs hz => ofType_create_new new.1 new.2.1 (fun t ht => new.2.2 t (hz t ht))
    rw [ofType_append, ofType_append, ofType_append, z _ (fun t ht => ht), z _ (fun t ht => by simp [ht]),
      z _ (fun t ht => by simp [ht])]
    simp only [List.nil_append]
    rw [ofType_recs_same, ofType_recs_same, ofType_recs_same, List.map_append, List.map_map, List.map_map]
    rfl
  · rw [ofType_append, ofType_append, ofType_append, ofType_recs_other (Ne.symm he), ofType_recs_other (Ne.symm he), ofType_recs_other (Ne.symm he)]
    simpa using base

/-- C155 for the resolvers of the library that look at single tokens. -/
theorem C155_single_tokens {size : Str → Nat} {xs ys : List (InputToken W)} {l lx ly : LLLine W}
    (wf : ∀ t ∈ xs ++ ys, t.WF) (ok : createLineFromInputTokens W (xs ++ ys) size = .ok l)
    (okx : createLineFromInputTokens W xs size = .ok lx) (oky : createLineFromInputTokens W ys size = .ok ly)
    (nx : xs ≠ []) (ny : ys ≠ []) (L : AdditiveWidth W) (r : Resolver W)
    (hr : (∃ k, ∃ t : TextMatchAssignResolver W k, r = t.resolver) ∨ r = posTagResolver W ∨
      (∃ kw : ClauseKeywordResolver, r = kw.resolver W))
    (new : r.attr ≠ .char ∧ r.attr ≠ .textTag ∧ NoCustom r.attr (xs ++ ys)) (p px py : Nat) {ks : List (Ty W)}
    (hk : ∀ k ∈ ks, k = .char ∨ k = .textTag → NoCustom k (xs ++ ys)) :
    ∃ l' lx' ly', l.run p r = .ok l' ∧ lx.run px r = .ok lx' ∧ ly.run py r = .ok ly' ∧ RenderedBeside l' lx' ly' ks := by
  have wfx : ∀ t ∈ xs, t.WF := fun t ht => wf t (by simp [ht])
  have wfy : ∀ t ∈ ys, t.WF := fun t ht => wf t (by simp [ht])
  have nex := create_ne wfx okx nx
  have ney := create_ne wfy oky ny
  have ne := create_ne wf ok (by simp [nx])
  have hh : Honest l _ := .create _ size _ wf ok
  have hhx : Honest lx _ := .create _ size _ wfx okx
  have hhy : Honest ly _ := .create _ size _ wfy oky
  rcases hr with ⟨k, t, rfl⟩ | rfl | ⟨kw, rfl⟩
  · have g := C58_table t _ (wholeLine_inside ne p)
    have gx := C58_table t _ (wholeLine_inside nex px)
    have gy := C58_table t _ (wholeLine_inside ney py)
    have j := C100_table wf ok okx oky nx ny t p px py
    rw [gx, gy] at j
    exact C155_resolved wf ok okx oky nx ny L t.resolver ⟨table_resolver t gx, table_honest t gx⟩
      ⟨table_resolver t gy, table_honest t gy⟩ ⟨table_resolver t j, table_honest t j⟩ new hk
  · have gx := C63_pos (s := wholeLine lx px) hhx.spec.1 (wholeLine_inside nex px)
    have gy := C63_pos (s := wholeLine ly py) hhy.spec.1 (wholeLine_inside ney py)
    have j := C100_pos wf ok okx oky nx ny p px py
    rw [gx, gy] at j
    exact C155_resolved wf ok okx oky nx ny L (posTagResolver W) ⟨pos_resolver gx, pos_honest gx⟩
      ⟨pos_resolver gy, pos_honest gy⟩ ⟨pos_resolver j, pos_honest j⟩ new hk
  · have gx := keywordGo_eq kw (wholeLine_inside nex px)
    have gy := keywordGo_eq kw (wholeLine_inside ney py)
    have j := C100_keywords wf ok okx oky nx ny kw p px py
    rw [gx, gy] at j
    exact C155_resolved wf ok okx oky nx ny L (kw.resolver W) ⟨keyword_resolver kw gx, keyword_honest kw gx⟩
      ⟨keyword_resolver kw gy, keyword_honest kw gy⟩ ⟨keyword_resolver kw j, keyword_honest kw j⟩ new hk

example := C155_single_tokens Demo.parts_wf (size := utf8Len) rfl rfl rfl (by decide) (by decide) Demo.additive
  (posTagResolver Demo.W) (.inr (.inl rfl)) ⟨(by intro h; cases h), (by intro h; cases h), Demo.parts_plain _⟩ 1 2 3
  (ks := [.tag, .textTag]) (fun k _ _ => Demo.parts_plain k)

/-- C155 for amounts, if no amount can begin or go on across the cut. -/
theorem C155_amounts {size : Str → Nat} {xs ys : List (InputToken W)} {l lx ly : LLLine W}
    (wf : ∀ t ∈ xs ++ ys, t.WF) (ok : createLineFromInputTokens W (xs ++ ys) size = .ok l)
    (okx : createLineFromInputTokens W xs size = .ok lx) (oky : createLineFromInputTokens W ys size = .ok ly)
    (nx : xs ≠ []) (ny : ys ≠ []) (L : AdditiveWidth W) (r : AmountResolver)
    (sep : Separator r lx (creationHistory W size xs) (lx.ll_tokens.length - 1) ∨
      Separator r ly (creationHistory W size ys) 0 ∧ HasAttr (creationHistory W size ys) 0)
    (new : NoCustom .amount (xs ++ ys)) {p px py : Nat} {lx' ly' : LLLine W} (runx : lx.run px (r.resolver W) = .ok lx')
    (runy : ly.run py (r.resolver W) = .ok ly') {ks : List (Ty W)}
    (hk : ∀ k ∈ ks, k = .char ∨ k = .textTag → NoCustom k (xs ++ ys)) :
    ∃ l', l.run p (r.resolver W) = .ok l' ∧ RenderedBeside l' lx' ly' ks := by
  have wfx : ∀ t ∈ xs, t.WF := fun t ht => wf t (by simp [ht])
  have wfy : ∀ t ∈ ys, t.WF := fun t ht => wf t (by simp [ht])
  have nex := create_ne wfx okx nx
  have ney := create_ne wfy oky ny
  have ne := create_ne wf ok (by simp [nx])
  have hh : Honest l _ := .create _ size _ wf ok
  have hhx : Honest lx _ := .create _ size _ wfx okx
  have hhy : Honest ly _ := .create _ size _ wfy oky
  have some : ∀ {l l' : LLLine W} {p : Nat}, l.ll_tokens ≠ [] → l.run p (r.resolver W) = .ok l' → ∃ out, r.go (wholeLine l p) = .ok out := by
    intro l l' p ne run
    cases hg : r.go (wholeLine l p) with
    | ok out => exact ⟨out, rfl⟩
    | error e => rw [C68_run_panics r ne p e hg] at run; cases run
  obtain ⟨as, gx⟩ := some nex runx
  obtain ⟨bs, gy⟩ := some ney runy
  have j : r.go (wholeLine l p) = joinAssigned lx.ll_tokens.length (r.go (wholeLine lx px)) (r.go (wholeLine ly py)) := by
    rcases sep with sep | ⟨sep, hat⟩
    · exact C101_amounts_piecewise wf ok okx oky nx ny r sep p px py
    · exact C101_amounts_before wf ok okx oky nx ny r sep hat p px py
  rw [gx, gy] at j
  obtain ⟨l1, x1, y1, h1, h2, h3, h4⟩ := C155_resolved wf ok okx oky nx ny L (r.resolver W) (p := p) (px := px) (py := py)
    ⟨amount_resolver r gx, amount_honest r (s := wholeLine lx px) hhx.spec.1.rep (wholeLine_inside nex px) gx⟩
    ⟨amount_resolver r gy, amount_honest r (s := wholeLine ly py) hhy.spec.1.rep (wholeLine_inside ney py) gy⟩
    ⟨amount_resolver r j, amount_honest r (s := wholeLine l p) hh.spec.1.rep (wholeLine_inside ne p) j⟩
    ⟨(by intro h; cases h), (by intro h; cases h), new⟩ hk
  rw [runx] at h2; cases h2
  rw [runy] at h3; cases h3
  exact ⟨l1, h1, h4⟩

/-- the input `"1,5"`, `" now"` -/
theorem Demo.priceWF : ∀ t ∈ [.Text ['1', ',', '5'] []] ++ [InputToken.Text (W := Demo.W) [' ', 'n', 'o', 'w'] []], t.WF := by
  intro t ht a ha
  simp only [List.cons_append, List.nil_append, List.mem_cons, List.not_mem_nil, or_false] at ht
  rcases ht with rfl | rfl <;> cases ha
theorem Demo.pricePlain (k : Ty Demo.W) : NoCustom k ([.Text ['1', ',', '5'] []] ++ [InputToken.Text [' ', 'n', 'o', 'w'] []]) := by
  intro t ht a ha
  simp only [List.cons_append, List.nil_append, List.mem_cons, List.not_mem_nil, or_false] at ht
  rcases ht with rfl | rfl <;> cases ha

example := C155_amounts (W := Demo.W) Demo.priceWF (size := utf8Len) rfl rfl rfl (by decide) (by decide) Demo.additive .english
  (.inr ⟨⟨by intro t ht
             have : TextTag.NATN ∈ [TextTag.SPACE] := ht.2
             revert this; decide,
          by rintro ⟨c, hc, hd⟩
             have : c ∈ [' '] := hc
             rw [List.mem_singleton.1 this] at hd
             revert hd; decide,
          by intro hd
             have : '.' ∈ [' '] := hd
             revert this; decide⟩,
   ⟨_, .head _, rfl⟩⟩) (Demo.pricePlain _) (p := 0) (px := 1) (py := 2) rfl rfl (ks := [.amount, .textTag])
  (fun k _ _ => Demo.pricePlain k)

/-- C155 also for inputs that bring their own text tags -/
def C155_own_tags_claim : Prop := ∀ (W : World) (size : Str → Nat) (xs ys : List (InputToken W)) (l lx ly : LLLine W),
  AdditiveWidth W → (∀ t ∈ xs ++ ys, t.WF) → createLineFromInputTokens W (xs ++ ys) size = .ok l →
  createLineFromInputTokens W xs size = .ok lx → createLineFromInputTokens W ys size = .ok ly → xs ≠ [] → ys ≠ [] →
  RenderedBeside l lx ly [.textTag]

/-- the input `"a b"`, with a text tag of its own, and `"c"` -/
def Demo.ownX : List (InputToken Demo.W) := [.Text ['a', ' ', 'b'] [AnyAttribute.new .textTag TextTag.SYMB]]
def Demo.ownY : List (InputToken Demo.W) := [.Text ['c'] []]
def Demo.ownLine : LLLine Demo.W := Demo.getOk Demo.emptyLine (createLineFromInputTokens Demo.W (Demo.ownX ++ Demo.ownY) utf8Len)
def Demo.ownLineX : LLLine Demo.W := Demo.getOk Demo.emptyLine (createLineFromInputTokens Demo.W Demo.ownX utf8Len)
def Demo.ownLineY : LLLine Demo.W := Demo.getOk Demo.emptyLine (createLineFromInputTokens Demo.W Demo.ownY utf8Len)
def Demo.ownDisplay : LLLineDisplay Demo.W := Demo.getOk ⟨Demo.emptyLine, []⟩ (displayWith Demo.ownLine [.textTag])

/-- C155 needs its condition: the tags that an input brings are listed after the tags that all the tokens get, so those of
the first part do not come before all those of the second. -/
theorem C155_own_tags_false : ¬ C155_own_tags_claim := by
  intro H
  have h := (H Demo.W utf8Len Demo.ownX Demo.ownY Demo.ownLine Demo.ownLineX Demo.ownLineY Demo.additive (by
    intro t ht a ha
    simp only [Demo.ownX, Demo.ownY, List.cons_append, List.nil_append, List.mem_cons, List.not_mem_nil, or_false] at ht
    rcases ht with rfl | rfl
    · simp only [InputToken.attrList, List.mem_singleton] at ha
      subst ha
      exact ⟨_, _, rfl⟩
    · cases ha) rfl rfl rfl (by simp [Demo.ownX]) (by simp [Demo.ownY])).2.2
  obtain ⟨d, h1, h2⟩ := h
  have e1 : displayWith Demo.ownLine [.textTag] = .ok Demo.ownDisplay := rfl
  rw [e1] at h1
  cases h1
  have e2 : Demo.ownDisplay.fmt = .ok (Demo.getOk [] Demo.ownDisplay.fmt) := rfl
  have := Except.ok.inj (e2.symm.trans h2)
  revert this
  decide

end LNlp
