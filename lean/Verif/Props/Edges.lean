import Verif.Lemmas.Edges
import Verif.Demo.Edges
/- C151: what resolvers can select, and which tokens they can tell apart. -/
namespace LNlp
variable {W : World}

/-! ### C151 -/

/-- C151: a range of tokens can be selected exactly if it begins and ends at places that can be cut. -/
theorem C151_selectable {l : LLLine W} {h : History W} (hh : Honest l h) (ne : l.ll_tokens ≠ []) (ptr : Nat) (s : LLSelection W) :
    ApiSel (fun m => Builtin m) (wholeLine l ptr) s ↔
      s.ll_line = ⟨ptr, l⟩ ∧ s.Inside ∧ Cuttable l h s.start_idx ∧ Cuttable l h (s.end_idx + 1) := by
  obtain ⟨hr, ho⟩ := hh.spec
  constructor
  · intro hs
    have hi := apiSel_inside (s0 := wholeLine l ptr) (fun m hm => builtin_wellBehaved hm hr.rep ho) (wholeLine_inside ne ptr) hs
    exact ⟨hi.1, hi.2, apiSel_edges hr ho ne hs⟩
  · obtain ⟨rc, a, b⟩ := s
    rintro ⟨hl, ⟨h1, h2⟩, h3, h4⟩
    simp only at hl h1 h2 h3 h4
    subst hl
    simp only at h2
    have upto : ApiSel (fun m => Builtin m) (wholeLine l ptr) ⟨⟨ptr, l⟩, 0, b⟩ := by
      by_cases hb : b + 1 = l.ll_tokens.length
      · have : b = l.ll_tokens.length - 1 := by omega
        rw [this]; exact .self
      · exact (api_cut hr ne ptr h4 (by omega) (by omega)).1
    by_cases ha : a = 0
    · rw [ha]; exact upto
    · have := api_behind upto (api_cut hr ne ptr h3 (by omega) (by omega)).1 (by omega) (by omega)
      rw [Nat.sub_add_cancel (by omega)] at this
      exact this

example := (C151_selectable Demo.plainHonest Demo.plainNe 0 ⟨⟨0, Demo.plainLine⟩, 0, 2⟩).2
  ⟨rfl, ⟨by decide, by decide⟩, .inl (.inl rfl),
    .inl (.inr (.inr ⟨⟨.char, (3, 3), 'a'⟩, List.mem_cons_self .., .inl rfl⟩))⟩

/-- C151: honest resolvers make no new edges, however many are run; only the place behind token 0 may become one. -/
theorem C151_no_new_edges {l0 l : LLLine W} {h0 h : History W} (hh : Honest l0 h0) (hf : HonestFrom l0 h0 l h) (c : Nat) (hc : c ≠ 1) :
    Edge l h c ↔ Edge l0 h0 c :=
  ⟨honest_edges hh hf c hc, Edge.grow hf.grows.1 hf.grows.2⟩

example : ∃ l' h', HonestFrom Demo.plainLine Demo.plainHist l' h' ∧ ∀ c, c ≠ 1 → (Edge l' h' c ↔ Edge Demo.plainLine Demo.plainHist c) :=
  ⟨_, _, .run 0 { attr := .char, go := fun _ => .ok ([], false) } [] .refl Demo.plainNe
    ⟨rfl, fun _ h => by cases h⟩ rfl, fun c hc => C151_no_new_edges Demo.plainHonest (.run 0 _ _ .refl Demo.plainNe ⟨rfl, fun _ h => by cases h⟩ rfl) c hc⟩

/-- C151: on a fresh line there is an edge between two neighbours exactly if one of the two has an attribute of its own: it is a
piece of text, or a custom token with attributes. -/
theorem C151_fresh {size : Str → Nat} {input : List (InputToken W)} {l : LLLine W} (wf : ∀ t ∈ input, t.WF)
    (ok : createLineFromInputTokens W input size = .ok l) (i : Nat) (hi : i + 1 < l.ll_tokens.length) :
    Edge l (creationHistory W size input) (i + 1) ↔
      ∃ x ∈ creationHistory W size input, x.range = (i, i) ∨ x.range = (i + 1, i + 1) := by
  constructor
  · exact fresh_edge wf ok hi
  · rintro ⟨x, hx, e | e⟩
    · exact .inr (.inr ⟨x, hx, .inr (by rw [e])⟩)
    · exact .inr (.inr ⟨x, hx, .inl (by rw [e])⟩)

example := C151_fresh Demo.plainWf Demo.plainOk 2 (by decide)

/-- C151: two neighbours (but the first two tokens) without attributes of their own are never told apart: whatever honest
resolvers are run, each attribute and each selection has both or neither. -/
theorem C151_never_apart {size : Str → Nat} {input : List (InputToken W)} {l0 l : LLLine W} {h : History W} (wf : ∀ t ∈ input, t.WF)
    (ok : createLineFromInputTokens W input size = .ok l0) (hf : HonestFrom l0 (creationHistory W size input) l h) (i : Nat)
    (h0 : 0 < i) (hi : i + 1 < l0.ll_tokens.length)
    (bare : ∀ x ∈ creationHistory W size input, x.range ≠ (i, i) ∧ x.range ≠ (i + 1, i + 1)) :
    (∀ x ∈ h, x.On i ↔ x.On (i + 1)) ∧
    (∀ ptr s, ApiSel (fun m => Builtin m) (wholeLine l ptr) s → (s.Has i ↔ s.Has (i + 1))) := by
  have hh : Honest l0 (creationHistory W size input) := .create input size l0 wf ok
  have no : ¬ Cuttable l h (i + 1) := by
    rintro (he | ⟨e, _⟩)
    · obtain ⟨x, hx, e | e⟩ := (C151_fresh wf ok i hi).1 ((C151_no_new_edges hh hf (i + 1) (by omega)).1 he)
      · exact (bare x hx).1 e
      · exact (bare x hx).2 e
    · omega
  have key : ∀ a b, Cuttable l h a → Cuttable l h (b + 1) → (a ≤ i ∧ i ≤ b ↔ a ≤ i + 1 ∧ i + 1 ≤ b) := by
    intro a b ha hb
    have h1 : a ≠ i + 1 := fun e => no (e ▸ ha)
    have h2 : b ≠ i := fun e => no (e ▸ hb)
    omega
  refine ⟨fun x hx => key _ _ (.inl (.inr (.inr ⟨x, hx, .inl rfl⟩))) (.inl (.inr (.inr ⟨x, hx, .inr rfl⟩))), fun ptr s hs => ?_⟩
  obtain ⟨hr, ho⟩ := (hf.honest hh).spec
  have ne : l.ll_tokens ≠ [] := by
    rw [hf.grows.1]
    intro e
    rw [e] at hi
    exact absurd hi (by simp)
  have := apiSel_edges hr ho ne hs
  exact key _ _ this.1 this.2

example {l : LLLine Demo.W} {h : History Demo.W} (hf : HonestFrom Demo.plainLine Demo.plainHist l h) :=
  C151_never_apart Demo.plainWf Demo.plainOk hf 1 (by decide) (by decide) (by
    intro x hx
    simp only [Demo.plainInput, creationHistory, builtinHistory, inputHistory] at hx
    have hx : x ∈ ([⟨.char, (3, 3), 'a'⟩, ⟨.textTag, (3, 3), .WORD⟩] : History Demo.W) := hx
    simp only [List.mem_cons, List.not_mem_nil, or_false] at hx
    rcases hx with rfl | rfl <;> simp)

/-- C151: all other neighbours can be told apart at once. -/
theorem C151_apart {l : LLLine W} {h : History W} (hh : Honest l h) (ptr i : Nat) (hi : i + 1 < l.ll_tokens.length)
    (he : Edge l h (i + 1)) :
    ApiSel (fun m => Builtin m) (wholeLine l ptr) ⟨⟨ptr, l⟩, 0, i⟩ ∧
    ApiSel (fun m => Builtin m) (wholeLine l ptr) ⟨⟨ptr, l⟩, i + 1, l.ll_tokens.length - 1⟩ :=
  api_cut hh.spec.1 (by rintro e; rw [e] at hi; exact absurd hi (by simp)) ptr (.inl he) (by omega) hi

example := C151_apart Demo.plainHonest 0 2 (by decide)
  (.inr (.inr ⟨⟨.char, (3, 3), 'a'⟩, List.mem_cons_self .., .inl rfl⟩))

/-- C151: on a line of text every range of tokens can be selected. -/
theorem C151_text {l : LLLine W} {h : History W} (hh : Honest l h)
    (text : ∀ t ∈ l.ll_tokens, ∃ s tag, t.token = .Text s tag) (ptr i j : Nat) (hij : i ≤ j) (hj : j < l.ll_tokens.length) :
    ApiSel (fun m => Builtin m) (wholeLine l ptr) ⟨⟨ptr, l⟩, i, j⟩ := by
  have own : ∀ p, p < l.ll_tokens.length → ∃ x ∈ h, x.range = (p, p) := fun p hp => by
    obtain ⟨s, tag, e⟩ := text _ (List.getElem_mem hp)
    exact ⟨_, text_token_record hh.spec.1 p _ s tag (List.getElem?_eq_getElem hp) e, rfl⟩
  refine (C151_selectable hh (by rintro e; rw [e] at hj; exact absurd hj (by simp)) ptr _).2 ⟨rfl, ⟨hij, hj⟩, .inl ?_, .inl ?_⟩
  · obtain ⟨x, hx, e⟩ := own i (by omega)
    exact .inr (.inr ⟨x, hx, .inl (by rw [e])⟩)
  · obtain ⟨x, hx, e⟩ := own j hj
    exact .inr (.inr ⟨x, hx, .inr (by rw [e])⟩)

example := C151_text Demo.lettersHonest Demo.letters_text 0 1 2 (by decide) (by decide)

/-- C151: the first two tokens of any line can be told apart after any attribute was put on the whole line. -/
theorem C151_first_two {l : LLLine W} {h : History W} (hh : Honest l h) (hn : 1 < l.ll_tokens.length) (ptr ptr' : Nat)
    (k : Ty W) (v : Val k) :
    ∃ l' h', l.run ptr (markLine k v) = .ok l' ∧ HonestFrom l h l' h' ∧
      ApiSel (fun m => Builtin m) (wholeLine l' ptr') ⟨⟨ptr', l'⟩, 0, 0⟩ ∧
      ApiSel (fun m => Builtin m) (wholeLine l' ptr') ⟨⟨ptr', l'⟩, 1, l.ll_tokens.length - 1⟩ := by
  have ne : l.ll_tokens ≠ [] := by rintro e; rw [e] at hn; exact absurd hn (by simp)
  have hrun : HonestRun l ptr (markLine k v) [(wholeLine l ptr).finishWithAttr v] :=
    ⟨rfl, fun a ha => ⟨wholeLine l ptr, v, .self, List.mem_singleton.1 ha⟩⟩
  obtain ⟨l', ok⟩ := honest_run_ok hh.spec.1.rep hh.spec.2 ne hrun
  have hf := HonestFrom.run (l0 := l) (h0 := h) ptr (markLine k v) _ .refl ne hrun ok
  have hh' := hf.honest hh
  have := api_cut hh'.spec.1 (by rw [run_tokens ok]; exact ne) ptr' (c := 1)
    (.inr ⟨rfl, recOf k ((wholeLine l ptr).finishWithAttr v), List.mem_append_right _ (List.mem_singleton.2 rfl), rfl⟩)
    (by omega) (by rw [run_tokens ok]; exact hn)
  refine ⟨l', _, ok, hf, this.1, ?_⟩
  have h2 := this.2
  rw [run_tokens ok] at h2
  exact h2

example := C151_first_two Demo.plainHonest (by decide) 0 1 (Ty.user 0 : Ty Demo.W) (['x'] : Str)

/-- C151: it is not so that selections begin and end only at edges. -/
theorem C151_only_edges_false : ¬ ∀ (W : World) (l : LLLine W) (h : History W) (ptr : Nat) (s : LLSelection W), Honest l h →
    l.ll_tokens ≠ [] → ApiSel (fun m => Builtin m) (wholeLine l ptr) s → Edge l h s.start_idx ∧ Edge l h (s.end_idx + 1) := by
  intro claim
  have hrun : HonestRun Demo.plainLine 0 (markLine (Ty.user 0) (['x'] : Str)) [(wholeLine Demo.plainLine 0).finishWithAttr (['x'] : Str)] :=
    ⟨rfl, fun a ha => ⟨wholeLine Demo.plainLine 0, (['x'] : Str), .self, List.mem_singleton.1 ha⟩⟩
  obtain ⟨l', ok⟩ := honest_run_ok Demo.plainHonest.spec.1.rep Demo.plainHonest.spec.2 Demo.plainNe hrun
  have hh : Honest l' (Demo.plainHist ++ _) := .run _ _ 0 _ _ _ Demo.plainHonest Demo.plainNe hrun ok
  have ne : l'.ll_tokens ≠ [] := by rw [run_tokens ok]; exact Demo.plainNe
  have hs := api_token0 hh.spec.1 ne 1 (x := recOf (Ty.user 0) ((wholeLine Demo.plainLine 0).finishWithAttr (['x'] : Str)))
    (List.mem_append_right _ (List.mem_singleton.2 rfl)) rfl
  rcases (claim _ _ _ 1 _ hh ne hs).2 with e | e | ⟨x, hx, e⟩
  · cases e
  · rw [run_tokens ok] at e
    exact absurd (show 1 = Demo.plainLine.ll_tokens.length from e) (by decide)
  · have hx : x ∈ ([⟨.char, (3, 3), 'a'⟩, ⟨.textTag, (3, 3), .WORD⟩, ⟨.user 0, (0, 3), (['x'] : Str)⟩] : History Demo.W) := hx
    simp only [List.mem_cons, List.not_mem_nil, or_false] at hx
    rcases hx with rfl | rfl | rfl <;> simp at e

end LNlp
