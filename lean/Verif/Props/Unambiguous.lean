import Verif.Lemmas.Unambiguous
import Verif.Props.Docs
import Verif.Props.Display
import Verif.Props.Observe
/-
C102: a rendered line can be read back.
C103: extending a selection on both sides does not depend on which side is extended first.
-/
namespace LNlp
variable {W : World}

/-! ### C102: a rendered line can be read back -/

/-- C102, full claim: two lines with the same tokens whose renderings are equal show the same values on the
same ranges. -/
def C102_claim : Prop :=
  ∀ (W : World) (_ : AdditiveWidth W) (_ : 2 ≤ W.strWidth [' ', ' ']) (l l' : LLLine W) (h h' : History W),
    Reachable l h → Reachable l' h' → Ordered h → Ordered h' → l.ll_tokens = l'.ll_tokens →
    ∀ (ks : List (Ty W)) (d d' : LLLineDisplay W) (out : Str), displayWith l ks = .ok d → displayWith l' ks = .ok d' →
      d.fmt = .ok out → d'.fmt = .ok out → ks.flatMap (fun k => shownValues k h) = ks.flatMap (fun k => shownValues k h')

/-- C102: if no value of the included types is shown by a text that contains a line break or begins like the
rest of a bracket, then the rendering determines every shown range and value. -/
theorem C102_readable_partial {l l' : LLLine W} {h h' : History W} (L : AdditiveWidth W) (two : 2 ≤ W.strWidth [' ', ' '])
    (hr : Reachable l h) (hr' : Reachable l' h') (ho : Ordered h) (ho' : Ordered h') (ht : l.ll_tokens = l'.ll_tokens)
    {ks : List (Ty W)} (rd : ∀ x ∈ h ++ h', x.ty ∈ ks → Readable (valDbg x.ty x.val))
    {d d' : LLLineDisplay W} {out : Str} (hd : displayWith l ks = .ok d) (hd' : displayWith l' ks = .ok d')
    (hf : d.fmt = .ok out) (hf' : d'.fmt = .ok out) :
    ks.flatMap (fun k => shownValues k h) = ks.flatMap (fun k => shownValues k h') := by
  obtain ⟨e, he, hfe⟩ := C55_display hr ho (additive_mono L) ks
  obtain ⟨e', he', hfe'⟩ := C55_display hr' ho' (additive_mono L) ks
  rw [hd] at he; cases he
  rw [hd'] at he'; cases he'
  rw [hf] at hfe
  rw [hf', ← ht] at hfe'
  have eq := (Except.ok.inj hfe).symm.trans (Except.ok.inj hfe')
  rw [List.append_cancel_left_eq] at eq
  have facts : ∀ {l : LLLine W} {h : History W}, Reachable l h → Ordered h →
      (∀ x ∈ h, x.ty ∈ ks → Readable (valDbg x.ty x.val)) → ∀ item ∈ ks.flatMap (fun k => shownValues k h),
      item.1.1 ≤ item.1.2 ∧ item.1.2 < l.ll_tokens.length ∧ Readable item.2 := by
    intro l h hr ho rd item hi
    obtain ⟨k, hk, hi⟩ := List.mem_flatMap.1 hi
    obtain ⟨v, hv, he, _, h2⟩ := shownValues_bounds hr.rep hi
    exact ⟨ho _ hv, h2, he ▸ rd _ hv hk⟩
  have f1 := facts hr ho (fun x hx => rd x (List.mem_append_left _ hx))
  have f2 := facts hr' ho' (fun x hx => rd x (List.mem_append_right _ hx))
  rw [← ht] at f2
  refine map_inj_on (f := attrLine W l.ll_tokens) ?_ (lines_inj ?_ eq)
  · intro x hx y hy he
    obtain ⟨a1, a2, a3⟩ := f1 x hx
    obtain ⟨b1, b2, b3⟩ := f2 y hy
    exact attrLine_inj L two a1 a2 b1 b2 a3 b3 he
  · intro x hx
    refine attrLine_newline _ ?_
    rcases List.mem_append.1 hx with hx | hx
    · exact (f1 x hx).2.2.1
    · exact (f2 x hx).2.2.1

/-- C102: if moreover `Debug` tells values apart, the renderings of the types, one by one, determine the
line. -/
theorem C102_displays_determine_the_line_partial {l l' : LLLine W} {h h' : History W} (L : AdditiveWidth W)
    (two : 2 ≤ W.strWidth [' ', ' ']) (hr : Reachable l h) (hr' : Reachable l' h') (ho : Ordered h) (ho' : Ordered h')
    (ht : l.ll_tokens = l'.ll_tokens) (rd : ∀ x ∈ h ++ h', Readable (valDbg x.ty x.val))
    (inj : ∀ (k : Ty W) (v w : Val k), valDbg k v = valDbg k w → v = w)
    (hd : ∀ k, ∃ d d' out, displayWith l [k] = .ok d ∧ displayWith l' [k] = .ok d' ∧ d.fmt = .ok out ∧ d'.fmt = .ok out) :
    l = l' := by
  have key : ∀ k, rangesOf k h = rangesOf k h' ∧ ∀ r, valuesOf k r h = valuesOf k r h' := by
    intro k
    obtain ⟨d, d', out, h1, h2, h3, h4⟩ := hd k
    have := C102_readable_partial L two hr hr' ho ho' ht (fun x hx _ => rd x hx) h1 h2 h3 h4
    simp only [List.flatMap_cons, List.flatMap_nil, List.append_nil] at this
    exact shown_blocks (inj k) this
  exact rep_ext hr.rep hr'.rep ht (fun k => (key k).1) (fun k r => (key k).2 r)

/-- `Debug` of the types of the crates under `TextTag`, `ClauseKeyword` and `Clause` satisfies both conditions. -/
theorem C102_own_types :
    (∀ v : TextTag, Readable v.dbg) ∧ (∀ v : ClauseKeyword, Readable v.dbg) ∧ (∀ v : Clause, Readable v.dbg) ∧
    (∀ v w : TextTag, v.dbg = w.dbg → v = w) ∧ (∀ v w : ClauseKeyword, v.dbg = w.dbg → v = w) ∧
    (∀ v w : Clause, v.dbg = w.dbg → v = w) := by
  refine ⟨?_, ?_, ?_, ?_, ?_, ?_⟩
  · intro v; cases v <;> exact ⟨by decide, by decide, by decide⟩
  · intro v; cases v <;> exact ⟨by decide, by decide, by decide⟩
  · intro v; cases v <;> exact ⟨by decide, by decide, by decide⟩
  · intro v w; cases v <;> cases w <;> decide
  · intro v w; cases v <;> cases w <;> decide
  · intro v w; cases v <;> cases w <;> decide

namespace Demo
/-- a resolver that assigns one tag -/
def tagRes (i j : Nat) (s : Str) : Resolver Demo.W where
  attr := Ty.tag
  go := fun _ => .ok ([⟨i, j, s⟩], false)
def abHist : History Demo.W := creationHistory Demo.W utf8Len [.Text ['a', ' ', 'b'] []]
/-- `a b` with a tag shown as `─────╯x` on the first token -/
def tagLine1 : LLLine Demo.W := getOk emptyLine (abLine.run 7 (tagRes 0 0 ['─', '─', '─', '─', '─', '╯', 'x']))
/-- `a b` with a tag shown as `x` on the whole line -/
def tagLine2 : LLLine Demo.W := getOk emptyLine (abLine.run 7 (tagRes 0 2 ['x']))
def tagHist1 : History Demo.W := abHist ++
  ([⟨0, 0, (['─', '─', '─', '─', '─', '╯', 'x'] : Str)⟩] : List (LLCursorAssignment (Val (Ty.tag (W := Demo.W))))).map (recOf .tag)
def tagHist2 : History Demo.W := abHist ++
  ([⟨0, 2, (['x'] : Str)⟩] : List (LLCursorAssignment (Val (Ty.tag (W := Demo.W))))).map (recOf .tag)
theorem ab_ne : abLine.ll_tokens ≠ [] := by intro h; cases h
theorem tagReach1 : Reachable tagLine1 tagHist1 :=
  .run abLine abHist 7 (tagRes 0 0 ['─', '─', '─', '─', '─', '╯', 'x']) _ false tagLine1 abReach ab_ne rfl rfl
theorem tagReach2 : Reachable tagLine2 tagHist2 :=
  .run abLine abHist 7 (tagRes 0 2 ['x']) _ false tagLine2 abReach ab_ne rfl rfl
theorem abOrdered : ∀ x ∈ abHist, x.range.1 ≤ x.range.2 := by decide
theorem tagOrdered1 : Ordered tagHist1 := by
  intro x hx
  rcases List.mem_append.1 hx with hx | hx
  · exact abOrdered x hx
  · rw [List.map_singleton, List.mem_singleton] at hx; subst hx; decide
theorem tagOrdered2 : Ordered tagHist2 := by
  intro x hx
  rcases List.mem_append.1 hx with hx | hx
  · exact abOrdered x hx
  · rw [List.map_singleton, List.mem_singleton] at hx; subst hx; decide
theorem tagReadable2 : ∀ x ∈ tagHist2, Readable (valDbg x.ty x.val) := by
  intro x hx
  have h1 : ∀ x ∈ abHist, '\n' ∉ valDbg x.ty x.val ∧ (valDbg x.ty x.val).head? ≠ some '─' ∧
    (valDbg x.ty x.val).head? ≠ some '╯' := by decide
  rcases List.mem_append.1 hx with hx | hx
  · exact h1 x hx
  · rw [List.map_singleton, List.mem_singleton] at hx; subst hx
    exact ⟨by decide, by decide, by decide⟩
end Demo

/-- C102 is false in general: a value whose `Debug` text continues a bracket is rendered like a shorter value
on a longer range. -/
theorem C102_ambiguous : ¬ C102_claim := by
  intro claim
  have := claim Demo.W Demo.additive (by decide) Demo.tagLine1 Demo.tagLine2 Demo.tagHist1 Demo.tagHist2 Demo.tagReach1
    Demo.tagReach2 Demo.tagOrdered1 Demo.tagOrdered2 rfl [Ty.tag] _ _ _ rfl rfl rfl rfl
  revert this
  decide

example := C102_readable_partial (ks := [Ty.char, Ty.tag]) Demo.additive (by decide) Demo.tagReach2 Demo.tagReach2
  Demo.tagOrdered2 Demo.tagOrdered2 rfl
  (fun x hx _ => Demo.tagReadable2 x (by simpa using hx)) rfl rfl rfl rfl

theorem Demo.dbg_inj : ∀ (k : Ty Demo.W) (v w : Val k), valDbg k v = valDbg k w → v = w
  | .char, (v : Char), (w : Char), h => by
    have h : (['\'', v, '\''] : Str) = ['\'', w, '\''] := h
    have h : v = w := by simpa using h
    exact h
  | .textTag, v, w, h => C102_own_types.2.2.2.1 v w h
  | .clauseKeyword, v, w, h => C102_own_types.2.2.2.2.1 v w h
  | .clause, v, w, h => C102_own_types.2.2.2.2.2 v w h
  | .tag, _, _, h => h
  | .amount, (v : Str), (w : Str), h => by
    have h : "Amount(".toList ++ v ++ [')'] = "Amount(".toList ++ w ++ [')'] := h
    have h : v = w := by simpa using h
    exact h
  | .user _, (v : Str), (w : Str), h => by
    have h : ['"'] ++ v ++ ['"'] = ['"'] ++ w ++ ['"'] := h
    have h : v = w := by simpa using h
    exact h

example := C102_displays_determine_the_line_partial Demo.additive (by decide) Demo.tagReach2 Demo.tagReach2
  Demo.tagOrdered2 Demo.tagOrdered2 rfl (fun x hx => Demo.tagReadable2 x (by simpa using hx)) Demo.dbg_inj
  (fun k => by
    obtain ⟨d, h1, h2⟩ := C55_display Demo.tagReach2 Demo.tagOrdered2 (additive_mono Demo.additive) [k]
    exact ⟨d, d, _, h1, h1, h2, h2⟩)

/-! ### C103: extending on both sides -/

/-- C103: matching backwards after matching forwards finds what matching backwards alone finds, and the other
way round, so that both orders give the same two-sided extensions with the same outputs. -/
theorem C103_both_sides {A B : Type} {s : LLSelection W} {a : XMatch W A} {b : XMatch W B}
    {fs : List (LLSelection W × A)} {bs : List (LLSelection W × B)}
    (hf : s.matchForwards a = .ok fs) (hb : s.matchBackwards b = .ok bs) :
    (∀ f ∈ fs, f.1.matchBackwards b = .ok (bs.map (fun q => (⟨q.1.ll_line, q.1.start_idx, f.1.end_idx⟩, q.2)))) ∧
    (∀ q ∈ bs, q.1.matchForwards a = .ok (fs.map (fun f => (⟨f.1.ll_line, q.1.start_idx, f.1.end_idx⟩, f.2)))) := by
  rw [matchForwards_ok_iff] at hf
  rw [matchBackwards_ok_iff] at hb
  constructor
  · intro f hm
    rcases hf with ⟨_, rfl⟩ | ⟨_, rs, _, rfl⟩
    · cases hm
    · obtain ⟨r, _, rfl⟩ := List.mem_map.1 hm
      rw [matchBackwards_ok_iff]
      rcases hb with ⟨h0, rfl⟩ | ⟨h0, ps, hp, rfl⟩
      · exact Or.inl ⟨h0, rfl⟩
      · refine Or.inr ⟨h0, ps, hp, ?_⟩
        rw [List.map_map]; rfl
  · intro q hm
    rcases hb with ⟨_, rfl⟩ | ⟨_, ps, _, rfl⟩
    · cases hm
    · obtain ⟨p, _, rfl⟩ := List.mem_map.1 hm
      rw [matchForwards_ok_iff]
      rcases hf with ⟨h0, rfl⟩ | ⟨h0, rs, hp, rfl⟩
      · exact Or.inl ⟨h0, rfl⟩
      · refine Or.inr ⟨h0, rs, hp, ?_⟩
        rw [List.map_map]; rfl

/-- C103: the same selections, with the same two outputs, are reached in both orders. -/
theorem C103_orders_agree {A B : Type} {s : LLSelection W} {a : XMatch W A} {b : XMatch W B}
    {fs : List (LLSelection W × A)} {bs : List (LLSelection W × B)}
    (hf : s.matchForwards a = .ok fs) (hb : s.matchBackwards b = .ok bs) (p : LLSelection W) (x : A) (y : B) :
    (∃ f ∈ fs, f.2 = x ∧ ∃ out, f.1.matchBackwards b = .ok out ∧ (p, y) ∈ out) ↔
    (∃ q ∈ bs, q.2 = y ∧ ∃ out, q.1.matchForwards a = .ok out ∧ (p, x) ∈ out) := by
  obtain ⟨h1, h2⟩ := C103_both_sides hf hb
  have line : (∀ f ∈ fs, f.1.ll_line = s.ll_line ∧ f.1.start_idx = s.start_idx) ∧
      ∀ q ∈ bs, q.1.ll_line = s.ll_line ∧ q.1.end_idx = s.end_idx := by
    constructor
    · intro f hm
      rcases matchForwards_ok_iff.1 hf with ⟨_, rfl⟩ | ⟨_, rs, _, rfl⟩
      · cases hm
      · obtain ⟨r, _, rfl⟩ := List.mem_map.1 hm; exact ⟨rfl, rfl⟩
    · intro f hm
      rcases matchBackwards_ok_iff.1 hb with ⟨_, rfl⟩ | ⟨_, rs, _, rfl⟩
      · cases hm
      · obtain ⟨r, _, rfl⟩ := List.mem_map.1 hm; exact ⟨rfl, rfl⟩
  constructor
  · rintro ⟨f, hm, rfl, out, ho, hp⟩
    rw [h1 f hm] at ho; cases ho
    obtain ⟨q, hq, he⟩ := List.mem_map.1 hp
    cases he
    refine ⟨q, hq, rfl, _, h2 q hq, List.mem_map.2 ⟨f, hm, ?_⟩⟩
    rw [(line.1 f hm).1, (line.2 q hq).1]
  · rintro ⟨q, hm, rfl, out, ho, hp⟩
    rw [h2 q hm] at ho; cases ho
    obtain ⟨f, hq, he⟩ := List.mem_map.1 hp
    cases he
    refine ⟨f, hq, rfl, _, h1 f hq, List.mem_map.2 ⟨q, hm, ?_⟩⟩
    rw [(line.2 q hm).1, (line.1 f hq).1]

example := C103_both_sides (s := ⟨⟨0, Demo.abLine⟩, 1, 1⟩) (a := X.tokenText) (b := X.tokenText)
  (fs := [(⟨⟨0, Demo.abLine⟩, 1, 2⟩, ['b'])]) (bs := [(⟨⟨0, Demo.abLine⟩, 0, 1⟩, ['a'])]) rfl rfl
example := C103_orders_agree (s := ⟨⟨0, Demo.abLine⟩, 1, 1⟩) (a := X.tokenText) (b := X.tokenText)
  (fs := [(⟨⟨0, Demo.abLine⟩, 1, 2⟩, ['b'])]) (bs := [(⟨⟨0, Demo.abLine⟩, 0, 1⟩, ['a'])]) rfl rfl
  ⟨⟨0, Demo.abLine⟩, 0, 2⟩ ['b'] ['a']

end LNlp
