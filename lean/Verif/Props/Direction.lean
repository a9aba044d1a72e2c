import Verif.Lemmas.Direction
import Verif.Demo.Examples
import Verif.Props.UserMatch
/- Properties of directions that users write themselves (C136). -/
namespace LNlp
variable {W : World} {Out : Type}

/-! ### C136: directions of the user -/

/-- C136: for the two directions of the library the generic code of the matchers is the code that `Model/X.lean` writes down for
them, matcher by matcher. -/
theorem C136_library {α β γ : Type} (a : GMatch W α) (b : GMatch W β) (c : GMatch W γ) :
    (∀ k : Ty W, (GX.attr k).matcher = X.attr k) ∧ (∀ (k : Ty W) (v : Val k), (GX.attrEq k v).matcher = X.attrEq k v) ∧
    (∀ (k : Ty W) (set : List (Val k)), (GX.tokenHasAny k set).matcher = X.tokenHasAny k set) ∧
    (GX.tokenText (W := W)).matcher = X.tokenText ∧ (GX.whitespace (W := W)).matcher = X.whitespace ∧
    (GX.all2 a b).matcher = X.all2 a.matcher b.matcher ∧ (GX.all3 a b c).matcher = X.all3 a.matcher b.matcher c.matcher ∧
    (GX.anyOf2 a b).matcher = X.anyOf2 a.matcher b.matcher ∧
    (GX.anyOf3 a b c).matcher = X.anyOf3 a.matcher b.matcher c.matcher ∧
    (GX.seq2 a b).matcher = X.seq2 a.matcher b.matcher ∧ (GX.seq3 a b c).matcher = X.seq3 a.matcher b.matcher c.matcher :=
  ⟨fun _ => rfl, fun _ _ => rfl, fun _ _ => rfl, rfl, rfl, rfl, rfl, rfl, rfl, seq2_matcher a b, seq3_matcher a b c⟩

example := C136_library (GX.attr (W := Demo.W) (Ty.user 2)) GX.tokenText GX.whitespace

/-- C136: so every matcher expression of the other properties is generic code, used with a direction of the library. -/
theorem C136_library_all {T : Ty W → Prop} {has : Bool} {m : XMatch W Out} (hm : Built T has m) :
    ∃ g : GMatch W Out, GBuilt T has g ∧ g.matcher = m := generic_of hm

example := C136_library_all (T := fun _ => True) (has := true) (.seq2 (.attr (W := Demo.W) (Ty.user 2) trivial)
  (.user Demo.userParts Demo.userTree (fun i => by cases i <;> constructor <;> trivial)))

/-- an expression for the examples, with a direction of the user inside a matcher of the user inside a sequence -/
def Demo.gexpr : GMatch Demo.W (Str × Str) :=
  GX.seq2 (GX.attr (Ty.user 2)) ((UserTree.keep (fun s => decide (s ≠ []))).generic
    (fun _ => GMatch.under (Wrapper.steps 3) (GMatch.under (Wrapper.hide (fun k => decide (k = Ty.user 0))) GX.tokenText)))

theorem Demo.gexpr_built (has : Bool) : GBuilt (fun _ => True) has Demo.gexpr :=
  .seq2 (.attr _ trivial) (.user _ _ (fun _ => .under (Wrapper.steps 3) (steps_generic 3 _ _)
    (.under (Wrapper.hide _) (hide_generic _ _ _) .tokenText)))

/-- C136: a matcher knows its direction only by what the five methods answer.  Wherever two directions, of any types and
on any two lines of the same length, answer alike, every matcher expression finds the same with both, with the same indexes,
all of which are answers of the directions; and it panics only where they may. -/
theorem C136_alike {T : Ty W → Prop} {has : Bool} {m : GMatch W Out} (hm : GBuilt T has m) {S S' : Type}
    (D : Direction W S) (D' : Direction W S') (l l' : LLLine W) (hl : l.ll_tokens.length = l'.ll_tokens.length)
    (on : S → S' → Prop) (inn : Nat → Prop) (safe : Prop) (A : AnswerAlike T has D D' l l' on inn safe) (s : S) (s' : S')
    (hs : on s s') :
    m.go D s l = m.go D' s' l' ∧ (∀ out, m.go D s l = .ok out → ∀ p ∈ out, inn p.2) ∧ (safe → ∃ out, m.go D s l = .ok out) :=
  have := gbuilt_alike hm D D' l l' on inn safe hl A s s' hs
  ⟨this.same, this.ends, this.fine⟩

example := C136_alike (Demo.gexpr_built false) _ _ Demo.exLine2 Demo.exLine2 rfl _ _ True
  (lib_alike Demo.exReach2 (ord := True) (fun _ => Demo.exHist2_ordered) (fun _ h => by cases h) (.fwd 0)) (.fwd 0) (.fwd 0)
  ⟨rfl, stays_self _ (by decide)⟩

/-- C136: the directions of the user that the examples use are such: they know the one inside only by its methods.  One that
hides types may be asked about them without asking the one inside. -/
theorem C136_wrappers (hidden : Ty W → Bool) (n : Nat) (T : Ty W → Prop) (has : Bool) :
    (Wrapper.hide hidden).Generic T has (fun k => T k ∨ hidden k = true) has ∧ (Wrapper.steps n).Generic T has T has :=
  ⟨hide_generic hidden T has, steps_generic n T has⟩

example := C136_wrappers (W := Demo.W) (fun k => decide (k = Ty.user 0)) 2 (fun k => k = .textTag) true

/-- C136: with such directions around those of the library, in any nesting, every result stays in the line, and on a line with
ordered attributes on the side of the direction that `find_by` etc. started with. -/
theorem C136_inside {T : Ty W → Prop} {has : Bool} {m : GMatch W Out} (hm : GBuilt T has m) {l : LLLine W} {h : History W}
    (hr : Reachable l h) (ho : Ordered h) (i : Nat) (hi : i < l.ll_tokens.length) :
    (∀ out, m.matcher.go (.fwd i) l = .ok out → ∀ r ∈ out, i ≤ r.2 ∧ r.2 < l.ll_tokens.length) ∧
    (∀ out, m.matcher.go (.bwd i) l = .ok out → ∀ r ∈ out, r.2 ≤ i ∧ r.2 < l.ll_tokens.length) := by
  have key : ∀ d : Dir, d.at < l.ll_tokens.length → ∀ out, m.matcher.go d l = .ok out → ∀ r ∈ out, d.Sees l True r.2 :=
    fun d hd => (C136_alike hm _ _ l l rfl _ _ False (lib_alike hr (fun _ => ho) (fun h => h.elim) d) d d
      ⟨rfl, stays_self True hd⟩).2.1
  exact ⟨fun out hg r hr' => ⟨(key (.fwd i) hi out hg r hr').2 trivial, (key (.fwd i) hi out hg r hr').1⟩,
    fun out hg r hr' => ⟨(key (.bwd i) hi out hg r hr').2 trivial, (key (.bwd i) hi out hg r hr').1⟩⟩

example := C136_inside (Demo.gexpr_built true) Demo.exReach2 Demo.exHist2_ordered 0 (by decide)
example : ∃ out, Demo.gexpr.matcher.go (.fwd 0) Demo.exLine2 = .ok out ∧ out.length = 2 := ⟨_, rfl, rfl⟩

/-- C136: and it does not panic at a token, if it does not use `token_has_any` or every token has an attribute of its own. -/
theorem C136_never_panics {T : Ty W → Prop} {has : Bool} {m : GMatch W Out} (hm : GBuilt T has m) {l : LLLine W}
    {h : History W} (hr : Reachable l h) (ha : has = true → ∀ p, p < l.ll_tokens.length → ∃ x ∈ h, x.range = (p, p)) (d : Dir)
    (hd : d.at < l.ll_tokens.length) : ∃ out, m.matcher.go d l = .ok out :=
  (C136_alike hm _ _ l l rfl _ _ True (lib_alike hr (ord := False) (fun h => h.elim) (fun _ => ha) d) d d
    ⟨rfl, stays_self _ hd⟩).2.2 trivial

example := C136_never_panics (Demo.gexpr_built false) Demo.exReach2 (fun h => by cases h) (.bwd 4) (by decide)

/-- C136: a direction that hides types shows an expression the line without the attributes of these types: what it finds
is what it finds with the library's direction on any line `l'` with the same tokens on which everything but the hidden types
was assigned. -/
theorem C136_hide {hidden : Ty W → Bool} {T : Ty W → Prop} {has : Bool} {m : GMatch W Out} (hm : GBuilt T has m)
    {l l' : LLLine W} {h h' : History W} (hr : Reachable l h) (hr' : Reachable l' h') (ht : l'.ll_tokens = l.ll_tokens)
    (hT : ∀ k, hidden k = false → ofType k h' = ofType k h) (hn : ∀ x ∈ h', hidden x.ty = false)
    (ha : has = true → ∀ p, p < l.ll_tokens.length → (∃ x ∈ h, x.range = (p, p)) ∧ ∃ x ∈ h', x.range = (p, p)) (d : Dir)
    (hd : d.at < l.ll_tokens.length) : (m.under (Wrapper.hide hidden)).matcher.go d l = m.matcher.go d l' :=
  (C136_alike hm _ _ l l' (by rw [ht]) _ _ True (hide_alike hr hr' ht (fun k hk => (hT k hk).symm) hn ha d) d d
    ⟨rfl, stays_self _ hd⟩).1

example := C136_hide (hidden := fun k => decide (k = Ty.user 2)) (Demo.gexpr_built false) Demo.exReach2 Demo.exReach rfl
  (fun k hk => by
    rw [Demo.exHist2, ofType_append, ofType_recs_other (by rintro rfl; simp at hk)]; simp)
  (by decide) (fun h => by cases h) (.fwd 0) (by decide)

/-- C136: so it shows an expression the line as it was before the resolvers that assigned these types, however many ran. -/
theorem C136_hide_layers {hidden : Ty W → Bool} {T : Ty W → Prop} {m : GMatch W Out} (hm : GBuilt T false m)
    {l l' : LLLine W} {h : History W} (hr : Reachable l h) (hn : ∀ x ∈ h, hidden x.ty = false)
    (rs : List (Nat × Resolver W)) (hrs : ∀ p ∈ rs, hidden p.2.attr = true) (ok : runAll l rs = .ok l') (d : Dir)
    (hd : d.at < l.ll_tokens.length) : (m.under (Wrapper.hide hidden)).matcher.go d l' = m.matcher.go d l := by
  obtain ⟨h', q1, q2, q3⟩ := hidden_layers hr hrs ok
  refine C136_hide hm q1 hr q2.symm (fun k hk => ?_) hn (fun h => by cases h) d (by rw [q2]; exact hd)
  have : ofType k h' = [] := by
    unfold ofType
    rw [List.filter_eq_nil_iff]
    intro x hx
    simp only [decide_eq_true_eq]
    rintro rfl
    rw [q3 x hx] at hk
    cases hk
  rw [ofType_append, this, List.append_nil]

example := C136_hide_layers (hidden := fun k => decide (k = Ty.user 2)) (Demo.gexpr_built false) Demo.exReach
  (by decide) [(7, Demo.exRes), (8, Demo.exRes)] (by decide) rfl (.fwd 0) (by decide)

/-- C136: with a direction whose `after` passes over spaces, forwards, every expression stays in the line and on its side, and
panics no more than with the library's. -/
theorem C136_skip_inside {T : Ty W → Prop} {has : Bool} {m : GMatch W Out} (hm : GBuilt T has m) {l : LLLine W} {h : History W}
    (hr : Reachable l h) (ho : Ordered h) (ha : has = true → ∀ p, p < l.ll_tokens.length → ∃ x ∈ h, x.range = (p, p)) (i : Nat)
    (hi : i < l.ll_tokens.length) :
    ∃ out, (m.under Wrapper.skip).matcher.go (.fwd i) l = .ok out ∧ ∀ r ∈ out, i ≤ r.2 ∧ r.2 < l.ll_tokens.length := by
  have := C136_alike hm _ _ l l rfl _ _ True (skip_alike hr (fun _ => ho) (fun _ => ha) i) (.fwd i) (.fwd i)
    ⟨rfl, stays_self True hi⟩
  obtain ⟨out, ho⟩ := this.2.2 trivial
  exact ⟨out, ho, fun r hr' => ⟨(this.2.1 out ho r hr').2 trivial, (this.2.1 out ho r hr').1⟩⟩

example := C136_skip_inside (Demo.gexpr_built false) Demo.exReach2 Demo.exHist2_ordered (fun h => by cases h) 0 (by decide)

/-- C136: a sequence with it finds exactly the pairs of which the second starts at the next token behind the first that is not a
space. -/
theorem C136_skip_seq {T : Ty W → Prop} {α β : Type} {a : GMatch W α} {b : GMatch W β} (hma : GBuilt T false a)
    (hmb : GBuilt T false b) {l : LLLine W} {h : History W} (hr : Reachable l h) (ho : Ordered h) (i : Nat)
    (hi : i < l.ll_tokens.length) :
    ∃ as out, (a.under Wrapper.skip).matcher.go (.fwd i) l = .ok as ∧
      ((GX.seq2 a b).under Wrapper.skip).matcher.go (.fwd i) l = .ok out ∧
      ∀ x y e, ((x, y), e) ∈ out ↔ ∃ e' j bs, (x, e') ∈ as ∧ NextWord l h e' j ∧
        (b.under Wrapper.skip).matcher.go (.fwd j) l = .ok bs ∧ (y, e) ∈ bs := by
  obtain ⟨as, has, _⟩ := C136_skip_inside hma hr ho (fun h => by cases h) i hi
  obtain ⟨out, hout, _⟩ := C136_skip_inside (.seq2 hma hmb) hr ho (fun h => by cases h) i hi
  refine ⟨as, out, has, hout, ?_⟩
  have h1 : a.go (Wrapper.skip.dir Direction.lib) (Dir.fwd i) l = .ok as := has
  have h2 : (GX.seq2 a b).go (Wrapper.skip.dir Direction.lib) (Dir.fwd i) l = .ok out := hout
  simp only [GX.seq2] at h2
  rw [h1] at h2
  simp only at h2
  obtain ⟨hall, rfl⟩ := flatMapR_ok_iff.1 h2
  intro x y e
  rw [List.mem_flatMap]
  have hspec := fun e' => skipSpaces_spec hr.rep i (l.ll_tokens.length + 1) e' (by omega)
  constructor
  · rintro ⟨⟨x', e'⟩, hp, hm⟩
    rcases hspec e' with ⟨j, hj, nw⟩ | ⟨hj, _⟩
    · have hga : GX.goAfter b (Wrapper.skip.dir Direction.lib) (Dir.fwd i) e' l =
          b.go (Wrapper.skip.dir Direction.lib) (Dir.fwd j) l := skip_goAfter b hj
      obtain ⟨bs, hbs, _⟩ := C136_skip_inside hmb hr ho (fun h => by cases h) j nw.inside
      have hbs' : b.go (Wrapper.skip.dir Direction.lib) (Dir.fwd j) l = .ok bs := hbs
      simp only [hga, hbs', okD, List.mem_map, Prod.mk.injEq] at hm
      obtain ⟨q, hq, ⟨rfl, rfl⟩, rfl⟩ := hm
      exact ⟨e', j, bs, hp, nw, hbs, hq⟩
    · have hga : GX.goAfter b (Wrapper.skip.dir Direction.lib) (Dir.fwd i) e' l = .ok [] := skip_goAfter b hj
      simp [hga, okD] at hm
  · rintro ⟨e', j, bs, hp, nw, hbs, hq⟩
    refine ⟨(x, e'), hp, ?_⟩
    rcases hspec e' with ⟨j', hj, nw'⟩ | ⟨_, hj⟩
    · rw [← nextWord_unique nw nw'] at hj
      have hga : GX.goAfter b (Wrapper.skip.dir Direction.lib) (Dir.fwd i) e' l =
          b.go (Wrapper.skip.dir Direction.lib) (Dir.fwd j) l := skip_goAfter b hj
      have hbs' : b.go (Wrapper.skip.dir Direction.lib) (Dir.fwd j) l = .ok bs := hbs
      simp only [hga, hbs', okD, List.mem_map, Prod.mk.injEq]
      exact ⟨(y, e), hq, by simp⟩
    · exact absurd nw (hj j)

example := C136_skip_seq (T := fun _ => True) (.attr (Ty.textTag (W := Demo.W)) trivial) .tokenText Demo.exReach2 Demo.exHist2_ordered 0
  (by decide)
/-- "Pay 12ab, …": with it `12` follows `Pay`, with the library's direction a space does -/
example : ((GX.seq2 (GX.tokenText (W := Demo.W)) GX.tokenText).under Wrapper.skip).matcher.go (.fwd 0) Demo.exLine2 =
      .ok [((['P','a','y'], ['1','2']), 2)] ∧
    (GX.seq2 (GX.tokenText (W := Demo.W)) GX.tokenText).matcher.go (.fwd 0) Demo.exLine2 = .ok [((['P','a','y'], [' ']), 1)] :=
  ⟨rfl, rfl⟩

/-- a line of two spaces -/
def Demo.blankLine : LLLine Demo.W :=
  getOk emptyLine (createLineFromInputTokens Demo.W [.Text [' '] [], .Text [' '] []] List.length)

theorem Demo.blankReach : Reachable Demo.blankLine (creationHistory Demo.W List.length [.Text [' '] [], .Text [' '] []]) :=
  .create _ _ _ (by intro t ht; simp at ht; subst ht; intro a ha; simp [InputToken.attrList] at ha) rfl

/-- what C136 does not claim: the same direction backwards -/
def C136_skip_backwards_claim : Prop :=
  ∀ (l : LLLine Demo.W) (h : History Demo.W), Reachable l h → ∀ i < l.ll_tokens.length,
    ∃ out, ((GX.seq2 GX.tokenText GX.tokenText).under Wrapper.skip).matcher.go (.bwd i) l = .ok out

/-- C136: backwards it panics, on two spaces: it makes up the index to go on from, which `XBackwards::after` does not check. -/
theorem C136_skip_backwards_false : ¬ C136_skip_backwards_claim := by
  intro hc
  obtain ⟨out, h⟩ := hc _ _ Demo.blankReach 1 (by decide)
  have : ((GX.seq2 (GX.tokenText (W := Demo.W)) GX.tokenText).under Wrapper.skip).matcher.go (.bwd 1) Demo.blankLine =
    .error .dirOob := rfl
  rw [this] at h
  cases h

end LNlp
