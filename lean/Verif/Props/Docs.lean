import Verif.Props.EndToEnd
import Verif.Props.Match
import Verif.Spec.Docs
/- Claims of documentation comments, and direction independence of `any_of` (C97–C99). -/
namespace LNlp
variable {W : World}

/-! ### C97: `x::whitespace()` -/

/-- C97, as documented ("Match any number of consecutive spaces.", x/functions.rs:47): on lines made from
strings, from the first of several whitespace tokens in a row it matches up to the last one. -/
def C97_claim : Prop := ∀ (W : World) (s : Str) (l : LLLine W) (i j : Nat), createLineFromString W s = .ok l →
  i ≤ j → (∀ k, i ≤ k → k ≤ j → tagAt l k = some .SPACE) →
  ∃ out, X.whitespace.go (.fwd i) l = .ok out ∧ ((), j) ∈ out

/-- C97 is false: a tab and a space are two whitespace tokens, and only the first is matched. -/
theorem C97_any_number_false : ¬ C97_claim := by
  intro claim
  obtain ⟨out, ho, hm⟩ := claim Demo.W ['\t', ' ', 'a'] Demo.tabLine 0 1 rfl (by decide) (by
    intro k _ hk
    rcases (show k = 0 ∨ k = 1 by omega) with rfl | rfl <;> rfl)
  have h0 : X.whitespace.go (.fwd 0) Demo.tabLine = .ok [((), 0)] := rfl
  rw [h0] at ho
  cases ho
  revert hm
  decide

/-- C97, what holds: on lines on which nobody added `TextTag`s, `x::whitespace()` matches exactly one
whitespace token, once, in both directions.  Missing: it does not match several tokens
(`C97_any_number_false`). -/
theorem C97_one_token_partial {l : LLLine W} {h : History W} (hr : Reachable l h) (ht : PlainTags l h) {i : Nat}
    (hi : i < l.ll_tokens.length) :
    X.whitespace.go (.fwd i) l = .ok (if tagAt l i = some .SPACE then [((), i)] else []) ∧
    X.whitespace.go (.bwd i) l = .ok (if tagAt l i = some .SPACE then [((), i)] else []) := by
  have key : ((tagsOn h i).filter (fun w => w == TextTag.SPACE)).map (fun _ => ((), i)) =
      if tagAt l i = some .SPACE then [((), i)] else [] := by
    have h1 : tagsOn h i = (tagAt l i).toList := ht.1 i
    rw [h1]
    cases hc : tagAt l i with
    | none => simp
    | some t => cases t <;> simp
  have := tagEq_plain hr.rep ht.2 hi .SPACE
  exact ⟨this.1.trans (congrArg Except.ok key), this.2.trans (congrArg Except.ok key)⟩

example := C97_one_token_partial Demo.padReach Demo.padPlain (i := 0) (by decide)

/-- C97: so `seq((a, x::whitespace(), b))` matches `b` only directly after exactly one whitespace token. -/
theorem C97_between_partial {α β : Type} {a : XMatch W α} {b : XMatch W β} {l : LLLine W} {h : History W}
    (hr : Reachable l h) (ht : PlainTags l h) (i : Nat) (out : List ((α × Unit × β) × Nat))
    (ok : (X.seq3 a X.whitespace b).go (.fwd i) l = .ok out) (x : α) (y : β) (j : Nat)
    (hm : ((x, (), y), j) ∈ out) :
    ∃ k as bs, a.go (.fwd i) l = .ok as ∧ (x, k) ∈ as ∧ tagAt l (k + 1) = some .SPACE ∧ k + 2 < l.ll_tokens.length ∧
      b.go (.fwd (k + 2)) l = .ok bs ∧ (y, j) ∈ bs := by
  simp only [X.seq3] at ok
  cases ha : a.go (.fwd i) l with
  | error e => rw [ha] at ok; cases ok
  | ok as =>
    rw [ha] at ok
    obtain ⟨f, hf, rfl⟩ := flatMapR_inv ok
    obtain ⟨⟨x', k⟩, hk, hm⟩ := List.mem_flatMap.1 hm
    have h1 := hf _ hk
    simp only [X.goAfter, Dir.after] at h1
    by_cases c1 : k + 1 < l.ll_tokens.length
    · simp only [if_pos c1, (C97_one_token_partial hr ht c1).1] at h1
      by_cases c2 : tagAt l (k + 1) = some .SPACE
      · simp only [if_pos c2] at h1
        obtain ⟨g, hg, h1⟩ := flatMapR_inv h1
        rw [h1] at hm
        simp only [List.flatMap_cons, List.flatMap_nil, List.append_nil] at hm
        have h2 := hg ((), k + 1) (by simp)
        simp only at h2
        by_cases c3 : k + 1 + 1 < l.ll_tokens.length
        · simp only [if_pos c3] at h2
          cases hb : b.go (.fwd (k + 1 + 1)) l with
          | error e => rw [hb] at h2; cases h2
          | ok bs =>
            rw [hb] at h2
            have h2 := Except.ok.inj h2
            rw [← h2] at hm
            obtain ⟨⟨y', j'⟩, hy, he⟩ := List.mem_map.1 hm
            cases he
            exact ⟨k, as, bs, rfl, hk, c2, c3, hb, hy⟩
        · simp only [if_neg c3] at h2
          rw [← Except.ok.inj h2] at hm
          cases hm
      · simp only [if_neg c2] at h1
        rw [← Except.ok.inj h1] at hm
        cases hm
    · simp only [if_neg c1] at h1
      rw [← Except.ok.inj h1] at hm
      cases hm

/-- the line of `a b` -/
def Demo.abLine : LLLine Demo.W := Demo.getOk Demo.emptyLine (createLineFromString Demo.W ['a', ' ', 'b'])
theorem Demo.abReach : Reachable Demo.abLine (creationHistory Demo.W utf8Len [.Text ['a', ' ', 'b'] []]) :=
  .create _ utf8Len _ (string_wf _) rfl
theorem Demo.abPlain : PlainTags Demo.abLine (creationHistory Demo.W utf8Len [.Text ['a', ' ', 'b'] []]) :=
  creation_plainTags (string_wf _) (size := utf8Len) rfl (string_noCustom _ _)

example := C97_between_partial (a := X.tokenText) (b := X.tokenText) Demo.abReach Demo.abPlain 0
  [((['a'], (), ['b']), 2)] rfl ['a'] ['b'] 2 (by decide)

/-! ### C98: documented words -/

/-- C98, as documented ("We count "don't", "peoples'", and "baseball-card" to be words!", get_word_tag.rs:27):
a string that starts with a letter and goes on with letters, apostrophes and dashes is one `WORD` token. -/
def C98_claim : Prop := ∀ (W : World), SplitLaws W → ∀ (s : Str) (l : LLLine W), WordText W s →
  createLineFromString W s = .ok l → l.ll_tokens.map (·.token) = [.Text s .WORD]

/-- C98 is false for dashes: `a-b` is three tokens. -/
theorem C98_documented_words_false : ¬ C98_claim := by
  intro claim
  have := claim Demo.W Demo.splitLaws ['a', '-', 'b'] _ (by decide) rfl
  cases this

/-- C98: no `WORD` token of any line contains a dash, because the words are cut before every dash before
`is_word` sees them. -/
theorem C98_no_dashed_words (D : DashBreak W) (size : Str → Nat) (input : List (InputToken W)) (l : LLLine W)
    (wf : ∀ t ∈ input, t.WF) (dash : W.isAlphabetic '-' = false ∧ W.isAlphabetic '–' = false)
    (h : createLineFromInputTokens W input size = .ok l) :
    ∀ tok ∈ l.ll_tokens, ∀ s, tok.token = .Text s .WORD → '-' ∉ s ∧ '–' ∉ s := by
  intro tok ht s he
  obtain ⟨text, _, w, _, hw, _, hp⟩ := create_token_origin wf h ht he
  have hd := D text w hw
  have htail : (W.isAlphabetic (w.headD 'a') = true ∨ w = []) → '-' ∉ w ∧ '–' ∉ w := by
    intro hh
    cases w with
    | nil => simp
    | cons c cs =>
      have hc : W.isAlphabetic c = true := by simpa using hh
      simp only [List.tail_cons] at hd
      constructor
      · intro hm
        rcases List.mem_cons.1 hm with e | hm
        · rw [← e, dash.1] at hc; cases hc
        · exact (hd _ hm).1 rfl
      · intro hm
        rcases List.mem_cons.1 hm with e | hm
        · rw [← e, dash.2] at hc; cases hc
        · exact (hd _ hm).2 rfl
  unfold wordPieces at hp
  split at hp
  · obtain ⟨_, h2, _⟩ := runsOf_uniform W w _ hp
    simp only at h2
    have hall : ∀ c ∈ s, W.isAlphabetic c = true := by
      intro c hc
      have := (h2 c hc).1
      unfold charTag at this
      split at this
      · cases this
      · split at this
        · assumption
        · cases this
    constructor
    · intro hm
      have := hall _ hm
      rw [dash.1] at this; cases this
    · intro hm
      have := hall _ hm
      rw [dash.2] at this; cases this
  · simp only [List.mem_singleton, Prod.mk.injEq] at hp
    obtain ⟨rfl, htag⟩ := hp
    unfold wordTag at htag
    split at htag
    · cases htag
    · split at htag
      · cases htag
      · split at htag
        · next hwt =>
          obtain ⟨c, cs, rfl, hc, _⟩ := hwt
          exact htail (Or.inl hc)
        · cases htag

theorem Demo.joins_dash {p2 : Option Char} {p : Char} {n : Option Char} {c : Char} (h : Demo.wbClass c = .Other) :
    Demo.joins p2 p c n = false := by
  unfold Demo.joins
  rw [h]
  cases Demo.wbClass p <;> rfl

theorem Demo.splitGo_dash : ∀ (rest : Str) (p2 : Option Char) (p : Char) (cur : Str),
    (∀ c ∈ cur.tail, c ≠ '-' ∧ c ≠ '–') → ∀ w ∈ Demo.splitGo p2 p cur rest, ∀ c ∈ w.tail, c ≠ '-' ∧ c ≠ '–'
  | [], _, _, cur, h => by
    intro w hw
    simp only [Demo.splitGo, List.mem_singleton] at hw
    rw [hw]; exact h
  | x :: rest, p2, p, cur, h => by
    simp only [Demo.splitGo]
    split
    · next hj =>
      refine splitGo_dash rest _ _ _ ?_
      cases cur with
      | nil => simp
      | cons d ds =>
        simp only [List.cons_append, List.tail_cons, List.mem_append, List.mem_singleton]
        rintro c (hc | rfl)
        · exact h c hc
        · constructor
          · rintro rfl; rw [Demo.joins_dash rfl] at hj; cases hj
          · rintro rfl; rw [Demo.joins_dash rfl] at hj; cases hj
    · intro w hw
      rcases List.mem_cons.1 hw with rfl | hw
      · exact h
      · exact splitGo_dash rest _ _ [x] (by simp) w hw

theorem Demo.dashBreak : DashBreak Demo.W := by
  intro s
  cases s with
  | nil => intro w hw; cases hw
  | cons c rest => exact Demo.splitGo_dash rest none c [c] (by simp)

example := C98_no_dashed_words Demo.dashBreak List.length Demo.exInput _ Demo.exInput_wf ⟨rfl, rfl⟩
  Demo.exInput_ok.choose_spec

/-- C98, what holds: a text the word splitter leaves whole (such as `don't`) is one `WORD` token exactly if it
has the documented form.  Missing: the splitter does cut at dashes and final apostrophes
(`C98_no_dashed_words`). -/
theorem C98_whole_partial (A : AsciiLaws W) (s : Str) (l : LLLine W) (whole : W.splitWordBounds s = [s])
    (h : createLineFromString W s = .ok l) : l.ll_tokens.map (·.token) = [.Text s .WORD] ↔ WordText W s := by
  have hx := C01_exact_tokens utf8Len [.Text s []] l (by
    intro t ht a ha
    simp only [List.mem_singleton] at ht
    subst ht; cases ha) h
  have h6 := C06_tags_determined A utf8Len [.Text s []] l (by
    intro t ht a ha
    simp only [List.mem_singleton] at ht
    subst ht; cases ha) h
  constructor
  · intro he
    cases hl : l.ll_tokens with
    | nil => rw [hl] at he; cases he
    | cons t ts =>
      rw [hl] at he
      simp only [List.map_cons, List.cons.injEq] at he
      exact (h6 t (by simp [hl]) s .WORD he.1).2.1.1 rfl
  · intro hw
    rw [hx]
    simp only [List.flatMap_cons, List.flatMap_nil, List.append_nil, tokensOf, textPieces, whole, List.map_map]
    obtain ⟨c, cs, rfl, hc, hcs⟩ := hw
    have hnd : ¬ ∃ d ∈ (c :: cs).head?, IsDigit d := by
      rintro ⟨d, hd, hdig⟩
      cases hd
      rw [A.digit_not_alpha _ hdig] at hc; cases hc
    have hns : ¬ ∀ d ∈ c :: cs, W.isWhitespace d = true := by
      intro hall
      have := hall c (by simp)
      rw [A.alpha_not_space _ hc] at this; cases this
    have hnp : ¬ ∃ d ∈ c :: cs, c :: cs = [d] ∧ DocPunct d := by
      rintro ⟨d, _, he, hp⟩
      cases he
      rw [A.punct_not_alpha _ hp] at hc; cases hc
    rw [wordPieces, if_neg hnd, wordTag, if_neg hns, if_neg hnp, if_pos ⟨c, cs, rfl, hc, hcs⟩]
    rfl

example := C98_whole_partial Demo.asciiLaws ['d', 'o', 'n', '\'', 't'] _ rfl rfl

/-! ### C99: `any_of` in both directions -/

/-- C99: like the other combinators (C35), `any_of` matches the same ranges forwards and backwards. -/
def C99_claim : Prop := ∀ (W : World) (l : LLLine W) (h : History W) (k k' : Ty W) (i j : Nat)
  (outF outB : List (AnyOf2 (Val k) (Val k') × Nat)), Reachable l h →
  (X.anyOf2 (X.attr k) (X.attr k')).go (.fwd i) l = .ok outF →
  (X.anyOf2 (X.attr k) (X.attr k')).go (.bwd j) l = .ok outB → ∀ v, (v, j) ∈ outF ↔ (v, i) ∈ outB

/-- C99 is false: backwards from token 2 the earlier alternative hides the tag of that token; forwards from it
the tag is matched. -/
theorem C99_any_of_false : ¬ C99_claim := by
  intro claim
  have := claim Demo.W Demo.exLine2 Demo.exHist2 (Ty.user (2 : Nat)) .textTag 2 2 _ _ Demo.exReach2 rfl rfl (.B TextTag.NATN)
  have h1 := this.1 (List.mem_singleton.2 rfl)
  revert h1
  show ¬ ((.B TextTag.NATN, 2) : AnyOf2 Str TextTag × Nat) ∈ [(.A ['x'], 0), (.A ['x'], 0)]
  decide

/-- C99 for alternatives that match single tokens: `any_of` of mirrored alternatives is mirrored.  Missing:
alternatives that match several tokens (`C99_any_of_false`). -/
theorem C99_one_token_partial {α α' β β' : Type} {a : XMatch W α} {a' : XMatch W α'} {f : α → α'}
    {b : XMatch W β} {b' : XMatch W β'} {g : β → β'} (ha : Mirrored a a' f) (hb : Mirrored b b' g)
    {l : LLLine W} {h : History W} (hr : Reachable l h) (ha1 : MatchesOneToken a l) (hb1 : MatchesOneToken b l)
    (i j : Nat) (hi : i < l.ll_tokens.length) (hj : j < l.ll_tokens.length) :
    ∃ outF outB, (X.anyOf2 a b).go (.fwd i) l = .ok outF ∧ (X.anyOf2 a' b').go (.bwd j) l = .ok outB ∧
      ∀ y, (y, i) ∈ outB ↔ ∃ x, x.map f g = y ∧ (x, j) ∈ outF := by
  obtain ⟨aF, _, haF, _, _⟩ := C35_mirror ha hr i j hi hj
  obtain ⟨_, aB, _, haB, _⟩ := C35_mirror ha hr i j hi hj
  obtain ⟨bF, _, hbF, _, _⟩ := C35_mirror hb hr i j hi hj
  obtain ⟨_, bB, _, hbB, _⟩ := C35_mirror hb hr i j hi hj
  have mirA : ∀ y, (y, i) ∈ aB ↔ ∃ x, f x = y ∧ (x, j) ∈ aF := by
    obtain ⟨o1, o2, h1, h2, h3⟩ := C35_mirror ha hr i j hi hj
    rw [haF] at h1; rw [haB] at h2; cases h1; cases h2; exact h3
  have mirB : ∀ y, (y, i) ∈ bB ↔ ∃ x, g x = y ∧ (x, j) ∈ bF := by
    obtain ⟨o1, o2, h1, h2, h3⟩ := C35_mirror hb hr i j hi hj
    rw [hbF] at h1; rw [hbB] at h2; cases h1; cases h2; exact h3
  -- backward results end on the same token as well
  have back : ∀ {γ γ' : Type} {m : XMatch W γ} {m' : XMatch W γ'} {f : γ → γ'} (_ : Mirrored m m' f)
      (_ : MatchesOneToken m l) (oB : List (γ' × Nat)), m'.go (.bwd j) l = .ok oB → ∀ x ∈ oB, x.2 = j := by
    intro γ γ' m m' f hm h1 oB hB x hx
    have hxl : x.2 < l.ll_tokens.length :=
      (built_results hm.built.2 hr.rep False (nomatch ·) (.bwd j) oB hB x hx).1
    obtain ⟨oF, oB', hF, hB', hmir⟩ := C35_mirror hm hr x.2 j hxl hj
    rw [hB] at hB'; cases hB'
    obtain ⟨y, _, hy⟩ := (hmir x.1).1 hx
    exact (h1 x.2 hxl oF hF (y, j) hy).symm
  have eF : (X.anyOf2 a b).go (.fwd i) l =
      .ok (if !aF.isEmpty then aF.map (fun p => (AnyOf2.A p.1, p.2)) else bF.map (fun p => (AnyOf2.B p.1, p.2))) := by
    simp only [X.anyOf2, haF, hbF]; split <;> rfl
  have eB : (X.anyOf2 a' b').go (.bwd j) l =
      .ok (if !aB.isEmpty then aB.map (fun p => (AnyOf2.A p.1, p.2)) else bB.map (fun p => (AnyOf2.B p.1, p.2))) := by
    simp only [X.anyOf2, haB, hbB]; split <;> rfl
  refine ⟨_, _, eF, eB, fun y => ?_⟩
  by_cases hij : i = j
  · subst hij
    have hemp : aF.isEmpty = aB.isEmpty := by
      rw [Bool.eq_iff_iff, List.isEmpty_iff, List.isEmpty_iff]
      constructor
      · intro he
        cases hB : aB with
        | nil => rfl
        | cons z zs =>
          have hz : z ∈ aB := by simp [hB]
          have h2 := back ha ha1 aB haB z hz
          obtain ⟨x, _, hx⟩ := (mirA z.1).1 (by rw [← h2]; exact hz)
          rw [he] at hx; cases hx
      · intro he
        cases hF : aF with
        | nil => rfl
        | cons z zs =>
          have hz : z ∈ aF := by simp [hF]
          have h2 := ha1 i hi aF haF z hz
          have := (mirA (f z.1)).2 ⟨z.1, rfl, by rw [← h2]; exact hz⟩
          rw [he] at this; cases this
    rw [hemp]
    cases hB : aB.isEmpty with
    | true =>
      simp only [Bool.not_true, Bool.false_eq_true, if_false, List.mem_map, Prod.mk.injEq]
      constructor
      · rintro ⟨⟨y', _⟩, hy, rfl, rfl⟩
        obtain ⟨x, rfl, hx⟩ := (mirB y').1 hy
        exact ⟨.B x, rfl, ⟨(x, _), hx, rfl, rfl⟩⟩
      · rintro ⟨x, rfl, ⟨x', _⟩, hx, rfl, rfl⟩
        exact ⟨(g x', _), (mirB _).2 ⟨x', rfl, hx⟩, rfl, rfl⟩
    | false =>
      simp only [Bool.not_false, if_true, List.mem_map, Prod.mk.injEq]
      constructor
      · rintro ⟨⟨y', _⟩, hy, rfl, rfl⟩
        obtain ⟨x, rfl, hx⟩ := (mirA y').1 hy
        exact ⟨.A x, rfl, ⟨(x, _), hx, rfl, rfl⟩⟩
      · rintro ⟨x, rfl, ⟨x', _⟩, hx, rfl, rfl⟩
        exact ⟨(f x', _), (mirA _).2 ⟨x', rfl, hx⟩, rfl, rfl⟩
  · constructor
    · intro hm
      exfalso
      split at hm
      · obtain ⟨z, hz, he⟩ := List.mem_map.1 hm
        have := back ha ha1 aB haB z hz
        cases he; exact hij this
      · obtain ⟨z, hz, he⟩ := List.mem_map.1 hm
        have := back hb hb1 bB hbB z hz
        cases he; exact hij this
    · rintro ⟨x, _, hm⟩
      exfalso
      split at hm
      · obtain ⟨z, hz, he⟩ := List.mem_map.1 hm
        have := ha1 i hi aF haF z hz
        cases he; exact hij this.symm
      · obtain ⟨z, hz, he⟩ := List.mem_map.1 hm
        have := hb1 i hi bF hbF z hz
        cases he; exact hij this.symm

example := C99_one_token_partial (W := Demo.W) (.attrEq .textTag .SPACE) .tokenText Demo.padReach
  (by
    intro i hi out ho x hx
    have h := (C97_one_token_partial Demo.padReach Demo.padPlain hi).1
    rw [show (X.attrEq (W := Demo.W) .textTag .SPACE).go (.fwd i) Demo.padLine = _ from h] at ho
    cases ho
    split at hx
    · simp at hx; rw [hx]
    · cases hx)
  (by
    intro i hi out ho x hx
    rcases (show i = 0 ∨ i = 1 ∨ i = 2 by have : Demo.padLine.ll_tokens.length = 3 := rfl; omega) with rfl | rfl | rfl <;>
      (cases ho; rw [List.mem_singleton.1 hx]))
  0 0 (by decide) (by decide)

/-- C99 for two mirrored alternatives, exactly: the choice matches tokens i to j alike in both directions unless
the second alternative matches there and the first matches something from i in one direction only, or something
from j in one direction only. -/
theorem C99_choice {α α' β β' : Type} {a : XMatch W α} {a' : XMatch W α'} {f : α → α'}
    {b : XMatch W β} {b' : XMatch W β'} {g : β → β'} (ha : Mirrored a a' f) (hb : Mirrored b b' g)
    {l : LLLine W} {h : History W} (hr : Reachable l h) (i j : Nat) (hi : i < l.ll_tokens.length)
    (hj : j < l.ll_tokens.length) (aF : List (α × Nat)) (aB : List (α' × Nat)) (bF : List (β × Nat))
    (haF : a.go (.fwd i) l = .ok aF) (haB : a'.go (.bwd j) l = .ok aB) (hbF : b.go (.fwd i) l = .ok bF) :
    ∃ outF outB, (X.anyOf2 a b).go (.fwd i) l = .ok outF ∧ (X.anyOf2 a' b').go (.bwd j) l = .ok outB ∧
      ((∀ y, (y, i) ∈ outB ↔ ∃ x, x.map f g = y ∧ (x, j) ∈ outF) ↔
        ((∃ x, (x, j) ∈ bF) → (aF = [] ↔ aB = []))) := by
  obtain ⟨_, bB, _, hbB, _⟩ := C35_mirror hb hr i j hi hj
  have mirA : ∀ y, (y, i) ∈ aB ↔ ∃ x, f x = y ∧ (x, j) ∈ aF := by
    obtain ⟨o1, o2, h1, h2, h3⟩ := C35_mirror ha hr i j hi hj
    rw [haF] at h1; rw [haB] at h2; cases h1; cases h2; exact h3
  have mirB : ∀ y, (y, i) ∈ bB ↔ ∃ x, g x = y ∧ (x, j) ∈ bF := by
    obtain ⟨o1, o2, h1, h2, h3⟩ := C35_mirror hb hr i j hi hj
    rw [hbF] at h1; rw [hbB] at h2; cases h1; cases h2; exact h3
  have eF : (X.anyOf2 a b).go (.fwd i) l =
      .ok (if !aF.isEmpty then aF.map (fun p => (AnyOf2.A p.1, p.2)) else bF.map (fun p => (AnyOf2.B p.1, p.2))) := by
    simp only [X.anyOf2, haF, hbF]; split <;> rfl
  have eB : (X.anyOf2 a' b').go (.bwd j) l =
      .ok (if !aB.isEmpty then aB.map (fun p => (AnyOf2.A p.1, p.2)) else bB.map (fun p => (AnyOf2.B p.1, p.2))) := by
    simp only [X.anyOf2, haB, hbB]; split <;> rfl
  refine ⟨_, _, eF, eB, ?_⟩
  -- what is matched, by alternative
  have fA : ∀ x, (AnyOf2.A x, j) ∈ (if !aF.isEmpty then aF.map (fun p => ((AnyOf2.A p.1 : AnyOf2 α β), p.2))
      else bF.map (fun p => (AnyOf2.B p.1, p.2))) ↔ (x, j) ∈ aF := by
    intro x
    cases aF with
    | nil => simp
    | cons z zs => obtain ⟨z1, z2⟩ := z; simp
  have fB : ∀ x, (AnyOf2.B x, j) ∈ (if !aF.isEmpty then aF.map (fun p => ((AnyOf2.A p.1 : AnyOf2 α β), p.2))
      else bF.map (fun p => (AnyOf2.B p.1, p.2))) ↔ aF = [] ∧ (x, j) ∈ bF := by
    intro x
    cases aF with
    | nil => simp
    | cons z zs => obtain ⟨z1, z2⟩ := z; simp
  have bA : ∀ x, (AnyOf2.A x, i) ∈ (if !aB.isEmpty then aB.map (fun p => ((AnyOf2.A p.1 : AnyOf2 α' β'), p.2))
      else bB.map (fun p => (AnyOf2.B p.1, p.2))) ↔ (x, i) ∈ aB := by
    intro x
    cases aB with
    | nil => simp
    | cons z zs => obtain ⟨z1, z2⟩ := z; simp
  have bB' : ∀ x, (AnyOf2.B x, i) ∈ (if !aB.isEmpty then aB.map (fun p => ((AnyOf2.A p.1 : AnyOf2 α' β'), p.2))
      else bB.map (fun p => (AnyOf2.B p.1, p.2))) ↔ aB = [] ∧ (x, i) ∈ bB := by
    intro x
    cases aB with
    | nil => simp
    | cons z zs => obtain ⟨z1, z2⟩ := z; simp
  constructor
  · rintro hall ⟨x, hx⟩
    have hgx := (mirB (g x)).2 ⟨x, rfl, hx⟩
    constructor
    · intro e
      exact ((bB' (g x)).1 ((hall (.B (g x))).2 ⟨.B x, rfl, (fB x).2 ⟨e, hx⟩⟩)).1
    · intro e
      obtain ⟨y, he, hy⟩ := (hall (.B (g x))).1 ((bB' (g x)).2 ⟨e, hgx⟩)
      cases y with
      | A y => cases he
      | B y => exact ((fB y).1 hy).1
  · intro hc y
    cases y with
    | A y =>
      rw [bA, mirA]
      constructor
      · rintro ⟨x, rfl, hx⟩
        exact ⟨.A x, rfl, (fA x).2 hx⟩
      · rintro ⟨x, he, hx⟩
        cases x with
        | A x => cases he; exact ⟨x, rfl, (fA x).1 hx⟩
        | B x => cases he
    | B y =>
      rw [bB', mirB]
      constructor
      · rintro ⟨e, x, rfl, hx⟩
        exact ⟨.B x, rfl, (fB x).2 ⟨(hc ⟨x, hx⟩).2 e, hx⟩⟩
      · rintro ⟨x, he, hx⟩
        cases x with
        | A x => cases he
        | B x =>
          cases he
          have := (fB x).1 hx
          exact ⟨(hc ⟨x, this.2⟩).1 this.1, x, rfl, this.2⟩

/-- the case of `C99_any_of_false` -/
example := C99_choice (W := Demo.W) (.attr (Ty.user (2 : Nat))) (.attr .textTag) Demo.exReach2 2 2 (by decide) (by decide)
  _ _ _ rfl rfl rfl

end LNlp
