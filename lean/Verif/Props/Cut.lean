import Verif.Lemmas.Cut
import Verif.Demo.Again
import Verif.Demo.Examples
/- C113: a text may be given as several inputs, cut between words. -/
namespace LNlp
variable {W : World}

/-- C113: among any other inputs, a text and the parts of this text, cut between words, give the same line:
the same tokens, positions and attributes. -/
theorem C113_parts (L : SplitLaws W) (S : SplitStable W) (size : Str → Nat) (xs ys : List (InputToken W)) (text : Str)
    (parts : List (List Str)) (hp : parts.flatten = W.splitWordBounds text) (hne : ∀ g ∈ parts, g ≠ [])
    (ht : text ≠ []) (l : LLLine W) :
    createLineFromInputTokens W (xs ++ parts.map (fun g => .Text g.flatten []) ++ ys) size = .ok l ↔
      createLineFromInputTokens W (xs ++ [.Text text []] ++ ys) size = .ok l := by
  have hsplit : ∀ g ∈ parts, W.splitWordBounds g.flatten = g := by
    intro g hg
    obtain ⟨a, b, e⟩ := List.append_of_mem hg
    rw [e] at hp
    have h1 := (S.cut text (a.flatten ++ g) b.flatten (by rw [← hp]; simp)).1
    exact (S.cut _ _ _ h1).2
  have hpieces : textPieces W text = parts.flatMap (fun g => textPieces W g.flatten) := by
    unfold textPieces
    rw [← hp]
    clear hp hne
    induction parts with
    | nil => rfl
    | cons g gs ih =>
      rw [List.flatten_cons, List.flatMap_append, List.flatMap_cons, hsplit g (by simp),
        ih (fun x hx => hsplit x (by simp [hx]))]
  have hne' : parts ≠ [] := by
    rintro rfl
    have h := L.concat text
    rw [← hp] at h
    exact ht h.symm
  have good : GoodInput W (.Text text []) ↔ ∀ t ∈ parts.map (fun g => InputToken.Text (W := W) g.flatten []), GoodInput W t := by
    constructor
    · rintro ⟨h1, _⟩ t htm
      obtain ⟨g, hg, rfl⟩ := List.mem_map.1 htm
      have hgood : GoodText W g.flatten := by
        intro w hw
        rw [hsplit g hg] at hw
        refine h1 w ?_
        rw [← hp]
        exact List.mem_flatten.2 ⟨g, hg, hw⟩
      refine ⟨hgood, (textPieces_ne_iff W hgood).2 ?_⟩
      rw [hsplit g hg]
      exact hne g hg
    · intro h
      have hgood : GoodText W text := by
        intro w hw
        rw [← hp] at hw
        obtain ⟨g, hg, hw⟩ := List.mem_flatten.1 hw
        have := h (.Text g.flatten []) (List.mem_map_of_mem (f := fun g => InputToken.Text (W := W) g.flatten []) hg)
        replace this : GoodText W g.flatten := this.1
        exact this w (by rw [hsplit g hg]; exact hw)
      refine ⟨hgood, (textPieces_ne_iff W hgood).2 ?_⟩
      rw [← hp]
      intro he
      cases parts with
      | nil => exact hne' rfl
      | cons g gs =>
        simp only [List.flatten_cons, List.append_eq_nil_iff] at he
        exact hne g (by simp) he.1
  have toks : (parts.map (fun g => InputToken.Text (W := W) g.flatten [])).flatMap (tokensOf W size) =
      tokensOf W size (.Text text []) := by
    simp only [tokensOf, hpieces, List.map_flatMap, List.flatMap_map]
  refine create_same ?_ ?_ ?_ l
  · simp only [List.mem_append, List.mem_singleton, or_imp, forall_and, forall_eq]
    constructor
    · rintro ⟨⟨h1, h2⟩, h3⟩; exact ⟨⟨h1, good.2 h2⟩, h3⟩
    · rintro ⟨⟨h1, h2⟩, h3⟩; exact ⟨⟨h1, good.1 h2⟩, h3⟩
  · simp only [List.flatMap_append, toks, List.flatMap_cons, List.flatMap_nil, List.append_nil]
  · simp only [spansFrom_append, List.filter_append, List.flatMap_append, toks, List.flatMap_cons, List.flatMap_nil,
      List.append_nil]
    rw [spansFrom_bare size (parts.map _) _ (by
        intro t ht
        obtain ⟨g, _, rfl⟩ := List.mem_map.1 ht
        rfl),
      spansFrom_bare size [.Text text []] _ (by simp [InputToken.attrList])]

example := C113_parts Demo.splitLaws Demo.splitStable List.length Demo.exInput Demo.exInput ['P', 'a', 'y', ' ', '1', 'a']
  [[['P', 'a', 'y'], [' ']], [['1', 'a']]] (by decide) (by simp) (by simp)

/-- C113: so a text may be cut in two between words. -/
theorem C113_cut (L : SplitLaws W) (S : SplitStable W) (size : Str → Nat) (xs ys : List (InputToken W)) (text : Str)
    (a b : List Str) (hs : W.splitWordBounds text = a ++ b) (ha : a ≠ []) (hb : b ≠ []) (l : LLLine W) :
    createLineFromInputTokens W (xs ++ [.Text a.flatten [], .Text b.flatten []] ++ ys) size = .ok l ↔
      createLineFromInputTokens W (xs ++ [.Text text []] ++ ys) size = .ok l := by
  refine C113_parts L S size xs ys text [a, b] (by rw [hs]; simp) (by simp [ha, hb]) ?_ l
  rintro rfl
  rw [(split_nil_iff L []).2 rfl] at hs
  exact ha (List.append_eq_nil_iff.1 hs.symm).1

/-- C113: a text and its words, every word an input of its own, give the same line. -/
theorem C113_words (L : SplitLaws W) (S : SplitStable W) (size : Str → Nat) (text : Str) (ht : text ≠ []) (l : LLLine W) :
    createLineFromInputTokens W ((W.splitWordBounds text).map (fun w => .Text w [])) size = .ok l ↔
      createLineFromInputTokens W [.Text text []] size = .ok l := by
  have := C113_parts L S size [] [] text ((W.splitWordBounds text).map (fun w => [w]))
    (by
      generalize W.splitWordBounds text = ws
      induction ws with
      | nil => rfl
      | cons w ws ih => simpa using ih) (by simp) ht l
  simpa [List.map_map, Function.comp_def] using this

example := C113_words Demo.splitLaws Demo.splitStable List.length ['P', 'a', 'y', ' ', '1', 'a'] (by simp)

/-- C113: the cut has to be between words: "1a" is a number and a word, as are "1" and "a"; but the one word
"ab" is not "a" and "b". -/
theorem C113_inside_words : ∃ l l', createLineFromInputTokens Demo.W [.Text ['a', 'b'] []] List.length = .ok l ∧
    createLineFromInputTokens Demo.W [.Text ['a'] [], .Text ['b'] []] List.length = .ok l' ∧
    l.ll_tokens.length = 1 ∧ l'.ll_tokens.length = 2 := ⟨_, _, rfl, rfl, rfl, rfl⟩

example := C113_cut Demo.splitLaws Demo.splitStable List.length Demo.exInput [] ['P', 'a', 'y', ' ', '1', 'a']
  [['P', 'a', 'y']] [[' '], ['1', 'a']] (by decide) (by simp) (by simp)

end LNlp
