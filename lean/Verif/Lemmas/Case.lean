import Verif.Spec.Case
import Verif.Lemmas.TokenProps
import Verif.Lemmas.Sentences
/- Texts and lines that differ in letter case only. -/
namespace LNlp
variable {W : World} {f : Char → Char}

section
variable (F : Recase W f) (A : AsciiLaws W)
include F

theorem Recase.alpha (c : Char) : W.isAlphabetic (f c) = W.isAlphabetic c := by
  cases h : W.isAlphabetic c with
  | true => exact F.letters c h
  | false => rw [F.others c h, h]

include A

theorem Recase.space (c : Char) : W.isWhitespace (f c) = W.isWhitespace c := by
  cases h : W.isAlphabetic c with
  | true => rw [A.alpha_not_space _ h, A.alpha_not_space _ (F.letters c h)]
  | false => rw [F.others c h]

theorem Recase.digit (c : Char) : IsDigit (f c) ↔ IsDigit c := by
  cases h : W.isAlphabetic c with
  | true =>
    constructor
    · intro hd; have := A.digit_not_alpha _ hd; rw [F.letters c h] at this; cases this
    · intro hd; have := A.digit_not_alpha _ hd; rw [h] at this; cases this
  | false => rw [F.others c h]

theorem Recase.punct (c : Char) : DocPunct (f c) ↔ DocPunct c := by
  cases h : W.isAlphabetic c with
  | true =>
    constructor
    · intro hd; have := A.punct_not_alpha _ hd; rw [F.letters c h] at this; cases this
    · intro hd; have := A.punct_not_alpha _ hd; rw [h] at this; cases this
  | false => rw [F.others c h]

omit A in
theorem Recase.wordText (w : Str) : WordText W (w.map f) ↔ WordText W w := by
  have key : ∀ d, (W.isAlphabetic (f d) = true ∨ f d = '\'' ∨ f d = '-' ∨ f d = '–') ↔
      (W.isAlphabetic d = true ∨ d = '\'' ∨ d = '-' ∨ d = '–') := by
    intro d
    cases h : W.isAlphabetic d with
    | true => simp [F.letters d h]
    | false => rw [F.others d h, h]
  cases w with
  | nil => exact Iff.rfl
  | cons c cs =>
    constructor
    · rintro ⟨_, _, e, h1, h2⟩
      rw [List.map_cons] at e
      cases e
      exact ⟨c, cs, rfl, by rw [F.alpha] at h1; exact h1, fun d hd => (key d).1 (h2 _ (List.mem_map.2 ⟨d, hd, rfl⟩))⟩
    · rintro ⟨_, _, e, h1, h2⟩
      cases e
      refine ⟨f c, cs.map f, rfl, by rw [F.alpha]; exact h1, fun d hd => ?_⟩
      obtain ⟨x, hx, rfl⟩ := List.mem_map.1 hd
      exact (key x).2 (h2 x hx)

theorem Recase.wordTag (w : Str) : LNlp.wordTag W (w.map f) = LNlp.wordTag W w := by
  unfold LNlp.wordTag
  have e1 : (∀ c ∈ w.map f, W.isWhitespace c = true) ↔ ∀ c ∈ w, W.isWhitespace c = true := by
    constructor
    · intro h c hc; rw [← F.space A]; exact h _ (List.mem_map.2 ⟨c, hc, rfl⟩)
    · intro h c hc; obtain ⟨x, hx, rfl⟩ := List.mem_map.1 hc; rw [F.space A]; exact h x hx
  have e2 : (∃ c ∈ w.map f, w.map f = [c] ∧ DocPunct c) ↔ ∃ c ∈ w, w = [c] ∧ DocPunct c := by
    constructor
    · rintro ⟨c, _, he, hp⟩
      cases w with
      | nil => cases he
      | cons x xs =>
        cases xs with
        | cons => cases he
        | nil => cases he; exact ⟨x, List.mem_singleton.2 rfl, rfl, (F.punct A x).1 hp⟩
    · rintro ⟨c, _, rfl, hp⟩
      exact ⟨f c, List.mem_singleton.2 rfl, rfl, (F.punct A c).2 hp⟩
  simp only [e1, e2, F.wordText]

theorem Recase.charTag (c : Char) : LNlp.charTag W (f c) = LNlp.charTag W c := by
  unfold LNlp.charTag
  simp only [F.digit A, F.alpha]

theorem Recase.runs : ∀ w : Str, runsOf W (w.map f) = (runsOf W w).map (fun p => (p.1.map f, p.2))
  | [] => rfl
  | c :: cs => by
    rw [List.map_cons]
    simp only [runsOf]
    rw [Recase.runs cs, F.charTag A]
    cases hr : runsOf W cs with
    | nil => rfl
    | cons p rest =>
      obtain ⟨s, t⟩ := p
      simp only [List.map_cons]
      split <;> rfl

theorem Recase.pieces (w : Str) : wordPieces W (w.map f) = (wordPieces W w).map (fun p => (p.1.map f, p.2)) := by
  unfold wordPieces
  have e : (∃ c ∈ (w.map f).head?, IsDigit c) ↔ ∃ c ∈ w.head?, IsDigit c := by
    cases w with
    | nil => exact Iff.rfl
    | cons c cs => simp [F.digit A]
  simp only [e, F.wordTag A, F.runs A]
  split <;> rfl

theorem Recase.textPieces (s : Str) : LNlp.textPieces W (s.map f) = (LNlp.textPieces W s).map (fun p => (p.1.map f, p.2)) := by
  unfold LNlp.textPieces
  rw [F.split, List.flatMap_map, List.map_flatMap]
  congr 1
  funext w
  exact F.pieces A w

omit A in
theorem Recase.size (s : Str) : utf8Len (s.map f) = utf8Len s := by
  unfold utf8Len
  rw [List.map_map]
  congr 1
  exact List.map_congr_left (fun c _ => F.bytes c)

theorem Recase.tokensOf (s : Str) :
    LNlp.tokensOf W utf8Len (.Text (s.map f) []) = (LNlp.tokensOf W utf8Len (.Text s [])).map (fun p => (p.1.recase f, p.2)) := by
  simp only [LNlp.tokensOf, F.textPieces A, List.map_map]
  apply List.map_congr_left
  intro p _
  simp only [Function.comp_apply, LToken.recase, F.size]

omit A in
theorem Recase.ascii (c : Char) : 128 ≤ (f c).toNat ↔ 128 ≤ c.toNat := by
  have key : ∀ c : Char, 128 ≤ c.toNat ↔ 1 < c.utf8Size := by
    intro c
    have hc := c.utf8Size_pos
    rw [← Char.toNat_val] 
    unfold Char.utf8Size
    simp only [UInt32.le_iff_toNat_le]
    split <;> rename_i h1
    · have : c.val.toNat ≤ 127 := h1
      omega
    · have : ¬ c.val.toNat ≤ 127 := h1
      split
      · omega
      · split <;> omega
  rw [key, key, F.bytes]

theorem Recase.bad (s : Str) : BadInput W (.Text (s.map f) []) ↔ BadInput W (.Text s []) := by
  have e : (∃ w ∈ W.splitWordBounds (s.map f), (∃ c ∈ w.head?, IsDigit c) ∧ ∃ c ∈ w, 128 ≤ c.toNat) ↔
      ∃ w ∈ W.splitWordBounds s, (∃ c ∈ w.head?, IsDigit c) ∧ ∃ c ∈ w, 128 ≤ c.toNat := by
    rw [F.split]
    constructor
    · rintro ⟨_, hw, ⟨c, hc, hd⟩, x, hx, hn⟩
      obtain ⟨w, hw', rfl⟩ := List.mem_map.1 hw
      obtain ⟨y, hy, rfl⟩ := List.mem_map.1 hx
      rw [List.head?_map] at hc
      obtain ⟨z, hz, rfl⟩ := Option.map_eq_some_iff.1 hc
      exact ⟨w, hw', ⟨z, hz, (F.digit A z).1 hd⟩, y, hy, (F.ascii y).1 hn⟩
    · rintro ⟨w, hw, ⟨z, hz, hd⟩, y, hy, hn⟩
      refine ⟨w.map f, List.mem_map.2 ⟨w, hw, rfl⟩, ⟨f z, ?_, (F.digit A z).2 hd⟩, f y, List.mem_map.2 ⟨y, hy, rfl⟩, (F.ascii y).2 hn⟩
      rw [List.head?_map]
      exact Option.map_eq_some_iff.2 ⟨z, hz, rfl⟩
  constructor
  · rintro ⟨_, _, he, hb⟩
    cases he
    refine ⟨s, [], rfl, ?_⟩
    rw [e] at hb
    exact hb.imp (fun h => by simpa using h) id
  · rintro ⟨_, _, he, hb⟩
    cases he
    refine ⟨s.map f, [], rfl, ?_⟩
    rw [e]
    exact hb.imp (fun h => by simpa using h) id

end

theorem layoutM_recase (B : Nat) : ∀ (toks : List (LToken × Nat)) (i p : Nat),
    layoutM B i p (toks.map (fun q => (q.1.recase f, q.2))) =
      (layoutM B i p toks).map (fun t => { t with token := t.token.recase f })
  | [], _, _ => rfl
  | (t, n) :: rest, i, p => by
    simp only [List.map_cons, layoutM]
    rw [layoutM_recase B rest]

/-- a line whose tokens are those of another one with the case changed -/
theorem recase_same (F : Recase W f) {l l' : LLLine W}
    (h : l'.ll_tokens = l.ll_tokens.map (fun t => { t with token := t.token.recase f })) : SameButCase l l' where
  length := by rw [h, List.length_map]
  tag := by
    intro i
    unfold tagAt
    rw [h, List.getElem?_map]
    cases l.ll_tokens[i]? with
    | none => rfl
    | some t => cases ht : t.token <;> simp [LToken.recase, ht]
  text := by
    intro i
    unfold textAt
    rw [h, List.getElem?_map]
    cases l.ll_tokens[i]? with
    | none => rfl
    | some t => cases ht : t.token <;> simp [LToken.recase, ht, F.lower]

section
variable {l l' : LLLine W} (S : SameButCase l l') {r : ClauseKeywordResolver}
include S

theorem SameButCase.symm : SameButCase l' l := ⟨S.length.symm, fun i => (S.tag i).symm, fun i => (S.text i).symm⟩

theorem SameButCase.ne (ne : l.ll_tokens ≠ []) : l'.ll_tokens ≠ [] := by
  have := List.length_pos_iff.2 ne
  rw [S.length] at this
  exact List.length_pos_iff.1 this

theorem SameButCase.keyword (i : Nat) (kw : ClauseKeyword) : KeywordAt r l i kw ↔ KeywordAt r l' i kw := by
  have key : ∀ l : LLLine W, KeywordAt r l i kw ↔ ∃ t, (textAt l i).map W.toLowercase = some t ∧ IsKeyword r t kw := by
    intro l
    unfold KeywordAt
    constructor
    · rintro ⟨t, h1, h2⟩; exact ⟨_, by rw [h1]; rfl, h2⟩
    · rintro ⟨t, h1, h2⟩
      obtain ⟨u, hu, rfl⟩ := Option.map_eq_some_iff.1 h1
      exact ⟨u, hu, h2⟩
  rw [key, key, S.text]

theorem SameButCase.separates (i : Nat) : Separates r l i ↔ Separates r l' i := by
  unfold Separates; simp only [S.keyword, S.tag]
theorem SameButCase.isRun (a b : Nat) : IsRun r l a b ↔ IsRun r l' a b := by
  constructor
  · rintro ⟨h1, h2, h3, h4, h5⟩
    exact ⟨h1, S.length ▸ h2, fun t ha hb => by rw [← S.separates]; exact h3 t ha hb, by rw [← S.separates]; exact h4,
      by rw [← S.separates, ← S.length]; exact h5⟩
  · rintro ⟨h1, h2, h3, h4, h5⟩
    exact ⟨h1, S.length ▸ h2, fun t ha hb => by rw [S.separates]; exact h3 t ha hb, by rw [S.separates]; exact h4,
      by rw [S.separates, S.length]; exact h5⟩
theorem SameButCase.strip (a b i j : Nat) : Strip l a b i j ↔ Strip l' a b i j := by
  constructor
  · rintro ⟨h1, h2, h3⟩; rw [S.tag] at h1 h2; exact ⟨h1, h2, h3⟩
  · rintro ⟨h1, h2, h3⟩; rw [← S.tag] at h1 h2; exact ⟨h1, h2, h3⟩
theorem SameButCase.follows (a : Nat) (kw : ClauseKeyword) : Follows r l a kw ↔ Follows r l' a kw := by
  unfold Follows; rw [S.keyword]
theorem SameButCase.conditionBefore (a : Nat) : ConditionBefore r l a ↔ ConditionBefore r l' a := by
  unfold ConditionBefore; simp only [S.isRun, S.strip, S.follows]
theorem SameButCase.onlyRun (a : Nat) : OnlyRun r l a ↔ OnlyRun r l' a := by
  unfold OnlyRun; simp only [S.isRun]

theorem SameButCase.clauseAt' {i j : Nat} {k : Clause} (h : ClauseAt r l i j k) : ClauseAt r l' i j k := by
  cases h with
  | condition h1 h2 h3 => exact .condition ((S.isRun _ _).1 h1) ((S.strip _ _ _ _).1 h2) ((S.follows _ _).1 h3)
  | independent h1 h2 h3 h4 =>
    exact .independent ((S.isRun _ _).1 h1) ((S.strip _ _ _ _).1 h2) (by rw [← S.follows]; exact h3) ((S.onlyRun _).1 h4)
  | then_ h1 h2 h3 h4 =>
    exact .then_ ((S.isRun _ _).1 h1) ((S.strip _ _ _ _).1 h2) ((S.follows _ _).1 h3) (by rw [← S.onlyRun]; exact h4)
  | trailing h1 h2 h3 h4 h5 =>
    exact .trailing ((S.isRun _ _).1 h1) ((S.strip _ _ _ _).1 h2) (by rw [← S.follows]; exact h3)
      (by rw [← S.onlyRun]; exact h4) ((S.conditionBefore _).1 h5)
  | leading h1 h2 h3 h4 h5 h6 =>
    exact .leading ((S.isRun _ _).1 h1) ((S.strip _ _ _ _).1 h2) (by rw [← S.follows]; exact h3)
      (by rw [← S.follows]; exact h4) (by rw [← S.onlyRun]; exact h5) (by rw [← S.conditionBefore]; exact h6)

end

theorem SameButCase.clauseAt {l l' : LLLine W} (S : SameButCase l l') {r : ClauseKeywordResolver} (i j : Nat) (k : Clause) :
    ClauseAt r l i j k ↔ ClauseAt r l' i j k := ⟨S.clauseAt', S.symm.clauseAt'⟩

/-- two lists ordered by an irreflexive, asymmetric relation with the same members are equal -/
theorem eq_of_sorted {α : Type} {R : α → α → Prop} (asymm : ∀ x y, R x y → ¬ R y x) : ∀ {xs ys : List α},
    xs.Pairwise R → ys.Pairwise R → (∀ x, x ∈ xs ↔ x ∈ ys) → xs = ys
  | [], [], _, _, _ => rfl
  | [], y :: ys, _, _, h => by have := (h y).2 (List.mem_cons_self ..); cases this
  | x :: xs, [], _, _, h => by have := (h x).1 (List.mem_cons_self ..); cases this
  | x :: xs, y :: ys, hx, hy, h => by
    rw [List.pairwise_cons] at hx hy
    have irr : ∀ x, ¬ R x x := fun x hr => asymm x x hr hr
    have e : x = y := by
      rcases List.mem_cons.1 ((h x).1 (List.mem_cons_self ..)) with e | e
      · exact e
      · rcases List.mem_cons.1 ((h y).2 (List.mem_cons_self ..)) with e' | e'
        · exact e'.symm
        · exact absurd (hx.1 y e') (asymm _ _ (hy.1 x e))
    subst e
    congr 1
    apply eq_of_sorted asymm hx.2 hy.2
    intro z
    constructor
    · intro hz
      rcases List.mem_cons.1 ((h z).1 (List.mem_cons_of_mem _ hz)) with rfl | h'
      · exact absurd (hx.1 _ hz) (irr _)
      · exact h'
    · intro hz
      rcases List.mem_cons.1 ((h z).2 (List.mem_cons_of_mem _ hz)) with rfl | h'
      · exact absurd (hy.1 _ hz) (irr _)
      · exact h'

end LNlp
