import Verif.Lemmas.Again
import Verif.Lemmas.Currency
import Verif.Demo.Again
import Verif.Props.Compose
import Verif.Props.Resolve
/- C112: tokens are tokenised to themselves; phrases of several tokens never match. -/
namespace LNlp
variable {W : World}

/-- C112: the text of every text token, tokenised on its own, is this one token again, with the tag that
goes with the text. -/
theorem C112_again (L : SplitLaws W) (S : SplitStable W) {l : LLLine W} {h : History W} (hr : Reachable l h) :
    ∀ tok ∈ l.ll_tokens, ∀ s tag, tok.token = .Text s tag → textPieces W s = [(s, tagOfText W s)] := by
  intro tok ht s tag he
  obtain ⟨h1, h2, h3⟩ := token_single L S hr tok ht s tag he
  rw [textPieces_single h2 h1 h3]
  rfl

example := C112_again Demo.splitLaws Demo.splitStable Demo.exReach

/-- C112: so a line made of the text of a token is a line of exactly this token, from 0 to its size. -/
theorem C112_line (L : SplitLaws W) (S : SplitStable W) {l : LLLine W} {h : History W} (hr : Reachable l h)
    (size : Str → Nat) : ∀ tok ∈ l.ll_tokens, ∀ s tag, tok.token = .Text s tag → size s < W.usizeBound →
    ∃ l', createLineFromInputTokens W [.Text s []] size = .ok l' ∧
      l'.ll_tokens = [⟨0, 0, size s, .Text s (tagOfText W s)⟩] := by
  intro tok ht s tag he hb
  obtain ⟨h1, h2, h3⟩ := token_single L S hr tok ht s tag he
  have hp := C112_again L S hr tok ht s tag he
  obtain ⟨l', ok⟩ := create_ok (W := W) (size := size) (input := [.Text s []]) (string_wf s)
    (by
      intro t ht
      simp only [List.mem_singleton] at ht
      subst ht
      refine ⟨?_, by rw [hp]; simp⟩
      intro w hw
      rw [h2, List.mem_singleton] at hw
      subst hw
      refine ⟨h1, ?_⟩
      rintro ⟨c, hc, hd⟩
      rcases h3 with h3 | h3
      · intro d hd'
        have h5 := (isAsciiDigit_iff d).2 (h3 d hd')
        simp [isAsciiDigit] at h5
        omega
      · exact absurd hd (h3 c hc))
    (.inr (by simp [tokensOf, hp, totalSize, hb]))
  refine ⟨l', ok, ?_⟩
  rw [(create_inv (string_wf s) ok).2.1]
  simp [tokensOf, hp, layoutM, Nat.mod_eq_of_lt hb]

example := C112_line Demo.splitLaws Demo.splitStable Demo.exReach List.length

/-- C112: two tables that agree on all texts of one token assign the same on every selection: an entry
for a phrase of several tokens (or for the empty text) is never used.  Case-insensitive tables look up lowercase texts,
for them the line is without zero-width joiners. -/
theorem C112_phrases (L : SplitLaws W) (S : SplitStable W) (M : LowerStable W) {k : Ty W}
    (r1 r2 : TextMatchAssignResolver W k) (hc : r1.case_sensitive = r2.case_sensitive)
    (ha : ∀ t, SingleToken W t → r1.lookup t = r2.lookup t) (s : LLSelection W) (hs : s.Inside)
    (hz : r1.case_sensitive = true ∨ NoJoiner s.ll_line.val)
    {h : History W} (hr : Reachable s.ll_line.val h) : r1.go s = r2.go s := by
  rw [C58_table r1 s hs, C58_table r2 s hs]
  congr 2
  funext i
  congr 1
  unfold tableValues
  cases ht : textAt s.ll_line.val i with
  | none => rfl
  | some t =>
    obtain ⟨h1, h2, h3⟩ := textAt_single L S hr ht
    simp only [hc]
    congr 1
    apply ha
    split
    · exact ⟨_, textPieces_single h2 h1 h3⟩
    · rename_i hcs
      rcases hz with hz | hz
      · exact absurd (hc.symm.trans hz) hcs
      · exact lower_singleToken L M (hz i t ht) h2 h3

/-- C112: a table made case insensitively does not depend on entries for phrases either. -/
theorem C112_phrases_case_insensitive (L : SplitLaws W) (S : SplitStable W) (M : LowerStable W) (k : Ty W)
    (es1 es2 : List (Str × List (Val k))) (p : Str × List (Val k)) (hp : ¬ SingleToken W (W.toLowercase p.1))
    (s : LLSelection W) (hs : s.Inside) (hz : NoJoiner s.ll_line.val) {h : History W} (hr : Reachable s.ll_line.val h) :
    (TextMatchAssignResolver.newCaseInsensitive k (es1 ++ p :: es2)).go s =
      (TextMatchAssignResolver.newCaseInsensitive k (es1 ++ es2)).go s := by
  refine C112_phrases L S M (TextMatchAssignResolver.newCaseInsensitive k (es1 ++ p :: es2))
    (TextMatchAssignResolver.newCaseInsensitive k (es1 ++ es2)) rfl ?_ s hs (.inr hz) hr
  intro t ht
  rw [(C59_partial k (es1 ++ p :: es2)).1 t, (C59_partial k (es1 ++ es2)).1 t]
  congr 2
  simp only [List.filter_append, List.filter_cons]
  rw [if_neg]
  intro e
  simp only [decide_eq_true_eq] at e
  rw [e] at hp
  exact hp ht

/-- C112: keywords of several tokens are never found. -/
theorem C112_keywords (L : SplitLaws W) (S : SplitStable W) (M : LowerStable W)
    (r1 r2 : ClauseKeywordResolver)
    (h1 : ∀ t, SingleToken W t → (t ∈ r1.cond_start ↔ t ∈ r2.cond_start))
    (h2 : ∀ t, SingleToken W t → (t ∈ r1.and ↔ t ∈ r2.and))
    (h3 : ∀ t, SingleToken W t → (t ∈ r1.then_ ↔ t ∈ r2.then_)) (s : LLSelection W) (hs : s.Inside)
    (hz : NoJoiner s.ll_line.val) {h : History W} (hr : Reachable s.ll_line.val h) : r1.go s = r2.go s := by
  rw [keywordGo_eq r1 hs, keywordGo_eq r2 hs]
  congr 2
  funext i
  cases ht : textAt s.ll_line.val i with
  | none => rfl
  | some t =>
    obtain ⟨_, g2, g3⟩ := textAt_single L S hr ht
    have ho := lower_singleToken L M (hz i t ht) g2 g3
    simp only [Option.bind_some]
    congr 2
    unfold ClauseKeywordResolver.classify
    simp only [List.contains_iff_mem, h1 _ ho, h2 _ ho, h3 _ ho]

/-- "in case" is not one token -/
theorem Demo.phrase : ¬ SingleToken Demo.W (Demo.W.toLowercase ['I', 'n', ' ', 'c', 'a', 's', 'e']) := by
  rintro ⟨tag, h⟩
  have h' := congrArg List.length h
  revert h'
  exact (show (textPieces Demo.W (Demo.W.toLowercase ['I', 'n', ' ', 'c', 'a', 's', 'e'])).length ≠ 1 from by decide)

theorem Demo.clauseLine0_noJoiner : NoJoiner Demo.clauseLine0 := by
  intro i t ht
  have key : ∀ j < Demo.clauseLine0.ll_tokens.length, ∀ t ∈ textAt Demo.clauseLine0 j, '\u200d' ∉ t := by decide
  by_cases hi : i < Demo.clauseLine0.ll_tokens.length
  · exact key i hi t ht
  · simp only [textAt, List.getElem?_eq_none (Nat.le_of_not_lt hi)] at ht
    cases ht

example := C112_phrases Demo.splitLaws Demo.splitStable Demo.lowerStable
  (k := Ty.user (5 : Nat))
  { case_sensitive := Demo.table.case_sensitive
    lookup := fun t => if t = ['i', 'n', ' ', 'c', 'a', 's', 'e'] then some [(['z'] : Str)] else Demo.table.lookup t }
  Demo.table rfl (by
    intro t ht
    simp only
    rw [if_neg]
    rintro rfl
    exact absurd ht Demo.phrase)
  (wholeLine Demo.clauseLine0 0) (wholeLine_inside Demo.clauseLine0_ne 0) (.inr Demo.clauseLine0_noJoiner) Demo.clauseHonest0.spec.1

example := C112_phrases_case_insensitive Demo.splitLaws Demo.splitStable Demo.lowerStable (Ty.user (5 : Nat))
  [(['i', 'f'], [(['x'] : Str)])] [] (['I', 'n', ' ', 'c', 'a', 's', 'e'], [(['y'] : Str)]) Demo.phrase
  (wholeLine Demo.clauseLine0 0) (wholeLine_inside Demo.clauseLine0_ne 0) Demo.clauseLine0_noJoiner Demo.clauseHonest0.spec.1

example := C112_keywords Demo.splitLaws Demo.splitStable Demo.lowerStable
  { cond_start := [['i', 'f'], ['i', 'n', ' ', 'c', 'a', 's', 'e']], and := [], then_ := [] }
  { cond_start := [['i', 'f']], and := [], then_ := [] } (by
    intro t ht
    simp only [List.mem_cons, List.not_mem_nil, or_false, or_iff_left_iff_imp]
    rintro rfl
    exact absurd ht Demo.phrase) (by simp) (by simp)
  (wholeLine Demo.clauseLine0 0) (wholeLine_inside Demo.clauseLine0_ne 0) Demo.clauseLine0_noJoiner Demo.clauseHonest0.spec.1

end LNlp
