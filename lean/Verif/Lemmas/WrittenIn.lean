import Verif.Spec.WrittenIn
import Verif.Lemmas.Written
import Verif.Lemmas.Sentences
import Verif.Props.Piecewise
import Verif.Props.Cut
import Verif.Props.Tokenize
/- Helper lemmas about texts put side by side, and their amounts. -/
namespace LNlp
variable {W : World} {cls : Char → WBChar}

theorem textPieces_flatten (L : SplitLaws W) (s : Str) : ((textPieces W s).map (·.1)).flatten = s := by
  have : ∀ ws : List Str, ((ws.flatMap (wordPieces W)).map (·.1)).flatten = ws.flatten := by
    intro ws
    induction ws with
    | nil => rfl
    | cons w ws ih =>
      rw [List.flatMap_cons, List.map_append, List.flatten_append, ih, List.flatten_cons]
      congr 1
      unfold wordPieces
      split
      · exact runsOf_concat W w
      · simp
  rw [textPieces, this, L.concat]

theorem totalSize_text (L : SplitLaws W) (s : Str) : totalSize (tokensOf W utf8Len (.Text s [])) = utf8Len s := by
  have hsum : ∀ (ps : List (Str × TextTag)),
      totalSize (ps.map (fun p => (LToken.Text p.1 p.2, utf8Len p.1))) = utf8Len ((ps.map (·.1)).flatten) := by
    intro ps
    rw [utf8Len_flatten]
    simp [totalSize, Function.comp_def]
  simp only [tokensOf]
  rw [hsum, textPieces_flatten L]

theorem text_tokens {s : Str} {l : LLLine W} (ok : createLineFromString W s = .ok l) :
    l.ll_tokens.map (·.token) = (textPieces W s).map (fun p => .Text p.1 p.2) := by
  obtain ⟨_, htoks, _⟩ := create_inv (string_wf s) ok
  rw [htoks, layoutM_tokens]; simp [tokensOf]

theorem text_length {s : Str} {l : LLLine W} (ok : createLineFromString W s = .ok l) :
    l.ll_tokens.length = (textPieces W s).length := by
  have := congrArg List.length (text_tokens ok)
  simpa using this

/-- the texts of tokens are not empty -/
theorem text_nonempty {s : Str} {l : LLLine W} (ok : createLineFromString W s = .ok l) {i : Nat} {t : Str}
    (h : textAt l i = some t) : t ≠ [] := by
  obtain ⟨tok, h1, h2⟩ : ∃ tok, l.ll_tokens[i]? = some tok ∧ ∃ g, tok.token = .Text t g := by
    unfold textAt at h
    cases he : l.ll_tokens[i]? with
    | none => rw [he] at h; cases h
    | some tok =>
      rw [he] at h
      refine ⟨tok, rfl, ?_⟩
      cases ht : tok.token with
      | Value => simp [ht] at h
      | Text t' g => simp [ht] at h; exact ⟨g, by rw [h]⟩
  obtain ⟨g, h2⟩ := h2
  rintro rfl
  exact C04_no_empty_tokens _ _ l (string_wf s) ok tok (List.mem_of_getElem? h1) g h2

theorem getLast_flatten {ts : List Str} {t : Str} (h : ts.getLast? = some t) (ht : t ≠ []) : ts.flatten.getLast? = t.getLast? := by
  obtain ⟨ts', rfl⟩ := List.getLast?_eq_some_iff.1 h
  rw [List.flatten_append, List.flatten_singleton, List.getLast?_append]
  cases hl : t.getLast? with
  | none => exact absurd (List.getLast?_eq_none_iff.1 hl) ht
  | some x => rfl

theorem head_flatten {ts : List Str} {t : Str} (h : ts.head? = some t) (ht : t ≠ []) : ts.flatten.head? = t.head? := by
  obtain ⟨x, t', rfl⟩ := List.exists_cons_of_ne_nil ht
  cases ts with
  | nil => cases h
  | cons y ts =>
    simp only [List.head?_cons, Option.some.injEq] at h
    subst h
    rfl

section
variable {s : Str} {l : LLLine W} (ok : createLineFromString W s = .ok l) {r : AmountResolver}
include ok

theorem noNumber_separator {i : Nat} {t : Str} (ht : textAt l i = some t) {c : Char} (hc : c ∈ t) (hend : ∀ d, t = [d] → d = c)
    (hn : NoNumber r c) : Separator r l (creationHistory W utf8Len [.Text s []]) i := by
  have hr : Reachable l _ := .create _ _ _ (string_wf s) ok
  have hpt := creation_plainTags (string_wf _) ok (string_noCustom _ _)
  have hpc := creation_plainChars (string_wf _) ok (string_noCustom _ _)
  have hch : charsOn (creationHistory W utf8Len [.Text s []]) i = (charAt l i).toList := hpc.1 i
  have only : ∀ d ∈ charsOn (creationHistory W utf8Len [.Text s []]) i, d = c := by
    intro d hd
    rw [hch] at hd
    simp only [charAt, ht] at hd
    cases t with
    | nil => cases hc
    | cons x t =>
      cases t with
      | nil =>
        simp at hd
        rw [hd]
        exact hend x rfl
      | cons y t => simp at hd
  refine ⟨fun t' h' => ?_, ?_, fun h' => ?_⟩
  · obtain ⟨h1, _, h3⟩ := (plain_num hr hpt).1 h'
    rw [ht] at h1
    cases h1
    exact hn.1 (h3 c hc)
  · rintro ⟨d, hd, hm⟩
    exact hn.2.1 (only d hd ▸ hm)
  · exact hn.2.2 (only _ h').symm

theorem last_separator (L : SplitLaws W) {c : Char} (hc : s.getLast? = some c) (hn : NoNumber r c) :
    Separator r l (creationHistory W utf8Len [.Text s []]) (l.ll_tokens.length - 1) := by
  have hlen := text_length ok
  have hfl := textPieces_flatten L s
  have htx := text_at ok
  generalize textPieces W s = ps at hlen hfl htx
  rcases List.eq_nil_or_concat ps with rfl | ⟨ps, p, rfl⟩
  · simp at hfl; subst hfl; cases hc
  · have h1 : textAt l (l.ll_tokens.length - 1) = some p.1 := by
      rw [htx, hlen]; simp
    have hne := text_nonempty ok h1
    have h2 : s.getLast? = p.1.getLast? := by
      rw [← hfl]; exact getLast_flatten (by simp) hne
    have h3 : p.1.getLast? = some c := h2.symm.trans hc
    refine noNumber_separator ok h1 (List.mem_of_getLast? h3) (fun d hd => ?_) hn
    rw [hd] at h3
    simpa using h3

theorem first_separator (L : SplitLaws W) {c : Char} (hc : s.head? = some c) (hn : NoNumber r c) :
    Separator r l (creationHistory W utf8Len [.Text s []]) 0 := by
  have hfl := textPieces_flatten L s
  have htx := text_at ok
  generalize textPieces W s = ps at hfl htx
  cases ps with
  | nil => simp at hfl; subst hfl; cases hc
  | cons p ps =>
    have h1 : textAt l 0 = some p.1 := by rw [htx]; simp
    have hne := text_nonempty ok h1
    have h2 : s.head? = p.1.head? := by
      rw [← hfl]; exact head_flatten (by simp) hne
    have h3 : p.1.head? = some c := h2.symm.trans hc
    refine noNumber_separator ok h1 (List.mem_of_head? h3) (fun d hd => ?_) hn
    rw [hd] at h3
    simpa using h3

theorem amountsOf_inv (ne : l.ll_tokens ≠ []) {out : List (LRange × Str × List W.Decimal)} (h : amountsOf W r s = .ok out) :
    ∃ as, r.go (wholeLine l 0) = .ok as ∧
      out = as.map (fun a => ((a.start_idx, a.end_idx), coveredText l.ll_tokens (a.start_idx, a.end_idx), [a.value])) := by
  have hr : Reachable l _ := .create _ _ _ (string_wf s) ok
  cases hg : r.go (wholeLine l 0) with
  | error e =>
    have h1 := amount_resolver_error (W := W) r hg
    have : l.run 0 (r.resolver W) = .error e := by
      unfold LLLine.run
      rw [if_neg (by simpa using ne)]
      simp only [wholeLine] at h1
      rw [h1]
    simp only [amountsOf, ok, this] at h
    cases h
  | ok as =>
    obtain ⟨l', hl, hq, _⟩ := C96_amounts_of_text ok ne r 0 as ((C67_amounts r (s := wholeLine l 0) hr (wholeLine_inside ne 0) as).1 hg)
    simp only [amountsOf, ok, hl, hq] at h
    exact ⟨as, rfl, (Except.ok.inj h).symm⟩

theorem amountsOf_ok (ne : l.ll_tokens ≠ []) {as : List (LLCursorAssignment W.Decimal)} (h : r.go (wholeLine l 0) = .ok as) :
    amountsOf W r s = .ok (as.map (fun a =>
      ((a.start_idx, a.end_idx), coveredText l.ll_tokens (a.start_idx, a.end_idx), [a.value]))) := by
  have hr : Reachable l _ := .create _ _ _ (string_wf s) ok
  obtain ⟨l', hl, hq, _⟩ := C96_amounts_of_text ok ne r 0 as ((C67_amounts r (s := wholeLine l 0) hr (wholeLine_inside ne 0) as).1 h)
  simp only [amountsOf, ok, hl, hq]
  rfl

end

theorem text_ne {s : Str} {l : LLLine W} (ok : createLineFromString W s = .ok l) : l.ll_tokens ≠ [] :=
  create_ne (string_wf s) ok (by simp)

theorem endsWords_before {a : Str} {c d : Char} (ha : a.getLast? = some c) (hc : EndsWords cls c) (hd : (cls d).cls = .numeric) (b : Str) :
    joins (a.reverse.map cls) ((d :: b).map cls) = false := by
  obtain ⟨a', rfl⟩ := List.getLast?_eq_some_iff.1 ha
  simp only [List.reverse_append, List.reverse_singleton, List.singleton_append, List.map_cons, joins_eq, bases_cons, hd]
  rcases hc with hc | hc <;>
    simp [hc, wbPre, hd, WB.isNewline, WB.ignored, wbRules, WB.ahLetter, WB.midN, WB.midL, WB.wordy, countRI]

theorem endsWords_after {a : Str} {c d : Char} (ha : a.getLast? = some d) (hc : EndsWords cls c) (hd : (cls d).cls = .numeric) (b : Str) :
    joins (a.reverse.map cls) ((c :: b).map cls) = false := by
  obtain ⟨a', rfl⟩ := List.getLast?_eq_some_iff.1 ha
  simp only [List.reverse_append, List.reverse_singleton, List.singleton_append, List.map_cons, joins_eq, bases_cons, hd]
  rcases hc with hc | hc <;>
    simp [hc, wbPre, hd, WB.isNewline, WB.ignored, wbRules, WB.ahLetter, WB.midN, WB.midL, WB.wordy]

end LNlp
