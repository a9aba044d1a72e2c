import Verif.Lemmas.Case
import Verif.Demo.Laws
import Verif.Props.Sentences
/- C109: letter case does not matter. -/
namespace LNlp
variable {W : World}

/-! ### C109 -/

/-- C109: changing the case of letters changes nothing in a text's line but the case: creation succeeds for both
or for none, and the tokens, their tags and positions are the same. -/
theorem C109_tokens {f : Char → Char} (F : Recase W f) (L : SplitLaws W) (A : AsciiLaws W) (hB : 0 < W.usizeBound) (s : Str) :
    ((∃ e, createLineFromString W (s.map f) = .error e) ↔ ∃ e, createLineFromString W s = .error e) ∧
    ∀ l l', createLineFromString W s = .ok l → createLineFromString W (s.map f) = .ok l' →
      l'.ll_tokens = l.ll_tokens.map (fun t => { t with token := t.token.recase f }) ∧ SameButCase l l' := by
  have ht := F.tokensOf A s
  refine ⟨?_, fun l l' h h' => ?_⟩
  · unfold createLineFromString
    rw [C09_creation_panics_iff L hB utf8Len _ (string_wf _), C09_creation_panics_iff L hB utf8Len _ (string_wf _)]
    simp only [List.mem_singleton, exists_eq_left, List.flatMap_cons, List.flatMap_nil, List.append_nil, ht, F.bad A]
    have : totalSize ((tokensOf W utf8Len (.Text s [])).map (fun p => (p.1.recase f, p.2))) = totalSize (tokensOf W utf8Len (.Text s [])) := by
      unfold totalSize; rw [List.map_map]; rfl
    rw [this]
  · obtain ⟨_, h1, _⟩ := create_inv (string_wf _) h
    obtain ⟨_, h2, _⟩ := create_inv (string_wf _) h'
    simp only [List.flatMap_cons, List.flatMap_nil, List.append_nil] at h1 h2
    rw [ht, layoutM_recase, ← h1] at h2
    exact ⟨h2, recase_same F h2⟩

section
variable {l l' : LLLine W} (S : SameButCase l l') (ne : l.ll_tokens ≠ [])
include S ne

/-- C109: a case-insensitive table assigns the same values to the same tokens. -/
theorem C109_table {k : Ty W} (r : TextMatchAssignResolver W k) (ci : r.case_sensitive = false) (p p' : Nat) :
    r.go (wholeLine l p) = r.go (wholeLine l' p') := by
  rw [C58_table r _ (wholeLine_inside ne p), C58_table r _ (wholeLine_inside (S.ne ne) p')]
  simp only [wholeLine, S.length]
  congr 2
  funext i
  congr 1
  have key : ∀ l : LLLine W, tableValues r l i = match (textAt l i).map W.toLowercase with
      | none => [] | some t => (r.lookup t).getD [] := by
    intro l
    unfold tableValues
    cases textAt l i with
    | none => rfl
    | some t => simp only [ci]; rfl
  rw [key, key, S.text]

/-- C109 for clause keywords. -/
theorem C109_keywords (r : ClauseKeywordResolver) (p p' : Nat) : r.go (wholeLine l p) = r.go (wholeLine l' p') := by
  rw [keywordGo_eq r (wholeLine_inside ne p), keywordGo_eq r (wholeLine_inside (S.ne ne) p')]
  simp only [wholeLine, S.length]
  congr 2
  funext i
  have key : ∀ l : LLLine W, (textAt l i).bind (fun t => r.classify (W.toLowercase t)) =
      ((textAt l i).map W.toLowercase).bind r.classify := by
    intro l
    cases textAt l i <;> rfl
  rw [key, key, S.text]

/-- C109 for parts of speech, if the lines have the tags of the tokenizer only. -/
theorem C109_parts_of_speech {h h' : History W} (hr : Reachable l h) (hr' : Reachable l' h') (ht : PlainTags l h)
    (ht' : PlainTags l' h') (p p' : Nat) : posTagGo (wholeLine l p) = posTagGo (wholeLine l' p') := by
  rw [C63_pos (s := wholeLine l p) hr (wholeLine_inside ne p), C63_pos (s := wholeLine l' p') hr' (wholeLine_inside (S.ne ne) p')]
  simp only [wholeLine, S.length]
  congr 2
  funext i
  congr 1
  have key : ∀ (l : LLLine W) (h : History W), PlainTags l h → posTags l h i = match (textAt l i).map W.toLowercase with
      | none => []
      | some t => (List.replicate ((tagAt l i).toList.count .WORD) ((W.tagLookup t).getD [W.nounTag])).flatten := by
    intro l h ht
    unfold posTags tagsOn
    rw [ht.1]
    cases textAt l i <;> rfl
  rw [key l h ht, key l' h' ht', S.text, S.tag]

end

/-- C109 for clauses: the same ranges get clauses of the same kinds. -/
theorem C109_clauses {size size' : Str → Nat} {xs ys : List (InputToken W)} {l l' : LLLine W} (S : SameButCase l l')
    (wf : ∀ t ∈ xs, t.WF) (wf' : ∀ t ∈ ys, t.WF) (ok : createLineFromInputTokens W xs size = .ok l)
    (ok' : createLineFromInputTokens W ys size' = .ok l') (n : ∀ k, k = .textTag ∨ k = .clauseKeyword ∨ k = .clause → NoCustom k xs)
    (n' : ∀ k, k = .textTag ∨ k = .clauseKeyword ∨ k = .clause → NoCustom k ys) (ne : l.ll_tokens ≠ []) (r : ClauseKeywordResolver)
    {q q' : List (LRange × Str × List Clause)} (hq : ClauseQuery r l q) (hq' : ClauseQuery r l' q') :
    q.map (fun e => (e.1, e.2.2)) = q'.map (fun e => (e.1, e.2.2)) := by
  obtain ⟨p1, p2, l1, l2, e1, e2, e3⟩ := hq
  obtain ⟨p1', p2', l1', l2', e1', e2', e3'⟩ := hq'
  obtain ⟨m1, m2, q0, f1, f2, f3, hs, hm⟩ := C94_clauses_of_input wf ok (n _ (by simp)) (n _ (by simp)) (n _ (by simp)) ne r p1 p2
  obtain ⟨m1', m2', q0', f1', f2', f3', hs', hm'⟩ :=
    C94_clauses_of_input wf' ok' (n' _ (by simp)) (n' _ (by simp)) (n' _ (by simp)) (S.ne ne) r p1' p2'
  rw [e1] at f1; cases f1
  rw [e2] at f2; cases f2
  rw [e3] at f3; cases f3
  rw [e1'] at f1'; cases f1'
  rw [e2'] at f2'; cases f2'
  rw [e3'] at f3'; cases f3'
  have run_le : ∀ {l : LLLine W} {i j k}, ClauseAt r l i j k → i ≤ j := by
    intro l i j k h
    cases h with
    | condition _ h2 => exact h2.le
    | independent _ h2 => exact h2.le
    | then_ _ h2 => exact h2.le
    | trailing _ h2 => exact h2.le
    | leading _ h2 => exact h2.le
  -- compare by ranges, on members with `start ≤ end`
  have sorted : ∀ (l : LLLine W) (q : List (LRange × Str × List Clause)), q.Pairwise (fun x y => x.1.2 < y.1.1) →
      (∀ i j text vs, ((i, j), text, vs) ∈ q → i ≤ j) →
      (q.map (fun e => (e.1, e.2.2))).Pairwise (fun x y => x.1.1 < y.1.1) := by
    intro l q hp hle
    rw [List.pairwise_map]
    refine List.Pairwise.imp_of_mem ?_ hp
    rintro ⟨⟨i, j⟩, t, vs⟩ ⟨⟨i', j'⟩, t', vs'⟩ hx hy hlt
    have := hle i j t vs hx
    simp only at hlt ⊢
    omega
  apply eq_of_sorted (R := fun x y => x.1.1 < y.1.1) (fun x y h1 h2 => by omega)
    (sorted l q hs (fun i j t vs hx => by obtain ⟨_, _, _, h⟩ := (hm i j t vs).1 hx; exact run_le h))
    (sorted l' q' hs' (fun i j t vs hx => by obtain ⟨_, _, _, h⟩ := (hm' i j t vs).1 hx; exact run_le h))
  rintro ⟨⟨i, j⟩, vs⟩
  constructor
  · intro hx
    obtain ⟨⟨⟨a, b⟩, t, ws⟩, hy, e⟩ := List.mem_map.1 hx
    cases e
    obtain ⟨_, kind, rfl, h⟩ := (hm i j t _).1 hy
    exact List.mem_map.2 ⟨((i, j), coveredText l'.ll_tokens (i, j), [kind]), (hm' _ _ _ _).2 ⟨rfl, kind, rfl, (S.clauseAt _ _ _).1 h⟩, rfl⟩
  · intro hx
    obtain ⟨⟨⟨a, b⟩, t, ws⟩, hy, e⟩ := List.mem_map.1 hx
    cases e
    obtain ⟨_, kind, rfl, h⟩ := (hm' i j t _).1 hy
    exact List.mem_map.2 ⟨((i, j), coveredText l.ll_tokens (i, j), [kind]), (hm _ _ _ _).2 ⟨rfl, kind, rfl, (S.clauseAt _ _ _).2 h⟩, rfl⟩

/-- C109, from text to clauses and parts of speech: changing the case of letters of a text changes no clause and no
part of speech. -/
theorem C109_text {f : Char → Char} (F : Recase W f) (L : SplitLaws W) (A : AsciiLaws W) (hB : 0 < W.usizeBound) {s : Str}
    {l l' : LLLine W} (ok : createLineFromString W s = .ok l) (ok' : createLineFromString W (s.map f) = .ok l')
    (ne : l.ll_tokens ≠ []) :
    (∀ (r : ClauseKeywordResolver) (q q' : List (LRange × Str × List Clause)), ClauseQuery r l q → ClauseQuery r l' q' →
      q.map (fun e => (e.1, e.2.2)) = q'.map (fun e => (e.1, e.2.2))) ∧
    (∀ p p', posTagGo (wholeLine l p) = posTagGo (wholeLine l' p')) := by
  have S := ((C109_tokens F L A hB s).2 l l' ok ok').2
  refine ⟨fun r q q' hq hq' => C109_clauses S (string_wf _) (string_wf _) ok ok' (fun _ _ => string_noCustom _ _)
    (fun _ _ => string_noCustom _ _) ne r hq hq', fun p p' => ?_⟩
  exact C109_parts_of_speech S ne (.create _ _ _ (string_wf _) ok) (.create _ _ _ (string_wf _) ok')
    (creation_plainTags (string_wf _) ok (string_noCustom _ _)) (creation_plainTags (string_wf _) ok' (string_noCustom _ _)) p p'

/-! #### the demo world: ASCII lowercase -/
open Demo in
theorem Demo.lowerChar_val (c : Char) :
    (lowerChar c).toNat = if 65 ≤ c.toNat ∧ c.toNat ≤ 90 then c.toNat + 32 else c.toNat := by
  unfold lowerChar
  by_cases h : 65 ≤ c.toNat ∧ c.toNat ≤ 90
  · rw [if_pos (by simp [h.1, h.2]), if_pos h]
    have hv : (c.toNat + 32).isValidChar := Or.inl (by omega)
    rw [Char.ofNat, dif_pos hv]
    rfl
  · rw [if_neg (by simpa using h), if_neg h]

open Demo in
theorem Demo.lower_letter (c : Char) : isLatinLetter (lowerChar c) = isLatinLetter c := by
  have := lowerChar_val c
  rw [Bool.eq_iff_iff]
  simp only [isLatinLetter, Bool.or_eq_true, Bool.and_eq_true, decide_eq_true_eq]
  rw [this]
  split <;> omega

open Demo in
theorem Demo.lower_other (c : Char) (h : isLatinLetter c = false) : lowerChar c = c := by
  unfold lowerChar
  rw [if_neg]
  intro hc
  simp only [Bool.and_eq_true, decide_eq_true_eq] at hc
  simp [isLatinLetter, hc.1, hc.2] at h

open Demo in
theorem Demo.lower_class (c : Char) : wbClass (lowerChar c) = wbClass c := by
  cases h : isLatinLetter c with
  | false => rw [lower_other c h]
  | true =>
    have h' : isLatinLetter (lowerChar c) = true := by rw [lower_letter, h]
    have key : ∀ c, isLatinLetter c = true → wbClass c = .ALetter := by
      intro c h
      unfold wbClass
      have hn : 65 ≤ c.toNat := by
        simp only [isLatinLetter, Bool.or_eq_true, Bool.and_eq_true, decide_eq_true_eq] at h
        omega
      rw [if_neg (by omega), if_neg (by omega), if_neg (by omega), if_pos h]
    rw [key _ h, key _ h']

open Demo in
theorem Demo.lower_joins (p2 : Option Char) (p c : Char) (n : Option Char) :
    joins (p2.map lowerChar) (lowerChar p) (lowerChar c) (n.map lowerChar) = joins p2 p c n := by
  unfold joins
  have e : ∀ o : Option Char, (o.map lowerChar).map wbClass = o.map wbClass := by
    intro o
    cases o with
    | none => rfl
    | some x => simp [lower_class]
  simp only [lower_class, e]

open Demo in
theorem Demo.lower_splitGo : ∀ (rest : Str) (p2 : Option Char) (p : Char) (cur : Str),
    splitGo (p2.map lowerChar) (lowerChar p) (cur.map lowerChar) (rest.map lowerChar) = (splitGo p2 p cur rest).map (List.map lowerChar)
  | [], _, _, _ => rfl
  | c :: rest, p2, p, cur => by
    rw [List.map_cons]
    simp only [splitGo]
    have hj : joins (p2.map lowerChar) (lowerChar p) (lowerChar c) (rest.map lowerChar).head? = joins p2 p c rest.head? := by
      rw [List.head?_map]; exact lower_joins ..
    have h1 := lower_splitGo rest (some p) c (cur ++ [c])
    have h2 := lower_splitGo rest (some p) c [c]
    rw [List.map_append] at h1
    rw [hj]
    split
    · exact h1
    · rw [List.map_cons]; exact congrArg _ h2

open Demo in
theorem Demo.recase : Recase Demo.W lowerChar where
  split := by
    intro s
    cases s with
    | nil => rfl
    | cons c rest => exact lower_splitGo rest none c [c]
  letters := by intro c h; exact (lower_letter c).trans h
  others := lower_other
  bytes := by
    intro c
    have hv := lowerChar_val c
    by_cases h : 65 ≤ c.toNat ∧ c.toNat ≤ 90
    · rw [if_pos h] at hv
      have key : ∀ c : Char, c.toNat ≤ 127 → c.utf8Size = 1 := by
        intro c hc
        unfold Char.utf8Size
        rw [if_pos]
        exact UInt32.le_iff_toNat_le.2 hc
      rw [key _ (by omega), key _ (by omega)]
    · have : lowerChar c = c := by unfold lowerChar; rw [if_neg (by simpa using h)]
      rw [this]
  lower := by
    intro s
    show (s.map lowerChar).map lowerChar = s.map lowerChar
    rw [List.map_map]
    apply List.map_congr_left
    intro c _
    show lowerChar (lowerChar c) = lowerChar c
    have hv := lowerChar_val c
    have key : ∀ x : Char, ¬ (65 ≤ x.toNat ∧ x.toNat ≤ 90) → lowerChar x = x := by
      intro x hx
      unfold lowerChar
      rw [if_neg (by simpa using hx)]
    apply key
    rw [hv]
    split <;> omega

/-- "x if a, then b" -/
def Demo.clauseLineLow : LLLine Demo.W := Demo.getOk Demo.emptyLine (createLineFromString Demo.W ("x IF a, then b".toList.map Demo.lowerChar))

example := C109_tokens Demo.recase Demo.splitLaws Demo.asciiLaws (by decide) "x IF a, then b".toList
example := C109_text (s := "x IF a, then b".toList) (l := Demo.clauseLine0) (l' := Demo.clauseLineLow) Demo.recase Demo.splitLaws
  Demo.asciiLaws (by decide) rfl rfl Demo.clauseLine0_ne
theorem Demo.caseSame : SameButCase Demo.clauseLine0 Demo.clauseLineLow :=
  ((C109_tokens Demo.recase Demo.splitLaws Demo.asciiLaws (by decide) "x IF a, then b".toList).2 _ _ rfl rfl).2
example := C109_keywords Demo.caseSame Demo.clauseLine0_ne Demo.kws 0 0
example := C109_table Demo.caseSame Demo.clauseLine0_ne Demo.table rfl 0 0

def Demo.lowText : Str := "x IF a, then b".toList.map Demo.lowerChar
example := C109_parts_of_speech Demo.caseSame Demo.clauseLine0_ne Demo.clauseHonest0.spec.1
  (.create [.Text Demo.lowText []] utf8Len _ (string_wf _) rfl)
  (creation_plainTags (size := utf8Len) (string_wf _) (l := Demo.clauseLine0) rfl (string_noCustom _ _))
  (creation_plainTags (size := utf8Len) (input := [.Text Demo.lowText []]) (string_wf _) (l := Demo.clauseLineLow) rfl (string_noCustom _ _)) 0 0
example {q q'} := C109_clauses (size := utf8Len) (size' := utf8Len) (xs := [.Text "x IF a, then b".toList []]) (ys := [.Text Demo.lowText []])
  Demo.caseSame (string_wf _) (string_wf _) rfl rfl (fun _ _ => string_noCustom _ _) (fun _ _ => string_noCustom _ _)
  Demo.clauseLine0_ne Demo.kws (q := q) (q' := q')

end LNlp
