import Verif.Lemmas.Local
import Verif.Props.Compose
import Verif.Lemmas.SelectApi
import Verif.Demo.Examples
/-
C104: matching is local — what a matcher finds depends only on the part of the line it looks at.
-/
namespace LNlp
variable {W : World}

/-! ### C104 -/

/-- C104: matching forwards from a token depends only on the tokens from there on and on the attributes
of ranges that start there or later. If two lines have the same tokens and the same such attributes
from `n` in one and from `n'` in the other, every matcher gives the same results or the same panic on
both, at corresponding indexes. -/
theorem C104_forwards {l l' : LLLine W} {h h' : History W} (hr : Reachable l h) (hr' : Reachable l' h')
    (ord : Ordered h) (ord' : Ordered h') (n n' : Nat) (toks : tokensFrom n l = tokensFrom n' l')
    (recs : recordsFrom n h = recordsFrom n' h') {Out : Type} (m : XMatch W Out) (hm : Builtin m) (i : Nat) :
    shiftResults n' (m.go (.fwd (n + i)) l) = shiftResults n (m.go (.fwd (n' + i)) l') :=
  sameOut_iff.1 ((alike_forwards hr hr' ord ord' toks recs).built hm _ _ ⟨i, rfl, rfl⟩)

/-! two lines that differ in the attributes of the first tokens only -/
theorem Demo.exOrdered : Ordered Demo.exHist := creation_ordered Demo.exInput_wf Demo.exLine_ok
theorem Demo.exOrdered2 : Ordered Demo.exHist2 := by
  intro x hx
  rcases List.mem_append.1 hx with hx | hx
  · exact Demo.exOrdered x hx
  · simp only [List.map_cons, List.map_nil, List.mem_cons, List.not_mem_nil, or_false] at hx
    rcases hx with rfl | rfl | rfl <;> decide
theorem Demo.exFrom : recordsFrom 5 Demo.exHist2 = recordsFrom 5 Demo.exHist := by
  unfold recordsFrom Demo.exHist2
  rw [List.filter_append, List.map_append]
  exact List.append_nil _
theorem Demo.exUpTo : recordsUpTo 1 Demo.exHist2 = recordsUpTo 1 Demo.exHist := by
  unfold recordsUpTo Demo.exHist2
  rw [List.filter_append]
  exact List.append_nil _

example := C104_forwards Demo.exReach2 Demo.exReach Demo.exOrdered2 Demo.exOrdered 5 5 rfl Demo.exFrom
  (X.seq2 X.tokenText (X.attr Ty.textTag)) (.seq2 .tokenText (.attr _ trivial)) 0

/-- C104: matching backwards from a token depends only on the tokens up to it and on the attributes of
ranges that end there or earlier. -/
theorem C104_backwards {l l' : LLLine W} {h h' : History W} (hr : Reachable l h) (hr' : Reachable l' h')
    (ord : Ordered h) (ord' : Ordered h') (n : Nat) (toks : tokensUpTo n l = tokensUpTo n l')
    (recs : recordsUpTo n h = recordsUpTo n h') {Out : Type} (m : XMatch W Out) (hm : Builtin m) (i : Nat) (hi : i ≤ n) :
    m.go (.bwd i) l = m.go (.bwd i) l' := by
  have := sameOut_iff.1 ((alike_backwards hr hr' ord ord' toks recs).built hm _ _ ⟨i, hi, rfl, rfl⟩)
  rwa [shiftResults_zero, shiftResults_zero] at this

example := C104_backwards Demo.exReach2 Demo.exReach Demo.exOrdered2 Demo.exOrdered 1 rfl Demo.exUpTo
  (X.seq2 X.tokenText (X.attr Ty.textTag)) (.seq2 .tokenText (.attr _ trivial)) 1 (Nat.le_refl _)

/-- C104: `find_by` over a selection depends only on the line from the start of the selection on. -/
theorem C104_find_by {l l' : LLLine W} {h h' : History W} (hr : Reachable l h) (hr' : Reachable l' h')
    (ord : Ordered h) (ord' : Ordered h') (n n' : Nat) (toks : tokensFrom n l = tokensFrom n' l')
    (recs : recordsFrom n h = recordsFrom n' h') {Out : Type} (m : XMatch W Out) (hm : Builtin m) (ptr ptr' a b : Nat) :
    spansAt n' ((⟨⟨ptr, l⟩, n + a, n + b⟩ : LLSelection W).findBy m) =
      spansAt n ((⟨⟨ptr', l'⟩, n' + a, n' + b⟩ : LLSelection W).findBy m) := by
  have key := (alike_forwards hr hr' ord ord' toks recs).built hm
  have eq : ∀ x, rangeIncl (x + a) (x + b) = (rangeIncl a b).map (x + ·) := by
    intro x
    unfold rangeIncl
    rw [List.map_add_range', show x + b + 1 - (x + a) = b + 1 - a by omega]
  simp only [LLSelection.findBy, eq]
  induction rangeIncl a b with
  | nil => rfl
  | cons i is ih =>
    have hi := key (.fwd (n + i)) (.fwd (n' + i)) ⟨i, rfl, rfl⟩
    simp only [List.map_cons, flatMapR]
    generalize m.go (.fwd (n + i)) l = x at hi
    generalize m.go (.fwd (n' + i)) l' = y at hi
    cases hi with
    | error e => rfl
    | ok rs rs' hrs =>
      revert ih
      generalize flatMapR _ (is.map (n + ·)) = u
      generalize flatMapR _ (is.map (n' + ·)) = v
      intro ih
      have e1 : rs.map (fun r : Out × Nat => ((n + i + n', r.2 + n'), r.1)) =
          rs'.map (fun r : Out × Nat => ((n' + i + n, r.2 + n), r.1)) := by
        have := congrArg (List.map (fun r : Out × Nat => (((n + i + n', r.2) : Nat × Nat), r.1))) hrs
        simp only [shiftL, List.map_map, Function.comp_def] at this
        rw [this, show n + i + n' = n' + i + n by omega]
      cases u with
      | error e =>
        cases v with
        | error e' => exact ih
        | ok v => cases ih
      | ok u =>
        cases v with
        | error e' => cases ih
        | ok v =>
          have ih := Except.ok.inj ih
          refine congrArg Except.ok ?_
          simp only [List.map_append, List.map_map, Function.comp_def]
          rw [e1, ih]

example := C104_find_by Demo.exReach2 Demo.exReach Demo.exOrdered2 Demo.exOrdered 5 5 rfl Demo.exFrom
  (X.seq2 X.tokenText (X.attr Ty.textTag)) (.seq2 .tokenText (.attr _ trivial)) 0 1 0 3

/-- C104: the line of `xs ++ ys` matches forwards in its second part like the line of `ys` alone, and
backwards in its first part like the line of `xs` alone, for every matcher. -/
theorem C104_parts (size : Str → Nat) (xs ys : List (InputToken W)) (l lx ly : LLLine W)
    (wf : ∀ t ∈ xs ++ ys, t.WF) (ok : createLineFromInputTokens W (xs ++ ys) size = .ok l)
    (okx : createLineFromInputTokens W xs size = .ok lx) (oky : createLineFromInputTokens W ys size = .ok ly)
    {Out : Type} (m : XMatch W Out) (hm : Builtin m) (i : Nat) :
    m.go (.fwd (lx.ll_tokens.length + i)) l = shiftResults lx.ll_tokens.length (m.go (.fwd i) ly) ∧
    (i < lx.ll_tokens.length → m.go (.bwd i) l = m.go (.bwd i) lx) := by
  have wfx : ∀ t ∈ xs, t.WF := fun t ht => wf t (by simp [ht])
  have wfy : ∀ t ∈ ys, t.WF := fun t ht => wf t (by simp [ht])
  obtain ⟨hg, ht, rep⟩ := create_inv wf ok
  obtain ⟨hgx, htx, repx⟩ := create_inv wfx okx
  obtain ⟨hgy, hty, repy⟩ := create_inv wfy oky
  have hy : ∀ t ∈ ys, tokensOf W size t ≠ [] := fun t ht => (inputTokens_ok size (hgy t ht)).2
  have hn : lx.ll_tokens.length = (xs.flatMap (tokensOf W size)).length := by rw [htx, layoutM_length]
  have ord := creation_ordered wf ok
  have ordx := creation_ordered wfx okx
  have ordy := creation_ordered wfy oky
  constructor
  · have ht' : tokensFrom lx.ll_tokens.length l = tokensFrom 0 ly := by
      unfold tokensFrom
      rw [List.map_drop, List.drop_zero, ht, hty, layoutM_tokens, layoutM_tokens, hn, List.flatMap_append, List.map_append]
      exact List.drop_left' (List.length_map _)
    have hh : recordsFrom lx.ll_tokens.length (creationHistory W size (xs ++ ys)) = recordsFrom 0 (creationHistory W size ys) := by
      unfold recordsFrom
      rw [creation_filter_right size xs ys hy (fun r => decide (lx.ll_tokens.length ≤ r.1)) (by
        intro x hx
        have := (repx.bounds x hx).1
        simp only [decide_eq_false_iff_not]; omega), List.map_map]
      have e : (fun x : Rec W => decide (lx.ll_tokens.length ≤ (shiftR (xs.flatMap (tokensOf W size)).length x.range).1)) =
          fun x : Rec W => decide (0 ≤ x.range.1) := by
        funext x; simp only [shiftR]; congr 1; apply propext; omega
      rw [e]
      apply List.map_congr_left
      intro x _
      simp only [Function.comp, Rec.from, Rec.shift, shiftR, hn, Nat.add_sub_cancel, Nat.sub_zero]
    have A := alike_forwards (.create _ size l wf ok) (.create _ size ly wfy oky) ord ordy ht' hh
    have := sameOut_iff.1 (A.built hm _ _ ⟨i, rfl, rfl⟩)
    rwa [shiftResults_zero, Nat.zero_add] at this
  · intro hi
    have ht' : tokensUpTo (lx.ll_tokens.length - 1) l = tokensUpTo (lx.ll_tokens.length - 1) lx := by
      unfold tokensUpTo
      rw [Nat.sub_add_cancel (by omega), List.map_take, List.map_take, ht, htx, layoutM_tokens, layoutM_tokens, layoutM_length,
        List.flatMap_append, List.map_append, List.take_left' (List.length_map _), List.take_of_length_le (by simp)]
    have hh : recordsUpTo (lx.ll_tokens.length - 1) (creationHistory W size (xs ++ ys)) =
        recordsUpTo (lx.ll_tokens.length - 1) (creationHistory W size xs) := by
      unfold recordsUpTo
      exact creation_filter_left size xs ys hy (fun r => decide (r.2 ≤ lx.ll_tokens.length - 1))
        (by intro r; apply decide_eq_false; simp only [shiftR]; omega)
    have A := alike_backwards (.create _ size l wf ok) (.create _ size lx wfx okx) ord ordx ht' hh
    have := sameOut_iff.1 (A.built hm _ _ ⟨i, by omega, rfl, rfl⟩)
    rwa [shiftResults_zero, shiftResults_zero] at this

example := C104_parts List.length (Demo.exInput.take 1) (Demo.exInput.drop 1) Demo.exLine _ _ Demo.exInput_wf
  Demo.exLine_ok rfl rfl (X.seq2 X.tokenText (X.attr Ty.textTag)) (.seq2 .tokenText (.attr _ trivial)) 1

end LNlp
