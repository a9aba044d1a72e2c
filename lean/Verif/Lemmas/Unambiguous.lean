import Verif.Lemmas.DisplayProps
import Verif.Lemmas.StoreProps
import Verif.Lemmas.Reach
import Verif.Lemmas.Match
import Verif.Spec.Display
/- Reading a rendered line back. -/
namespace LNlp
variable {W : World}

/-! ### columns -/

theorem colStart_succ (L : AdditiveWidth W) (toks : List LLToken) (i : Nat) :
    colStart W toks (i + 1) = colEnd W toks i + W.strWidth [' ', ' '] := by
  simp [colStart, colEnd, L.spaces]

theorem colStart_lt (L : AdditiveWidth W) (pos : 0 < W.strWidth [' ', ' ']) {toks : List LLToken} {i : Nat} :
    ∀ {j : Nat}, i < j → j < toks.length → colStart W toks i < colStart W toks j
  | 0, h, _ => by omega
  | j + 1, h, hj => by
    rw [colStart_succ L]
    have h1 := colStart_le_colEnd (additive_mono L) toks (show i ≤ j by omega) (show j < toks.length by omega)
    omega

theorem colEnd_lt (L : AdditiveWidth W) {toks : List LLToken} {j : Nat} :
    ∀ {k : Nat}, j < k → k < toks.length → colEnd W toks j + W.strWidth [' ', ' '] ≤ colEnd W toks k
  | 0, h, _ => by omega
  | k + 1, h, hk => by
    have h1 := colStart_le_colEnd (additive_mono L) toks (show k + 1 ≤ k + 1 by omega) hk
    rw [colStart_succ L] at h1
    rcases (show j < k ∨ j = k by omega) with h2 | rfl
    · have := colEnd_lt (toks := toks) L h2 (by omega)
      omega
    · exact h1

/-! ### brackets -/

theorem replicate_cut {α : Type} {a : α} : ∀ {n m : Nat} {xs ys : List α}, xs.head? ≠ some a → ys.head? ≠ some a →
    List.replicate n a ++ xs = List.replicate m a ++ ys → n = m ∧ xs = ys
  | 0, 0, _, _, _, _, h => ⟨rfl, h⟩
  | 0, m + 1, xs, ys, hx, _, h => by
    simp only [List.replicate_zero, List.nil_append, List.replicate_succ, List.cons_append] at h
    rw [h] at hx; simp at hx
  | n + 1, 0, xs, ys, _, hy, h => by
    simp only [List.replicate_zero, List.nil_append, List.replicate_succ, List.cons_append] at h
    rw [← h] at hy; simp at hy
  | n + 1, m + 1, xs, ys, hx, hy, h => by
    simp only [List.replicate_succ, List.cons_append, List.cons.injEq, true_and] at h
    obtain ⟨h1, h2⟩ := replicate_cut hx hy h
    exact ⟨by omega, h2⟩

theorem bracket_cut {w w' : Nat} {s s' : Str} (hs : Readable s) (hs' : Readable s')
    (h : bracket w ++ s = bracket w' ++ s') : ((w ≤ 1 ∧ w' ≤ 1) ∨ w = w') ∧ s = s' := by
  have far : ∀ (k : Nat) (s s' : Str), Readable s → s ≠ List.replicate k '─' ++ '╯' :: s' := by
    intro k s s' hs he
    cases k with
    | zero => rw [he] at hs; exact hs.2.2 rfl
    | succ k => rw [he] at hs; exact hs.2.1 rfl
  unfold bracket at h
  by_cases c : w ≤ 1 <;> by_cases c' : w' ≤ 1
  · rw [if_pos c, if_pos c'] at h
    exact ⟨Or.inl ⟨c, c'⟩, by simpa using h⟩
  · rw [if_pos c, if_neg c'] at h
    simp only [List.cons_append, List.nil_append, List.append_assoc, List.cons.injEq, true_and] at h
    exact absurd h (far _ _ _ hs)
  · rw [if_neg c, if_pos c'] at h
    simp only [List.cons_append, List.nil_append, List.append_assoc, List.cons.injEq, true_and] at h
    exact absurd h.symm (far _ _ _ hs')
  · rw [if_neg c, if_neg c'] at h
    simp only [List.cons_append, List.nil_append, List.append_assoc, List.cons.injEq, true_and] at h
    obtain ⟨h1, h2⟩ := replicate_cut (by simp) (by simp) h
    simp only [List.cons.injEq, true_and] at h2
    exact ⟨Or.inr (by omega), h2⟩

theorem bracket_head (w : Nat) (s : Str) : (bracket w ++ s).head? = some '╰' := by
  unfold bracket; split <;> rfl

theorem bracket_no_newline (w : Nat) : '\n' ∉ bracket w := by
  unfold bracket
  split
  · decide
  · simp only [List.mem_append, List.mem_singleton, List.mem_replicate]
    rintro ((h | h) | h)
    · exact absurd h (by decide)
    · exact absurd h.2 (by decide)
    · exact absurd h (by decide)

/-- the line of an attribute determines its range and its text -/
theorem attrLine_inj (L : AdditiveWidth W) (two : 2 ≤ W.strWidth [' ', ' ']) {toks : List LLToken} {a b : LRange × Str}
    (ha : a.1.1 ≤ a.1.2) (ha' : a.1.2 < toks.length) (hb : b.1.1 ≤ b.1.2) (hb' : b.1.2 < toks.length)
    (ra : Readable a.2) (rb : Readable b.2) (h : attrLine W toks a = attrLine W toks b) : a = b := by
  obtain ⟨⟨i, j⟩, s⟩ := a
  obtain ⟨⟨i', j'⟩, s'⟩ := b
  simp only at ha ha' hb hb' ra rb
  unfold attrLine at h
  simp only [List.append_assoc, List.cons_append, List.nil_append, List.cons.injEq, true_and] at h
  obtain ⟨h1, h2⟩ := replicate_cut (by rw [bracket_head]; decide) (by rw [bracket_head]; decide) h
  obtain ⟨h3, rfl⟩ := bracket_cut ra rb h2
  have hi : i = i' := by
    rcases Nat.lt_trichotomy i i' with c | c | c
    · have := colStart_lt L (by omega) c (show i' < toks.length by omega); omega
    · exact c
    · have := colStart_lt L (by omega) c (show i < toks.length by omega); omega
  subst hi
  have b1 := colStart_le_colEnd (additive_mono L) toks ha ha'
  have b2 := colStart_le_colEnd (additive_mono L) toks hb hb'
  have hj : j = j' := by
    rcases Nat.lt_trichotomy j j' with c | c | c
    · have := colEnd_lt L c hb'; omega
    · exact c
    · have := colEnd_lt L c ha'; omega
  subst hj
  rfl

/-- texts that all begin with a line break and contain no other -/
theorem lines_inj {α : Type} {f : α → Str} : ∀ {xs ys : List α},
    (∀ x ∈ xs ++ ys, ∃ b, f x = '\n' :: b ∧ '\n' ∉ b) → xs.flatMap f = ys.flatMap f → xs.map f = ys.map f
  | [], [], _, _ => rfl
  | [], y :: ys, hf, h => by
    obtain ⟨b, hb, _⟩ := hf y (by simp)
    simp [hb] at h
  | x :: xs, [], hf, h => by
    obtain ⟨b, hb, _⟩ := hf x (by simp)
    simp [hb] at h
  | x :: xs, y :: ys, hf, h => by
    obtain ⟨b, hb, nb⟩ := hf x (by simp)
    obtain ⟨c, hc, nc⟩ := hf y (by simp)
    have rest : ∀ {zs : List α}, (∀ z ∈ zs, ∃ b, f z = '\n' :: b ∧ '\n' ∉ b) →
        zs.flatMap f = [] ∨ (zs.flatMap f).head? = some '\n' := by
      intro zs hz
      cases zs with
      | nil => exact Or.inl rfl
      | cons z zs =>
        obtain ⟨d, hd, _⟩ := hz z (by simp)
        right; simp [hd]
    simp only [List.flatMap_cons, hb, hc, List.cons_append, List.cons.injEq, true_and] at h
    have hx := rest (zs := xs) (fun z hz => hf z (by simp [hz]))
    have hy := rest (zs := ys) (fun z hz => hf z (by simp [hz]))
    have cut : ∀ {b c u v : Str}, '\n' ∉ b → '\n' ∉ c → (u = [] ∨ u.head? = some '\n') → (v = [] ∨ v.head? = some '\n') →
        b ++ u = c ++ v → b = c ∧ u = v := by
      intro b
      induction b with
      | nil =>
        intro c u v _ nc _ hv he
        cases c with
        | nil => exact ⟨rfl, he⟩
        | cons d ds =>
          rename_i hu
          simp only [List.nil_append, List.cons_append] at he
          rw [he] at hu
          rcases hu with hu | hu
          · cases hu
          · simp only [List.head?_cons, Option.some.injEq] at hu
            rw [hu] at nc; simp at nc
      | cons d ds ih =>
        intro c u v nb nc hu hv he
        cases c with
        | nil =>
          simp only [List.nil_append, List.cons_append] at he
          rw [← he] at hv
          rcases hv with hv | hv
          · cases hv
          · simp only [List.head?_cons, Option.some.injEq] at hv
            rw [hv] at nb; simp at nb
        | cons e es =>
          simp only [List.cons_append, List.cons.injEq] at he
          obtain ⟨h1, h2⟩ := ih (fun x => nb (List.mem_cons_of_mem _ x)) (fun x => nc (List.mem_cons_of_mem _ x)) hu hv he.2
          exact ⟨by rw [he.1, h1], h2⟩
    obtain ⟨e1, e2⟩ := cut nb nc hx hy h
    rw [List.map_cons, List.map_cons, hb, hc, e1, lines_inj (fun z hz => hf z (by
      rcases List.mem_append.1 hz with hz | hz <;> simp [hz])) e2]

theorem map_inj_on {α β : Type} {f : α → β} : ∀ {xs ys : List α}, (∀ x ∈ xs, ∀ y ∈ ys, f x = f y → x = y) →
    xs.map f = ys.map f → xs = ys
  | [], [], _, _ => rfl
  | [], _ :: _, _, h => by cases h
  | _ :: _, [], _, h => by cases h
  | x :: xs, y :: ys, hf, h => by
    simp only [List.map_cons, List.cons.injEq] at h
    rw [hf x (by simp) y (by simp) h.1, map_inj_on (fun a ha b hb => hf a (by simp [ha]) b (by simp [hb])) h.2]

theorem attrLine_newline (toks : List LLToken) {item : LRange × Str} (h : '\n' ∉ item.2) :
    ∃ b, attrLine W toks item = '\n' :: b ∧ '\n' ∉ b := by
  refine ⟨_, rfl, ?_⟩
  show '\n' ∉ List.replicate _ ' ' ++ bracket _ ++ item.2
  simp only [List.mem_append, List.mem_replicate]
  rintro ((h1 | h1) | h1)
  · exact absurd h1.2 (by decide)
  · exact bracket_no_newline _ h1
  · exact h h1

/-! ### blocks of values -/

theorem blocks_ranges {β : Type} [DecidableEq β] {V : LRange → List β} : ∀ {R : List LRange}, R.Nodup → (∀ r ∈ R, V r ≠ []) →
    firsts ((R.flatMap (fun r => (V r).map (fun s => (r, s)))).map (·.1)) = R
  | [], _, _ => rfl
  | r :: R, hn, hv => by
    rw [List.nodup_cons] at hn
    have hnot : r ∉ (R.flatMap (fun r => (V r).map (fun s => (r, s)))).map (·.1) := by
      simp only [List.mem_map, List.mem_flatMap, not_exists, not_and]
      rintro ⟨r', s⟩ ⟨r'', hr'', s', _, he⟩ rfl
      cases he; exact hn.1 hr''
    rw [List.flatMap_cons, List.map_append, firsts_block r _ _ (by
      intro x hx
      simp only [List.map_map, List.mem_map, Function.comp] at hx
      obtain ⟨_, _, rfl⟩ := hx; rfl) hnot, blocks_ranges hn.2 (fun x hx => hv x (by simp [hx])), if_neg]
    · rfl
    · simp [hv r (by simp)]

theorem blocks_values {β : Type} {V : LRange → List β} (r : LRange) : ∀ {R : List LRange}, R.Nodup →
    ((R.flatMap (fun r => (V r).map (fun s => (r, s)))).filter (fun x => decide (x.1 = r))).map (·.2) =
      if r ∈ R then V r else []
  | [], _ => rfl
  | q :: R, hn => by
    rw [List.nodup_cons] at hn
    rw [List.flatMap_cons, List.filter_append, List.map_append, blocks_values r hn.2]
    by_cases hq : q = r
    · subst hq
      rw [if_neg hn.1, if_pos (by simp), List.append_nil, List.filter_map]
      simp [Function.comp_def]
    · have hq' : ¬ r = q := fun e => hq e.symm
      simp [List.filter_map, Function.comp_def, hq, hq']

theorem shown_blocks {k : Ty W} {h h' : History W} (inj : ∀ v w : Val k, valDbg k v = valDbg k w → v = w)
    (e : shownValues k h = shownValues k h') :
    rangesOf k h = rangesOf k h' ∧ ∀ r, valuesOf k r h = valuesOf k r h' := by
  have form : ∀ h : History W, shownValues k h =
      (rangesOf k h).flatMap (fun r => ((valuesOf k r h).reverse.map (valDbg k)).map (fun s => (r, s))) := by
    intro h; unfold shownValues; congr 1; funext r; rw [List.map_map]; rfl
  have ne : ∀ (h : History W), ∀ r ∈ rangesOf k h, (valuesOf k r h).reverse.map (valDbg k) ≠ [] := by
    intro h r hr
    obtain ⟨v, hv⟩ := mem_rangesOf.1 hr
    have := List.ne_nil_of_mem (mem_valuesOf.2 hv)
    simpa using this
  rw [form h, form h'] at e
  have e1 : rangesOf k h = rangesOf k h' := by
    rw [← blocks_ranges (rangesOf_nodup k h) (ne h), e, blocks_ranges (rangesOf_nodup k h') (ne h')]
  refine ⟨e1, fun r => ?_⟩
  by_cases hr : r ∈ rangesOf k h
  · have h1 := blocks_values (V := fun r => (valuesOf k r h).reverse.map (valDbg k)) r (rangesOf_nodup k h)
    have h2 := blocks_values (V := fun r => (valuesOf k r h').reverse.map (valDbg k)) r (rangesOf_nodup k h')
    rw [e, h2, if_pos hr, if_pos (e1 ▸ hr)] at h1
    have := map_inj_on (fun x _ y _ => inj x y) h1
    rw [List.reverse_inj] at this
    exact this.symm
  · rw [valuesOf_not_mem hr, valuesOf_not_mem (e1 ▸ hr)]

end LNlp
