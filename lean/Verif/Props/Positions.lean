import Verif.Props.Tokenize
import Verif.Props.Select
import Verif.Props.Compose
import Verif.Spec.Positions
import Verif.Lemmas.Algebra
/- C114: positions identify tokens.  C115: find(attr) is query, ordered by start. -/
namespace LNlp
variable {W : World} {Out Out' : Type}

/-! ### C114 -/

theorem take_sum_lt (toks : List (LToken × Nat)) (hp : ∀ p ∈ toks, 0 < p.2) :
    ∀ i j, i < j → j ≤ toks.length → totalSize (toks.take i) < totalSize (toks.take j) := by
  intro i j hij hj
  have hsplit : toks.take j = toks.take i ++ (toks.drop i).take (j - i) := by
    rw [show j = i + (j - i) by omega, List.take_add]
    simp
  rw [hsplit, totalSize_append]
  cases hd : (toks.drop i).take (j - i) with
  | nil =>
    have := congrArg List.length hd
    simp only [List.length_take, List.length_drop, List.length_nil] at this
    omega
  | cons p ps =>
    have hm : p ∈ toks := List.mem_of_mem_drop (List.mem_of_mem_take (by rw [hd]; simp : p ∈ (toks.drop i).take (j - i)))
    have := hp p hm
    simp only [totalSize, List.map_cons, List.sum_cons]
    omega

theorem takesSpace_sizes {size : Str → Nat} {input : List (InputToken W)} (sp : TakesSpace size input)
    (hg : ∀ t ∈ input, GoodInput W t) : ∀ p ∈ input.flatMap (tokensOf W size), 0 < p.2 := by
  intro p hp
  obtain ⟨t, ht, hp⟩ := List.mem_flatMap.1 hp
  cases t with
  | Custom n as =>
    simp only [tokensOf, List.mem_singleton] at hp
    subst hp
    exact sp.2 n as ht
  | Text s as =>
    simp only [tokensOf, List.mem_map] at hp
    obtain ⟨q, hq, rfl⟩ := hp
    apply sp.1
    have hgood : GoodText W s := (show GoodText W s ∧ textPieces W s ≠ [] from hg _ ht).1
    unfold textPieces at hq
    obtain ⟨w, hw, hq⟩ := List.mem_flatMap.1 hq
    unfold wordPieces at hq
    split at hq
    · exact (runsOf_uniform W w q hq).1
    · simp only [List.mem_singleton] at hq
      subst hq
      exact (hgood w hw).1

/-- C114: if every token has a size, later tokens start and end at later positions. -/
theorem C114_increasing (size : Str → Nat) (input : List (InputToken W)) (l0 l : LLLine W)
    (wf : ∀ t ∈ input, t.WF) (ok : createLineFromInputTokens W input size = .ok l0) (runs : RunsTo l0 l)
    (fits : totalSize (input.flatMap (tokensOf W size)) < W.usizeBound) (sp : TakesSpace size input)
    (i j : Nat) (hi : i < l.ll_tokens.length) (hj : j < l.ll_tokens.length) :
    (i < j ↔ startPos l i < startPos l j) ∧ (i < j ↔ endPos l i < endPos l j) := by
  have ht : l.ll_tokens = l0.ll_tokens := runsTo_tokens runs
  obtain ⟨hlen, hpos⟩ := C02_positions_tile size input l0 wf ok fits
  have hsz := takesSpace_sizes sp (create_inv wf ok).1
  rw [← ht] at hlen hpos
  generalize input.flatMap (tokensOf W size) = toks at *
  have hS : ∀ i, i < l.ll_tokens.length → startPos l i = totalSize (toks.take i) ∧ endPos l i = totalSize (toks.take (i + 1)) := by
    intro i hi
    obtain ⟨n, h1, _, h2, h3⟩ := hpos i _ (List.getElem?_eq_getElem hi)
    unfold startPos endPos
    rw [List.getElem?_eq_getElem hi]
    simp only [Option.map_some, Option.getD_some]
    refine ⟨h2, ?_⟩
    rw [h3, h2, List.take_add_one, h1, totalSize_append]
    simp [totalSize]
  have mono := take_sum_lt toks hsz
  obtain ⟨a1, a2⟩ := hS i hi
  obtain ⟨b1, b2⟩ := hS j hj
  rw [a1, a2, b1, b2]
  rw [hlen] at hi hj
  constructor
  · constructor
    · intro h; exact mono i j h (by omega)
    · intro h
      rcases Nat.lt_trichotomy i j with h' | h' | h'
      · exact h'
      · subst h'; omega
      · have := mono j i h' (by omega); omega
  · constructor
    · intro h; exact mono (i + 1) (j + 1) (by omega) (by omega)
    · intro h
      rcases Nat.lt_trichotomy i j with h' | h' | h'
      · exact h'
      · subst h'; omega
      · have := mono (j + 1) (i + 1) (by omega) (by omega); omega

/-- C114: two finds with the same `range()` are on the same tokens, whatever was searched for. -/
theorem C114_find (size : Str → Nat) (input : List (InputToken W)) (l0 l : LLLine W)
    (wf : ∀ t ∈ input, t.WF) (ok : createLineFromInputTokens W input size = .ok l0) (runs : RunsTo l0 l)
    (fits : totalSize (input.flatMap (tokensOf W size)) < W.usizeBound) (sp : TakesSpace size input)
    (ne : l.ll_tokens ≠ []) (ptr : Nat) {m : XMatch W Out} {m' : XMatch W Out'} (hm : Builtin m) (hm' : Builtin m')
    (out : List (LLSelection W × Out)) (out' : List (LLSelection W × Out'))
    (hf : (wholeLine l ptr).findBy m = .ok out) (hf' : (wholeLine l ptr).findBy m' = .ok out') :
    ∃ fs fs', l.find m = .ok fs ∧ l.find m' = .ok fs' ∧
      ∀ (n n' : Nat) p p' f f', out[n]? = some p → fs[n]? = some f → out'[n']? = some p' → fs'[n']? = some f' →
        f.range = f'.range → p.1.start_idx = p'.1.start_idx ∧ p.1.end_idx = p'.1.end_idx := by
  obtain ⟨h, hr⟩ := runsTo_reachable (.create input size l0 wf ok) runs
  obtain ⟨fs, hfs, _, hF⟩ := C52_find hr ne ptr hm out hf
  obtain ⟨fs', hfs', _, hF'⟩ := C52_find hr ne ptr hm' out' hf'
  refine ⟨fs, fs', hfs, hfs', ?_⟩
  intro n n' p p' f f' h1 h2 h3 h4 heq
  obtain ⟨_, t, u, ht, hu, e⟩ := hF n p f h1 h2
  obtain ⟨_, t', u', ht', hu', e'⟩ := hF' n' p' f' h3 h4
  rw [e, e', Prod.mk.injEq] at heq
  have lt : ∀ {i : Nat} {t : LLToken}, l.ll_tokens[i]? = some t → i < l.ll_tokens.length := by
    intro i t h; exact (List.getElem?_eq_some_iff.1 h).1
  have inc := C114_increasing size input l0 l wf ok runs fits sp
  have s1 : startPos l p.1.start_idx = t.pos_starts_at := by simp [startPos, ht]
  have s2 : startPos l p'.1.start_idx = t'.pos_starts_at := by simp [startPos, ht']
  have s3 : endPos l p.1.end_idx = u.pos_ends_at := by simp [endPos, hu]
  have s4 : endPos l p'.1.end_idx = u'.pos_ends_at := by simp [endPos, hu']
  have a1 := (inc _ _ (lt ht) (lt ht')).1
  have a2 := (inc _ _ (lt ht') (lt ht)).1
  have a3 := (inc _ _ (lt hu) (lt hu')).2
  have a4 := (inc _ _ (lt hu') (lt hu)).2
  rw [s1, s2] at a1 a2
  rw [s3, s4] at a3 a4
  omega

/-- C114: lines of texts measured in UTF-8 bytes take space. -/
theorem C114_texts (input : List (InputToken W)) (ht : ∀ t ∈ input, ∃ s as, t = .Text s as) :
    TakesSpace utf8Len input := by
  constructor
  · intro s hs
    cases s with
    | nil => exact absurd rfl hs
    | cons c cs =>
      simp only [utf8Len, List.map_cons, List.sum_cons]
      have := Char.utf8Size_pos c
      omega
  · intro n as h
    obtain ⟨s, as', e⟩ := ht _ h
    cases e

/-- C114 needs sizes: two custom tokens of size 0 are both at (0, 0). -/
theorem C114_size_zero : ∃ l fs f f', createLineFromInputTokens Demo.W
      [.Custom 0 [AnyAttribute.new (Ty.user 0) (['a'] : Str)], .Custom 0 [AnyAttribute.new (Ty.user 0) (['b'] : Str)]]
      List.length = .ok l ∧ l.find (X.attr (Ty.user (W := Demo.W) (0 : Nat))) = .ok fs ∧ fs[0]? = some f ∧
      fs[1]? = some f' ∧ f.range = f'.range :=
  ⟨_, _, _, _, rfl, rfl, rfl, rfl, rfl⟩

theorem Demo.exTakesSpace : TakesSpace List.length Demo.exInput := by
  refine ⟨fun s hs => List.length_pos_iff.2 hs, ?_⟩
  intro n as h
  simp only [Demo.exInput, List.mem_cons, List.not_mem_nil, or_false, reduceCtorEq, InputToken.Custom.injEq, false_or] at h
  omega

example := C114_increasing List.length Demo.exInput Demo.exLine Demo.exLine2 Demo.exInput_wf Demo.exLine_ok
  (.run 7 Demo.exRes .refl Demo.exLine2_ok) (by decide) Demo.exTakesSpace 2 5 (by decide) (by decide)

example := C114_find (W := Demo.W) List.length Demo.exInput Demo.exLine Demo.exLine Demo.exInput_wf Demo.exLine_ok .refl (by decide)
  Demo.exTakesSpace Demo.exLine_ne 0 (m := X.attr .textTag) (m' := X.attr (Ty.user (0 : Nat))) (.attr _ trivial) (.attr _ trivial)
  _ _ rfl rfl

example := C114_texts (W := Demo.W) [.Text ['a'] [], .Text ['é'] []] (by simp)

/-! ### C115 -/

theorem flatMap_append_perm {α β : Type} (f g : α → List β) : ∀ xs : List α,
    (xs.flatMap (fun x => f x ++ g x)).Perm (xs.flatMap f ++ xs.flatMap g)
  | [] => .refl _
  | x :: xs => by
    simp only [List.flatMap_cons]
    refine ((List.Perm.append_left _ (flatMap_append_perm f g xs))).trans ?_
    simp only [List.append_assoc]
    refine List.Perm.append_left _ ?_
    simp only [← List.append_assoc]
    exact List.Perm.append_right _ List.perm_append_comm

theorem flatMap_single {β : Type} (a : Nat) (x : List β) : ∀ n, a < n →
    (List.range n).flatMap (fun i => if a = i then x else []) = x
  | 0, h => by omega
  | n + 1, h => by
    rw [List.range_succ, List.flatMap_append]
    by_cases ha : a = n
    · subst ha
      have : (List.range a).flatMap (fun i => if a = i then x else []) = [] := by
        rw [List.flatMap_eq_nil_iff]
        intro i hi
        rw [List.mem_range] at hi
        rw [if_neg (by omega)]
      rw [this]
      simp
    · rw [flatMap_single a x n (by omega)]
      simp [ha]

/-- putting things into buckets only rearranges them -/
theorem buckets_perm {α β : Type} (g : α → Nat) (f : α → List β) (n : Nat) : ∀ q : List α, (∀ e ∈ q, g e < n) →
    ((List.range n).flatMap (fun i => (q.filter (fun e => decide (g e = i))).flatMap f)).Perm (q.flatMap f)
  | [], _ => by simp
  | e :: q, h => by
    have ih := buckets_perm g f n q (fun x hx => h x (by simp [hx]))
    have : ∀ i, ((e :: q).filter (fun e => decide (g e = i))).flatMap f =
        (if g e = i then f e else []) ++ (q.filter (fun e => decide (g e = i))).flatMap f := by
      intro i
      by_cases hi : g e = i <;> simp [hi]
    simp only [this]
    refine (flatMap_append_perm _ _ _).trans ?_
    rw [flatMap_single (g e) (f e) n (h e (by simp)), List.flatMap_cons]
    exact List.Perm.append_left _ ih

/-- C115: `find(attr::<T>())` returns the values of `query::<T>()`, entry by entry ordered by the start of the
entry (entries of the same start in the order of the query), with the positions of the entry. -/
theorem C115_find_is_query {l : LLLine W} {h : History W} (hr : Reachable l h) (k : Ty W)
    (q : List (LRange × Str × List (Val k))) (hq : l.query k = .ok q) :
    ∃ fs, l.find (X.attr k) = .ok fs ∧
      fs.map (fun f => (f.range, f.attr)) = (List.range l.ll_tokens.length).flatMap (fun i =>
        (q.filter (fun e => decide (e.1.1 = i))).flatMap (fun e =>
          e.2.2.map (fun v => ((startPos l e.1.1, endPos l e.1.2), v)))) := by
  have ordered : ∀ r ∈ rangesOf k h, r.1 ≤ r.2 + 1 := by
    intro r hr2
    apply Nat.le_of_not_lt
    intro hc
    obtain ⟨e, he⟩ := (C13_query_panics_iff hr k).2 ⟨r, hr2, by omega⟩
    rw [hq] at he; cases he
  have hq' := C13_query_is_history hr k ordered
  obtain rfl := Except.ok.inj (hq.symm.trans hq')
  have hfind : l.find (X.attr k) = .ok ((List.range l.ll_tokens.length).flatMap (fun i =>
      (((rangesOf k h).filter (fun r => decide (r.1 = i))).flatMap (fun r => (valuesOf k r h).map (fun v => (v, r.2)))).map
        (fun p => ({ start_pos_at := startPos l i, end_pos_at := endPos l p.2, found := p.1 } : LLLineFind (Val k))))) := by
    unfold LLLine.find
    apply flatMapR_ok
    intro i hi
    rw [List.mem_range] at hi
    rw [show (X.attr k).go (.fwd i) l = _ from rep_attr_fwd hr.rep k hi]
    apply mapR_ok
    intro p hp
    obtain ⟨r, hr', hp⟩ := List.mem_flatMap.1 hp
    obtain ⟨v, hv, rfl⟩ := List.mem_map.1 hp
    have hb : r.2 < l.ll_tokens.length := by
      obtain ⟨v', hv'⟩ := mem_rangesOf.1 (List.mem_filter.1 hr').1
      exact (hr.rep.bounds _ hv').2
    simp [LLLine.posStartAt, LLLine.posEndAt, List.getElem?_eq_getElem hi, List.getElem?_eq_getElem hb, startPos, endPos]
  refine ⟨_, hfind, ?_⟩
  rw [List.map_flatMap]
  apply flatMap_congr'
  intro i hi
  simp only [List.map_flatMap, List.map_map, List.filter_map, List.flatMap_map]
  apply flatMap_congr'
  intro r hr'
  have hr1 : r.1 = i := by simpa using (List.mem_filter.1 hr').2
  subst hr1
  apply List.map_congr_left
  intro v hv
  rfl

/-- C115: so the finds are a rearrangement of the values of the query. -/
theorem C115_find_perm_query {l : LLLine W} {h : History W} (hr : Reachable l h) (k : Ty W)
    (q : List (LRange × Str × List (Val k))) (hq : l.query k = .ok q) :
    ∃ fs, l.find (X.attr k) = .ok fs ∧ (fs.map (fun f => (f.range, f.attr))).Perm
      (q.flatMap (fun e => e.2.2.map (fun v => ((startPos l e.1.1, endPos l e.1.2), v)))) := by
  obtain ⟨fs, hf, he⟩ := C115_find_is_query hr k q hq
  refine ⟨fs, hf, ?_⟩
  rw [he]
  refine buckets_perm (fun e : LRange × Str × List (Val k) => e.1.1) _ _ q ?_
  intro e he'
  obtain ⟨_, hc, hv⟩ := C13_query_complete hr k q hq
  have hne := (hv e he').1
  cases hvs : e.2.2 with
  | nil => exact absurd hvs hne
  | cons v vs =>
    exact (hr.rep.bounds _ ((hc e.1 v).1 ⟨e.2.1, e.2.2, he', by rw [hvs]; simp⟩)).1

example := C115_find_is_query Demo.exReach2 (Ty.user 2) _ rfl
example := C115_find_perm_query Demo.exReach2 (Ty.user 2) _ rfl

end LNlp
