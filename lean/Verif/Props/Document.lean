import Verif.Lemmas.Document
/- C157: pipelines on texts cut into many parts. -/
namespace LNlp
variable {W : World}

/-- C157: a pipeline runs on a text exactly if it runs on all the parts, and then the finished line has the tokens and
attributes of the finished parts, one after the other. -/
theorem C157_parts (L : SplitLaws W) (S : SplitStable W) {ss : List (Stage W)} (fresh : FreshTypes ([] : List (InputToken W)) ss) :
    ∀ (ts : List Str), ts ≠ [] → CutInto W ss ts → utf8Len ts.flatten < W.usizeBound → ∀ (p q : Nat → Nat),
    ((∃ l, Analysed p ss ts.flatten l) ↔ ∀ t ∈ ts, ∃ l, Analysed q ss t l) ∧
    ∀ (l : LLLine W) (ls : List (LLLine W)), Analysed p ss ts.flatten l → AnalysedAll q ss ts ls →
      l.ll_tokens.map (·.token) = ls.flatMap (fun x => x.ll_tokens.map (·.token)) ∧ ∀ k, queried l k = queriedAll k 0 ls
  | [], ne, _, _, _, _ => absurd rfl ne
  | [t], _, ht, fits, p, q => by
    have e : [t].flatten = t := by simp
    rw [e]
    have same : ∀ l, Analysed p ss t l ↔ Analysed q ss t l := analysed_ptr ss t p q
    refine ⟨?_, fun l ls hl hls => ?_⟩
    · simp only [List.mem_singleton, forall_eq, same]
    · cases ls with
      | nil => exact hls.elim
      | cons l' ls =>
        cases ls with
        | cons _ _ => exact hls.2.elim
        | nil =>
          obtain ⟨l0, h0, h1⟩ := (same l).1 hl
          obtain ⟨l0', h0', h1'⟩ := hls.1
          cases h0.symm.trans h0'
          cases h1.symm.trans h1'
          refine ⟨by simp, fun k => ?_⟩
          rw [queriedAll, queriedAll, shiftEntry_zero, List.map_id, List.append_nil]
  | t :: u :: rest, _, ⟨ht, brk, ⟨c, hc, he⟩, hrest⟩, fits, p, q => by
    have hne : (u :: rest).flatten ≠ [] := by
      cases rest with
      | nil => simpa [CutInto] using hrest
      | cons v rest => simp [hrest.1]
    have e : (t :: u :: rest).flatten = t ++ (u :: rest).flatten := rfl
    have hu := utf8Len_append t (u :: rest).flatten
    rw [e] at fits ⊢
    have ih := C157_parts L S fresh (u :: rest) (by simp) hrest (by omega) p q
    have main := C156_text L S ht hne brk fits fresh
      (fun la lb oka _ s hs => cut_of_end L hc (he s hs) oka _) p q p
    constructor
    · rw [List.forall_mem_cons, ← ih.1]
      constructor
      · rintro ⟨l, l0, h0, hl⟩
        obtain ⟨⟨la, la', h1, h2⟩, ⟨lb, lb', h3, h4⟩⟩ := main.1.1 ⟨l0, l, h0, hl⟩
        exact ⟨⟨la', la, h1, h2⟩, ⟨lb', lb, h3, h4⟩⟩
      · rintro ⟨⟨la', la, h1, h2⟩, ⟨lb', lb, h3, h4⟩⟩
        obtain ⟨l0, l, h0, hl⟩ := main.1.2 ⟨⟨la, la', h1, h2⟩, ⟨lb, lb', h3, h4⟩⟩
        exact ⟨l, l0, h0, hl⟩
    · rintro l ls ⟨l0, h0, hl⟩ hls
      cases ls with
      | nil => exact hls.elim
      | cons la' ls =>
        obtain ⟨⟨la, oka, ra⟩, hls⟩ := hls
        obtain ⟨_, ⟨lb, lb', okb, rb⟩⟩ := main.1.1 ⟨l0, l, h0, hl⟩
        obtain ⟨ht', hq', _⟩ := main.2 l0 la lb l la' lb' h0 oka okb hl ra rb
        obtain ⟨it, iq⟩ := ih.2 lb' ls ⟨lb, okb, rb⟩ hls
        refine ⟨?_, fun k => ?_⟩
        · rw [List.flatMap_cons, ← it]; exact ht'
        · rw [hq' k, iq k, queriedAll_shift, queriedAll, shiftEntry_zero, List.map_id, Nat.zero_add, Nat.add_zero]

example := C157_parts Demo.splitLaws Demo.splitStable (Demo.partStages_fresh _ (fun k t ht => by cases ht))
  ["I pay ".toList, "5 ".toList, "now".toList] (by decide)
  ⟨by decide, .inr (.inr ⟨["I".toList, " ".toList, "pay".toList, " ".toList], ["5".toList, " ".toList, "now".toList], by decide, by decide⟩),
    ⟨' ', by decide, by
      intro s hs
      simp only [Demo.partStages, List.mem_cons, List.not_mem_nil, or_false] at hs
      rcases hs with rfl | rfl | rfl
      · trivial
      · trivial
      · exact ⟨by decide, by decide, by decide⟩⟩,
    by decide, .inr (.inr ⟨["5".toList, " ".toList], ["now".toList], by decide, by decide⟩),
    ⟨' ', by decide, by
      intro s hs
      simp only [Demo.partStages, List.mem_cons, List.not_mem_nil, or_false] at hs
      rcases hs with rfl | rfl | rfl
      · trivial
      · trivial
      · exact ⟨by decide, by decide, by decide⟩⟩,
    show "now".toList ≠ [] by decide⟩ (by decide) id id

/-- C157: analysing a document is analysing its lines (each with the newline that ends it), for resolvers that read no
newline as part of a number. -/
theorem C157_document {cls : Char → WBChar} (U : Uax29 W cls) (nl : (cls '\n').cls = .lf) {ss : List (Stage W)}
    (fresh : FreshTypes ([] : List (InputToken W)) ss) (ends : ∀ s ∈ ss, s.EndsAt '\n') (ls : List Str) (last : Str)
    (ne : ls ≠ [] ∨ last ≠ []) (fits : utf8Len (docLines ls last).flatten < W.usizeBound) (p q : Nat → Nat) :
    ((∃ l, Analysed p ss (docLines ls last).flatten l) ↔ ∀ t ∈ docLines ls last, ∃ l, Analysed q ss t l) ∧
    ∀ (l : LLLine W) (xs : List (LLLine W)), Analysed p ss (docLines ls last).flatten l → AnalysedAll q ss (docLines ls last) xs →
      l.ll_tokens.map (·.token) = xs.flatMap (fun x => x.ll_tokens.map (·.token)) ∧ ∀ k, queried l k = queriedAll k 0 xs :=
  C157_parts (C124_split_laws U) (C124_split_stable U) fresh _
    (by
      rcases ne with h | h
      · cases ls with
        | nil => exact absurd rfl h
        | cons a as => simp [docLines]
      · simp [docLines, h])
    (cutInto_doc U nl ends ls last) fits p q

theorem Demo.partStages_end : ∀ s ∈ Demo.partStages, s.EndsAt '\n' := by
  intro s hs
  simp only [Demo.partStages, List.mem_cons, List.not_mem_nil, or_false] at hs
  rcases hs with rfl | rfl | rfl
  · trivial
  · trivial
  · exact ⟨by decide, by decide, by decide⟩

/-- the document `I pay 1⏎⏎234 now`: the digits on both sides of the newlines are two amounts -/
example := C157_document Demo.demoUax rfl (Demo.partStages_fresh _ (fun k t ht => by cases ht)) Demo.partStages_end
  ["I pay 1".toList, []] "234 now".toList (.inr (by decide)) (by decide) id id

end LNlp
