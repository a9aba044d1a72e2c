import Verif.Lemmas.Together
import Verif.Props.Document
/- C162: pipelines in which several stages assign the same type, on lines put together from parts. -/
namespace LNlp
variable {W : World}

/-- C162: a pipeline of resolvers that do not cross the cut between two parts, of which several may assign the same type,
also types of attributes of the inputs, runs on the whole exactly if it runs on both parts. Then the finished line has the
tokens of the finished parts, and the attributes of the finished parts in some order, those of the second part moved
behind the first. -/
theorem C162_pipeline {size : Str → Nat} {xs ys : List (InputToken W)} {l lx ly : LLLine W}
    (wf : ∀ t ∈ xs ++ ys, t.WF) (ok : createLineFromInputTokens W (xs ++ ys) size = .ok l)
    (okx : createLineFromInputTokens W xs size = .ok lx) (oky : createLineFromInputTokens W ys size = .ok ly)
    (nx : xs ≠ []) (ny : ys ≠ []) {ss : List (Stage W)} (own : OwnTypes ss)
    (cut : ∀ s ∈ ss, s.Cut lx (creationHistory W size xs) ly (creationHistory W size ys)) (p px py : Nat → Nat) :
    ((∃ l', runAll l (runsAt p ss) = .ok l') ↔
      (∃ lx', runAll lx (runsAt px ss) = .ok lx') ∧ ∃ ly', runAll ly (runsAt py ss) = .ok ly') ∧
    ∀ l' lx' ly', runAll l (runsAt p ss) = .ok l' → runAll lx (runsAt px ss) = .ok lx' → runAll ly (runsAt py ss) = .ok ly' →
      TokensBeside l' lx' ly' ∧ ∀ k, QueryTogether l' lx' ly' k := by
  have P := (inParts_create wf ok okx oky nx ny).weaken
  rcases together_runs ss P (valuesBeside_create wf okx oky) own cut p px py with
    ⟨l', lx', ly', h', hx', hy', r, rx, ry, P', V'⟩ | ⟨⟨e, he⟩, hxy⟩
  · refine ⟨⟨fun _ => ⟨⟨lx', rx⟩, ⟨ly', ry⟩⟩, fun _ => ⟨l', r⟩⟩, fun a b c ha hb hc => ?_⟩
    cases r.symm.trans ha
    cases rx.symm.trans hb
    cases ry.symm.trans hc
    have hh := P'.hl.spec
    have hhx := P'.hlx.spec
    have hhy := P'.hly.spec
    exact ⟨P'.tokens, queryTogether_of_history hh.1 hhx.1 hhy.1 hh.2 hhx.2 hhy.2 P'.tokens V'⟩
  · refine ⟨⟨fun ⟨l', h⟩ => (by rw [he] at h; cases h), fun ⟨⟨lx', h1⟩, ⟨ly', h2⟩⟩ => ?_⟩, fun a b c ha => (by rw [he] at ha; cases ha)⟩
    rcases hxy with ⟨e, h⟩ | ⟨e, h⟩
    · rw [h] at h1; cases h1
    · rw [h] at h2; cases h2

/-- the two tables of `C156_same_type_false` -/
theorem Demo.twoTables_own : OwnTypes Demo.twoTables := by
  intro s hs
  simp only [Demo.twoTables, List.mem_cons, List.not_mem_nil, or_false] at hs
  rcases hs with rfl | rfl <;> exact ⟨(by intro h; cases h), (by intro h; cases h)⟩

theorem Demo.twoTables_end (c : Char) : ∀ s ∈ Demo.twoTables, s.EndsAt c := by
  intro s hs
  simp only [Demo.twoTables, List.mem_cons, List.not_mem_nil, or_false] at hs
  rcases hs with rfl | rfl <;> trivial

example := C162_pipeline (xs := Demo.nowX) (ys := Demo.payY) (size := utf8Len) (by
    intro t ht x hx
    simp only [Demo.nowX, Demo.payY, List.cons_append, List.nil_append, List.mem_cons, List.not_mem_nil, or_false] at ht
    rcases ht with rfl | rfl <;> cases hx) (Demo.getOk_eq (d := Demo.emptyLine) rfl) (Demo.getOk_eq (d := Demo.emptyLine) rfl)
  (Demo.getOk_eq (d := Demo.emptyLine) rfl) (by decide) (by decide) Demo.twoTables_own (by
    intro s hs
    simp only [Demo.twoTables, List.mem_cons, List.not_mem_nil, or_false] at hs
    rcases hs with rfl | rfl <;> trivial) id id id

/-- C162 for a text with a word boundary between two parts. -/
theorem C162_text (L : SplitLaws W) (S : SplitStable W) {a b : Str} (na : a ≠ []) (nb : b ≠ []) (brk : WordBreak W a b)
    (fits : utf8Len (a ++ b) < W.usizeBound) {ss : List (Stage W)} (own : OwnTypes ss)
    (cut : ∀ la lb, createLineFromString W a = .ok la → createLineFromString W b = .ok lb → ∀ s ∈ ss,
      s.Cut la (creationHistory W utf8Len [.Text a []]) lb (creationHistory W utf8Len [.Text b []])) (p pa pb : Nat → Nat) :
    ((∃ l, Analysed p ss (a ++ b) l) ↔ (∃ la, Analysed pa ss a la) ∧ ∃ lb, Analysed pb ss b lb) ∧
    ∀ l la lb, Analysed p ss (a ++ b) l → Analysed pa ss a la → Analysed pb ss b lb →
      TokensBeside l la lb ∧ ∀ k, QueryTogether l la lb k := by
  have wf : ∀ t ∈ [InputToken.Text (W := W) a []] ++ [.Text b []], t.WF := by
    intro t ht x hx
    simp only [List.cons_append, List.nil_append, List.mem_cons, List.not_mem_nil, or_false] at ht
    rcases ht with rfl | rfl <;> cases hx
  have both := create_both L S na nb brk fits
  have main := fun {l la lb : LLLine W} (ok : createLineFromString W (a ++ b) = .ok l) (oka : createLineFromString W a = .ok la)
      (okb : createLineFromString W b = .ok lb) =>
    C162_pipeline (size := utf8Len) wf ((create_break L S na nb brk l).1 ok) oka okb (by simp) (by simp) own
      (cut la lb oka okb) p pa pb
  constructor
  · constructor
    · rintro ⟨l', l, ok, r⟩
      obtain ⟨⟨la, oka⟩, ⟨lb, okb⟩⟩ := both.1 ⟨l, ok⟩
      obtain ⟨⟨la', ra⟩, ⟨lb', rb⟩⟩ := (main ok oka okb).1.1 ⟨l', r⟩
      exact ⟨⟨la', la, oka, ra⟩, ⟨lb', lb, okb, rb⟩⟩
    · rintro ⟨⟨la', la, oka, ra⟩, ⟨lb', lb, okb, rb⟩⟩
      obtain ⟨l, ok⟩ := both.2 ⟨⟨la, oka⟩, ⟨lb, okb⟩⟩
      obtain ⟨l', r⟩ := (main ok oka okb).1.2 ⟨⟨la', ra⟩, ⟨lb', rb⟩⟩
      exact ⟨l', l, ok, r⟩
  · rintro l' la' lb' ⟨l, ok, r⟩ ⟨la, oka, ra⟩ ⟨lb, okb, rb⟩
    exact (main ok oka okb).2 l' la' lb' r ra rb

/-- C162 for a text cut into many parts. -/
theorem C162_parts (L : SplitLaws W) (S : SplitStable W) {ss : List (Stage W)} (own : OwnTypes ss) :
    ∀ (ts : List Str), ts ≠ [] → CutInto W ss ts → utf8Len ts.flatten < W.usizeBound → ∀ (p q : Nat → Nat),
    ((∃ l, Analysed p ss ts.flatten l) ↔ ∀ t ∈ ts, ∃ l, Analysed q ss t l) ∧
    ∀ (l : LLLine W) (ls : List (LLLine W)), Analysed p ss ts.flatten l → AnalysedAll q ss ts ls →
      l.ll_tokens.map (·.token) = ls.flatMap (fun x => x.ll_tokens.map (·.token)) ∧ ∀ k, (queried l k).Perm (queriedAll k 0 ls)
  | [], ne, _, _, _, _ => absurd rfl ne
  | [t], _, ht, fits, p, q => by
    have e : [t].flatten = t := by simp
    rw [e]
    have same : ∀ l, Analysed p ss t l ↔ Analysed q ss t l := analysed_ptr ss t p q
    refine ⟨?_, fun l ls hl hls => ?_⟩
    · simp only [List.mem_singleton, forall_eq, same]
    · cases ls with
      | nil => exact hls.elim
      | cons l' ls =>
        cases ls with
        | cons _ _ => exact hls.2.elim
        | nil =>
          obtain ⟨l0, h0, h1⟩ := (same l).1 hl
          obtain ⟨l0', h0', h1'⟩ := hls.1
          cases h0.symm.trans h0'
          cases h1.symm.trans h1'
          refine ⟨by simp, fun k => ?_⟩
          rw [queriedAll, queriedAll, shiftEntry_zero, List.map_id, List.append_nil]
  | t :: u :: rest, _, ⟨ht, brk, ⟨c, hc, he⟩, hrest⟩, fits, p, q => by
    have hne : (u :: rest).flatten ≠ [] := by
      cases rest with
      | nil => simpa [CutInto] using hrest
      | cons v rest => simp [hrest.1]
    have e : (t :: u :: rest).flatten = t ++ (u :: rest).flatten := rfl
    have hu := utf8Len_append t (u :: rest).flatten
    rw [e] at fits ⊢
    have ih := C162_parts L S own (u :: rest) (by simp) hrest (by omega) p q
    have main := C162_text L S ht hne brk fits own
      (fun la lb oka _ s hs => cut_of_end L hc (he s hs) oka _) p q p
    constructor
    · rw [List.forall_mem_cons, ← ih.1]
      exact main.1
    · intro l ls hl hls
      cases ls with
      | nil => exact hls.elim
      | cons la ls =>
        obtain ⟨ha, hls⟩ := hls
        obtain ⟨_, ⟨lb, hb⟩⟩ := main.1.1 ⟨l, hl⟩
        obtain ⟨ht', hq'⟩ := main.2 l la lb hl ha hb
        obtain ⟨it, iq⟩ := ih.2 lb ls hb hls
        refine ⟨?_, fun k => (hq' k).trans ?_⟩
        · rw [List.flatMap_cons, ← it]; exact ht'
        · have := ((iq k).map (shiftEntry la.ll_tokens.length)).append_left (queried la k)
          rw [queriedAll_shift] at this
          rw [queriedAll, shiftEntry_zero, List.map_id, Nat.zero_add]
          exact this

/-- C162 for the lines of a document. -/
theorem C162_document {cls : Char → WBChar} (U : Uax29 W cls) (nl : (cls '\n').cls = .lf) {ss : List (Stage W)}
    (own : OwnTypes ss) (ends : ∀ s ∈ ss, s.EndsAt '\n') (ls : List Str) (last : Str)
    (ne : ls ≠ [] ∨ last ≠ []) (fits : utf8Len (docLines ls last).flatten < W.usizeBound) (p q : Nat → Nat) :
    ((∃ l, Analysed p ss (docLines ls last).flatten l) ↔ ∀ t ∈ docLines ls last, ∃ l, Analysed q ss t l) ∧
    ∀ (l : LLLine W) (xs : List (LLLine W)), Analysed p ss (docLines ls last).flatten l → AnalysedAll q ss (docLines ls last) xs →
      l.ll_tokens.map (·.token) = xs.flatMap (fun x => x.ll_tokens.map (·.token)) ∧
      ∀ k, (queried l k).Perm (queriedAll k 0 xs) :=
  C162_parts (C124_split_laws U) (C124_split_stable U) own _
    (by
      rcases ne with h | h
      · cases ls with
        | nil => exact absurd rfl h
        | cons a as => simp [docLines]
      · simp [docLines, h])
    (cutInto_doc U nl ends ls last) fits p q

/-- the document `now⏎pay now` -/
example := C162_document Demo.demoUax rfl Demo.twoTables_own (Demo.twoTables_end _) ["now".toList] "pay now".toList
  (.inr (by decide)) (by decide) id id

end LNlp
