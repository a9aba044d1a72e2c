import Verif.Props.Parts
import Verif.Props.Pipeline
import Verif.Spec.Document
import Verif.Props.Uax29
/- Pipelines on texts cut into many parts. -/
namespace LNlp
variable {W : World}

/-- no stage can tell which `Rc` holds the line -/
theorem stage_ptr (st : Stage W) {l : LLLine W} {h : History W} (hr : Reachable l h) (ne : l.ll_tokens ≠ []) (p p' : Nat) :
    st.resolver.go (wholeLine l p) = st.resolver.go (wholeLine l p') := by
  cases st with
  | table t =>
    have e : t.go (wholeLine l p) = t.go (wholeLine l p') := table_tokens t ne rfl p' p
    simp only [Stage.resolver, TextMatchAssignResolver.resolver, e]
  | keywords r =>
    have e : r.go (wholeLine l p) = r.go (wholeLine l p') := keywords_tokens r rfl p' p
    simp only [Stage.resolver, ClauseKeywordResolver.resolver, e]
  | pos =>
    have e : posTagGo (wholeLine l p) = posTagGo (wholeLine l p') := pos_same hr hr ne rfl (fun _ => rfl) p' p
    simp only [Stage.resolver, posTagResolver, e]
  | clauses =>
    have same : SameForClauses l l := ⟨rfl, fun _ _ => rfl, fun _ _ => rfl, fun _ _ => rfl⟩
    have e : clauseGo (wholeLine l p) = clauseGo (wholeLine l p') := by
      rw [wholeLine_on l l p' p rfl]
      exact clauseGo_on (wholeLine_inside ne p') same
    simp only [Stage.resolver, clauseResolver, e]
  | amounts r =>
    have e : r.go (wholeLine l p) = r.go (wholeLine l p') := by
      cases hg : r.go (wholeLine l p) with
      | ok out =>
        exact ((C67_amounts r (s := wholeLine l p') hr (wholeLine_inside ne p') out).2
          ((C67_amounts r (s := wholeLine l p) hr (wholeLine_inside ne p) out).1 hg)).symm
      | error e =>
        exact ((C68_panics_iff r (s := wholeLine l p') hr (wholeLine_inside ne p') e).1.2
          ((C68_panics_iff r (s := wholeLine l p) hr (wholeLine_inside ne p) e).1.1 hg)).symm
    simp only [Stage.resolver, AmountResolver.resolver, e]

theorem runAll_ptr : ∀ (ss : List (Stage W)) {l : LLLine W} {h : History W} (_ : Reachable l h) (p p' : Nat → Nat),
    runAll l (runsAt p ss) = runAll l (runsAt p' ss)
  | [], _, _, _, _, _ => rfl
  | s :: ss, l, h, hr, p, p' => by
    have e : l.run (p 0) s.resolver = l.run (p' 0) s.resolver := by
      by_cases ne : l.ll_tokens = []
      · rw [run_empty ne, run_empty ne]
      · have := stage_ptr s hr ne (p 0) (p' 0)
        simp only [wholeLine] at this
        simp only [LLLine.run, this]
    simp only [runsAt, runAll]
    rw [e]
    cases run : l.run (p' 0) s.resolver with
    | error e => rfl
    | ok l1 =>
      obtain ⟨h1, hr1⟩ : ∃ h1, Reachable l1 h1 := by
        by_cases ne : l.ll_tokens = []
        · exact ⟨h, .runEmpty l h _ _ l1 hr ne run⟩
        · obtain ⟨as, _, g, _, _⟩ := run_inv ne run
          exact ⟨_, .run l h _ _ as false l1 hr ne g run⟩
      exact runAll_ptr ss hr1 _ _

theorem analysed_ptr (ss : List (Stage W)) (t : Str) (p q : Nat → Nat) (l : LLLine W) : Analysed p ss t l ↔ Analysed q ss t l := by
  constructor
  · rintro ⟨l0, h0, h1⟩
    exact ⟨l0, h0, by rw [runAll_ptr ss (.create _ _ _ (string_wf t) h0) q p]; exact h1⟩
  · rintro ⟨l0, h0, h1⟩
    exact ⟨l0, h0, by rw [runAll_ptr ss (.create _ _ _ (string_wf t) h0) p q]; exact h1⟩

theorem shiftEntry_zero {V : Type} : (shiftEntry 0 : LRange × Str × V → _) = id := rfl

theorem queriedAll_shift (k : Ty W) (n : Nat) : ∀ (ls : List (LLLine W)) (m : Nat),
    (queriedAll k m ls).map (shiftEntry n) = queriedAll k (n + m) ls
  | [], _ => rfl
  | l :: ls, m => by
    rw [queriedAll, queriedAll, List.map_append, List.map_map, queriedAll_shift k n ls, Nat.add_assoc]
    congr 2
    funext x
    simp only [Function.comp, shiftEntry, Prod.mk.injEq, and_true]
    omega

theorem runAll_tokens : ∀ (rs : List (Nat × Resolver W)) {l l' : LLLine W}, runAll l rs = .ok l' → l'.ll_tokens = l.ll_tokens
  | [], _, _, h => by cases h; rfl
  | (p, r) :: rs, l, l', h => by
    simp only [runAll] at h
    cases hr : l.run p r with
    | error e => rw [hr] at h; cases h
    | ok l1 => rw [hr] at h; rw [runAll_tokens rs h, run_tokens hr]

theorem cut_of_end (L : SplitLaws W) {a : Str} {c : Char} (hc : a.getLast? = some c) {s : Stage W} (he : s.EndsAt c)
    {la lb : LLLine W} (oka : createLineFromString W a = .ok la) (hb : History W) :
    s.Cut la (creationHistory W utf8Len [.Text a []]) lb hb := by
  cases s with
  | table _ => trivial
  | pos => trivial
  | keywords _ => trivial
  | clauses => exact he.elim
  | amounts r => exact .inl (last_separator oka L hc he)

theorem cutInto_doc {cls : Char → WBChar} (U : Uax29 W cls) (nl : (cls '\n').cls = .lf) {ss : List (Stage W)}
    (ends : ∀ s ∈ ss, s.EndsAt '\n') : ∀ (ls : List Str) (last : Str), CutInto W ss (docLines ls last)
  | [], last => by
    unfold docLines
    split
    · trivial
    · assumption
  | a :: as, last => by
    have ih := cutInto_doc U nl ends as last
    have e : docLines (a :: as) last = (a ++ ['\n']) :: docLines as last := rfl
    rw [e]
    generalize docLines as last = ds at ih
    cases ds with
    | nil => show a ++ ['\n'] ≠ []; simp
    | cons d ds =>
      refine ⟨by simp, break_after_newline U (by rw [nl]; rfl) (fun h => by rw [nl] at h; cases h), ⟨'\n', by simp, ends⟩, ih⟩

end LNlp
