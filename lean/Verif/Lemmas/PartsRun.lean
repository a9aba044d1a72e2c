import Verif.Lemmas.Parts
import Verif.Lemmas.Beside
import Verif.Lemmas.Edit
import Verif.Props.Select
import Verif.Props.Cut
import Verif.Spec.Parts
/- Runs of a pipeline on a line put together from two parts. -/
namespace LNlp
variable {W : World}

/-- `l` consists of `lx` and `ly`, for the types `good` also in the order of the attributes -/
structure InParts (good : Ty W → Prop) (l : LLLine W) (h : History W) (lx : LLLine W) (hx : History W) (ly : LLLine W)
    (hy : History W) : Prop where
  hl : Honest l h
  hlx : Honest lx hx
  hly : Honest ly hy
  nex : lx.ll_tokens ≠ []
  ney : ly.ll_tokens ≠ []
  tokens : TokensBeside l lx ly
  joined : Joined l h lx hx ly hy
  types : ∀ k, good k → ofType k h = ofType k hx ++ (ofType k hy).map (Rec.shift lx.ll_tokens.length)

theorem valuesOf_far {k : Ty W} {A : History W} {n i : Nat} (hA : ∀ x ∈ A, x.range.1 < n) (hi : n ≤ i) :
    valuesOf k (i, i) A = [] := by
  refine List.eq_nil_iff_forall_not_mem.2 fun v hv => ?_
  have := hA _ (mem_valuesOf.1 hv)
  simp only at this
  omega

theorem valuesOf_near {k : Ty W} {B : History W} {n i : Nat} (hi : i < n) : valuesOf k (i, i) (B.map (Rec.shift n)) = [] := by
  refine List.eq_nil_iff_forall_not_mem.2 fun v hv => ?_
  obtain ⟨y, _, e⟩ := List.mem_map.1 (mem_valuesOf.1 hv)
  have := congrArg (fun x : Rec W => x.range.1) e
  simp only [Rec.shift, shiftR] at this
  omega

theorem recs_join (k : Ty W) (n : Nat) (as bs : List (LLCursorAssignment (Val k))) :
    (as ++ bs.map (LLCursorAssignment.shift n)).map (recOf k) = as.map (recOf k) ++ (bs.map (recOf k)).map (Rec.shift n) := by
  rw [List.map_append, List.map_map, List.map_map]
  rfl

theorem ofType_recs_join {k k' : Ty W} (n : Nat) (as bs : List (LLCursorAssignment (Val k))) :
    ofType k' ((as ++ bs.map (LLCursorAssignment.shift n)).map (recOf k)) =
      ofType k' (as.map (recOf k)) ++ (ofType k' (bs.map (recOf k))).map (Rec.shift n) := by
  rw [recs_join, ofType_append, ofType_shift]

/-- one run -/
theorem InParts.run {good : Ty W → Prop} {l lx ly : LLLine W} {h hx hy : History W} (P : InParts good l h lx hx ly hy)
    (r : Resolver W) {p px py : Nat} {as bs : List (LLCursorAssignment (Val r.attr))} (rx : HonestRun lx px r as)
    (ry : HonestRun ly py r bs) (rl : HonestRun l p r (as ++ bs.map (LLCursorAssignment.shift lx.ll_tokens.length)))
    (new : good r.attr → ofType r.attr hy = [] ∨ as = []) :
    ∃ l' lx' ly', l.run p r = .ok l' ∧ lx.run px r = .ok lx' ∧ ly.run py r = .ok ly' ∧
      InParts good l' (h ++ (as ++ bs.map (LLCursorAssignment.shift lx.ll_tokens.length)).map (recOf r.attr))
        lx' (hx ++ as.map (recOf r.attr)) ly' (hy ++ bs.map (recOf r.attr)) := by
  obtain ⟨l', run, hh⟩ := C23_honest_run_ok P.hl (joined_ne P.joined P.nex) p r _ rl
  obtain ⟨lx', runx, hhx⟩ := C23_honest_run_ok P.hlx P.nex px r _ rx
  obtain ⟨ly', runy, hhy⟩ := C23_honest_run_ok P.hly P.ney py r _ ry
  have t := run_tokens run
  have tx := run_tokens runx
  have ty := run_tokens runy
  refine ⟨l', lx', ly', run, runx, runy, ⟨hh, hhx, hhy, by rw [tx]; exact P.nex, by rw [ty]; exact P.ney, ?_, ⟨?_, ?_, ?_, ?_, ?_⟩, ?_⟩⟩
  · unfold TokensBeside; rw [t, tx, ty]; exact P.tokens
  · rw [t, tx, ty]; exact P.joined.len
  · intro i hi
    rw [tx] at hi
    rw [textAt_token, textAt_token, t, tx, ← textAt_token, ← textAt_token]
    exact P.joined.textL i hi
  · intro i
    rw [textAt_token, textAt_token, t, tx, ty, ← textAt_token, ← textAt_token]
    exact P.joined.textR i
  · intro k i hi
    rw [tx] at hi
    rw [valuesOf_append, recs_join, valuesOf_append, valuesOf_near hi, List.append_nil, valuesOf_append, P.joined.valL k i hi]
  · intro k i
    rw [tx]
    have hb : ∀ x ∈ as.map (recOf r.attr), x.range.1 < lx.ll_tokens.length := by
      intro x hm
      have := (hhx.spec.1.rep.bounds x (by simp [hm])).1
      rwa [tx] at this
    have := valuesOf_shift k (bs.map (recOf r.attr)) lx.ll_tokens.length (i, i)
    simp only [shiftR] at this
    rw [valuesOf_append, recs_join, valuesOf_append, valuesOf_far hb (Nat.le_add_right _ _), List.nil_append, valuesOf_append,
      P.joined.valR k i, Nat.add_comm, this]
  · intro k hk
    rw [tx, ofType_append, ofType_append, ofType_append, ofType_recs_join, P.types k hk, List.map_append]
    by_cases he : r.attr = k
    · subst he
      rcases new hk with e | e
      · rw [e]; simp
      · subst e; simp [ofType]
    · simp [ofType_recs_other he]

/-- what a stage does on the parts and on the whole -/
theorem InParts.stage {good : Ty W → Prop} {l lx ly : LLLine W} {h hx hy : History W} (P : InParts good l h lx hx ly hy)
    (s : Stage W) (cut : s.Cut lx hx ly hy) (p px py : Nat) :
    (∃ as bs, HonestRun lx px s.resolver as ∧ HonestRun ly py s.resolver bs ∧
      HonestRun l p s.resolver (as ++ bs.map (LLCursorAssignment.shift lx.ll_tokens.length))) ∨
    ((∃ e, l.run p s.resolver = .error e) ∧
      ((∃ e, lx.run px s.resolver = .error e) ∨ (∃ e, ly.run py s.resolver = .error e))) := by
  have ne := joined_ne P.joined P.nex
  have hr := P.hl.spec.1
  have hrx := P.hlx.spec.1
  have hry := P.hly.spec.1
  cases s with
  | table t =>
    have gx := C58_table t _ (wholeLine_inside P.nex px)
    have gy := C58_table t _ (wholeLine_inside P.ney py)
    have j := joined_table P.joined P.nex P.ney t p px py
    rw [gx, gy] at j
    exact .inl ⟨_, _, ⟨table_resolver t gx, table_honest t gx⟩, ⟨table_resolver t gy, table_honest t gy⟩,
      ⟨table_resolver t j, table_honest t j⟩⟩
  | pos =>
    have gx := C63_pos (s := wholeLine lx px) hrx (wholeLine_inside P.nex px)
    have gy := C63_pos (s := wholeLine ly py) hry (wholeLine_inside P.ney py)
    have j := joined_pos P.joined P.nex P.ney hr hrx hry p px py
    rw [gx, gy] at j
    exact .inl ⟨_, _, ⟨pos_resolver gx, pos_honest gx⟩, ⟨pos_resolver gy, pos_honest gy⟩, ⟨pos_resolver j, pos_honest j⟩⟩
  | keywords kw =>
    have gx := keywordGo_eq kw (wholeLine_inside P.nex px)
    have gy := keywordGo_eq kw (wholeLine_inside P.ney py)
    have j := joined_keywords P.joined P.nex P.ney kw p px py
    rw [gx, gy] at j
    exact .inl ⟨_, _, ⟨keyword_resolver kw gx, keyword_honest kw gx⟩, ⟨keyword_resolver kw gy, keyword_honest kw gy⟩,
      ⟨keyword_resolver kw j, keyword_honest kw j⟩⟩
  | clauses => exact cut.elim
  | amounts r =>
    have j : r.go (wholeLine l p) = joinAssigned lx.ll_tokens.length (r.go (wholeLine lx px)) (r.go (wholeLine ly py)) := by
      rcases cut with sep | ⟨sep, hat⟩
      · exact joined_amounts P.joined P.nex P.ney hr hrx hry r sep p px py
      · exact joined_amounts_before P.joined P.nex P.ney hr hrx hry r sep hat p px py
    cases gx : r.go (wholeLine lx px) with
    | error e =>
      rw [gx] at j
      exact .inr ⟨⟨e, C68_run_panics r ne p e j⟩, .inl ⟨e, C68_run_panics r P.nex px e gx⟩⟩
    | ok as =>
      cases gy : r.go (wholeLine ly py) with
      | error e =>
        rw [gx, gy] at j
        exact .inr ⟨⟨e, C68_run_panics r ne p e j⟩, .inr ⟨e, C68_run_panics r P.ney py e gy⟩⟩
      | ok bs =>
        rw [gx, gy] at j
        exact .inl ⟨as, bs,
          ⟨amount_resolver r gx, amount_honest r (s := wholeLine lx px) hrx.rep (wholeLine_inside P.nex px) gx⟩,
          ⟨amount_resolver r gy, amount_honest r (s := wholeLine ly py) hry.rep (wholeLine_inside P.ney py) gy⟩,
          ⟨amount_resolver r j, amount_honest r (s := wholeLine l p) hr.rep (wholeLine_inside ne p) j⟩⟩

theorem separator_run {r : AmountResolver} {l l' : LLLine W} {h : History W} {i : Nat} (t : l'.ll_tokens = l.ll_tokens)
    {k : Ty W} (h1 : k ≠ .char) (h2 : k ≠ .textTag) (as : List (LLCursorAssignment (Val k)))
    (hs : Separator r l h i) : Separator r l' (h ++ as.map (recOf k)) i := by
  have e : ∀ k' : Ty W, k ≠ k' → valuesOf k' (i, i) (h ++ as.map (recOf k)) = valuesOf k' (i, i) h := by
    intro k' hk
    rw [valuesOf_append, valuesOf_ofType k' _ (as.map _), ofType_recs_other hk]
    simp [valuesOf]
  unfold Separator NumAt DelimAt DecAt tagsOn charsOn at *
  rw [e _ h1, e _ h2, textAt_token, t, ← textAt_token]
  exact hs

theorem cut_run {s : Stage W} {lx lx' ly ly' : LLLine W} {hx hy : History W} (tx : lx'.ll_tokens = lx.ll_tokens)
    (ty : ly'.ll_tokens = ly.ll_tokens) {k : Ty W} (h1 : k ≠ .char) (h2 : k ≠ .textTag)
    (as bs : List (LLCursorAssignment (Val k))) (cut : s.Cut lx hx ly hy) :
    s.Cut lx' (hx ++ as.map (recOf k)) ly' (hy ++ bs.map (recOf k)) := by
  cases s with
  | table _ => trivial
  | pos => trivial
  | keywords _ => trivial
  | clauses => exact cut.elim
  | amounts r =>
    rcases cut with sep | ⟨sep, x, hx, e⟩
    · refine .inl ?_
      rw [tx]
      exact separator_run tx h1 h2 as sep
    · exact .inr ⟨separator_run ty h1 h2 bs sep, x, by simp [hx], e⟩

/-- all runs -/
theorem InParts.runs {good : Ty W → Prop} : ∀ (ss : List (Stage W)) {l lx ly : LLLine W} {h hx hy : History W}
    (_ : InParts good l h lx hx ly hy) (_ : (ss.map (·.resolver.attr)).Pairwise (· ≠ ·))
    (_ : ∀ s ∈ ss, s.resolver.attr ≠ .char ∧ s.resolver.attr ≠ .textTag ∧ ofType s.resolver.attr hy = [])
    (_ : ∀ s ∈ ss, s.Cut lx hx ly hy) (p px py : Nat → Nat),
    (∃ l' lx' ly' h' hx' hy', runAll l (runsAt p ss) = .ok l' ∧ runAll lx (runsAt px ss) = .ok lx' ∧
      runAll ly (runsAt py ss) = .ok ly' ∧ InParts good l' h' lx' hx' ly' hy') ∨
    ((∃ e, runAll l (runsAt p ss) = .error e) ∧
      ((∃ e, runAll lx (runsAt px ss) = .error e) ∨ (∃ e, runAll ly (runsAt py ss) = .error e)))
  | [], _, _, _, _, _, _, P, _, _, _, _, _, _ => .inl ⟨_, _, _, _, _, _, rfl, rfl, rfl, P⟩
  | s :: ss, l, lx, ly, h, hx, hy, P, dist, fresh, cut, p, px, py => by
    simp only [runsAt, runAll]
    rcases P.stage s (cut s (by simp)) (p 0) (px 0) (py 0) with ⟨as, bs, rx, ry, rl⟩ | ⟨⟨e, he⟩, hxy⟩
    · obtain ⟨f1, f2, f3⟩ := fresh s (by simp)
      obtain ⟨l', lx', ly', run, runx, runy, P'⟩ := P.run s.resolver rx ry rl (fun _ => .inl f3)
      rw [run, runx, runy]
      rw [List.map_cons, List.pairwise_cons] at dist
      refine InParts.runs ss P' dist.2 (fun s' hm => ?_) (fun s' hm => ?_) _ _ _
      · obtain ⟨g1, g2, g3⟩ := fresh s' (by simp [hm])
        refine ⟨g1, g2, ?_⟩
        rw [ofType_append, g3, ofType_recs_other (dist.1 _ (List.mem_map.2 ⟨s', hm, rfl⟩))]
        rfl
      · exact cut_run (run_tokens runx) (run_tokens runy) f1 f2 as bs (cut s' (by simp [hm]))
    · refine .inr ⟨⟨e, by rw [he]⟩, ?_⟩
      rcases hxy with ⟨e, he⟩ | ⟨e, he⟩
      · exact .inl ⟨e, by rw [he]⟩
      · exact .inr ⟨e, by rw [he]⟩

theorem inParts_create {size : Str → Nat} {xs ys : List (InputToken W)} {l lx ly : LLLine W}
    (wf : ∀ t ∈ xs ++ ys, t.WF) (ok : createLineFromInputTokens W (xs ++ ys) size = .ok l)
    (okx : createLineFromInputTokens W xs size = .ok lx) (oky : createLineFromInputTokens W ys size = .ok ly)
    (nx : xs ≠ []) (ny : ys ≠ []) :
    InParts (fun k => k = .char ∨ k = .textTag → NoCustom k (xs ++ ys)) l (creationHistory W size (xs ++ ys)) lx
      (creationHistory W size xs) ly (creationHistory W size ys) :=
  have wfx : ∀ t ∈ xs, t.WF := fun t ht => wf t (by simp [ht])
  have wfy : ∀ t ∈ ys, t.WF := fun t ht => wf t (by simp [ht])
  ⟨.create _ size _ wf ok, .create _ size _ wfx okx, .create _ size _ wfy oky, create_ne wfx okx nx, create_ne wfy oky ny,
    tokensBeside_create wf ok okx oky, joined_create wf ok okx oky, fun _ hk => ofType_create wf ok okx oky hk⟩

/-- a text with a word boundary and the two texts make the same line -/
theorem create_break (L : SplitLaws W) (S : SplitStable W) {a b : Str} (na : a ≠ []) (nb : b ≠ []) (cut : WordBreak W a b)
    (l : LLLine W) :
    createLineFromString W (a ++ b) = .ok l ↔ createLineFromInputTokens W [.Text a [], .Text b []] utf8Len = .ok l := by
  have := C113_cut L S utf8Len [] [] (a ++ b) _ _ ((wordBreak_iff L S a b).1 cut) (fun e => na ((split_nil_iff L a).1 e))
    (fun e => nb ((split_nil_iff L b).1 e)) l
  rw [L.concat, L.concat] at this
  exact this.symm

end LNlp
