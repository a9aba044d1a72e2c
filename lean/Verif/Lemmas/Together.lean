import Verif.Lemmas.PartsRun
import Verif.Props.Edit
import Verif.Spec.Together
/- Runs of a pipeline, in which several stages may assign the same type, on a line put together from two parts. -/
namespace LNlp
variable {W : World}

/-- on every range the values of `h` are those of `hx` and of `hy`, moved by `n` -/
def ValuesBeside (n : Nat) (h hx hy : History W) : Prop :=
  ∀ (k : Ty W) r, valuesOf k r h = valuesOf k r (hx ++ hy.map (Rec.shift n))

/-- of two histories, one before and one behind `n`, one has nothing on the range -/
theorem values_apart {n : Nat} {A B : History W} (hA : ∀ x ∈ A, x.range.1 < n) (k : Ty W) (r : LRange) :
    valuesOf k r A = [] ∨ valuesOf k r (B.map (Rec.shift n)) = [] := by
  by_cases h : r.1 < n
  · refine .inr (List.eq_nil_iff_forall_not_mem.2 fun v hv => ?_)
    obtain ⟨y, _, e⟩ := List.mem_map.1 (mem_valuesOf.1 hv)
    have := congrArg (fun x : Rec W => x.range.1) e
    simp only [Rec.shift, shiftR] at this
    omega
  · refine .inl (List.eq_nil_iff_forall_not_mem.2 fun v hv => ?_)
    exact h (hA _ (mem_valuesOf.1 hv))

theorem ValuesBeside.append {n : Nat} {h hx hy A B : History W} (P : ValuesBeside n h hx hy) (hA : ∀ x ∈ A, x.range.1 < n) :
    ValuesBeside n (h ++ (A ++ B.map (Rec.shift n))) (hx ++ A) (hy ++ B) := by
  intro k r
  rw [valuesOf_append, P k r]
  simp only [List.map_append, valuesOf_append]
  rcases values_apart (B := hy) hA k r with e | e
  · rw [e]; simp
  · rw [e]; simp

theorem valuesBeside_create {size : Str → Nat} {xs ys : List (InputToken W)} {lx ly : LLLine W}
    (wf : ∀ t ∈ xs ++ ys, t.WF) (okx : createLineFromInputTokens W xs size = .ok lx)
    (oky : createLineFromInputTokens W ys size = .ok ly) :
    ValuesBeside lx.ll_tokens.length (creationHistory W size (xs ++ ys)) (creationHistory W size xs) (creationHistory W size ys) := by
  have wfx : ∀ t ∈ xs, t.WF := fun t ht => wf t (by simp [ht])
  have hrx : Reachable lx (creationHistory W size xs) := .create _ size _ wfx okx
  obtain ⟨_, htx, _⟩ := create_inv wfx okx
  obtain ⟨hgy, _, _⟩ := create_inv (fun t ht => wf t (by simp [ht])) oky
  have hy : ∀ t ∈ ys, tokensOf W size t ≠ [] := fun t ht => (inputTokens_ok size (hgy t ht)).2
  have hn : lx.ll_tokens.length = (xs.flatMap (tokensOf W size)).length := by rw [htx, layoutM_length]
  have e1 : builtinHistory W (((xs ++ ys).flatMap (tokensOf W size)).map (·.1)) =
      builtinHistory W ((xs.flatMap (tokensOf W size)).map (·.1)) ++
        (builtinHistory W ((ys.flatMap (tokensOf W size)).map (·.1))).map (Rec.shift lx.ll_tokens.length) := by
    rw [List.flatMap_append, List.map_append, builtinHistory_append, List.length_map, hn]
  have e2 : inputHistory W size 0 (xs ++ ys) = inputHistory W size 0 xs ++
      (inputHistory W size 0 ys).map (Rec.shift lx.ll_tokens.length) := by
    rw [inputHistory_append, inputHistory_shift size _ ys 0 hy, hn]
  have base : ValuesBeside lx.ll_tokens.length (builtinHistory W (((xs ++ ys).flatMap (tokensOf W size)).map (·.1)))
      (builtinHistory W ((xs.flatMap (tokensOf W size)).map (·.1)))
      (builtinHistory W ((ys.flatMap (tokensOf W size)).map (·.1))) := fun k r => by rw [e1]
  have := base.append (A := inputHistory W size 0 xs) (B := inputHistory W size 0 ys)
    (fun x hm => (hrx.rep.bounds x (by simp [creationHistory, hm])).1)
  rw [← e2] at this
  exact this

/-- histories with the same values give queries with the same entries -/
theorem queryTogether_of_history {l lx ly : LLLine W} {h hx hy : History W} (hr : Reachable l h) (hrx : Reachable lx hx)
    (hry : Reachable ly hy) (ho : Ordered h) (hox : Ordered hx) (hoy : Ordered hy) (ht : TokensBeside l lx ly)
    (V : ValuesBeside lx.ll_tokens.length h hx hy) (k : Ty W) : QueryTogether l lx ly k := by
  unfold QueryTogether
  rw [query_history hr ho k, ← entries_beside (h := hx ++ hy.map (Rec.shift lx.ll_tokens.length)) hrx hry hox hoy ht
    (by rw [ofType_append, ofType_shift])]
  have e : (fun r => (r, coveredText l.ll_tokens r, valuesOf k r h)) =
      fun r => (r, coveredText l.ll_tokens r, valuesOf k r (hx ++ hy.map (Rec.shift lx.ll_tokens.length))) := by
    funext r
    rw [V k r]
  rw [e]
  refine List.Perm.map _ ((List.perm_ext_iff_of_nodup (rangesOf_nodup _ _) (rangesOf_nodup _ _)).2 fun r => ?_)
  rw [mem_rangesOf_iff_values, mem_rangesOf_iff_values, V k r]

/-- all runs -/
theorem together_runs : ∀ (ss : List (Stage W)) {l lx ly : LLLine W} {h hx hy : History W}
    (_ : InParts (fun _ => False) l h lx hx ly hy) (_ : ValuesBeside lx.ll_tokens.length h hx hy) (_ : OwnTypes ss)
    (_ : ∀ s ∈ ss, s.Cut lx hx ly hy) (p px py : Nat → Nat),
    (∃ l' lx' ly' h' hx' hy', runAll l (runsAt p ss) = .ok l' ∧ runAll lx (runsAt px ss) = .ok lx' ∧
      runAll ly (runsAt py ss) = .ok ly' ∧ InParts (fun _ => False) l' h' lx' hx' ly' hy' ∧
      ValuesBeside lx'.ll_tokens.length h' hx' hy') ∨
    ((∃ e, runAll l (runsAt p ss) = .error e) ∧
      ((∃ e, runAll lx (runsAt px ss) = .error e) ∨ (∃ e, runAll ly (runsAt py ss) = .error e)))
  | [], _, _, _, _, _, _, P, V, _, _, _, _, _ => .inl ⟨_, _, _, _, _, _, rfl, rfl, rfl, P, V⟩
  | s :: ss, l, lx, ly, h, hx, hy, P, V, own, cut, p, px, py => by
    simp only [runsAt, runAll]
    rcases P.stage s (cut s (by simp)) (p 0) (px 0) (py 0) with ⟨as, bs, rx, ry, rl⟩ | ⟨⟨e, he⟩, hxy⟩
    · obtain ⟨f1, f2⟩ := own s (by simp)
      obtain ⟨l', lx', ly', run, runx, runy, P'⟩ := P.run s.resolver rx ry rl (fun h => h.elim)
      rw [run, runx, runy]
      refine together_runs ss P' ?_ (fun s' hm => own s' (by simp [hm])) (fun s' hm => ?_) _ _ _
      · have tx := run_tokens runx
        rw [tx, recs_join]
        refine V.append fun x hm => ?_
        have := (P'.hlx.spec.1.rep.bounds x (by simp [hm])).1
        rwa [tx] at this
      · exact cut_run (run_tokens runx) (run_tokens runy) f1 f2 as bs (cut s' (by simp [hm]))
    · refine .inr ⟨⟨e, by rw [he]⟩, ?_⟩
      rcases hxy with ⟨e, he⟩ | ⟨e, he⟩
      · exact .inl ⟨e, by rw [he]⟩
      · exact .inr ⟨e, by rw [he]⟩

/-- fewer types -/
theorem InParts.weaken {good : Ty W → Prop} {l lx ly : LLLine W} {h hx hy : History W} (P : InParts good l h lx hx ly hy) :
    InParts (fun _ => False) l h lx hx ly hy :=
  ⟨P.hl, P.hlx, P.hly, P.nex, P.ney, P.tokens, P.joined, fun _ h => h.elim⟩

/-- a text is a line just if its parts are -/
theorem create_both (L : SplitLaws W) (S : SplitStable W) {a b : Str} (na : a ≠ []) (nb : b ≠ []) (brk : WordBreak W a b)
    (fits : utf8Len (a ++ b) < W.usizeBound) : (∃ l, createLineFromString W (a ++ b) = .ok l) ↔
      (∃ la, createLineFromString W a = .ok la) ∧ ∃ lb, createLineFromString W b = .ok lb := by
  have c := C153_parts L S brk fits
  have t : ∀ {s : Str}, s ≠ [] → ((∃ T, TokensIn W s T) ↔ ∃ l, createLineFromString W s = .ok l) := by
    intro s hs
    constructor
    · rintro ⟨T, ⟨e, _⟩ | ⟨l, h, _⟩⟩
      · exact absurd e hs
      · exact ⟨l, h⟩
    · rintro ⟨l, h⟩
      exact ⟨_, .inr ⟨l, h, rfl⟩⟩
  rw [← t (by simp [na]), ← t na, ← t nb]
  constructor
  · rintro ⟨T, hT⟩
    obtain ⟨A, B, hA, hB, _⟩ := (c T).1 hT
    exact ⟨⟨A, hA⟩, ⟨B, hB⟩⟩
  · rintro ⟨⟨A, hA⟩, ⟨B, hB⟩⟩
    exact ⟨_, (c _).2 ⟨A, B, hA, hB, rfl⟩⟩

end LNlp
