import Verif.Lemmas.ProgramAmount
import Verif.Spec.Display
/- Lines that differ in positions only; programs that cannot panic. -/
namespace LNlp
variable {W : World}

/-! ### creation -/

theorem tokensOf_sameInput {size size' : Str → Nat} {t t' : InputToken W} (h : t.withoutSize = t'.withoutSize) :
    (tokensOf W size t).map (·.1) = (tokensOf W size' t').map (·.1) ∧ t.attrList = t'.attrList := by
  cases t <;> cases t' <;> simp only [InputToken.withoutSize, InputToken.Text.injEq, InputToken.Custom.injEq, reduceCtorEq] at h
  · obtain ⟨rfl, rfl⟩ := h
    exact ⟨by simp [tokensOf], rfl⟩
  · exact ⟨rfl, h.2⟩

theorem inputs_cons {t : InputToken W} {ts input' : List (InputToken W)}
    (h : (t :: ts).map InputToken.withoutSize = input'.map InputToken.withoutSize) :
    ∃ t' ts', input' = t' :: ts' ∧ t.withoutSize = t'.withoutSize ∧
      ts.map InputToken.withoutSize = ts'.map InputToken.withoutSize := by
  cases input' with
  | nil => cases h
  | cons t' ts' =>
    simp only [List.map_cons, List.cons.injEq] at h
    exact ⟨t', ts', rfl, h.1, h.2⟩

theorem spansFrom_sameInput {size size' : Str → Nat} : ∀ {input input' : List (InputToken W)} (i : Nat),
    input.map InputToken.withoutSize = input'.map InputToken.withoutSize → spansFrom W size i input = spansFrom W size' i input'
  | [], input', i, h => by
    cases input' with
    | nil => rfl
    | cons _ _ => cases h
  | t :: ts, input', i, h => by
    obtain ⟨t', ts', rfl, h1, h2⟩ := inputs_cons h
    obtain ⟨e1, e2⟩ := tokensOf_sameInput (size := size) (size' := size') h1
    have e3 : (tokensOf W size t).length = (tokensOf W size' t').length := by simpa using congrArg List.length e1
    simp only [spansFrom, e2, e3, spansFrom_sameInput (size := size) (size' := size') _ h2]

theorem tokens_sameInput {size size' : Str → Nat} : ∀ {input input' : List (InputToken W)},
    input.map InputToken.withoutSize = input'.map InputToken.withoutSize →
    (input.flatMap (tokensOf W size)).map (·.1) = (input'.flatMap (tokensOf W size')).map (·.1)
  | [], input', h => by
    cases input' with
    | nil => rfl
    | cons _ _ => cases h
  | t :: ts, input', h => by
    obtain ⟨t', ts', rfl, h1, h2⟩ := inputs_cons h
    simp only [List.flatMap_cons, List.map_append, (tokensOf_sameInput (size := size) (size' := size') h1).1,
      tokens_sameInput (size := size) (size' := size') h2]

theorem foldR_map {α β γ : Type} (f : α → β → R α) (g : α → γ → R α) (t : β → γ) (h : ∀ a b, f a b = g a (t b)) :
    ∀ (xs : List β) (a : α), foldR f a xs = foldR g a (xs.map t)
  | [], _ => rfl
  | x :: xs, a => by
    simp only [List.map_cons, foldR, h a x]
    cases g a (t x) with
    | error e => rfl
    | ok a' => exact foldR_map f g t h xs a'

/-- `insertBuiltin` without positions -/
def insertBuiltin0 (a : LLLineAttrs W) (it : LToken × Nat) : R (LLLineAttrs W) :=
  a.insertBuiltin ({ token_idx := 0, pos_starts_at := 0, pos_ends_at := 0, token := it.1 }, it.2)

theorem new_sameTokens {ts ts' : List LLToken} (h : ts.map (·.token) = ts'.map (·.token)) {l l' : LLLine W}
    (hl : LLLine.new ts = .ok l) (hl' : LLLine.new ts' = .ok l') : SameButPositions l l' := by
  have e : ∀ (us : List LLToken), us.zipIdx.map (fun it => (it.1.token, it.2)) = (us.map (·.token)).zipIdx := by
    intro us
    rw [List.zipIdx_map]
    rfl
  have e2 : ∀ (a : LLLineAttrs W) (us : List LLToken), foldR LLLineAttrs.insertBuiltin a us.zipIdx =
      foldR insertBuiltin0 a (us.map (·.token)).zipIdx := by
    intro a us
    rw [← e us]
    exact foldR_map LLLineAttrs.insertBuiltin insertBuiltin0 (fun it : LLToken × Nat => (it.1.token, it.2)) (fun a b => rfl) _ _
  have hlen : ts.length = ts'.length := by simpa using congrArg List.length h
  simp only [LLLine.new, e2, h, hlen] at hl hl'
  cases hf : foldR (insertBuiltin0 (W := W))
      { ranges := TypeIdToMany.empty
        starts_at := (List.range ts'.length).map (fun _ => TypeIdToMany.empty)
        ends_at := (List.range ts'.length).map (fun _ => TypeIdToMany.empty)
        values := HMap.empty } (ts'.map (·.token)).zipIdx with
  | error e => rw [hf] at hl; cases hl
  | ok a =>
    rw [hf] at hl hl'
    cases hl; cases hl'
    exact ⟨h, rfl⟩

theorem addAny_same {spans : List (Nat × Nat × List (AnyAttribute W))} : ∀ {l l' m m' : LLLine W}, SameButPositions l l' →
    foldR (fun (l : LLLine W) (s : Nat × Nat × List (AnyAttribute W)) => l.addAnyAttrs s.1 s.2.1 s.2.2) l spans = .ok m →
    foldR (fun (l : LLLine W) (s : Nat × Nat × List (AnyAttribute W)) => l.addAnyAttrs s.1 s.2.1 s.2.2) l' spans = .ok m' →
    SameButPositions m m' := by
  induction spans with
  | nil => intro l l' m m' s h h'; cases h; cases h'; exact s
  | cons sp spans ih =>
    intro l l' m m' s h h'
    simp only [foldR, LLLine.addAnyAttrs, s.2] at h h'
    cases hf : foldR (LLLineAttrs.addAny (sp.1, sp.2.1)) l'.attrs sp.2.2 with
    | error e => rw [hf] at h; cases h
    | ok a =>
      rw [hf] at h h'
      exact ih (l := { l with attrs := a }) (l' := { l' with attrs := a }) ⟨s.1, rfl⟩ h h'

theorem sizes_same {size size' : Str → Nat} {input input' : List (InputToken W)}
    (hi : input.map InputToken.withoutSize = input'.map InputToken.withoutSize) {l l' : LLLine W}
    (h : createLineFromInputTokens W input size = .ok l) (h' : createLineFromInputTokens W input' size' = .ok l') :
    SameButPositions l l' := by
  simp only [createLineFromInputTokens] at h h'
  split at h
  · cases h
  rename_i st hst
  split at h'
  · cases h'
  rename_i st' hst'
  have est := (createLoop_inv input hst).2
  have est' := (createLoop_inv input' hst').2
  simp only [List.length_nil, List.nil_append] at est est'
  have hsp : st.spans = st'.spans := by
    rw [est, est']; exact spansFrom_sameInput 0 hi
  have htk : st.lltokens.map (·.token) = st'.lltokens.map (·.token) := by
    rw [est, est']
    simp only [layoutM_tokens]
    exact tokens_sameInput hi
  split at h
  · cases h
  rename_i l0 hl0
  split at h'
  · cases h'
  rename_i l0' hl0'
  rw [hsp] at h
  exact addAny_same (new_sameTokens htk hl0 hl0') h h'

/-! ### running -/

theorem same_empty {l l' : LLLine W} (s : SameButPositions l l') : l.ll_tokens.isEmpty = l'.ll_tokens.isEmpty := by
  have := s.agree.len
  cases h : l.ll_tokens <;> cases h' : l'.ll_tokens <;> rw [h, h'] at this <;> simp at this ⊢

theorem run_same {l l' : LLLine W} (s : SameButPositions l l') {r : Resolver W} (hr : ByApi (fun m => Builtin m) r)
    (ptr ptr' : Nat) : SameResult (l.run ptr r) (l'.run ptr' r) := by
  by_cases ne : l.ll_tokens = []
  · have ne' : l'.ll_tokens = [] := by
      have := same_empty s
      rw [ne] at this
      exact List.isEmpty_iff.1 this.symm
    unfold LLLine.run
    rw [ne, ne']
    exact s
  · have := (byApi_sim (b := true) s.agree.len ne (fun m hm => s.agree.built hm) hr ptr ptr').eq
    have he : l.ll_tokens.isEmpty = false := by simpa using ne
    have he' : l'.ll_tokens.isEmpty = false := by rw [← same_empty s]; exact he
    unfold LLLine.run
    rw [he, he']
    simp only [Bool.false_eq_true, if_false]
    simp only [wholeLine] at this
    rw [this]
    cases r.go { ll_line := ⟨ptr', l'⟩, start_idx := 0, end_idx := l'.ll_tokens.length - 1 } with
    | error e => rfl
    | ok p =>
      obtain ⟨as, leaked⟩ := p
      dsimp only
      cases leaked with
      | true => rfl
      | false =>
        simp only [Bool.false_eq_true, if_false, s.2]
        cases foldR (LLLineAttrs.assign r.attr) l'.attrs as with
        | error e => rfl
        | ok a => exact ⟨s.1, rfl⟩

theorem runAll_same : ∀ {rs rs' : List (Nat × Resolver W)} {l l' : LLLine W}, SameButPositions l l' →
    rs.map (·.2) = rs'.map (·.2) → (∀ p ∈ rs, ByApi (fun m => Builtin m) p.2) → SameResult (runAll l rs) (runAll l' rs')
  | [], [], l, l', s, _, _ => s
  | [], _ :: _, _, _, _, h, _ => by cases h
  | _ :: _, [], _, _, _, h, _ => by cases h
  | (ptr, r) :: rs, (ptr', r') :: rs', l, l', s, h, hb => by
    simp only [List.map_cons, List.cons.injEq] at h
    obtain ⟨rfl, h⟩ := h
    have := run_same s (hb (ptr, r) (by simp)) ptr ptr'
    simp only [runAll]
    cases h1 : l.run ptr r with
    | error e =>
      rw [h1] at this
      cases h2 : l'.run ptr' r with
      | error e' => rw [h2] at this; exact this
      | ok m' => rw [h2] at this; exact this.elim
    | ok m =>
      rw [h1] at this
      cases h2 : l'.run ptr' r with
      | error e' => rw [h2] at this; exact this.elim
      | ok m' =>
        rw [h2] at this
        exact runAll_same this h (fun p hp => hb p (by simp [hp]))

/-! ### looking -/

theorem sliceIncl_map {α β : Type} (f : α → β) (l : List α) (a b : Nat) :
    okMap (List.map f) (sliceIncl l a b) = sliceIncl (l.map f) a b := by
  unfold sliceIncl
  rw [List.length_map]
  split <;> simp [okMap, List.map_drop, List.map_take]

theorem query_same {l l' : LLLine W} (s : SameButPositions l l') (k : Ty W) : l.query k = l'.query k := by
  unfold LLLine.query
  rw [s.2]
  congr 1
  funext range
  have h1 := sliceIncl_map (·.token) l.ll_tokens range.1 range.2
  have h2 := sliceIncl_map (·.token) l'.ll_tokens range.1 range.2
  rw [s.1, ← h2] at h1
  have q : ∀ (ts : List LLToken), ts.map LLToken.queryText = (ts.map (·.token)).map LToken.str := by
    intro ts
    rw [List.map_map]
    apply List.map_congr_left
    intro t _
    unfold LLToken.queryText
    simp only [Function.comp]
    cases t.token <;> rfl
  cases hx : sliceIncl l.ll_tokens range.1 range.2 with
  | error e =>
    rw [hx] at h1
    cases hy : sliceIncl l'.ll_tokens range.1 range.2 with
    | error e' => rw [hy] at h1; simp only [okMap, Except.error.injEq] at h1; rw [h1]
    | ok ts' => rw [hy] at h1; cases h1
  | ok ts =>
    rw [hx] at h1
    cases hy : sliceIncl l'.ll_tokens range.1 range.2 with
    | error e' => rw [hy] at h1; cases h1
    | ok ts' =>
      rw [hy] at h1
      simp only [okMap, Except.ok.injEq] at h1
      dsimp only
      rw [q, q, h1]

theorem header_same : ∀ {ts ts' : List LLToken}, ts.map (·.token) = ts'.map (·.token) → ∀ st : HeaderSt,
    ts.foldl (HeaderSt.step W) st = ts'.foldl (HeaderSt.step W) st
  | [], [], _, _ => rfl
  | [], _ :: _, h, _ => by cases h
  | _ :: _, [], h, _ => by cases h
  | t :: ts, t' :: ts', h, st => by
    simp only [List.map_cons, List.cons.injEq] at h
    have : st.step W t = st.step W t' := by simp only [HeaderSt.step, LLToken.displayText, h.1]
    rw [List.foldl_cons, List.foldl_cons, this]
    exact header_same h.2 _

def shownOf (x : R (LLLineDisplay W)) : R Str :=
  match x with
  | .error e => .error e
  | .ok d => d.fmt

theorem display_same {l l' : LLLine W} (s : SameButPositions l l') (ks : List (Ty W)) : shownWith l ks = shownWith l' ks := by
  have step : ∀ (ks : List (Ty W)) (as : List (LRange × Str)),
      shownOf (foldR (fun d k => LLLineDisplay.with d k) { ll_line := l, include_attrs := as } ks) =
      shownOf (foldR (fun d k => LLLineDisplay.with d k) { ll_line := l', include_attrs := as } ks) := by
    intro ks
    induction ks with
    | nil =>
      intro as
      simp only [foldR, shownOf, LLLineDisplay.fmt, header_same s.1]
    | cons k ks ih =>
      intro as
      simp only [foldR, LLLineDisplay.with, LLLineDisplay.include, s.2]
      generalize flatMapR _ (l'.attrs.ranges.get k) = x
      cases x with
      | error e => rfl
      | ok new => exact ih _
  have e : ∀ l : LLLine W, shownWith l ks = shownOf (displayWith l ks) := by
    intro l; unfold shownWith; cases displayWith l ks <;> rfl
  rw [e, e]
  exact step ks []

theorem find_same {Out : Type} {l l' : LLLine W} (s : SameButPositions l l') {m : XMatch W Out} (hm : Builtin m) :
    okMap (List.map LLLineFind.found) (l.find m) = okMap (List.map LLLineFind.found) (l'.find m) := by
  have hl := s.agree.len
  unfold LLLine.find
  rw [hl]
  refine (flatMapR_sim (b := true) LLLineFind.found _ _ _ (fun i hi => .inl ?_)).eq
  rw [List.mem_range] at hi
  rw [(s.agree.built hm (.fwd i)).eq]
  cases m.go (.fwd i) l' with
  | error e => rfl
  | ok rs =>
    dsimp only
    induction rs with
    | nil => rfl
    | cons r rs ih =>
      simp only [mapR, LLLine.posStartAt, LLLine.posEndAt, List.getElem?_eq_getElem hi, List.getElem?_eq_getElem (hl ▸ hi)] at ih ⊢
      by_cases hr : r.2 < l'.ll_tokens.length
      · simp only [List.getElem?_eq_getElem hr, List.getElem?_eq_getElem (hl ▸ hr)]
        revert ih
        generalize mapR _ rs = x
        generalize mapR _ rs = y
        intro ih
        cases x <;> cases y <;> simp [okMap] at ih ⊢ <;> exact ih
      · rw [List.getElem?_eq_none (by omega), List.getElem?_eq_none (by omega)]

end LNlp
