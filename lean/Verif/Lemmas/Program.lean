import Verif.Spec.Program
import Verif.Lemmas.Pipeline
/- Helper lemmas about programs of API calls. -/
namespace LNlp
variable {W : World}

/-! ### results that agree -/

/-- equal results; if not `strict`, a panic on the left is allowed -/
def Sim (strict : Bool) {α : Type} (x y : R α) : Prop := x = y ∨ (strict = false ∧ ∃ e, x = .error e)

theorem Sim.refl {b : Bool} {α : Type} (x : R α) : Sim b x x := .inl rfl

theorem Sim.eq {α : Type} {x y : R α} (h : Sim true x y) : x = y := by
  rcases h with h | h
  · exact h
  · cases h.1

theorem Sim.ok {b : Bool} {α : Type} {x y : R α} (h : Sim b x y) {a : α} (hx : x = .ok a) : y = .ok a := by
  rcases h with h | ⟨_, e, h⟩
  · exact h ▸ hx
  · rw [h] at hx; cases hx

/-- if `f` and `g` do the same to equal arguments and hand on panics, they keep `Sim` -/
theorem Sim.lift {b : Bool} {α β : Type} {x y : R α} (h : Sim b x y) (f g : R α → R β)
    (hf : ∀ e, f (.error e) = .error e) (hfg : ∀ x, Sim b (f x) (g x)) : Sim b (f x) (g y) := by
  rcases h with h | ⟨hb, e, h⟩
  · rw [h]; exact hfg y
  · exact .inr ⟨hb, e, by rw [h, hf]⟩

theorem flatMapR_sim {b : Bool} {α β γ : Type} (t : β → γ) (f g : α → R (List β)) : ∀ (xs : List α),
    (∀ x ∈ xs, Sim b (okMap (List.map t) (f x)) (okMap (List.map t) (g x))) →
    Sim b (okMap (List.map t) (flatMapR f xs)) (okMap (List.map t) (flatMapR g xs))
  | [], _ => .refl _
  | x :: xs, h => by
    have ih := flatMapR_sim t f g xs (fun y hy => h y (by simp [hy]))
    have h1 := h x (by simp)
    simp only [flatMapR]
    cases hx : f x with
    | error e =>
      rw [hx] at h1
      rcases h1 with h1 | ⟨hb, _⟩
      · cases hy : g x with
        | error e' => rw [hy] at h1; simp only [okMap] at h1 ⊢; exact .inl h1
        | ok c => rw [hy] at h1; cases h1
      · exact .inr ⟨hb, e, rfl⟩
    | ok c =>
      rw [hx] at h1
      rcases h1 with h1 | ⟨hb, e, h1⟩
      · cases hy : g x with
        | error e' => rw [hy] at h1; cases h1
        | ok c' =>
          rw [hy] at h1
          simp only [okMap, Except.ok.injEq] at h1
          cases hr : flatMapR f xs with
          | error e =>
            rw [hr] at ih
            rcases ih with ih | ⟨hb, _⟩
            · cases hs : flatMapR g xs with
              | error e' => rw [hs] at ih; exact .inl ih
              | ok d => rw [hs] at ih; cases ih
            · exact .inr ⟨hb, e, rfl⟩
          | ok d =>
            rw [hr] at ih
            rcases ih with ih | ⟨hb, e, ih⟩
            · cases hs : flatMapR g xs with
              | error e' => rw [hs] at ih; cases ih
              | ok d' =>
                rw [hs] at ih
                simp only [okMap, Except.ok.injEq] at ih
                exact .inl (by simp [okMap, h1, ih])
            · cases ih
      · cases h1

theorem flatMapR_sim' {b : Bool} {α β : Type} (f g : α → R (List β)) (xs : List α)
    (h : ∀ x ∈ xs, Sim b (f x) (g x)) : Sim b (flatMapR f xs) (flatMapR g xs) := by
  have e : ∀ (y : R (List β)), okMap (List.map id) y = y := by
    intro y; cases y <;> simp [okMap]
  have := flatMapR_sim (b := b) id f g xs (fun x hx => by rw [e, e]; exact h x hx)
  rwa [e, e] at this

/-! ### the operations on two lines on which the matcher agrees -/

/-- the matcher agrees on the two lines -/
def Agree (b : Bool) (l l' : LLLine W) {Out : Type} (m : XMatch W Out) : Prop :=
  ∀ d, Sim b (m.go d l) (m.go d l')

section
variable {b : Bool} {Out : Type} {m : XMatch W Out} {rc rc' : Rc (LLLine W)}

theorem answerPairs_eq (x : R (List (LLSelection W × Out))) : answerPairs x =
    okMap (fun ps => (ps.map (·.1), ps.map (·.2))) (okMap (List.map (fun (p : LLSelection W × Out) => (p.1.range, p.2))) x) := by
  cases x <;> simp [answerPairs, okMap, Function.comp_def]

theorem pairs_sim {x y : R (List (LLSelection W × Out))}
    (h : Sim b (okMap (List.map (fun (p : LLSelection W × Out) => (p.1.range, p.2))) x)
      (okMap (List.map (fun (p : LLSelection W × Out) => (p.1.range, p.2))) y)) :
    Sim b (answerPairs x) (answerPairs y) := by
  rw [answerPairs_eq, answerPairs_eq]
  exact h.lift _ _ (fun _ => rfl) (fun _ => .refl _)

theorem findBy_sim0 (hm : Agree b rc.val rc'.val m) (r : LRange) :
    Sim b (okMap (List.map (fun (p : LLSelection W × Out) => (p.1.range, p.2))) ((selAt rc r).findBy m))
      (okMap (List.map (fun (p : LLSelection W × Out) => (p.1.range, p.2))) ((selAt rc' r).findBy m)) := by
  refine flatMapR_sim _ _ _ _ (fun i _ => ?_)
  show Sim b (okMap _ (match m.go (.fwd i) rc.val with | .error e => _ | .ok rs => _))
    (okMap _ (match m.go (.fwd i) rc'.val with | .error e => _ | .ok rs => _))
  rcases hm (.fwd i) with h | ⟨hb, e, h⟩
  · rw [h]
    cases m.go (.fwd i) rc'.val with
    | error e => exact .refl _
    | ok rs => exact .inl (by simp [okMap, selAt, LLSelection.range])
  · rw [h]; exact .inr ⟨hb, e, rfl⟩

theorem findBy_sim (hm : Agree b rc.val rc'.val m) (r : LRange) :
    Sim b (answerPairs ((selAt rc r).findBy m)) (answerPairs ((selAt rc' r).findBy m)) := pairs_sim (findBy_sim0 hm r)

theorem findBoth_sim (hm : Agree b rc.val rc'.val m) (r : LRange) :
    Sim b (answerPairs ((selAt rc r).findByForwardsAndBackwards m))
      (answerPairs ((selAt rc' r).findByForwardsAndBackwards m)) := by
  refine pairs_sim (flatMapR_sim _ _ _ _ (fun i _ => ?_))
  show Sim b (okMap _ (match m.go (.fwd i) rc.val with | .error e => _ | .ok fs => _))
    (okMap _ (match m.go (.fwd i) rc'.val with | .error e => _ | .ok fs => _))
  rcases hm (.fwd i) with h | ⟨hb, e, h⟩
  · rw [h]
    cases m.go (.fwd i) rc'.val with
    | error e => exact .refl _
    | ok fs =>
      show Sim b (okMap _ (match m.go (.bwd i) rc.val with | .error e => _ | .ok fs => _))
        (okMap _ (match m.go (.bwd i) rc'.val with | .error e => _ | .ok fs => _))
      rcases hm (.bwd i) with h | ⟨hb, e, h⟩
      · rw [h]
        cases m.go (.bwd i) rc'.val with
        | error e => exact .refl _
        | ok bs => exact .inl (by simp [okMap, selAt, LLSelection.range, Function.comp_def])
      · rw [h]; exact .inr ⟨hb, e, rfl⟩
  · rw [h]; exact .inr ⟨hb, e, rfl⟩

theorem matchForwards_sim (hm : Agree b rc.val rc'.val m) (hl : rc.val.ll_tokens.length = rc'.val.ll_tokens.length)
    (r : LRange) :
    Sim b (answerPairs ((selAt rc r).matchForwards m)) (answerPairs ((selAt rc' r).matchForwards m)) := by
  unfold LLSelection.matchForwards
  simp only [selAt, hl]
  by_cases h0 : r.2 + 1 = rc'.val.ll_tokens.length
  · simp only [h0, if_true]; exact .inl rfl
  · simp only [h0, if_false]
    rcases hm (.fwd (r.2 + 1)) with h | ⟨hb, e, h⟩
    · rw [h]
      cases m.go (.fwd (r.2 + 1)) rc'.val with
      | error e => exact .inl rfl
      | ok rs => exact .inl (by simp [answerPairs, LLSelection.range, Function.comp_def])
    · rw [h]; exact .inr ⟨hb, e, rfl⟩

theorem matchBackwards_sim (hm : Agree b rc.val rc'.val m) (r : LRange) :
    Sim b (answerPairs ((selAt rc r).matchBackwards m)) (answerPairs ((selAt rc' r).matchBackwards m)) := by
  unfold LLSelection.matchBackwards
  simp only [selAt]
  by_cases h0 : r.1 = 0
  · simp only [h0, if_true]; exact .inl rfl
  · simp only [h0, if_false]
    rcases hm (.bwd (r.1 - 1)) with h | ⟨hb, e, h⟩
    · rw [h]
      cases m.go (.bwd (r.1 - 1)) rc'.val with
      | error e => exact .inl rfl
      | ok rs => exact .inl (by simp [answerPairs, LLSelection.range, Function.comp_def])
    · rw [h]; exact .inr ⟨hb, e, rfl⟩

theorem answerOption_two (rc rc' : Rc (LLLine W)) (c : Prop) [Decidable c] (x y : Nat) :
    answerOption (if c then .ok (some { ll_line := rc, start_idx := x, end_idx := y }) else .ok none) =
      answerOption (if c then .ok (some { ll_line := rc', start_idx := x, end_idx := y }) else .ok none) := by
  by_cases h : c <;> simp [h, answerOption, LLSelection.range]

theorem trimSelection_sim (hm : Agree b rc.val rc'.val m) (r : LRange) (fs fe : Bool) :
    Sim b (answerOption ((selAt rc r).trimSelection m fs fe)) (answerOption ((selAt rc' r).trimSelection m fs fe)) := by
  unfold LLSelection.trimSelection
  simp only [selAt]
  rcases hm (.fwd r.1) with h | ⟨hb, e, h⟩
  · rw [h]
    rcases hm (.bwd r.2) with h' | ⟨hb, e, h'⟩
    · rw [h']
      cases fs <;> cases fe <;> cases m.go (.fwd r.1) rc'.val <;> cases m.go (.bwd r.2) rc'.val <;>
        simp only [if_true, if_false, Bool.false_eq_true] <;> refine .inl ?_ <;>
        repeat' (first | rfl | exact answerOption_two _ _ _ _ _ | split)
    · rw [h']
      cases fe
      · cases fs <;> cases m.go (.fwd r.1) rc'.val <;>
        simp only [if_true, if_false, Bool.false_eq_true] <;> refine .inl ?_ <;>
        repeat' (first | rfl | exact answerOption_two _ _ _ _ _ | split)
      · cases fs <;> cases m.go (.fwd r.1) rc'.val <;>
          simp only [if_true, if_false, Bool.false_eq_true] <;> refine .inr ⟨hb, ?_⟩ <;>
          (first | exact ⟨_, rfl⟩ | (rename_i q; cases q <;> exact ⟨_, rfl⟩))
  · rw [h]
    cases fs
    · simp only [Bool.false_eq_true, if_false]
      rcases hm (.bwd r.2) with h' | ⟨hb, e, h'⟩
      · rw [h']
        cases fe <;> cases m.go (.bwd r.2) rc'.val <;>
        simp only [if_true, if_false, Bool.false_eq_true] <;> refine .inl ?_ <;>
        repeat' (first | rfl | exact answerOption_two _ _ _ _ _ | split)
      · rw [h']
        cases fe
        · simp only [Bool.false_eq_true, if_false]; refine .inl ?_
          repeat' (first | rfl | exact answerOption_two _ _ _ _ _ | split)
        · exact .inr ⟨hb, _, rfl⟩
    · exact .inr ⟨hb, e, rfl⟩

theorem splitBy_sim (hm : Agree b rc.val rc'.val m) (r : LRange) :
    Sim b (answerList ((selAt rc r).splitBy m)) (answerList ((selAt rc' r).splitBy m)) := by
  have key := findBy_sim0 hm r
  cases hx : (selAt rc r).findBy m with
  | error e =>
    rw [hx] at key
    rcases key with key | ⟨hb, _⟩
    · cases hy : (selAt rc' r).findBy m with
      | error e' => rw [hy] at key; simp only [okMap, Except.error.injEq] at key; subst key; exact .inl (by unfold LLSelection.splitBy; rw [hx, hy])
      | ok out' => rw [hy] at key; cases key
    · exact .inr ⟨hb, e, by unfold LLSelection.splitBy; rw [hx]; rfl⟩
  | ok out =>
    rw [hx] at key
    have key' := key.ok rfl
    cases hy : (selAt rc' r).findBy m with
    | error e' => rw [hy] at key'; cases key'
    | ok out' =>
      rw [hy] at key'
      simp only [okMap, Except.ok.injEq] at key'
      refine .inl ?_
      by_cases hle : r.1 ≤ r.2
      · have h1 := splitBy_eq hx hle
        have h2 := splitBy_eq hy hle
        rw [h1, h2]
        have hr : out.map (fun p => (p.1.start_idx, p.1.end_idx)) = out'.map (fun p => (p.1.start_idx, p.1.end_idx)) := by
          have := congrArg (List.map Prod.fst) key'
          simpa [LLSelection.range, Function.comp_def] using this.symm
        rw [hr]
        have hg := gaps_on rc' (selAt rc r) (out'.map (fun p => (p.1.start_idx, p.1.end_idx))) r.1
        have : (selAt rc r).on rc' = selAt rc' r := rfl
        rw [this] at hg
        show answerList (.ok (gaps (selAt rc r) r.1 _)) = answerList (.ok (gaps (selAt rc' r) r.1 _))
        rw [hg]
        simp [answerList, LLSelection.on, LLSelection.range, Function.comp_def]
      · have hn : rangeIncl r.1 r.2 = [] := by
          apply List.eq_nil_iff_forall_not_mem.2
          intro x hx
          have := mem_rangeIncl.1 hx
          omega
        have e1 : out = [] := by
          simp [LLSelection.findBy, selAt, hn] at hx
          exact hx
        have e2 : out' = [] := by
          simp [LLSelection.findBy, selAt, hn] at hy
          exact hy
        subst e1 e2
        unfold LLSelection.splitBy
        rw [hx, hy]
        rfl

theorem splitWith_sim (rc rc' : Rc (LLLine W)) (r t : LRange) :
    answerTwo ((selAt rc r).splitWith (selAt rc t)) = answerTwo ((selAt rc' r).splitWith (selAt rc' t)) := by
  have h : ∀ x y, (selAt rc' r).selectionFrom x y = ((selAt rc r).selectionFrom x y).map (LLSelection.on rc') :=
    fun x y => selectionFrom_on rc' (selAt rc r) x y
  unfold LLSelection.splitWith
  simp only [h]
  have e : ∀ (o : Option (LLSelection W)), (o.map (LLSelection.on rc')).toList.map (·.range) = o.toList.map (·.range) := by
    intro o; cases o <;> rfl
  have he : ∀ (p q : Option (LLSelection W)), answerTwo (.ok (p, q)) = answerTwo (.ok (p.map (LLSelection.on rc'), q.map (LLSelection.on rc'))) := by
    intro p q
    simp only [answerTwo, List.map_append, e, Option.isSome_map]
  simp only [selAt, if_true]
  by_cases h0 : t.1 > 0
  · simp only [h0, if_true]; exact he _ _
  · simp only [h0, if_false]; exact he _ _

end

/-- an operation whose matcher agrees answers the same on the two lines -/
theorem exec_sim {b : Bool} {rc rc' : Rc (LLLine W)} (hl : rc.val.ll_tokens.length = rc'.val.ll_tokens.length)
    (store : List LRange) {Resp : Type} (op : Op W Resp) (hu : op.Uses (fun m => Agree b rc.val rc'.val m)) :
    Sim b (op.exec rc store) (op.exec rc' store) := by
  have on : ∀ {Resp : Type} (h : Nat) (f g : LLSelection W → Answer Resp),
      (∀ r, Sim b (f (selAt rc r)) (g (selAt rc' r))) → Sim b (onHandle rc store h f) (onHandle rc' store h g) := by
    intro Resp h f g hfg
    unfold onHandle
    cases store[h]? with
    | none => exact .refl _
    | some r => exact hfg r
  cases op with
  | fromLine h =>
    simp only [Op.exec]; refine on h _ _ (fun r => .inl ?_)
    simp only [LLSelection.fromLine, selAt, hl]
    by_cases h0 : rc'.val.ll_tokens.length > 0
    · simp only [h0, if_true]; rfl
    · simp only [h0, if_false]
  | findBy h m => simp only [Op.exec]; exact on h _ _ (findBy_sim hu)
  | findBoth h m => simp only [Op.exec]; exact on h _ _ (findBoth_sim hu)
  | matchForwards h m => simp only [Op.exec]; exact on h _ _ (matchForwards_sim hu hl)
  | matchBackwards h m => simp only [Op.exec]; exact on h _ _ (matchBackwards_sim hu)
  | splitBy h m => simp only [Op.exec]; exact on h _ _ (splitBy_sim hu)
  | splitWith h g =>
    simp only [Op.exec]; exact on h _ _ (fun r => on g _ _ (fun t => .inl (splitWith_sim rc rc' r t)))
  | trimSelection h m x y => simp only [Op.exec]; exact on h _ _ (fun r => trimSelection_sim hu r x y)
  | after h =>
    simp only [Op.exec]; refine on h _ _ (fun r => .inl ?_)
    simp only [LLSelection.after, selAt, hl]
    by_cases h0 : r.1 + 1 = rc'.val.ll_tokens.length - 1
    · simp only [h0, if_true]
    · simp only [h0, if_false]; rfl

/-- a program whose matchers agree gives the same result on the two lines -/
theorem run_sim {b : Bool} {rc rc' : Rc (LLLine W)} (hl : rc.val.ll_tokens.length = rc'.val.ll_tokens.length) {V : Type}
    (p : Api W V) : ∀ (store : List LRange), p.Uses (fun m => Agree b rc.val rc'.val m) →
      Sim b (p.run rc store) (p.run rc' store) := by
  induction p with
  | finish vs => intro _ _; exact .refl _
  | panic e => intro _ _; exact .refl _
  | call op next ih =>
    intro store hu
    simp only [Api.run]
    rcases exec_sim hl store op hu.1 with h | ⟨hb, e, h⟩
    · rw [h]
      cases op.exec rc' store with
      | error e => exact .refl _
      | ok a => exact ih a.1 a.2 _ (hu.2 _ _)
    · rw [h]; exact .inr ⟨hb, e, rfl⟩

/-- `Uses` follows implications -/
theorem Op.Uses.mono {P Q : {Out : Type} → XMatch W Out → Prop} (hPQ : ∀ {Out : Type} (m : XMatch W Out), P m → Q m)
    {Resp : Type} {op : Op W Resp} (h : op.Uses P) : op.Uses Q := by
  cases op <;> first | exact hPQ _ h | trivial

theorem Api.Uses.mono {P Q : {Out : Type} → XMatch W Out → Prop} (hPQ : ∀ {Out : Type} (m : XMatch W Out), P m → Q m)
    {V : Type} {p : Api W V} : p.Uses P → p.Uses Q := by
  induction p with
  | finish vs => exact fun _ => trivial
  | panic e => exact fun _ => trivial
  | call op next ih => exact fun h => ⟨h.1.mono hPQ, fun rs x => ih rs x (h.2 rs x)⟩

theorem apiGo_sim {b : Bool} {l l' : LLLine W} (hl : l.ll_tokens.length = l'.ll_tokens.length) {k : Ty W}
    {P : {Out : Type} → XMatch W Out → Prop} (hP : ∀ {Out : Type} (m : XMatch W Out), P m → Agree b l l' m)
    {p : LRange → Api W (Val k)} (hp : ∀ x, (p x).Uses P) (ptr ptr' : Nat) :
    Sim b ((apiResolver k p).go (wholeLine l ptr)) ((apiResolver k p).go (wholeLine l' ptr')) := by
  have hr : (wholeLine l ptr).range = (wholeLine l' ptr').range := by simp [wholeLine, LLSelection.range, hl]
  have := run_sim (b := b) (rc := ⟨ptr, l⟩) (rc' := ⟨ptr', l'⟩) hl (p (wholeLine l ptr).range) [(wholeLine l ptr).range]
    ((hp _).mono hP)
  show Sim b (match (p (wholeLine l ptr).range).run ⟨ptr, l⟩ [(wholeLine l ptr).range] with
    | .ok as => .ok (as, false) | .error e => .error e)
    (match (p (wholeLine l' ptr').range).run ⟨ptr', l'⟩ [(wholeLine l' ptr').range] with
    | .ok as => .ok (as, false) | .error e => .error e)
  rw [← hr]
  rcases this with h | ⟨hb, e, h⟩
  · rw [h]; exact .refl _
  · rw [h]; exact .inr ⟨hb, e, rfl⟩

theorem byApi_sim {b : Bool} {l l' : LLLine W} (hl : l.ll_tokens.length = l'.ll_tokens.length) (ne : l.ll_tokens ≠ [])
    {P : {Out : Type} → XMatch W Out → Prop} (hP : ∀ {Out : Type} (m : XMatch W Out), P m → Agree b l l' m)
    {r : Resolver W} (hr : ByApi P r) (ptr ptr' : Nat) :
    Sim b (r.go (wholeLine l ptr)) (r.go (wholeLine l' ptr')) := by
  obtain ⟨p, hp, he⟩ := hr
  have ne' : l'.ll_tokens ≠ [] := by
    intro h; rw [h] at hl; exact ne (List.length_eq_zero_iff.1 hl)
  rw [he l ptr ne, he l' ptr' ne']
  exact apiGo_sim hl hP hp ptr ptr'

/-! ### matchers on two lines -/

/-- two lines with the same token texts, and the same attributes of the types `T`; if not `strict`, the second
line may have values on ranges where the first has none of any type -/
structure LineAgree (b : Bool) (T : Ty W → Prop) (l l' : LLLine W) : Prop where
  toks : l.ll_tokens.map (·.token) = l'.ll_tokens.map (·.token)
  starts : ∀ k, T k → ∀ i : Nat, (l.attrs.starts_at[i]?).map (TypeIdToMany.get · k) = (l'.attrs.starts_at[i]?).map (TypeIdToMany.get · k)
  ends : ∀ k, T k → ∀ i : Nat, (l.attrs.ends_at[i]?).map (TypeIdToMany.get · k) = (l'.attrs.ends_at[i]?).map (TypeIdToMany.get · k)
  vals : ∀ k, T k → ∀ r : LRange, (l.attrs.values.get? r = none ∧ (b = false ∨ l'.attrs.values.get? r = none)) ∨
    ∃ bk bk', l.attrs.values.get? r = some bk ∧ l'.attrs.values.get? r = some bk' ∧ bk.get k = bk'.get k

theorem LineAgree.len {b : Bool} {T : Ty W → Prop} {l l' : LLLine W} (h : LineAgree b T l l') :
    l.ll_tokens.length = l'.ll_tokens.length := by
  simpa using congrArg List.length h.toks

theorem LineAgree.valuesAt {b : Bool} {T : Ty W → Prop} {l l' : LLLine W} (h : LineAgree b T l l') {k : Ty W} (hk : T k)
    (r : LRange) : Sim b (l.valuesAt k r) (l'.valuesAt k r) := by
  unfold LLLine.valuesAt
  rcases h.vals k hk r with ⟨h1, h2⟩ | ⟨bk, bk', h1, h2, h3⟩
  · rcases h2 with h2 | h2
    · exact .inr ⟨h2, _, by rw [h1]⟩
    · rw [h1, h2]; exact .refl _
  · rw [h1, h2]; exact .inl h3

section
variable {b : Bool} {T : Ty W → Prop} {l l' : LLLine W}

theorem LineAgree.attr (h : LineAgree b T l l') {k : Ty W} (hk : T k) : Agree b l l' (X.attr k) := by
  intro d
  cases d with
  | fwd i =>
    simp only [X.attr, Dir.attr]
    have hs := h.starts k hk i
    cases h1 : l.attrs.starts_at[i]? <;> cases h2 : l'.attrs.starts_at[i]? <;> rw [h1, h2] at hs <;> simp at hs
    · exact .refl _
    · simp only [hs]
      refine flatMapR_sim' _ _ _ (fun r _ => ?_)
      rcases h.valuesAt hk r with e | ⟨hb, e, he⟩
      · rw [e]; exact .refl _
      · rw [he]; exact .inr ⟨hb, e, rfl⟩
  | bwd i =>
    simp only [X.attr, Dir.attr]
    have hs := h.ends k hk i
    cases h1 : l.attrs.ends_at[i]? <;> cases h2 : l'.attrs.ends_at[i]? <;> rw [h1, h2] at hs <;> simp at hs
    · exact .refl _
    · simp only [hs]
      refine flatMapR_sim' _ _ _ (fun r _ => ?_)
      rcases h.valuesAt hk r with e | ⟨hb, e, he⟩
      · rw [e]; exact .refl _
      · rw [he]; exact .inr ⟨hb, e, rfl⟩

theorem LineAgree.attrEq (h : LineAgree b T l l') {k : Ty W} (hk : T k) (v : Val k) : Agree b l l' (X.attrEq k v) := by
  intro d
  cases d with
  | fwd i =>
    simp only [X.attrEq, Dir.attrEq]
    have hs := h.starts k hk i
    cases h1 : l.attrs.starts_at[i]? <;> cases h2 : l'.attrs.starts_at[i]? <;> rw [h1, h2] at hs <;> simp at hs
    · exact .refl _
    · simp only [hs]
      refine flatMapR_sim' _ _ _ (fun r _ => ?_)
      rcases h.valuesAt hk r with e | ⟨hb, e, he⟩
      · rw [e]; exact .refl _
      · rw [he]; exact .inr ⟨hb, e, rfl⟩
  | bwd i =>
    simp only [X.attrEq, Dir.attrEq]
    have hs := h.ends k hk i
    cases h1 : l.attrs.ends_at[i]? <;> cases h2 : l'.attrs.ends_at[i]? <;> rw [h1, h2] at hs <;> simp at hs
    · exact .refl _
    · simp only [hs]
      refine flatMapR_sim' _ _ _ (fun r _ => ?_)
      rcases h.valuesAt hk r with e | ⟨hb, e, he⟩
      · rw [e]; exact .refl _
      · rw [he]; exact .inr ⟨hb, e, rfl⟩

theorem LineAgree.tokenHasAny (h : LineAgree b T l l') {k : Ty W} (hk : T k) (set : List (Val k)) :
    Agree b l l' (X.tokenHasAny k set) := by
  intro d
  cases d with
  | fwd i =>
    show Sim b (match l.attrs.values.get? (i, i) with | none => .error .noTokenAttrs | some b => match b.get k with | .error e => .error e | .ok vs => .ok _)
      (match l'.attrs.values.get? (i, i) with | none => .error .noTokenAttrs | some b => match b.get k with | .error e => .error e | .ok vs => .ok _)
    rcases h.vals k hk (i, i) with ⟨h1, h2⟩ | ⟨bk, bk', h1, h2, h3⟩
    · rcases h2 with h2 | h2
      · exact .inr ⟨h2, .noTokenAttrs, by rw [h1]⟩
      · rw [h1, h2]; exact .refl _
    · rw [h1, h2]
      simp only
      rw [h3]
      exact .refl _
  | bwd i =>
    simp only [X.tokenHasAny, Dir.tokenAttrOneOf]
    have hs := h.ends k hk i
    cases h1 : l.attrs.ends_at[i]? <;> cases h2 : l'.attrs.ends_at[i]? <;> rw [h1, h2] at hs <;> simp at hs
    · exact .refl _
    · simp only [hs]
      refine flatMapR_sim' _ _ _ (fun r _ => ?_)
      rcases h.valuesAt hk r with e | ⟨hb, e, he⟩
      · rw [e]; exact .refl _
      · rw [he]; exact .inr ⟨hb, e, rfl⟩

theorem LineAgree.tokenText (h : LineAgree b T l l') : Agree b l l' (X.tokenText (W := W)) := by
  intro d
  have e : ∀ i : Nat, (l.ll_tokens[i]?).map (·.token) = (l'.ll_tokens[i]?).map (·.token) := by
    intro i
    have := congrArg (·[i]?) h.toks
    simpa using this
  refine .inl ?_
  simp only [X.tokenText]
  have : d.textToken l = d.textToken l' := by
    cases d with
    | fwd i =>
      have e := e i
      simp only [Dir.textToken]
      cases h1 : l.ll_tokens[i]? <;> cases h2 : l'.ll_tokens[i]? <;> rw [h1, h2] at e <;> simp at e
      simp only [e]
    | bwd i =>
      have e := e i
      simp only [Dir.textToken]
      cases h1 : l.ll_tokens[i]? <;> cases h2 : l'.ll_tokens[i]? <;> rw [h1, h2] at e <;> simp at e
      simp only [e]
  rw [this]

theorem goAfter_sim {α : Type} {m : XMatch W α} (hm : Agree b l l' m) (hl : l.ll_tokens.length = l'.ll_tokens.length)
    (d : Dir) (i : Nat) : Sim b (X.goAfter m d i l) (X.goAfter m d i l') := by
  have : d.after i l = d.after i l' := by
    cases d <;> simp only [Dir.after, hl]
  simp only [X.goAfter, this]
  cases d.after i l' with
  | none => exact .refl _
  | some d' => exact hm d'

/-- a matcher from `x::*` agrees on lines on which its leaves agree -/
theorem leaves_built (hl : l.ll_tokens.length = l'.ll_tokens.length) {has : Bool}
    (h1 : ∀ k, T k → Agree b l l' (X.attr k)) (h2 : ∀ k, T k → ∀ v, Agree b l l' (X.attrEq k v))
    (h3 : has = true → ∀ k, T k → ∀ set, Agree b l l' (X.tokenHasAny k set)) (h4 : Agree b l l' (X.tokenText (W := W)))
    {Out : Type} {m : XMatch W Out} (hm : Built T has m) : Agree b l l' m := by
  induction hm with
  | attr k hk => exact h1 k hk
  | attrEq k hk v => exact h2 k hk v
  | tokenHasAny k hk hh set => exact h3 hh k hk set
  | tokenText => exact h4
  | all2 _ _ iha ihb =>
    intro d
    simp only [X.all2]
    rcases ihb d with hb | ⟨hbb, e, hb⟩
    · rw [hb]
      rcases iha d with ha | ⟨hbb, e, ha⟩
      · rw [ha]; exact .refl _
      · rw [ha]
        split
        · exact .refl _
        · exact .inr ⟨hbb, e, rfl⟩
    · rw [hb]; exact .inr ⟨hbb, e, rfl⟩
  | all3 _ _ _ iha ihb ihc =>
    intro d
    simp only [X.all3]
    rcases ihb d with hb | ⟨hbb, e, hb⟩
    · rw [hb]
      split
      · exact .refl _
      rcases ihc d with hc | ⟨hbb, e, hc⟩
      · rw [hc]
        split
        · exact .refl _
        rcases iha d with ha | ⟨hbb, e, ha⟩
        · rw [ha]; exact .refl _
        · rw [ha]; exact .inr ⟨hbb, e, rfl⟩
      · rw [hc]; exact .inr ⟨hbb, e, rfl⟩
    · rw [hb]; exact .inr ⟨hbb, e, rfl⟩
  | anyOf2 _ _ iha ihb =>
    intro d
    simp only [X.anyOf2]
    rcases iha d with ha | ⟨hbb, e, ha⟩
    · rw [ha]
      split
      · exact .refl _
      split
      · exact .refl _
      rcases ihb d with hb | ⟨hbb, e, hb⟩
      · rw [hb]; exact .refl _
      · rw [hb]; exact .inr ⟨hbb, e, rfl⟩
    · rw [ha]; exact .inr ⟨hbb, e, rfl⟩
  | anyOf3 _ _ _ iha ihb ihc =>
    intro d
    simp only [X.anyOf3]
    rcases iha d with ha | ⟨hbb, e, ha⟩
    · rw [ha]
      split
      · exact .refl _
      split
      · exact .refl _
      rcases ihb d with hb | ⟨hbb, e, hb⟩
      · rw [hb]
        split
        · exact .refl _
        split
        · exact .refl _
        rcases ihc d with hc | ⟨hbb, e, hc⟩
        · rw [hc]; exact .refl _
        · rw [hc]; exact .inr ⟨hbb, e, rfl⟩
      · rw [hb]; exact .inr ⟨hbb, e, rfl⟩
    · rw [ha]; exact .inr ⟨hbb, e, rfl⟩
  | seq2 _ _ iha ihb =>
    intro d
    simp only [X.seq2]
    rcases iha d with ha | ⟨hbb, e, ha⟩
    · rw [ha]
      split
      · exact .refl _
      · refine flatMapR_sim' _ _ _ (fun pa _ => ?_)
        rcases goAfter_sim ihb hl d pa.2 with hv | ⟨hbb, e, hv⟩
        · rw [hv]; exact .refl _
        · rw [hv]; exact .inr ⟨hbb, e, rfl⟩
    · rw [ha]; exact .inr ⟨hbb, e, rfl⟩
  | seq3 _ _ _ iha ihb ihc =>
    intro d
    simp only [X.seq3]
    rcases iha d with ha | ⟨hbb, e, ha⟩
    · rw [ha]
      split
      · exact .refl _
      · refine flatMapR_sim' _ _ _ (fun pa _ => ?_)
        rcases goAfter_sim ihb hl d pa.2 with hb | ⟨hbb, e, hb⟩
        · rw [hb]
          split
          · exact .refl _
          · refine flatMapR_sim' _ _ _ (fun pb _ => ?_)
            rcases goAfter_sim ihc hl d pb.2 with hv | ⟨hbb, e, hv⟩
            · rw [hv]; exact .refl _
            · rw [hv]; exact .inr ⟨hbb, e, rfl⟩
        · rw [hb]; exact .inr ⟨hbb, e, rfl⟩
    · rw [ha]; exact .inr ⟨hbb, e, rfl⟩
  | user part t _ ih =>
    intro d
    simp only [UserTree.matcher]
    generalize ([] : List Nat) = seen
    induction t generalizing seen with
    | answer o => exact .refl _
    | ask i next iht =>
      simp only [UserTree.run]
      rcases ih i d with hv | ⟨hbb, e, hv⟩
      · rw [hv]
        split
        · exact .refl _
        · exact iht _ _ _
      · rw [hv]; exact .inr ⟨hbb, e, rfl⟩
  | recursive f _ _ ih =>
    intro d
    simp only [X.limit, hl]
    exact ih _ d

/-- a matcher from `x::*` agrees on lines that agree on the attribute types it names -/
theorem LineAgree.built (h : LineAgree b T l l') {has : Bool} {Out : Type} {m : XMatch W Out} (hm : Built T has m) :
    Agree b l l' m :=
  leaves_built h.len (fun _ hk => h.attr hk) (fun _ hk v => h.attrEq hk v) (fun _ _ hk set => h.tokenHasAny hk set)
    h.tokenText hm

end

/-- lines that differ in positions only agree on everything -/
theorem SameButPositions.agree {l l' : LLLine W} (h : SameButPositions l l') : LineAgree true (fun _ => True) l l' := by
  refine ⟨h.1, fun k _ i => by rw [h.2], fun k _ i => by rw [h.2], fun k _ r => ?_⟩
  rw [h.2]
  cases hv : l'.attrs.values.get? r with
  | none => exact .inl ⟨rfl, .inr rfl⟩
  | some bk => exact .inr ⟨bk, bk, rfl, rfl, rfl⟩

theorem LineAgree.refl {b : Bool} {T : Ty W → Prop} (l : LLLine W) : LineAgree b T l l := by
  refine ⟨rfl, fun _ _ _ => rfl, fun _ _ _ => rfl, fun k _ r => ?_⟩
  cases hv : l.attrs.values.get? r with
  | none => exact .inl ⟨rfl, .inr rfl⟩
  | some bk => exact .inr ⟨bk, bk, rfl, rfl, rfl⟩

theorem LineAgree.trans {T : Ty W → Prop} {l1 l2 l3 : LLLine W} (h : LineAgree false T l1 l2) (h' : LineAgree false T l2 l3) :
    LineAgree false T l1 l3 := by
  refine ⟨h.toks.trans h'.toks, fun k hk i => (h.starts k hk i).trans (h'.starts k hk i),
    fun k hk i => (h.ends k hk i).trans (h'.ends k hk i), fun k hk r => ?_⟩
  rcases h.vals k hk r with ⟨h1, _⟩ | ⟨bk, bk', h1, h2, h3⟩
  · exact .inl ⟨h1, .inl rfl⟩
  · rcases h'.vals k hk r with ⟨h4, _⟩ | ⟨ck, ck', h4, h5, h6⟩
    · rw [h2] at h4; cases h4
    · rw [h2] at h4; cases h4
      exact .inr ⟨bk, ck', h1, h5, h3.trans h6⟩

/-- inserting a value of a type outside `T` leaves the attributes of the types `T` alone -/
theorem insert_agree {T : Ty W → Prop} {toks : List LLToken} {a a' : LLLineAttrs W} {range : LRange} {k : Ty W} {v : Val k}
    (hk : ¬ T k) (h : a.insert range k v = .ok a') : LineAgree false T ⟨toks, a⟩ ⟨toks, a'⟩ := by
  unfold LLLineAttrs.insert at h
  split at h
  · cases h
  rename_i st hst
  split at h
  · cases h
  rename_i en hen
  split at h
  · cases h
  rename_i bk hbk
  cases h
  have upd : ∀ {xs ys : List (TypeIdToMany W LRange)} {i : Nat} {p : Panic},
      updateAt xs i p (·.insertDistinct k range) = .ok ys → ∀ k', T k' → ∀ j : Nat,
      (xs[j]?).map (TypeIdToMany.get · k') = (ys[j]?).map (TypeIdToMany.get · k') := by
    intro xs ys i p hu k' hk' j
    unfold updateAt at hu
    split at hu
    · rename_i x hx
      cases hu
      rw [List.getElem?_set]
      by_cases hij : i = j
      · subst hij
        have hlt : i < xs.length := by
          rw [List.getElem?_eq_some_iff] at hx
          exact hx.1
        have hne : k' ≠ k := fun hh => hk (hh ▸ hk')
        simp only [hlt, hx, Option.map_some, if_true]
        rw [TypeIdToMany.get_insertDistinct]
        simp [hne]
      · simp [hij]
    · cases hu
  refine ⟨rfl, fun k' hk' i => upd hst k' hk' i, fun k' hk' i => upd hen k' hk' i, fun k' hk' r => ?_⟩
  have hne : k' ≠ k := fun hh => hk (hh ▸ hk')
  show (a.values.get? r = none ∧ _) ∨ ∃ b1 b2, a.values.get? r = some b1 ∧ (a.values.set range bk).get? r = some b2 ∧ _
  by_cases hr : r = range
  · subst hr
    cases hv : a.values.get? r with
    | none => exact .inl ⟨rfl, .inl rfl⟩
    | some b1 =>
      rw [hv] at hbk
      refine .inr ⟨b1, bk, rfl, by simp [HMap.get?, HMap.set], ?_⟩
      simp only [Option.getD_some, TypeBucket.insert] at hbk
      have : ∀ vec : List (Val k), (⟨b1.map.set k ⟨k, vec⟩⟩ : TypeBucket W).get k' = b1.get k' := by
        intro vec
        simp [TypeBucket.get, HMap.get?, HMap.set, hne]
      split at hbk
      · cases hbk
        exact (this _).symm
      · cases hbk
  · have : (a.values.set range bk).get? r = a.values.get? r := by simp [HMap.get?, HMap.set, hr]
    rw [this]
    cases hv : a.values.get? r with
    | none => exact .inl ⟨rfl, .inl rfl⟩
    | some b1 => exact .inr ⟨b1, b1, rfl, rfl, rfl⟩

/-- running a resolver of a type outside `T` leaves the attributes of the types `T` alone -/
theorem run_agree {T : Ty W → Prop} {l l' : LLLine W} {ptr : Nat} {r : Resolver W} (hk : ¬ T r.attr)
    (h : l.run ptr r = .ok l') : LineAgree false T l l' := by
  unfold LLLine.run at h
  split at h
  · cases h; exact .refl _
  split at h
  · cases h
  split at h
  · cases h
  split at h
  · rename_i assignments _ _ _ attrs hfold
    cases h
    have key : ∀ (as : List (LLCursorAssignment (Val r.attr))) (a a' : LLLineAttrs W),
        foldR (LLLineAttrs.assign r.attr) a as = .ok a' → LineAgree false T ⟨l.ll_tokens, a⟩ ⟨l.ll_tokens, a'⟩ := by
      intro as
      induction as with
      | nil => intro a a' h; cases h; exact .refl _
      | cons x xs ih =>
        intro a a' h
        simp only [foldR] at h
        split at h
        · cases h
        · rename_i a1 h1
          exact (insert_agree (toks := l.ll_tokens) hk h1).trans (ih _ _ h)
    exact key _ _ _ hfold
  · cases h

end LNlp
