import Verif.Spec.Recurse
import Verif.Lemmas.UserMatch
import Verif.Lemmas.Match
/- Matchers that call themselves: deeper levels make no difference. -/
namespace LNlp
variable {W : World} {T : Ty W → Prop} {has : Bool}

theorem nothing_built {Out : Type} : Built T has (X.nothing (W := W) (Out := Out)) := .user _ _ (fun i => i.elim)

theorem calls_built {S Out : Type} {g : Bool} {F : XMatch W S → XMatch W Out} (hc : Calls T has g F) {r : XMatch W S}
    (hr : Built T has r) : Built T has (F r) := by
  induction hc with
  | other h => exact h
  | itself => exact hr
  | later _ ih => exact ih
  | all2 _ _ ha hb => exact .all2 ha hb
  | all3 _ _ _ ha hb hc => exact .all3 ha hb hc
  | anyOf2 _ _ ha hb => exact .anyOf2 ha hb
  | anyOf3 _ _ _ ha hb hc => exact .anyOf3 ha hb hc
  | seq2 _ _ ha hb => exact .seq2 ha hb
  | seq3 _ _ _ ha hb hc => exact .seq3 ha hb hc
  | user part t _ ih => exact .user _ t ih

theorem levels_built {Out : Type} {F : XMatch W Out → XMatch W Out} (hc : Calls T has true F) :
    ∀ n, Built T has (X.levels F n)
  | 0 => nothing_built
  | n + 1 => calls_built hc (levels_built hc n)

/-- the tokens left -/
def left (l : LLLine W) : Dir → Nat
  | .fwd i => l.ll_tokens.length - i
  | .bwd i => min (i + 1) (l.ll_tokens.length + 1)

theorem left_le (l : LLLine W) (d : Dir) : left l d ≤ l.ll_tokens.length + 1 := by
  cases d <;> simp only [left] <;> omega

theorem next_left {l : LLLine W} {d d' : Dir} {k : Nat} (hn : d.Next k l d') (hw : d.RightWay k) (hk : k < l.ll_tokens.length) :
    left l d' < left l d := by
  cases d with
  | fwd i => obtain ⟨rfl, h⟩ := hn; simp only [Dir.RightWay] at hw; simp only [left]; omega
  | bwd i => obtain ⟨n, rfl, rfl⟩ := hn; simp only [Dir.RightWay] at hw; simp only [left]; omega

theorem goAfter_congr {α : Type} {m m' : XMatch W α} {d : Dir} {k : Nat} {l : LLLine W}
    (h : ∀ d', d.Next k l d' → m.go d' l = m'.go d' l) : X.goAfter m d k l = X.goAfter m' d k l := by
  unfold X.goAfter
  cases ha : d.after k l with
  | none => rfl
  | some d' => exact h d' (after_iff.1 ha)

theorem flatMapR_same {α β : Type} (f g : α → R (List β)) : ∀ xs : List α, (∀ x ∈ xs, f x = g x) → flatMapR f xs = flatMapR g xs
  | [], _ => rfl
  | x :: xs, h => by
    simp only [flatMapR]
    rw [h x (by simp), flatMapR_same f g xs (fun y hy => h y (by simp [hy]))]

theorem userTree_congr {I : Type} {A : I → Type} {Out : Type} {part part' : (i : I) → XMatch W (A i)} {d : Dir} {l : LLLine W}
    (h : ∀ i, (part i).go d l = (part' i).go d l) : ∀ (t : UserTree A Out) (seen : List Nat),
      t.run part d l seen = t.run part' d l seen
  | .answer _, _ => rfl
  | .ask i next, seen => by
    simp only [UserTree.run, h i]
    cases (part' i).go d l with
    | error e => rfl
    | ok rs => exact userTree_congr h _ _

section
variable {l : LLLine W} {h : History W} (hr : Reachable l h) (ho : Ordered h)
include hr ho

/-- if two matchers agree where fewer than `m` tokens are left, so does code that calls them, and where `m` are left if it
calls them later only -/
theorem calls_agree {S Out : Type} {g : Bool} {F : XMatch W S → XMatch W Out} (hc : Calls T has g F) {r r' : XMatch W S}
    (hb : Built T has r') {m : Nat} (ha : ∀ d, left l d < m → r.go d l = r'.go d l) :
    ∀ d, left l d < m + g.toNat → (F r).go d l = (F r').go d l := by
  induction hc with
  | other _ => exact fun _ _ => rfl
  | itself => exact fun d hd => ha d hd
  | later _ ih => exact fun d hd => ih d (Nat.lt_succ_of_lt hd)
  | all2 _ _ ia ib => intro d hd; simp only [X.all2, ia d hd, ib d hd]
  | all3 _ _ _ ia ib ic => intro d hd; simp only [X.all3, ia d hd, ib d hd, ic d hd]
  | anyOf2 _ _ ia ib => intro d hd; simp only [X.anyOf2, ia d hd, ib d hd]
  | anyOf3 _ _ _ ia ib ic => intro d hd; simp only [X.anyOf3, ia d hd, ib d hd, ic d hd]
  | @seq2 g α β A B hA hB ia ib =>
    intro d hd
    simp only [X.seq2, ia d hd]
    cases hq : (A r').go d l with
    | error e => rfl
    | ok as =>
      refine flatMapR_same _ _ as (fun p hp => ?_)
      have hw := built_results (calls_built hA hb) hr.rep True (fun _ => ho) d as hq p hp
      rw [goAfter_congr (fun d' hn => ib d' (by
        have := next_left hn (hw.2 trivial) hw.1
        have : g.toNat ≤ 1 := by cases g <;> decide
        simp only [Bool.toNat_false]; omega))]
  | @seq3 g α β γ A B C hA hB hC ia ib ic =>
    intro d hd
    simp only [X.seq3, ia d hd]
    cases hq : (A r').go d l with
    | error e => rfl
    | ok as =>
      refine flatMapR_same _ _ as (fun p hp => ?_)
      have hw := built_results (calls_built hA hb) hr.rep True (fun _ => ho) d as hq p hp
      have hg : g.toNat ≤ 1 := by cases g <;> decide
      rw [goAfter_congr (m := B r) (m' := B r') (fun d' hn => ib d' (by
        have := next_left hn (hw.2 trivial) hw.1
        simp only [Bool.toNat_false]; omega))]
      cases hq2 : X.goAfter (B r') d p.2 l with
      | error e => rfl
      | ok bs =>
        refine flatMapR_same _ _ bs (fun p' hp' => ?_)
        have hx : d.RightWay p'.2 ∧ p'.2 < l.ll_tokens.length := by
          unfold X.goAfter at hq2
          cases hn : d.after p.2 l with
          | none => rw [hn] at hq2; cases hq2; cases hp'
          | some d' =>
            rw [hn] at hq2
            have hw' := built_results (calls_built hB hb) hr.rep True (fun _ => ho) d' bs hq2 p' hp'
            exact ⟨next_rightWay (after_iff.1 hn) (hw.2 trivial) (hw'.2 trivial), hw'.1⟩
        rw [goAfter_congr (m := C r) (m' := C r') (fun d' hn => ic d' (by
          have := next_left hn hx.1 hx.2
          simp only [Bool.toNat_false]; omega))]
  | user part t _ ih =>
    intro d hd
    exact userTree_congr (fun i => ih i d hd) t []

theorem levels_agree {Out : Type} {F : XMatch W Out → XMatch W Out} (hc : Calls T has true F) :
    ∀ n k d, left l d < n → (X.levels F (n + k)).go d l = (X.levels F n).go d l
  | 0, _, _, hd => by omega
  | n + 1, k, d, hd => by
    rw [Nat.add_right_comm]
    exact calls_agree hr ho hc (levels_built hc n) (levels_agree hc n k) d hd

theorem levels_settled {Out : Type} {F : XMatch W Out → XMatch W Out} (hc : Calls T has true F) (d : Dir) (n : Nat)
    (hn : l.ll_tokens.length + 2 ≤ n) : (X.levels F n).go d l = (X.levels F (l.ll_tokens.length + 2)).go d l := by
  obtain ⟨k, rfl⟩ := Nat.exists_eq_add_of_le hn
  exact levels_agree hr ho hc _ k d (by have := left_le l d; omega)

/-- the recursion equation -/
theorem recursive_unfold {Out : Type} {F : XMatch W Out → XMatch W Out} (hc : Calls T has true F) (d : Dir) :
    (X.recursive F).go d l = (F (X.recursive F)).go d l := by
  have h1 : (F (X.recursive F)).go d l = (X.levels F (l.ll_tokens.length + 3)).go d l :=
    calls_agree hr ho hc (r := X.recursive F) (levels_built hc (l.ll_tokens.length + 2)) (m := l.ll_tokens.length + 2)
      (fun _ _ => rfl) d
      (by have := left_le l d; simp only [Bool.toNat_true]; omega)
  rw [h1, levels_settled hr ho hc d _ (by omega)]
  rfl

/-- and it has no other solution -/
theorem recursive_unique {Out : Type} {F : XMatch W Out → XMatch W Out} (hc : Calls T has true F) {r : XMatch W Out}
    (heq : ∀ d, r.go d l = (F r).go d l) (d : Dir) : r.go d l = (X.recursive F).go d l := by
  have key : ∀ m d, left l d < m → r.go d l = (X.levels F m).go d l := by
    intro m
    induction m with
    | zero => intro d hd; omega
    | succ m ih => intro d hd; rw [heq]; exact calls_agree hr ho hc (levels_built hc m) ih d hd
  exact key _ d (by have := left_le l d; omega)

end

theorem recursive_built {Out : Type} {F : XMatch W Out → XMatch W Out} (hc : Calls T has true F) :
    Built T has (X.recursive F) :=
  .recursive _ (levels_built hc) (fun _ _ hr ho d n hn => levels_settled hr ho hc d n hn)

/-! ### `many` -/

theorem again_calls {α : Type} {m : XMatch W α} (hm : Built T has m) :
    Calls T has true (fun r => UserTree.again.matcher (parts (X.seq2 m r) m)) := by
  have : (fun r : XMatch W Nat => UserTree.again.matcher (parts (X.seq2 m r) m)) =
      fun r => UserTree.again.matcher (fun i => (fun (i : Bool) (r : XMatch W Nat) =>
        (parts (X.seq2 m r) m i : XMatch W (if i then α × Nat else α))) i r) := rfl
  rw [this]
  refine Calls.user _ _ (fun i => ?_)
  cases i with
  | false => exact .other hm
  | true => exact .seq2 (.other hm) .itself

theorem many_built {α : Type} {m : XMatch W α} (hm : Built T has m) : Built T has (X.many m) := recursive_built (again_calls hm)

theorem again_go {α : Type} (m : XMatch W α) (r : XMatch W Nat) (d : Dir) (l : LLLine W) :
    (UserTree.again.matcher (parts (X.seq2 m r) m)).go d l =
      match (X.seq2 m r).go d l with
      | .error e => .error e
      | .ok ps => match m.go d l with
        | .error e => .error e
        | .ok vs => .ok (ps.map (fun p => (p.1.2 + 1, p.2)) ++ vs.map (fun v => (1, v.2))) := by
  simp only [UserTree.matcher, UserTree.again, UserTree.run, List.nil_append]
  rw [show (parts (X.seq2 m r) m true).go d l = (X.seq2 m r).go d l from rfl]
  cases (X.seq2 m r).go d l with
  | error e => rfl
  | ok ps =>
    simp only
    rw [show (parts (X.seq2 m r) m false).go d l = m.go d l from rfl]
    cases m.go d l with
    | error e => rfl
    | ok vs =>
      simp only
      congr 1
      rw [List.filterMap_append]
      congr 1
      · rw [List.map_map]
        have := numbered_filterMap (fun x => Option.map (fun e => (x.1, e)) ((ps.map (·.2) ++ vs.map (·.2))[x.2]?))
          (fun r => some r) (ps.map (fun p => (p.1.2 + 1, p.2))) 0 (fun i r hi => by
            rw [List.getElem?_map] at hi
            cases hp : ps[i]? with
            | none => rw [hp] at hi; cases hi
            | some q =>
              rw [hp] at hi
              cases hi
              rw [Nat.zero_add, List.getElem?_append_left (by simpa using (List.getElem?_eq_some_iff.1 hp).1)]
              simp [hp])
        rw [List.map_map] at this
        exact this.trans (by simp)
      · rw [List.map_map]
        have := numbered_filterMap (fun x => Option.map (fun e => (x.1, e)) ((ps.map (·.2) ++ vs.map (·.2))[x.2]?))
          (fun r => some r) (vs.map (fun v => (1, v.2))) ps.length (fun i r hi => by
            rw [List.getElem?_map] at hi
            cases hp : vs[i]? with
            | none => rw [hp] at hi; cases hi
            | some q =>
              rw [hp] at hi
              cases hi
              rw [List.getElem?_append_right (by simp)]
              simp [hp])
        rw [List.map_map] at this
        rw [List.length_map]
        exact this.trans (by simp)

section
variable {l : LLLine W} {h : History W} (hr : Reachable l h) (ho : Ordered h)
include hr ho

theorem many_unfold {α : Type} {m : XMatch W α} (hm : Built T has m) (d : Dir) :
    (X.many m).go d l = match (X.seq2 m (X.many m)).go d l with
      | .error e => .error e
      | .ok ps => match m.go d l with
        | .error e => .error e
        | .ok vs => .ok (ps.map (fun p => (p.1.2 + 1, p.2)) ++ vs.map (fun v => (1, v.2))) := by
  have := recursive_unfold hr ho (again_calls hm) d
  rw [again_go] at this
  exact this

theorem mem_many {α : Type} {m : XMatch W α} (hm : Built T has m) : ∀ (N : Nat) (d : Dir), left l d < N →
    ∀ out, (X.many m).go d l = .ok out → ∀ n j, (n, j) ∈ out ↔ InARow m l n d j := by
  intro N
  induction N with
  | zero => intro d hd; omega
  | succ N ih =>
    intro d hd out hg n j
    rw [many_unfold hr ho hm] at hg
    cases hq : (X.seq2 m (X.many m)).go d l with
    | error e => rw [hq] at hg; cases hg
    | ok ps =>
      cases hv : m.go d l with
      | error e => rw [hq, hv] at hg; cases hg
      | ok vs =>
        rw [hq, hv] at hg
        cases hg
        have step : ∀ {v : α} {k : Nat} {d' : Dir}, (v, k) ∈ vs → d.Next k l d' → left l d' < N := by
          intro v k d' hk hn
          have hw := built_results hm hr.rep True (fun _ => ho) d vs hv _ hk
          have := next_left hn (hw.2 trivial) hw.1
          omega
        rw [List.mem_append, List.mem_map, List.mem_map]
        constructor
        · rintro (⟨⟨⟨x, c⟩, j'⟩, hp, he⟩ | ⟨⟨v, j'⟩, hp, he⟩)
          · cases he
            obtain ⟨as, k, d', bs, ha, hx, hn, hb, hy⟩ := (mem_seq2 hq).1 hp
            rw [hv] at ha
            cases ha
            exact .more hv hx hn ((ih d' (step hx hn) bs hb c _).1 hy)
          · cases he
            exact .one hv hp
        · intro hrow
          cases hrow with
          | one ho hmem =>
            rw [hv] at ho
            cases ho
            exact .inr ⟨_, hmem, rfl⟩
          | @more n _ d' _ v k _ ho hmem hn hrest =>
            rw [hv] at ho
            cases ho
            obtain ⟨as, ha, hok, _⟩ := seq2_ok_iff.1 hq
            rw [hv] at ha
            cases ha
            obtain ⟨bs, hbs⟩ := hok _ hmem
            have hb := (goAfter_ok_iff.1 hbs).1 d' hn
            exact .inl ⟨((v, n), _), (mem_seq2 hq).2 ⟨vs, k, d', bs, hv, hmem, hn, hb, (ih d' (step hmem hn) bs hb n _).2 hrest⟩, rfl⟩

end

end LNlp
