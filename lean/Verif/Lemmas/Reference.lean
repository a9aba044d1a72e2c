import Verif.Spec.Reference
import Verif.Lemmas.Program
import Verif.Lemmas.StoreProps
import Verif.Props.Store
import Verif.Props.Display
import Verif.Props.Tokenize
/- Lemmas for C135. -/
namespace LNlp
variable {W : World}

@[simp] theorem must_true {p : Prop} [Decidable p] (h : p) : must p = some () := if_pos h
@[simp] theorem must_false {p : Prop} [Decidable p] (h : ¬ p) : must p = none := if_neg h

theorem toOption_flatMapR {α β : Type} {f : α → R (List β)} {g : α → Option (List β)} :
    ∀ {xs : List α}, (∀ x ∈ xs, (f x).toOption = g x) → (flatMapR f xs).toOption = gather g xs := by
  intro xs
  induction xs with
  | nil => intro _; rfl
  | cons x xs ih =>
    intro hf
    have hx := hf x (by simp)
    have ih := ih (fun y hy => hf y (by simp [hy]))
    simp only [flatMapR, gather, ← hx, ← ih]
    cases f x with
    | error e => rfl
    | ok ys => cases flatMapR f xs with
      | error e => rfl
      | ok zs => rfl

theorem toOption_mapR {α β : Type} {f : α → R β} {g : α → Option β} :
    ∀ {xs : List α}, (∀ x ∈ xs, (f x).toOption = g x) → (mapR f xs).toOption = xs.mapM g := by
  intro xs
  induction xs with
  | nil => intro _; rfl
  | cons x xs ih =>
    intro hf
    have hx := hf x (by simp)
    have ih := ih (fun y hy => hf y (by simp [hy]))
    simp only [mapR, List.mapM_cons, ← hx, ← ih]
    cases f x with
    | error e => rfl
    | ok ys => cases mapR f xs with
      | error e => rfl
      | ok zs => rfl

variable {l : LLLine W} {h : History W}

theorem valuesAt_eq (rep : Rep l h) (k : Ty W) (d : Dir) : (d.attr k l).toOption = Sheet.valuesAt ⟨l.ll_tokens, h⟩ k d := by
  unfold Sheet.valuesAt
  by_cases hd : d.at < l.ll_tokens.length
  · rw [must_true hd]
    cases d with
    | fwd i => rw [rep_attr_fwd rep k (i := i) hd]; simp [Except.toOption, Sheet.rangesAt, List.flatMap_map]
    | bwd i => rw [rep_attr_bwd rep k (i := i) hd]; simp [Except.toOption, Sheet.rangesAt, List.flatMap_map]
  · rw [must_false hd]
    cases d with
    | fwd i => rw [(rep_attr_oob rep k (i := i) hd).1]; rfl
    | bwd i => rw [(rep_attr_oob rep k (i := i) hd).2]; rfl

theorem filter_flatMap_map {α β γ : Type} (p : β → Bool) (f : α → List β) (e : α → γ) (xs : List α) :
    (xs.flatMap (fun a => (f a).map (fun b => (b, e a)))).filter (fun x => p x.1) =
      xs.flatMap (fun a => ((f a).filter p).map (fun b => (b, e a))) := by
  induction xs with
  | nil => rfl
  | cons x xs ih =>
    simp only [List.flatMap_cons, List.filter_append, ih, List.filter_map]
    rfl

theorem attrEq_ref (rep : Rep l h) (k : Ty W) (v : Val k) (d : Dir) :
    (d.attrEq k v l).toOption = (Expr.attrEq k v).means ⟨l.ll_tokens, h⟩ d := by
  simp only [Expr.means, Sheet.valuesAt]
  by_cases hd : d.at < l.ll_tokens.length
  · rw [must_true hd]
    cases d with
    | fwd i =>
      rw [rep_attrEq_fwd rep k v (i := i) hd]
      simp [Except.toOption, Sheet.rangesAt, List.flatMap_map, filter_flatMap_map (fun x => valEq k x v), List.map_flatMap,
        Function.comp_def]
    | bwd i =>
      rw [rep_attrEq_bwd rep k v (i := i) hd]
      simp [Except.toOption, Sheet.rangesAt, List.flatMap_map, filter_flatMap_map (fun x => valEq k x v), List.map_flatMap,
        Function.comp_def]
  · rw [must_false hd]
    cases d with
    | fwd i => rw [(rep_attrEq_oob rep k v (i := i) hd).1]; rfl
    | bwd i => rw [(rep_attrEq_oob rep k v (i := i) hd).2]; rfl

theorem hasAny_eq (rep : Rep l h) (k : Ty W) (set : List (Val k)) (d : Dir) :
    (d.tokenAttrOneOf k set l).toOption = (Expr.tokenHasAny k set).means ⟨l.ll_tokens, h⟩ d := by
  cases d with
  | fwd i =>
    simp only [Expr.means, Sheet.tokenValues]
    rw [rep_oneOf_fwd rep k set i]
    by_cases hx : ∃ x ∈ h, x.range = (i, i)
    · rw [if_pos hx, must_true hx]
      simp [Except.toOption, setContains, List.filter_map, Function.comp_def]
    · rw [if_neg hx, must_false hx]; rfl
  | bwd i =>
    simp only [Expr.means, Sheet.tokenValues, Sheet.valuesAt]
    by_cases hd : i < l.ll_tokens.length
    · rw [must_true (show Dir.at (.bwd i) < _ from hd), rep_oneOf_bwd rep k set hd]
      simp [Except.toOption, Sheet.rangesAt, List.flatMap_map, setContains,
        filter_flatMap_map (fun x => set.any (fun y => valEq k y x))]
    · rw [must_false (show ¬ Dir.at (.bwd i) < _ from hd), rep_oneOf_bwd_oob rep k set hd]; rfl

theorem text_eq (d : Dir) : ((X.tokenText (W := W)).go d l).toOption = Expr.tokenText.means ⟨l.ll_tokens, h⟩ d := by
  simp only [Expr.means, X.tokenText]
  cases d with
  | fwd i =>
    by_cases hd : i < l.ll_tokens.length
    · rw [must_true (show Dir.fwd i = Dir.fwd (Dir.fwd i).at → (Dir.fwd i).at < l.ll_tokens.length from fun _ => hd)]
      simp only [Dir.textToken, List.getElem?_eq_getElem hd, Sheet.textAt, Dir.at]
      cases l.ll_tokens[i] with
      | mk a b c t => cases t <;> rfl
    · rw [must_false (fun hc => hd (hc rfl))]
      simp only [Dir.textToken, List.getElem?_eq_none (Nat.le_of_not_lt hd)]; rfl
  | bwd i =>
    rw [must_true (show Dir.bwd i = Dir.fwd (Dir.bwd i).at → (Dir.bwd i).at < l.ll_tokens.length from fun hc => by cases hc)]
    simp only [Dir.textToken, Sheet.textAt, Dir.at]
    cases l.ll_tokens[i]? with
    | none => rfl
    | some t => cases t with
      | mk a b c t => cases t <;> rfl

theorem next_eq (d : Dir) (e : Nat) : d.after e l = Sheet.next ⟨l.ll_tokens, h⟩ d e := by
  cases d with
  | fwd i => rfl
  | bwd i =>
    simp only [Dir.after, Sheet.next]
    by_cases he : e = 0
    · rw [if_neg (by omega), if_pos he]
    · rw [if_pos (by omega), if_neg he]

theorem tree_eq {I : Type} {A : I → Type} {Out : Type} {part : (i : I) → XMatch W (A i)}
    {ask : (i : I) → Option (List (A i × Nat))} {d : Dir} (hp : ∀ i, ((part i).go d l).toOption = ask i) (t : UserTree A Out) :
    ∀ seen, (t.run part d l seen).toOption = t.means ask seen := by
  induction t with
  | answer out =>
    intro seen
    simp only [UserTree.run, UserTree.means, Except.toOption]
    congr 1
    induction out with
    | nil => rfl
    | cons x xs ih =>
      simp only [List.filterMap_cons, List.flatMap_cons, ← ih]
      cases seen[x.2]? <;> rfl
  | ask i next ih =>
    intro seen
    simp only [UserTree.run, UserTree.means, ← hp i]
    cases (part i).go d l with
    | error e => rfl
    | ok rs => exact ih _ _ _

theorem all2_pairs {α β : Type} (bs : List (β × Nat)) (x : α × Nat) :
    bs.filterMap (fun y => if x.2 = y.2 then some ((x.1, y.1), x.2) else none) =
      bs.flatMap (fun y => if x.2 = y.2 then [((x.1, y.1), x.2)] else []) := by
  induction bs with
  | nil => rfl
  | cons y ys ih =>
    simp only [List.filterMap_cons, List.flatMap_cons, ← ih]
    by_cases he : x.2 = y.2
    · rw [if_pos he, if_pos he]; rfl
    · rw [if_neg he, if_neg he]; rfl

theorem all3_pairs {α β γ : Type} (cs : List (γ × Nat)) (x : α × Nat) (y : β × Nat) :
    cs.filterMap (fun z => if x.2 = y.2 ∧ x.2 = z.2 then some ((x.1, y.1, z.1), x.2) else none) =
      cs.flatMap (fun z => if x.2 = y.2 ∧ x.2 = z.2 then [((x.1, y.1, z.1), x.2)] else []) := by
  induction cs with
  | nil => rfl
  | cons z zs ih =>
    simp only [List.filterMap_cons, List.flatMap_cons, ← ih]
    by_cases he : x.2 = y.2 ∧ x.2 = z.2
    · rw [if_pos he, if_pos he]; rfl
    · rw [if_neg he, if_neg he]; rfl

theorem means_eq (rep : Rep l h) {Out : Type} (e : Expr W Out) :
    ∀ d, (e.matcher.go d l).toOption = e.means ⟨l.ll_tokens, h⟩ d := by
  induction e with
  | attr k => exact valuesAt_eq rep k
  | attrEq k v => exact attrEq_ref rep k v
  | tokenHasAny k set => exact hasAny_eq rep k set
  | tokenText => exact text_eq
  | all2 a b iha ihb =>
    intro d
    simp only [Expr.matcher, X.all2, Expr.means, ← iha d, ← ihb d, all2_pairs]
    cases b.matcher.go d l <;> cases a.matcher.go d l <;> rfl
  | all3 a b c iha ihb ihc =>
    intro d
    simp only [Expr.matcher, X.all3, Expr.means, ← iha d, ← ihb d, ← ihc d, all3_pairs]
    cases b.matcher.go d l <;> cases c.matcher.go d l <;> cases a.matcher.go d l <;> rfl
  | anyOf2 a b iha ihb =>
    intro d
    simp only [Expr.matcher, X.anyOf2, Expr.means, ← iha d, ← ihb d]
    cases a.matcher.go d l with
    | error e => rfl
    | ok as =>
      cases as with
      | nil => cases b.matcher.go d l <;> rfl
      | cons x xs => rfl
  | anyOf3 a b c iha ihb ihc =>
    intro d
    simp only [Expr.matcher, X.anyOf3, Expr.means, ← iha d, ← ihb d, ← ihc d]
    cases a.matcher.go d l with
    | error e => rfl
    | ok as =>
      cases as with
      | nil => cases b.matcher.go d l with
        | error e => rfl
        | ok bs =>
          cases bs with
          | nil => cases c.matcher.go d l <;> rfl
          | cons x xs => rfl
      | cons x xs => rfl
  | seq2 a b iha ihb =>
    intro d
    simp only [Expr.matcher, X.seq2, Expr.means, ← iha d]
    cases a.matcher.go d l with
    | error e => rfl
    | ok as =>
      refine toOption_flatMapR ?_
      intro x _
      simp only [X.goAfter, ← next_eq]
      cases d.after x.2 l with
      | none => rfl
      | some d' =>
        simp only [← ihb d']
        cases b.matcher.go d' l <;> rfl
  | seq3 a b c iha ihb ihc =>
    intro d
    simp only [Expr.matcher, X.seq3, Expr.means, ← iha d]
    cases a.matcher.go d l with
    | error e => rfl
    | ok as =>
      refine toOption_flatMapR ?_
      intro x _
      simp only [X.goAfter, ← next_eq]
      cases d.after x.2 l with
      | none => rfl
      | some d' =>
        simp only [← ihb d']
        cases b.matcher.go d' l with
        | error e => rfl
        | ok bs =>
          refine toOption_flatMapR ?_
          intro y _
          cases d.after y.2 l with
          | none => rfl
          | some d'' =>
            simp only [← ihc d'']
            cases c.matcher.go d'' l <;> rfl
  | user part t ih =>
    intro d
    exact tree_eq (fun i => ih i d) t []
  | unrolled f ih =>
    intro d
    exact ih _ d

/-! selections -/

theorem places_eq (r : LRange) : rangeIncl r.1 r.2 = places r := by
  unfold rangeIncl places
  by_cases hl : r.1 ≤ r.2 + 1
  · have e : List.range (r.2 + 1) = List.range r.1 ++ List.range' r.1 (r.2 + 1 - r.1) := by
      rw [List.range_eq_range', List.range_eq_range']
      have := List.range'_append (s := 0) (m := r.1) (n := r.2 + 1 - r.1) (step := 1)
      simp only [Nat.zero_add, Nat.one_mul] at this
      rw [this]
      congr 1
      omega
    rw [e, List.filter_append]
    have h1 : (List.range r.1).filter (fun i => decide (r.1 ≤ i)) = [] := by
      rw [List.filter_eq_nil_iff]
      intro i hi
      have := List.mem_range.1 hi
      simp only [decide_eq_true_eq]; omega
    have h2 : (List.range' r.1 (r.2 + 1 - r.1)).filter (fun i => decide (r.1 ≤ i)) = List.range' r.1 (r.2 + 1 - r.1) := by
      rw [List.filter_eq_self]
      intro i hi
      have := (List.mem_range'_1.1 hi).1
      simpa using this
    rw [h1, h2, List.nil_append]
  · rw [show r.2 + 1 - r.1 = 0 by omega]
    symm
    rw [List.range'_zero, List.filter_eq_nil_iff]
    intro i hi
    have := List.mem_range.1 hi
    simp only [decide_eq_true_eq]; omega

theorem part_eq (s : LLSelection W) (a b : Nat) : (s.selectionFrom a b).toList.map (·.range) = part s.range a (b + 1) := by
  have e1 : s.range.1 = s.start_idx := rfl
  have e2 : s.range.2 = s.end_idx := rfl
  unfold LLSelection.selectionFrom part
  rw [e1, e2]
  by_cases c : max a s.start_idx ≤ min b s.end_idx
  · simp only [if_pos c]
    rw [if_pos (by omega), show min (b + 1) (s.end_idx + 1) - 1 = min b s.end_idx by omega]
    rfl
  · simp only [if_neg c]
    rw [if_neg (by omega)]; rfl

theorem part_before (s : LLSelection W) (a b : Nat) :
    ((checkedSub b 1).bind (fun e => s.selectionFrom a e)).toList.map (·.range) = part s.range a b := by
  unfold checkedSub
  by_cases hb : 1 ≤ b
  · rw [if_pos hb]
    simp only [Option.bind_some]
    rw [part_eq, Nat.sub_add_cancel hb]
  · rw [if_neg hb]
    unfold part
    rw [if_neg (by omega)]; rfl

theorem splits_eq {Out : Type} (s : LLSelection W) : ∀ (ms : List (LLSelection W × Out)) (m : LLSelection W × Out),
    ((windows2 (m :: ms)).filterMap (fun m => (checkedSub m.2.1.start_idx 1).bind (fun e => s.selectionFrom (m.1.1.end_idx + 1) e)) ++
      (s.selectionFrom (((m :: ms).getLast (by simp)).1.end_idx + 1) s.end_idx).toList).map (·.range) =
    (((m.1.end_idx + 1) :: ms.map (fun x => x.1.end_idx + 1)).zip (ms.map (fun x => x.1.start_idx) ++ [s.end_idx + 1])).flatMap
      (fun p => part s.range p.1 p.2) := by
  intro ms
  induction ms with
  | nil => intro m; simp [windows2, part_eq]
  | cons m' ms ih =>
    intro m
    have ih := ih m'
    rw [List.getLast_cons (by simp)]
    simp only [windows2, List.map_cons, List.cons_append, List.zip_cons_cons, List.flatMap_cons]
    rw [← ih, ← part_before]
    simp only [List.filterMap_cons]
    cases (checkedSub m'.1.start_idx 1).bind (fun e => s.selectionFrom (m.1.end_idx + 1) e) with
    | none => rfl
    | some p => rfl

theorem found_map {Out : Type} (rc : Rc (LLLine W)) (xs : List (Out × Nat)) (f : Out × Nat → LRange) :
    (xs.map (fun r => (selAt rc (f r), r.1))).map (fun p => (p.1.range, p.2)) = xs.map (fun r => (f r, r.1)) := by
  rw [List.map_map]; rfl

theorem toOption_flatMapR_map {α β γ : Type} {f : α → R (List β)} {g : α → Option (List γ)} {F : β → γ} :
    ∀ {xs : List α}, (∀ x ∈ xs, (f x).toOption.map (List.map F) = g x) →
      (flatMapR f xs).toOption.map (List.map F) = gather g xs := by
  intro xs
  induction xs with
  | nil => intro _; rfl
  | cons x xs ih =>
    intro hf
    have hx := hf x (by simp)
    have ih := ih (fun y hy => hf y (by simp [hy]))
    simp only [flatMapR, gather, ← hx, ← ih]
    cases f x with
    | error e => rfl
    | ok ys => cases flatMapR f xs with
      | error e => rfl
      | ok zs => exact congrArg some (List.map_append ..)

theorem findBy_ref (rep : Rep l h) {Out : Type} (e : Expr W Out) (s : LLSelection W) (hs : s.ll_line.val = l) :
    (s.findBy e.matcher).toOption.map (List.map (fun p => (p.1.range, p.2))) =
      gather (Sheet.ahead ⟨l.ll_tokens, h⟩ e) (places s.range) := by
  unfold LLSelection.findBy
  rw [hs, ← places_eq]
  refine toOption_flatMapR_map ?_
  intro i _
  simp only [Sheet.ahead, ← means_eq rep]
  cases e.matcher.go (.fwd i) l with
  | error e => rfl
  | ok rs => exact congrArg some (found_map s.ll_line rs (fun r => (i, r.2)))

theorem findBoth_ref (rep : Rep l h) {Out : Type} (e : Expr W Out) (s : LLSelection W) (hs : s.ll_line.val = l) :
    (s.findByForwardsAndBackwards e.matcher).toOption.map (List.map (fun p => (p.1.range, p.2))) =
      gather (fun i => do return (← Sheet.ahead ⟨l.ll_tokens, h⟩ e i) ++ (← Sheet.back ⟨l.ll_tokens, h⟩ e i)) (places s.range) := by
  unfold LLSelection.findByForwardsAndBackwards
  rw [hs, ← places_eq]
  refine toOption_flatMapR_map ?_
  intro i _
  simp only [Sheet.ahead, Sheet.back, ← means_eq rep]
  cases e.matcher.go (.fwd i) l with
  | error e => rfl
  | ok rs =>
    cases e.matcher.go (.bwd i) l with
    | error e => rfl
    | ok bs =>
      refine congrArg some ?_
      rw [List.map_append]
      exact congr (congrArg _ (found_map s.ll_line rs (fun r => (i, r.2)))) (found_map s.ll_line bs (fun r => (r.2, i)))

theorem answer_pairs {Out : Type} (x : R (List (LLSelection W × Out))) :
    (answerPairs x).toOption = (x.toOption.map (List.map (fun p => (p.1.range, p.2)))).map apart := by
  cases x with
  | error e => rfl
  | ok xs => simp [answerPairs, Except.toOption, apart, Function.comp_def]

theorem call_eq (rep : Rep l h) (rc : Rc (LLLine W)) (hrc : rc.val = l) (sels : List LRange) {Resp : Type} (c : Call W Resp) :
    (c.op.exec rc sels).toOption = c.means ⟨l.ll_tokens, h⟩ sels := by
  cases c with
  | fromLine i =>
    simp only [Call.op, Op.exec, onHandle, Call.means]
    cases sels[i]? with
    | none => rfl
    | some r =>
      simp only [answerOption, LLSelection.fromLine, selAt, hrc]
      cases l.ll_tokens with
      | nil => rfl
      | cons t ts => rfl
  | findBy i e =>
    simp only [Call.op, Op.exec, onHandle, Call.means]
    cases sels[i]? with
    | none => rfl
    | some r =>
      simp only
      rw [answer_pairs, findBy_ref rep e (selAt rc r) hrc]
      change Option.map _ (gather _ (places r)) = (do let xs ← gather _ (places r); pure (apart xs))
      cases gather (Sheet.ahead ⟨l.ll_tokens, h⟩ e) (places r) <;> rfl
  | findBoth i e =>
    simp only [Call.op, Op.exec, onHandle, Call.means]
    cases sels[i]? with
    | none => rfl
    | some r =>
      simp only
      rw [answer_pairs, findBoth_ref rep e (selAt rc r) hrc]
      change Option.map _ (gather _ (places r)) = (do let xs ← gather _ (places r); pure (apart xs))
      cases gather _ (places r) <;> rfl
  | matchForwards i e =>
    simp only [Call.op, Op.exec, onHandle, Call.means]
    cases sels[i]? with
    | none => rfl
    | some r =>
      simp only [LLSelection.matchForwards, selAt, hrc]
      by_cases c : r.2 + 1 = l.ll_tokens.length
      · simp only [Option.bind_eq_bind, Option.bind_some, if_pos c]; rfl
      · simp only [Option.bind_eq_bind, Option.bind_some, if_neg c]
        rw [answer_pairs]
        simp only [← means_eq rep]
        cases e.matcher.go (.fwd (r.2 + 1)) l with
        | error e => rfl
        | ok rs => exact congrArg some (congrArg apart (found_map rc rs (fun x => (r.1, x.2))))
  | matchBackwards i e =>
    simp only [Call.op, Op.exec, onHandle, Call.means]
    cases sels[i]? with
    | none => rfl
    | some r =>
      simp only [LLSelection.matchBackwards, selAt, hrc]
      by_cases c : r.1 = 0
      · simp only [Option.bind_eq_bind, Option.bind_some, if_pos c]; rfl
      · simp only [Option.bind_eq_bind, Option.bind_some, if_neg c]
        rw [answer_pairs]
        simp only [← means_eq rep]
        cases e.matcher.go (.bwd (r.1 - 1)) l with
        | error e => rfl
        | ok rs => exact congrArg some (congrArg apart (found_map rc rs (fun x => (x.2, r.2))))
  | splitBy i e =>
    simp only [Call.op, Op.exec, onHandle, Call.means]
    cases sels[i]? with
    | none => rfl
    | some r =>
      have hf := findBy_ref rep e (selAt rc r) hrc
      change _ = gather _ (places r) at hf
      simp only [LLSelection.splitBy, Option.bind_eq_bind, Option.bind_some]
      rw [← hf]
      cases (selAt rc r).findBy e.matcher with
      | error e => rfl
      | ok ms =>
        cases ms with
        | nil => rfl
        | cons m0 ms =>
          have key := splits_eq (selAt rc r) ms m0
          have p0 := part_before (selAt rc r) r.1 m0.1.start_idx
          have p1 : (((windows2 (m0 :: ms)).filterMap (fun m =>
                (checkedSub m.2.1.start_idx 1).bind (fun e => (selAt rc r).selectionFrom (m.1.1.end_idx + 1) e)) ++
              ((selAt rc r).selectionFrom (((m0 :: ms).getLast (by simp)).1.end_idx + 1) (selAt rc r).end_idx).toList)).map
                (·.range) = (((m0.1.end_idx + 1) :: ms.map (fun x => x.1.end_idx + 1)).zip
                  (ms.map (fun x => x.1.start_idx) ++ [r.2 + 1])).flatMap (fun p => part r p.1 p.2) := key
          have rhs : ∀ (f : List (LRange × _) → Option (List LRange × Unit)),
              (Option.map (List.map (fun p : LLSelection W × _ => (p.1.range, p.2))) (Except.ok (ε := Panic) (m0 :: ms)).toOption).bind f =
              f ((m0 :: ms).map (fun p => (p.1.range, p.2))) := fun _ => rfl
          rw [rhs, if_neg (by simp)]
          simp only [List.map_cons, List.map_map, Function.comp_def, List.cons_append, List.zip_cons_cons, List.flatMap_cons]
          change _ = some (part r r.1 m0.1.start_idx ++ (((m0.1.end_idx + 1) :: ms.map (fun x => x.1.end_idx + 1)).zip
                  (ms.map (fun x => x.1.start_idx) ++ [r.2 + 1])).flatMap (fun p => part r p.1 p.2), ())
          rw [← p1, ← (show _ = part r r.1 m0.1.start_idx from p0), ← List.map_append]
          cases ms with
          | nil => rfl
          | cons m1 ms =>
            simp only [answerList, Except.toOption, List.append_assoc]
            rfl
  | splitWith i j =>
    simp only [Call.op, Op.exec, onHandle, Call.means]
    cases sels[i]? with
    | none => rfl
    | some r =>
      cases sels[j]? with
      | none => rfl
      | some q =>
        have e1 := part_before (selAt rc r) r.1 q.1
        have e2 := part_eq (selAt rc r) (q.2 + 1) r.2
        change _ = part r r.1 q.1 at e1
        change _ = part r (q.2 + 1) (r.2 + 1) at e2
        have e3 : (if q.1 > 0 then (selAt rc r).selectionFrom r.1 (q.1 - 1) else none) =
            (checkedSub q.1 1).bind (fun e => (selAt rc r).selectionFrom r.1 e) := by
          unfold checkedSub
          by_cases c : q.1 > 0
          · rw [if_pos c, if_pos (by omega)]; rfl
          · rw [if_neg c, if_neg (by omega)]; rfl
        simp only [Option.bind_eq_bind, Option.bind_some, LLSelection.splitWith]
        rw [if_pos (show (selAt rc r).ll_line.ptr = (selAt rc q).ll_line.ptr from rfl)]
        rw [show (if (selAt rc q).start_idx > 0 then
            (selAt rc r).selectionFrom (selAt rc r).start_idx ((selAt rc q).start_idx - 1) else none) = _ from e3,
          ← e1, ← e2]
        change (answerTwo (.ok (_, (selAt rc r).selectionFrom (q.2 + 1) r.2))).toOption = _
        generalize (selAt rc r).selectionFrom (q.2 + 1) r.2 = x
        generalize ((checkedSub q.1 1).bind fun e => (selAt rc r).selectionFrom r.1 e) = y
        cases x <;> cases y <;> rfl
  | trimSelection i e fs fe =>
    simp only [Call.op, Op.exec, onHandle, Call.means]
    cases sels[i]? with
    | none => rfl
    | some r =>
      simp only [Option.bind_eq_bind, Option.bind_some, ← means_eq rep, LLSelection.trimSelection, selAt, hrc]
      have fin : ∀ a b, (answerOption (if b ≥ r.1 ∧ a ≤ b then
            .ok (some ({ ll_line := rc, start_idx := a, end_idx := b } : LLSelection W)) else .ok none)).toOption =
          some (if r.1 ≤ b ∧ a ≤ b then [(a, b)] else [], ()) := by
        intro a b
        by_cases c : r.1 ≤ b ∧ a ≤ b
        · rw [if_pos c, if_pos c]; rfl
        · rw [if_neg c, if_neg c]; rfl
      have sub : ∀ j : Nat, (checkedSub j 1).getD j = j - 1 := by
        intro j
        unfold checkedSub
        by_cases c : 1 ≤ j
        · rw [if_pos c]; rfl
        · rw [if_neg c]; simp only [Option.getD_none]; omega
      cases fs <;> cases fe
      · exact fin _ _
      · simp only [if_true, if_false, Bool.false_eq_true]
        cases e.matcher.go (.bwd r.2) l with
        | error e => rfl
        | ok rs =>
          cases rs with
          | nil => exact fin _ _
          | cons x xs => simp only [List.head?_cons, sub]; exact fin _ _
      · simp only [if_true, if_false, Bool.false_eq_true]
        cases e.matcher.go (.fwd r.1) l with
        | error e => rfl
        | ok rs =>
          cases rs with
          | nil => exact fin _ _
          | cons x xs => exact fin _ _
      · simp only [if_true]
        cases e.matcher.go (.fwd r.1) l with
        | error e => rfl
        | ok rs =>
          cases e.matcher.go (.bwd r.2) l with
          | error e => cases rs <;> rfl
          | ok bs =>
            cases rs <;> cases bs <;> simp only [List.head?_cons, List.head?_nil, sub] <;> exact fin _ _
  | after i =>
    simp only [Call.op, Op.exec, onHandle, Call.means]
    cases sels[i]? with
    | none => rfl
    | some r =>
      simp only [answerOption, LLSelection.after, selAt, hrc]
      by_cases c : r.1 + 1 = l.ll_tokens.length - 1
      · simp only [Option.bind_eq_bind, Option.bind_some, if_pos c]; rfl
      · simp only [Option.bind_eq_bind, Option.bind_some, if_neg c]; rfl

theorem finish_eq {V : Type} (sels : List LRange) : ∀ vs : List (Nat × V),
    (finishAll sels vs).toOption.map (·.map (fun a => ((a.start_idx, a.end_idx), a.value))) =
      vs.mapM (fun v => do return (← sels[v.1]?, v.2)) := by
  intro vs
  induction vs with
  | nil => rfl
  | cons v vs ih =>
    obtain ⟨i, v⟩ := v
    rw [List.mapM_cons, ← ih]
    simp only [finishAll]
    cases sels[i]? with
    | none => rfl
    | some r => cases finishAll sels vs <;> rfl

theorem code_eq {V : Type} (rep : Rep l h) (rc : Rc (LLLine W)) (hrc : rc.val = l) (c : Code W V) : ∀ sels : List LRange,
    (c.api.run rc sels).toOption.map (·.map (fun a => ((a.start_idx, a.end_idx), a.value))) = c.means ⟨l.ll_tokens, h⟩ sels := by
  induction c with
  | finish vs => intro sels; exact finish_eq sels vs
  | panic e => intro _; rfl
  | call c next ih =>
    intro sels
    simp only [Code.api, Api.run, Code.means, ← call_eq rep rc hrc sels c]
    cases c.op.exec rc sels with
    | error e => rfl
    | ok x => obtain ⟨rs, x⟩ := x; exact ih rs x _

/-- what a run does, by what the code assigns -/
theorem script_ref (hr : Reachable l h) (ptr : Nat) (p : Script W) :
    match l.run ptr p.resolver, Sheet.run ⟨l.ll_tokens, h⟩ p with
    | .ok l', some s => Reachable l' s.facts ∧ l'.ll_tokens = s.tokens ∧ s.tokens = l.ll_tokens
    | .error _, none => True
    | _, _ => False := by
  by_cases ne : l.ll_tokens = []
  · have e1 : l.run ptr p.resolver = .ok l := run_empty ne
    rw [e1]
    simp only [Sheet.run, ne, if_true]
    refine ⟨?_, ne, rfl⟩
    exact Reachable.runEmpty l h ptr p.resolver l hr ne e1
  · have he : l.ll_tokens.isEmpty = false := by
      cases h' : l.ll_tokens with
      | nil => exact absurd h' ne
      | cons _ _ => rfl
    have hc := code_eq hr.rep ⟨ptr, l⟩ rfl (p.code (0, l.ll_tokens.length - 1)) [(0, l.ll_tokens.length - 1)]
    simp only [Sheet.run, ne, if_false, ← hc]
    cases hx : (p.code (0, l.ll_tokens.length - 1)).api.run ⟨ptr, l⟩ [(0, l.ll_tokens.length - 1)] with
    | error e =>
      have hg : p.resolver.go (wholeLine l ptr) = .error e := by
        simp only [Script.resolver, apiResolver, LLSelection.range, wholeLine, hx]
      obtain ⟨e', h'⟩ := (C22_run_panics_iff hr ptr p.resolver).2 ⟨ne, Or.inl ⟨e, hg⟩⟩
      rw [h']; trivial
    | ok as =>
      have hg : p.resolver.go (wholeLine l ptr) = .ok (as, false) := by
        simp only [Script.resolver, apiResolver, LLSelection.range, wholeLine, hx]
      simp only [Except.toOption, Option.map_some, Option.bind_eq_bind, Option.bind_some]
      by_cases hb : ∀ x ∈ as, x.start_idx < l.ll_tokens.length ∧ x.end_idx < l.ll_tokens.length
      · rw [must_true (by simpa using hb)]
        cases hrun : l.run ptr p.resolver with
        | error e =>
          obtain ⟨_, h1 | h1 | h1⟩ := (C22_run_panics_iff hr ptr p.resolver).1 ⟨e, hrun⟩
          · obtain ⟨e, h1⟩ := h1; rw [hg] at h1; cases h1
          · obtain ⟨_, h1⟩ := h1; rw [hg] at h1; cases h1
          · obtain ⟨as', h1, x, hx, hn⟩ := h1
            rw [hg] at h1; cases h1
            exact absurd (hb x hx) hn
        | ok l' =>
          have := Reachable.run l h ptr p.resolver as false l' hr ne hg hrun
          refine ⟨?_, run_tokens hrun, rfl⟩
          rw [List.map_map]
          exact this
      · rw [must_false (by simpa using hb)]
        obtain ⟨e', h'⟩ := (C22_run_panics_iff hr ptr p.resolver).2 ⟨ne, Or.inr (Or.inr ⟨as, hg, by
          simp only [Classical.not_forall] at hb
          obtain ⟨x, h1, h2⟩ := hb
          exact ⟨x, h1, h2⟩⟩)⟩
        rw [h']; trivial

theorem query_eq (hr : Reachable l h) (k : Ty W) : (l.query k).toOption = Sheet.query ⟨l.ll_tokens, h⟩ k := by
  unfold Sheet.query
  by_cases hb : ∀ r ∈ rangesOf k h, r.1 ≤ r.2 + 1
  · rw [must_true hb, C13_query_is_history hr k hb]; rfl
  · rw [must_false hb]
    obtain ⟨e, he⟩ := (C13_query_panics_iff hr k).2 (by
      simp only [Classical.not_forall] at hb
      obtain ⟨r, h1, h2⟩ := hb
      exact ⟨r, h1, by omega⟩)
    rw [he]; rfl

theorem find_ref (rep : Rep l h) {Out : Type} (e : Expr W Out) :
    (l.find e.matcher).toOption.map (·.map (fun f => (f.start_pos_at, f.end_pos_at, f.found))) =
      Sheet.find ⟨l.ll_tokens, h⟩ e := by
  unfold LLLine.find Sheet.find
  apply toOption_flatMapR_map
  intro i hi
  simp only [Sheet.ahead, ← means_eq rep]
  cases e.matcher.go (.fwd i) l with
  | error e => rfl
  | ok rs =>
    simp only [Except.toOption, Option.bind_eq_bind, Option.bind_some, pure]
    induction rs with
    | nil => rfl
    | cons x xs ih =>
      rw [List.map_cons, List.mapM_cons, ← ih]
      simp only [mapR, LLLine.posStartAt, LLLine.posEndAt]
      cases l.ll_tokens[i]? with
      | none => rfl
      | some a =>
        cases l.ll_tokens[x.2]? with
        | none => rfl
        | some b => cases mapR _ xs <;> rfl

theorem placed_eq : ∀ (toks : List (LToken × Nat)) (i p : Nat), placed W i p toks = layoutM W.usizeBound i p toks := by
  intro toks
  induction toks with
  | nil => intros; rfl
  | cons t ts ih => intro i p; obtain ⟨t, n⟩ := t; simp only [placed, layoutM, ih]

open Classical in
theorem create_eq (L : SplitLaws W) (hB : 0 < W.usizeBound) (size : Str → Nat)
    (input : List (InputToken W)) (wf : ∀ t ∈ input, t.WF) :
    match createLineFromInputTokens W input size, Sheet.create W size input with
    | .ok l, some s => Reachable l s.facts ∧ l.ll_tokens = s.tokens
    | .error _, none => True
    | _, _ => False := by
  have iff := C09_creation_panics_iff L hB size input wf
  unfold Sheet.create
  cases hc : createLineFromInputTokens W input size with
  | error e =>
    rcases iff.1 ⟨e, hc⟩ with ⟨t, ht, hb⟩ | ⟨h1, h2⟩
    · rw [must_false (fun hn => hn t ht hb)]; trivial
    · by_cases hg : ∀ t ∈ input, ¬ BadInput W t
      · rw [must_true hg, must_false (fun hn => absurd (hn h1) (Nat.not_lt.2 h2))]; trivial
      · rw [must_false hg]; trivial
  | ok l =>
    have hn : ¬ _ := fun hx => by obtain ⟨e, he⟩ := iff.2 hx; rw [hc] at he; cases he
    have hg : ∀ t ∈ input, ¬ BadInput W t := fun t ht hb => hn (Or.inl ⟨t, ht, hb⟩)
    rw [must_true hg, must_true (fun h1 => Nat.lt_of_not_le (fun h2 => hn (Or.inr ⟨h1, h2⟩)))]
    refine ⟨Reachable.create input size l wf hc, ?_⟩
    exact (create_inv wf hc).2.1.trans (placed_eq _ 0 0).symm

theorem display_eq (rep : Rep l h) (ks : List (Ty W)) : (shownWith l ks).toOption = Sheet.display ⟨l.ll_tokens, h⟩ ks := by
  have hf := include_fold rep ks []
  unfold shownWith Sheet.display displayWith LLLineDisplay.new
  rw [hf]
  simp only [LLLineDisplay.fmt, header_loop, List.nil_append]
  rw [← toOption_flatMapR (f := bracketLine W ((List.range l.ll_tokens.length).map (colStart W l.ll_tokens))
    ((List.range l.ll_tokens.length).map (colEnd W l.ll_tokens)))]
  · cases flatMapR _ _ <;> rfl
  · intro item hi
    obtain ⟨k, _, hi⟩ := List.mem_flatMap.1 hi
    obtain ⟨v, hv, _, h1, h2⟩ := shownValues_bounds rep hi
    unfold bracketLine barLine World.subUsize
    rw [List.getElem?_map, List.getElem?_map, List.getElem?_range h1, List.getElem?_range h2]
    simp only [Option.map_some]
    generalize colStart W l.ll_tokens item.1.1 = a
    generalize colEnd W l.ll_tokens item.1.2 = b
    have e : (b - 1) - (a + 1) = b - a - 2 := by omega
    rw [e]
    by_cases c : a ≤ b
    · simp only [must, c, if_true, implies_true]
      simp [Except.toOption, List.append_assoc]
    · cases ho : W.overflowChecks with
      | true => simp [must, c, Except.toOption]
      | false => simp [must, c, Except.toOption, List.append_assoc]

theorem shown_eq (hr : Reachable l h) : SameShown l ⟨l.ll_tokens, h⟩ :=
  ⟨rfl, fun k => query_eq hr k, fun ks => display_eq hr.rep ks, fun e => find_ref hr.rep e⟩

theorem runs_eq : ∀ (ps : List (Nat × Script W)) {l : LLLine W} {h : History W}, Reachable l h →
    Refines (runAll l (ps.map (fun p => (p.1, p.2.resolver)))) (Sheet.runs ⟨l.ll_tokens, h⟩ (ps.map (·.2))) := by
  intro ps
  induction ps with
  | nil => intro l h hr; exact shown_eq hr
  | cons p ps ih =>
    intro l h hr
    obtain ⟨ptr, p⟩ := p
    have := script_ref hr ptr p
    simp only [List.map_cons, runAll, Sheet.runs]
    cases h1 : l.run ptr p.resolver with
    | error e =>
      cases h2 : Sheet.run ⟨l.ll_tokens, h⟩ p with
      | none => trivial
      | some s => rw [h1, h2] at this; exact this.elim
    | ok l' =>
      cases h2 : Sheet.run ⟨l.ll_tokens, h⟩ p with
      | none => rw [h1, h2] at this; exact this.elim
      | some s =>
        rw [h1, h2] at this
        obtain ⟨a, b, c⟩ := this
        have := ih a
        rw [b] at this
        exact this

/-! ### nothing is missing -/

theorem expr_of {Out : Type} {m : XMatch W Out} (hm : Builtin m) : ∃ e : Expr W Out, e.matcher = m := by
  induction hm with
  | attr k _ => exact ⟨.attr k, rfl⟩
  | attrEq k _ v => exact ⟨.attrEq k v, rfl⟩
  | tokenHasAny k _ _ set => exact ⟨.tokenHasAny k set, rfl⟩
  | tokenText => exact ⟨.tokenText, rfl⟩
  | all2 _ _ ha hb => obtain ⟨a, rfl⟩ := ha; obtain ⟨b, rfl⟩ := hb; exact ⟨.all2 a b, rfl⟩
  | all3 _ _ _ ha hb hc =>
    obtain ⟨a, rfl⟩ := ha; obtain ⟨b, rfl⟩ := hb; obtain ⟨c, rfl⟩ := hc; exact ⟨.all3 a b c, rfl⟩
  | anyOf2 _ _ ha hb => obtain ⟨a, rfl⟩ := ha; obtain ⟨b, rfl⟩ := hb; exact ⟨.anyOf2 a b, rfl⟩
  | anyOf3 _ _ _ ha hb hc =>
    obtain ⟨a, rfl⟩ := ha; obtain ⟨b, rfl⟩ := hb; obtain ⟨c, rfl⟩ := hc; exact ⟨.anyOf3 a b c, rfl⟩
  | seq2 _ _ ha hb => obtain ⟨a, rfl⟩ := ha; obtain ⟨b, rfl⟩ := hb; exact ⟨.seq2 a b, rfl⟩
  | seq3 _ _ _ ha hb hc =>
    obtain ⟨a, rfl⟩ := ha; obtain ⟨b, rfl⟩ := hb; obtain ⟨c, rfl⟩ := hc; exact ⟨.seq3 a b c, rfl⟩
  | user part t _ ih =>
    refine ⟨.user (fun i => (ih i).choose) t, ?_⟩
    rw [Expr.matcher]
    exact congrArg t.matcher (funext (fun i => (ih i).choose_spec))
  | recursive f _ _ ih =>
    refine ⟨.unrolled (fun n => (ih n).choose), ?_⟩
    rw [Expr.matcher]
    exact congrArg X.limit (funext (fun n => (ih n).choose_spec))

theorem call_of {Resp : Type} {op : Op W Resp} (h : op.Uses Builtin) : ∃ c : Call W Resp, c.op = op := by
  cases op with
  | fromLine i => exact ⟨.fromLine i, rfl⟩
  | findBy i m => obtain ⟨e, rfl⟩ := expr_of h; exact ⟨.findBy i e, rfl⟩
  | findBoth i m => obtain ⟨e, rfl⟩ := expr_of h; exact ⟨.findBoth i e, rfl⟩
  | matchForwards i m => obtain ⟨e, rfl⟩ := expr_of h; exact ⟨.matchForwards i e, rfl⟩
  | matchBackwards i m => obtain ⟨e, rfl⟩ := expr_of h; exact ⟨.matchBackwards i e, rfl⟩
  | splitBy i m => obtain ⟨e, rfl⟩ := expr_of h; exact ⟨.splitBy i e, rfl⟩
  | splitWith i j => exact ⟨.splitWith i j, rfl⟩
  | trimSelection i m a b => obtain ⟨e, rfl⟩ := expr_of h; exact ⟨.trimSelection i e a b, rfl⟩
  | after i => exact ⟨.after i, rfl⟩

theorem code_of {V : Type} {a : Api W V} (h : a.Uses Builtin) : ∃ c : Code W V, c.api = a := by
  induction a with
  | finish vs => exact ⟨.finish vs, rfl⟩
  | panic e => exact ⟨.panic e, rfl⟩
  | call op next ih =>
    obtain ⟨c, rfl⟩ := call_of h.1
    refine ⟨.call c (fun rs x => (ih rs x (h.2 rs x)).choose), ?_⟩
    rw [Code.api]
    exact congrArg (Api.call c.op) (funext (fun rs => funext (fun x => (ih rs x (h.2 rs x)).choose_spec)))

theorem script_of {r : Resolver W} (h : ByApi Builtin r) :
    ∃ p : Script W, p.ty = r.attr ∧ ∀ (l : LLLine W) (ptr : Nat), l.run ptr r = l.run ptr p.resolver := by
  obtain ⟨a, hu, ha⟩ := h
  refine ⟨⟨r.attr, fun x => (code_of (hu x)).choose⟩, rfl, ?_⟩
  intro l ptr
  have e : Script.resolver ⟨r.attr, fun x => (code_of (hu x)).choose⟩ = apiResolver r.attr a := by
    simp only [Script.resolver]
    exact congrArg (apiResolver r.attr) (funext (fun x => (code_of (hu x)).choose_spec))
  rw [e]
  by_cases ne : l.ll_tokens = []
  · rw [run_empty ne, run_empty ne]
  · have := ha l ptr ne
    unfold LLLine.run
    unfold wholeLine at this
    rw [this]
    cases (apiResolver r.attr a).go { ll_line := ⟨ptr, l⟩, start_idx := 0, end_idx := l.ll_tokens.length - 1 } <;> rfl

end LNlp
