import Verif.Lemmas.ProgramLines
import Verif.Lemmas.Honest
import Verif.Lemmas.Phrase
import Verif.Lemmas.AmountLine
/- Programs of the selection API that use what they have cannot panic. -/
namespace LNlp
variable {W : World}

theorem flatMapR_total {α β : Type} {f : α → R (List β)} {xs : List α} (h : ∀ x ∈ xs, ∃ ys, f x = .ok ys) :
    ∃ out, flatMapR f xs = .ok out := ⟨_, flatMapR_ok_iff.2 ⟨h, rfl⟩⟩

section
variable {Out : Type} {s : LLSelection W} {m : XMatch W Out}

theorem findBy_total (hs : s.Inside) (hm : TotalOn s.ll_line.val m) : ∃ out, s.findBy m = .ok out := by
  unfold LLSelection.findBy
  refine flatMapR_total (fun i hi => ?_)
  have := mem_rangeIncl.1 hi
  obtain ⟨rs, h, _⟩ := hm (.fwd i) (by simp only [Dir.at]; have := hs.2; omega)
  rw [h]
  exact ⟨_, rfl⟩

theorem findBoth_total (hs : s.Inside) (hm : TotalOn s.ll_line.val m) : ∃ out, s.findByForwardsAndBackwards m = .ok out := by
  unfold LLSelection.findByForwardsAndBackwards
  refine flatMapR_total (fun i hi => ?_)
  have := mem_rangeIncl.1 hi
  obtain ⟨rs, h, _⟩ := hm (.fwd i) (by simp only [Dir.at]; have := hs.2; omega)
  obtain ⟨rs', h', _⟩ := hm (.bwd i) (by simp only [Dir.at]; have := hs.2; omega)
  rw [h, h']
  exact ⟨_, rfl⟩

theorem matchForwards_total (hs : s.Inside) (hm : TotalOn s.ll_line.val m) : ∃ out, s.matchForwards m = .ok out := by
  unfold LLSelection.matchForwards
  split
  · exact ⟨_, rfl⟩
  · rename_i hne
    obtain ⟨rs, h, _⟩ := hm (.fwd (s.end_idx + 1)) (by simp only [Dir.at]; have := hs.2; omega)
    rw [h]
    exact ⟨_, rfl⟩

theorem matchBackwards_total (hs : s.Inside) (hm : TotalOn s.ll_line.val m) : ∃ out, s.matchBackwards m = .ok out := by
  unfold LLSelection.matchBackwards
  split
  · exact ⟨_, rfl⟩
  · rename_i hne
    obtain ⟨rs, h, _⟩ := hm (.bwd (s.start_idx - 1)) (by simp only [Dir.at]; have := hs.1; have := hs.2; omega)
    rw [h]
    exact ⟨_, rfl⟩

theorem splitBy_total (hs : s.Inside) (hm : TotalOn s.ll_line.val m) : ∃ out, s.splitBy m = .ok out := by
  obtain ⟨out, h⟩ := findBy_total hs hm
  unfold LLSelection.splitBy
  rw [h]
  match out with
  | [] => exact ⟨_, rfl⟩
  | [_] => exact ⟨_, rfl⟩
  | _ :: _ :: _ => exact ⟨_, rfl⟩

theorem trimSelection_total (hs : s.Inside) (hm : TotalOn s.ll_line.val m) (a b : Bool) :
    ∃ o, s.trimSelection m a b = .ok o := by
  obtain ⟨rs, h, _⟩ := hm (.fwd s.start_idx) (by simp only [Dir.at]; have := hs.1; have := hs.2; omega)
  obtain ⟨rs', h', _⟩ := hm (.bwd s.end_idx) (by simp only [Dir.at]; exact hs.2)
  unfold LLSelection.trimSelection
  rw [h, h']
  dsimp only
  cases a <;> cases b <;> cases rs.head? <;> cases rs'.head? <;>
    simp only [Bool.false_eq_true, if_true, if_false] <;> split <;> exact ⟨_, rfl⟩

end

theorem splitWith_total {s t : LLSelection W} (h : s.ll_line = t.ll_line) : ∃ o, s.splitWith t = .ok o := by
  unfold LLSelection.splitWith
  rw [h, if_pos rfl]
  exact ⟨_, rfl⟩

/-- the ranges in the store are selections got by the API -/
def GoodStore (l : LLLine W) (ptr : Nat) (store : List LRange) : Prop :=
  ∀ r ∈ store, ApiSel (fun m => Builtin m) (wholeLine l ptr) (selAt ⟨ptr, l⟩ r)

section
variable {l : LLLine W} {h : History W} {ptr : Nat}

/-- a matcher that may be used -/
def Usable (l : LLLine W) {Out : Type} (m : XMatch W Out) : Prop := Builtin m ∧ TotalOn l m

theorem goodStore_get {store : List LRange} (g : GoodStore l ptr store) {i : Nat} (hi : i < store.length) :
    ∃ r, store[i]? = some r ∧ ApiSel (fun m => Builtin m) (wholeLine l ptr) (selAt ⟨ptr, l⟩ r) :=
  ⟨store[i], List.getElem?_eq_getElem hi, g _ (List.getElem_mem hi)⟩

theorem exec_careful (hh : Honest l h) (ne : l.ll_tokens ≠ []) {store : List LRange} (g : GoodStore l ptr store)
    {Resp : Type} (op : Op W Resp) (hc : op.Careful store.length) (hu : op.Uses (fun m => Usable l m)) :
    ∃ rs x, op.exec ⟨ptr, l⟩ store = .ok (rs, x) ∧ op.Fits rs x ∧ GoodStore l ptr rs := by
  have wb : ∀ {Out : Type} (m : XMatch W Out), Builtin m → WellBehaved l m := fun m hm => by
    obtain ⟨hr, ho⟩ := hh.spec
    exact builtin_wellBehaved hm hr.rep ho
  have ins : ∀ {s}, ApiSel (fun m => Builtin m) (wholeLine l ptr) s → s.ll_line = ⟨ptr, l⟩ ∧ s.Inside := fun hs =>
    apiSel_inside (P := fun m => Builtin m) wb (wholeLine_inside ne ptr) hs
  have back : ∀ {s}, ApiSel (fun m => Builtin m) (wholeLine l ptr) s →
      ApiSel (fun m => Builtin m) (wholeLine l ptr) (selAt ⟨ptr, l⟩ s.range) := fun {s} hs => by
    rw [← (ins hs).1]; exact hs
  have pairs : ∀ {Out : Type} {x : R (List (LLSelection W × Out))} {out}, x = .ok out →
      (∀ p ∈ out, ApiSel (fun m => Builtin m) (wholeLine l ptr) p.1) →
      ∃ rs y, answerPairs x = .ok (rs, y) ∧ rs.length = y.length ∧ GoodStore l ptr rs := by
    intro Out x out hx hs
    subst hx
    refine ⟨_, _, rfl, by simp, ?_⟩
    intro r hr
    obtain ⟨p, hp, rfl⟩ := List.mem_map.1 hr
    exact back (hs p hp)
  cases op with
  | fromLine i =>
    obtain ⟨r, h1, h2⟩ := goodStore_get g hc
    simp only [Op.exec, onHandle, h1, answerOption]
    refine ⟨_, _, rfl, ?_, ?_⟩
    · simp only [Op.Fits, List.length_map]; cases LLSelection.fromLine (selAt ⟨ptr, l⟩ r).ll_line <;> simp
    · intro q hq
      obtain ⟨s', hs', rfl⟩ := List.mem_map.1 hq
      exact back (.fromLine h2 (Option.mem_toList.1 hs'))
  | findBy i m =>
    obtain ⟨r, h1, h2⟩ := goodStore_get g hc
    obtain ⟨out, ho⟩ := findBy_total (ins h2).2 (m := m) hu.2
    simp only [Op.exec, onHandle, h1]
    exact pairs ho (fun p hp => .findBy h2 hu.1 ho hp)
  | findBoth i m =>
    obtain ⟨r, h1, h2⟩ := goodStore_get g hc
    obtain ⟨out, ho⟩ := findBoth_total (ins h2).2 (m := m) hu.2
    simp only [Op.exec, onHandle, h1]
    exact pairs ho (fun p hp => .findBoth h2 hu.1 ho hp)
  | matchForwards i m =>
    obtain ⟨r, h1, h2⟩ := goodStore_get g hc
    obtain ⟨out, ho⟩ := matchForwards_total (ins h2).2 (m := m) hu.2
    simp only [Op.exec, onHandle, h1]
    exact pairs ho (fun p hp => .matchForwards h2 hu.1 ho hp)
  | matchBackwards i m =>
    obtain ⟨r, h1, h2⟩ := goodStore_get g hc
    obtain ⟨out, ho⟩ := matchBackwards_total (ins h2).2 (m := m) hu.2
    simp only [Op.exec, onHandle, h1]
    exact pairs ho (fun p hp => .matchBackwards h2 hu.1 ho hp)
  | splitBy i m =>
    obtain ⟨r, h1, h2⟩ := goodStore_get g hc
    obtain ⟨out, ho⟩ := splitBy_total (ins h2).2 (m := m) hu.2
    simp only [Op.exec, onHandle, h1, ho, answerList]
    refine ⟨_, _, rfl, trivial, ?_⟩
    intro q hq
    obtain ⟨s', hs', rfl⟩ := List.mem_map.1 hq
    exact back (.splitBy h2 hu.1 ho hs')
  | splitWith i j =>
    obtain ⟨r, h1, h2⟩ := goodStore_get g hc.1
    obtain ⟨r', h1', h2'⟩ := goodStore_get g hc.2
    obtain ⟨o, ho⟩ := splitWith_total (s := selAt ⟨ptr, l⟩ r) (t := selAt ⟨ptr, l⟩ r') rfl
    obtain ⟨a, b⟩ := o
    simp only [Op.exec, onHandle, h1, h1', ho, answerTwo]
    refine ⟨_, _, rfl, ?_, ?_⟩
    · cases a <;> cases b <;> simp [Op.Fits]
    · intro q hq
      obtain ⟨s', hs', rfl⟩ := List.mem_map.1 hq
      refine back (.splitWith h2 h2' ho ?_)
      rcases List.mem_append.1 hs' with hs' | hs'
      · exact .inl (Option.mem_toList.1 hs')
      · exact .inr (Option.mem_toList.1 hs')
  | trimSelection i m a b =>
    obtain ⟨r, h1, h2⟩ := goodStore_get g hc
    obtain ⟨o, ho⟩ := trimSelection_total (ins h2).2 (m := m) hu.2 a b
    simp only [Op.exec, onHandle, h1, ho, answerOption]
    refine ⟨_, _, rfl, ?_, ?_⟩
    · simp only [Op.Fits, List.length_map]; cases o <;> simp
    · intro q hq
      obtain ⟨s', hs', rfl⟩ := List.mem_map.1 hq
      have hs' := Option.mem_toList.1 hs'
      rw [hs'] at ho
      apply back
      cases a <;> cases b
      · have : s' = selAt ⟨ptr, l⟩ r := by
          simp only [LLSelection.trimSelection, Bool.false_eq_true, if_false] at ho
          split at ho
          · cases ho; rfl
          · cases ho
        rw [this]; exact h2
      · exact .trimEnd h2 hu.1 ho
      · exact .trimStart h2 hu.1 ho
      · exact .trim h2 hu.1 ho
  | after i => exact hc.elim

theorem run_careful (hh : Honest l h) (ne : l.ll_tokens ≠ []) {V : Type} (p : Api W V) : ∀ {store : List LRange},
    GoodStore l ptr store → p.Careful store.length → p.Uses (fun m => Usable l m) →
    ∃ as, p.run ⟨ptr, l⟩ store = .ok as ∧
      ∀ a ∈ as, ∃ s v, ApiSel (fun m => Builtin m) (wholeLine l ptr) s ∧ a = s.finishWithAttr v := by
  induction p with
  | finish vs =>
    intro store g hc _
    simp only [Api.run]
    simp only [Api.Careful] at hc
    induction vs with
    | nil => exact ⟨[], rfl, by simp⟩
    | cons v vs ih =>
      obtain ⟨i, v⟩ := v
      obtain ⟨as, ha, hs⟩ := ih (fun v hv => hc v (by simp [hv])) trivial
      obtain ⟨r, h1, h2⟩ := goodStore_get g (hc (i, v) (by simp))
      simp only [finishAll, h1, ha]
      refine ⟨_, rfl, ?_⟩
      intro a ha'
      rcases List.mem_cons.1 ha' with rfl | ha'
      · exact ⟨_, v, h2, rfl⟩
      · exact hs a ha'
  | panic e => intro store _ hc; exact hc.elim
  | call op next ih =>
    intro store g hc hu
    obtain ⟨rs, x, he, hf, hg⟩ := exec_careful hh ne g op hc.1 hu.1
    simp only [Api.run, he]
    refine ih rs x ?_ (by rw [List.length_append]; exact hc.2 rs x hf) (hu.2 rs x)
    intro r hr
    rcases List.mem_append.1 hr with hr | hr
    · exact g r hr
    · exact hg r hr

theorem apiResolver_honest (hh : Honest l h) (ne : l.ll_tokens ≠ []) {k : Ty W} {p : LRange → Api W (Val k)}
    (hc : ∀ x, (p x).Careful 1) (hu : ∀ x, (p x).Uses (fun m => Usable l m)) (ptr : Nat) :
    ∃ as, HonestRun l ptr (apiResolver k p) as := by
  obtain ⟨as, ha, hs⟩ := run_careful hh ne (p (wholeLine l ptr).range) (store := [(wholeLine l ptr).range])
    (fun r hr => by rw [List.mem_singleton.1 hr]; exact .self) (hc _) (hu _)
  refine ⟨as, ?_, hs⟩
  simp only [apiResolver]
  rw [show (p (wholeLine l ptr).range).run (wholeLine l ptr).ll_line [(wholeLine l ptr).range] = .ok as from ha]

theorem built_weaken {T : Ty W → Prop} {Out : Type} {m : XMatch W Out} {has : Bool} (hm : Built T has m) : Builtin m := by
  induction hm with
  | attr k _ => exact .attr k trivial
  | attrEq k _ v => exact .attrEq k trivial v
  | tokenHasAny k _ _ set => exact .tokenHasAny k trivial rfl set
  | tokenText => exact .tokenText
  | all2 _ _ h1 h2 => exact .all2 h1 h2
  | all3 _ _ _ h1 h2 h3 => exact .all3 h1 h2 h3
  | anyOf2 _ _ h1 h2 => exact .anyOf2 h1 h2
  | anyOf3 _ _ _ h1 h2 h3 => exact .anyOf3 h1 h2 h3
  | seq2 _ _ h1 h2 => exact .seq2 h1 h2
  | seq3 _ _ _ h1 h2 h3 => exact .seq3 h1 h2 h3
  | user part t _ h => exact .user part t h
  | recursive f _ hs h => exact .recursive f h hs

theorem usable_plain (hr : Reachable l h) {T : Ty W → Prop} {Out : Type} {m : XMatch W Out} (hm : Built T false m) : Usable l m :=
  ⟨built_weaken hm, built_totalOn hm hr⟩

theorem usable_testable (hr : Reachable l h) (ht : AllTestable l h) {Out : Type} {m : XMatch W Out} (hm : Builtin m) : Usable l m := by
  refine ⟨hm, fun d hd => ?_⟩
  cases hg : m.go d l with
  | error e =>
    obtain ⟨_, _, _, p, hp, hx⟩ := built_error hm hr.rep d e hd hg
    rcases ht p hp with ⟨t, h1⟩ | ⟨x, h1, h2⟩
    · obtain ⟨x, h1, h2⟩ := text_attr hr h1
      exact absurd h2 (hx x h1)
    · exact absurd h2 (hx x h1)
  | ok rs => exact ⟨rs, rfl, fun r hmem => (built_results hm hr.rep False (fun h => h.elim) d rs hg r hmem).1⟩

end

/-! ### the resolvers of the library are programs -/

theorem byApi_of {P : {Out : Type} → XMatch W Out → Prop} (r : Resolver W)
    (go : LLSelection W → R (List (LLCursorAssignment (Val r.attr)))) (p : LRange → Api W (Val r.attr))
    (hgo : ∀ sel, r.go sel = okMap (fun as => (as, false)) (go sel)) (hp : ∀ x, (p x).Uses P)
    (h : ∀ (l : LLLine W) (ptr : Nat), l.ll_tokens ≠ [] →
      go (wholeLine l ptr) = (p (wholeLine l ptr).range).run (wholeLine l ptr).ll_line [(wholeLine l ptr).range]) :
    ByApi P r := by
  refine ⟨p, hp, fun l ptr ne => ?_⟩
  rw [hgo, h l ptr ne]
  simp only [apiResolver]
  cases (p (wholeLine l ptr).range).run (wholeLine l ptr).ll_line [(wholeLine l ptr).range] <;> rfl

theorem findProg_uses {P : {Out : Type} → XMatch W Out → Prop} {Out V : Type} {m : XMatch W Out} (hm : P m)
    (f : Out → List V) (x : LRange) : (findProg m f x).Uses P := ⟨hm, fun _ _ => trivial⟩

theorem clauseLoop_uses {P : {Out : Type} → XMatch W Out → Prop} (h1 : P (X.whitespace (W := W))) (h2 : P (kwMatcher W)) :
    ∀ (hs : List Nat) (n : Nat) (found : Bool) (acc : List (Nat × Clause)), (clauseLoop W n hs found acc).Uses P
  | [], _, _, _ => trivial
  | h :: hs, n, found, acc => by
    refine ⟨h1, fun rs x => ?_⟩
    cases rs with
    | nil => exact clauseLoop_uses h1 h2 hs n found acc
    | cons r rs =>
      refine ⟨h2, fun rs2 outs => ?_⟩
      match outs with
      | [] => exact clauseLoop_uses h1 h2 hs _ _ _
      | .ConditionStart :: _ => exact clauseLoop_uses h1 h2 hs _ _ _
      | .Then :: _ => exact clauseLoop_uses h1 h2 hs _ _ _
      | .And :: _ => exact clauseLoop_uses h1 h2 hs _ _ _

theorem clauseProg_uses {P : {Out : Type} → XMatch W Out → Prop} (h1 : P (X.whitespace (W := W))) (h2 : P (kwMatcher W))
    (h3 : P (clauseDelimiter W)) (x : LRange) : (clauseProg W x).Uses P := by
  refine ⟨h3, fun rs _ => ?_⟩
  match rs with
  | [] => exact clauseLoop_uses h1 h2 _ _ _ _
  | _ :: _ :: _ => exact clauseLoop_uses h1 h2 _ _ _ _
  | [_] =>
    refine ⟨h1, fun rs1 _ => ?_⟩
    cases rs1 with
    | nil => trivial
    | cons _ _ =>
      refine ⟨h2, fun _ outs => ?_⟩
      match outs with
      | [] => trivial
      | .ConditionStart :: _ => trivial
      | .Then :: _ => trivial
      | .And :: _ => trivial

section
variable {P : {Out : Type} → XMatch W Out → Prop} (r : AmountResolver) (h1 : ∀ cs, P (charMatcher W cs)) (h2 : P (natnText W))
include h1 h2

theorem delimP_uses : ∀ (fuel n h : Nat) (num : Str) (k : AmountK W), (∀ n h s o, (k n h s o).Uses P) →
    (delimP r fuel n h num k).Uses P
  | 0, _, _, _, _, _ => trivial
  | fuel + 1, n, h, num, k, hk => by
    refine ⟨h1 _, fun rs _ => ?_⟩
    cases rs with
    | nil => exact hk _ _ _ _
    | cons _ _ =>
      refine ⟨h2, fun rs2 outs => ?_⟩
      match outs with
      | [] => exact hk _ _ _ _
      | (_, text) :: _ => exact delimP_uses fuel _ _ _ k hk

theorem decP_uses (n h : Nat) (num : Str) (o : Option Nat) (k : AmountK W) (hk : ∀ n h s o, (k n h s o).Uses P) :
    (decP r n h num o k).Uses P := by
  cases o with
  | some g => exact hk _ _ _ _
  | none =>
    refine ⟨h1 _, fun rs _ => ?_⟩
    cases rs with
    | nil =>
      refine ⟨h2, fun rs2 outs => ?_⟩
      match outs with
      | [] => exact hk _ _ _ _
      | (_, text) :: _ => exact hk _ _ _ _
    | cons _ _ =>
      refine ⟨h2, fun rs2 outs => ?_⟩
      match outs with
      | [] => exact hk _ _ _ _
      | (_, text) :: _ => exact hk _ _ _ _

theorem outerP_uses (inner : Nat) : ∀ (fuel n h : Nat) (acc : List (Nat × W.Decimal)), (outerP r inner fuel n h acc).Uses P
  | 0, _, _, _ => trivial
  | fuel + 1, n, h, acc => by
    refine ⟨h2, fun rs outs => ?_⟩
    match outs with
    | [] => trivial
    | (_, text) :: _ =>
      refine delimP_uses r h1 h2 _ _ _ _ _ (fun n1 h1' num1 o1 => decP_uses r h1 h2 _ _ _ _ _ (fun n2 h2' num2 o2 => ?_))
      unfold amountNext
      cases W.parseDecimal num2 with
      | none => trivial
      | some d =>
        refine ⟨trivial, fun rs bs => ?_⟩
        match bs with
        | (_, false) => trivial
        | (false, true) => exact outerP_uses inner fuel _ _ _
        | (true, true) => exact outerP_uses inner fuel _ _ _

end

/-- every resolver of the library behaves like a program of the public API whose matchers look at the types the
resolver is said to look at -/
theorem stage_byApi (st : Stage W) : ByApi (fun m => Built st.Looks true m) st.resolver := by
  cases st with
  | table t =>
    refine byApi_of (Stage.resolver (.table t)) t.go (tableProg t) ?_ (findProg_uses Built.tokenText _) (fun l ptr _ => table_prog t _)
    intro sel
    simp only [Stage.resolver, TextMatchAssignResolver.resolver]
    cases t.go sel <;> rfl
  | pos =>
    refine byApi_of (Stage.resolver .pos) posTagGo (posProg W) ?_
      (findProg_uses (P := fun m => Built (Stage.Looks .pos) true m)
        (Built.all2 (Built.attrEq Ty.textTag (show Stage.Looks (W := W) .pos Ty.textTag from rfl) TextTag.WORD) Built.tokenText) _)
      (fun l ptr _ => pos_prog _)
    intro sel
    simp only [Stage.resolver, posTagResolver]
    cases posTagGo sel <;> rfl
  | keywords r =>
    refine byApi_of (Stage.resolver (.keywords r)) r.go (keywordProg W r) ?_ (findProg_uses Built.tokenText _) (fun l ptr _ => keywords_prog r _)
    intro sel
    simp only [Stage.resolver, ClauseKeywordResolver.resolver]
    cases r.go sel <;> rfl
  | clauses =>
    refine byApi_of (Stage.resolver .clauses) clauseGo (clauseProg W) ?_ (clauseProg_uses (Built.attrEq _ (.inl rfl) _)
      (Built.attr _ (.inr rfl)) (Built.anyOf2 (Built.attr _ (.inr rfl)) (Built.attrEq _ (.inl rfl) _))) (fun l ptr _ => clause_prog _)
    intro sel
    simp only [Stage.resolver, clauseResolver]
    cases clauseGo sel <;> rfl
  | amounts r =>
    refine byApi_of (Stage.resolver (.amounts r)) r.go (amountProg W r) ?_
      (fun x => outerP_uses r (fun cs => Built.tokenHasAny _ (.inr rfl) rfl _)
      (Built.all2 (Built.attrEq _ (.inl rfl) _) Built.tokenText) _ _ _ _ _) (fun l ptr ne => amount_prog r l ptr ne)
    intro sel
    simp only [Stage.resolver, AmountResolver.resolver]
    cases r.go sel <;> rfl

/-! ### the resolvers of the currency test -/

/-- `find_by(token_has_any(['€', '$']))`, finished with the symbol -/
def symbolProg {k : Ty W} (usd euro : Val k) : LRange → Api W (Val k) := fun _ =>
  .call (.findBy 0 (charMatcher W ['€', '$'])) (fun _ (outs : List Char) =>
    if outs.all (fun c => decide (c = '$') || decide (c = '€')) then
      .finish (finishFound 1 (fun c => [if c = '$' then usd else euro]) outs)
    else .panic .user)

theorem symbol_prog {k : Ty W} (usd euro : Val k) (s : LLSelection W) :
    currencySymbolGo usd euro s = (symbolProg usd euro s.range).run s.ll_line [s.range] := by
  have hs : Names s.ll_line [s.range] 0 s := ⟨rfl, rfl⟩
  unfold currencySymbolGo symbolProg
  cases hm : s.findBy (charMatcher W ['€', '$']) with
  | error e =>
    rw [show s.findBy (X.tokenHasAny (W := W) Ty.char ['€', '$']) = .error e from hm]
    exact (run_call_err (exec_fb_err hs hm)).symm
  | ok found =>
    rw [show s.findBy (X.tokenHasAny (W := W) Ty.char ['€', '$']) = .ok found from hm, run_call_ok (exec_fb_ok hs hm)]
    have fin := finishFound_ok [s.range] (fun c : Char => [if c = '$' then usd else euro]) found
    dsimp only
    by_cases hall : (found.map (·.2)).all (fun c => decide (c = '$') || decide (c = '€')) = true
    · rw [if_pos hall]
      refine Eq.trans ?_ fin.symm
      clear fin hm
      induction found with
      | nil => rfl
      | cons st found ih =>
        simp only [List.map_cons, List.all_cons, Bool.and_eq_true, Bool.or_eq_true, decide_eq_true_eq] at hall
        have ih := ih hall.2
        rw [List.flatMap_cons]
        unfold mapR
        rw [ih]
        rcases hall.1 with h | h
        · simp [h]
        · simp [h]
    · rw [if_neg hall]
      show _ = Except.error Panic.user
      clear fin hm
      induction found with
      | nil => exact absurd rfl hall
      | cons st found ih =>
        unfold mapR
        by_cases h : st.2 = '$' ∨ st.2 = '€'
        · have : ¬ (found.map (·.2)).all (fun c => decide (c = '$') || decide (c = '€')) = true := by
            intro h'
            apply hall
            simp only [List.map_cons, List.all_cons, h', Bool.and_true, Bool.or_eq_true, decide_eq_true_eq]
            exact h
          rw [ih this]
          rcases h with h | h <;> simp [h]
        · have h' := not_or.1 h
          simp [h'.1, h'.2]

theorem symbol_byApi {k : Ty W} (usd euro : Val k) :
    ByApi (fun m => Built (fun t => t = Ty.char) true m) (currencySymbolResolver usd euro) := by
  refine byApi_of (currencySymbolResolver usd euro) (currencySymbolGo usd euro) (symbolProg usd euro) ?_
    (fun x => ⟨Built.tokenHasAny (T := fun t => t = Ty.char) Ty.char rfl rfl _, fun rs outs => ?_⟩) (fun l ptr _ => symbol_prog usd euro _)
  · intro sel
    simp only [currencySymbolResolver]
    cases currencySymbolGo usd euro sel <;> rfl
  dsimp only
  split
  · trivial
  · trivial

/-- `find_by_forwards_and_backwards(seq((attr(), attr())))`, finished with the amount of money -/
def moneyProg {kSym kAmt k : Ty W} (mk : Val kSym → Val kAmt → Val k) : LRange → Api W (Val k) := fun _ =>
  .call (.findBoth 0 (X.seq2 (X.attr kSym) (X.attr kAmt))) (fun _ outs => .finish (finishFound 1 (fun p => [mk p.1 p.2]) outs))

theorem money_prog {kSym kAmt k : Ty W} (mk : Val kSym → Val kAmt → Val k) (s : LLSelection W) :
    currencyAmountGo mk s = (moneyProg mk s.range).run s.ll_line [s.range] := by
  have hs : Names s.ll_line [s.range] 0 s := ⟨rfl, rfl⟩
  unfold currencyAmountGo moneyProg
  simp only [Api.run, Op.exec, onHandle_names hs]
  cases s.findByForwardsAndBackwards (X.seq2 (X.attr kSym) (X.attr kAmt)) with
  | error e => rfl
  | ok found =>
    simp only [answerPairs, Api.run]
    refine Eq.trans ?_ (finishFound_ok [s.range] (fun p : Val kSym × Val kAmt => [mk p.1 p.2]) found).symm
    simp only [finishWith, List.map_cons, List.map_nil]
    congr 1
    induction found with
    | nil => rfl
    | cons p found ih => simp [ih]

theorem money_byApi {kSym kAmt k : Ty W} (mk : Val kSym → Val kAmt → Val k) :
    ByApi (fun m => Built (fun t => t = kSym ∨ t = kAmt) true m) (currencyAmountResolver mk) := by
  refine byApi_of (currencyAmountResolver mk) (currencyAmountGo mk) (moneyProg mk) ?_
    (fun x => ⟨.seq2 (.attr _ (.inl rfl)) (.attr _ (.inr rfl)), fun _ _ => trivial⟩) (fun l ptr _ => money_prog mk _)
  intro sel
  simp only [currencyAmountResolver]
  cases currencyAmountGo mk sel <;> rfl

end LNlp
