import Verif.Lemmas.Program
/- The resolvers of the library, written as programs of API calls. -/
namespace LNlp
variable {W : World}

/-! ### finishing -/

theorem finishAll_append {V : Type} (store : List LRange) : ∀ {xs ys : List (Nat × V)} {as bs},
    finishAll store xs = .ok as → finishAll store ys = .ok bs → finishAll store (xs ++ ys) = .ok (as ++ bs)
  | [], ys, as, bs, h, h' => by cases h; exact h'
  | (i, v) :: xs, ys, as, bs, h, h' => by
    simp only [finishAll] at h
    split at h
    · cases h
    rename_i r hr
    split at h
    · cases h
    rename_i as' has
    cases h
    simp only [List.cons_append, finishAll, hr, finishAll_append store has h']

theorem finishAll_flatMap {V α : Type} (store : List LRange) (g : α → List (Nat × V)) (f : α → List (LLCursorAssignment V)) :
    ∀ (xs : List α), (∀ x ∈ xs, finishAll store (g x) = .ok (f x)) → finishAll store (xs.flatMap g) = .ok (xs.flatMap f)
  | [], _ => rfl
  | x :: xs, h => by
    simp only [List.flatMap_cons]
    exact finishAll_append store (h x (by simp)) (finishAll_flatMap store g f xs (fun y hy => h y (by simp [hy])))

theorem finishAll_one {V : Type} {store : List LRange} {i : Nat} {r : LRange} (h : store[i]? = some r) (vs : List V) :
    finishAll store (vs.map (fun v => (i, v))) = .ok (vs.map (fun v => { start_idx := r.1, end_idx := r.2, value := v })) := by
  induction vs with
  | nil => rfl
  | cons v vs ih => simp only [List.map_cons, finishAll, h, ih]

theorem get_append {α : Type} {xs ys : List α} {i : Nat} {a : α} (h : xs[i]? = some a) : (xs ++ ys)[i]? = some a := by
  rw [List.getElem?_append_left]
  · exact h
  · exact (List.getElem?_eq_some_iff.1 h).1

theorem finishAll_mono {V : Type} {store : List LRange} (ext : List LRange) : ∀ {vs : List (Nat × V)} {as},
    finishAll store vs = .ok as → finishAll (store ++ ext) vs = .ok as
  | [], _, h => h
  | (i, v) :: vs, as, h => by
    simp only [finishAll] at h
    split at h
    · cases h
    rename_i r hr
    split at h
    · cases h
    rename_i as' has
    cases h
    simp only [finishAll, get_append hr, finishAll_mono ext has]

/-- finish every found selection with values made from what was found -/
def finishFound {α V : Type} (n : Nat) (f : α → List V) (outs : List α) : List (Nat × V) :=
  outs.zipIdx.flatMap (fun p => (f p.1).map (fun v => (n + p.2, v)))

theorem finishFound_ok {α V : Type} (pre : List LRange) (f : α → List V) (found : List (LLSelection W × α)) :
    finishAll (pre ++ found.map (·.1.range)) (finishFound pre.length f (found.map (·.2))) =
      .ok (found.flatMap (fun st => (f st.2).map (fun v => st.1.finishWithAttr v))) := by
  have h1 : finishFound pre.length f (found.map (·.2)) =
      found.zipIdx.flatMap (fun p => (f p.1.2).map (fun v => (pre.length + p.2, v))) := by
    unfold finishFound
    rw [List.zipIdx_map, List.flatMap_map]
    rfl
  have h2 : found.flatMap (fun st => (f st.2).map (fun v => st.1.finishWithAttr v)) =
      found.zipIdx.flatMap (fun p => (f p.1.2).map (fun v => p.1.1.finishWithAttr v)) := by
    conv => lhs; rw [← List.zipIdx_map_fst 0 found]
    rw [List.flatMap_map]
  rw [h1, h2]
  refine finishAll_flatMap _ _ _ _ (fun p hp => ?_)
  have hp' := List.mem_zipIdx_iff_getElem?.1 hp
  refine finishAll_one (r := p.1.1.range) ?_ _
  rw [List.getElem?_append_right (by omega)]
  simp [hp']

/-! ### one search -/

/-- `selection.find_by(m)`, each result finished with any number of values -/
def findProg {Out V : Type} (m : XMatch W Out) (f : Out → List V) : LRange → Api W V :=
  fun _ => .call (.findBy 0 m) (fun _ outs => .finish (finishFound 1 f outs))

theorem selAt_range (s : LLSelection W) : selAt s.ll_line s.range = s := rfl

theorem findProg_run {Out V : Type} (m : XMatch W Out) (f : Out → List V) (s : LLSelection W) :
    (findProg m f s.range).run s.ll_line [s.range] =
      match s.findBy m with
      | .error e => .error e
      | .ok found => .ok (found.flatMap (fun st => (f st.2).map (fun v => st.1.finishWithAttr v))) := by
  simp only [findProg, Api.run, Op.exec, onHandle, List.getElem?_cons_zero, selAt_range]
  cases s.findBy m with
  | error e => rfl
  | ok found =>
    simp only [answerPairs, Api.run]
    exact finishFound_ok [s.range] f found

def tableProg {k : Ty W} (t : TextMatchAssignResolver W k) : LRange → Api W (Val k) :=
  findProg X.tokenText (fun text => ((if t.case_sensitive then t.lookup.get? text
    else t.lookup.get? (W.toLowercase text))).getD [])

theorem table_prog {k : Ty W} (t : TextMatchAssignResolver W k) (s : LLSelection W) :
    t.go s = (tableProg t s.range).run s.ll_line [s.range] := by
  rw [tableProg, findProg_run]
  simp only [TextMatchAssignResolver.go]
  cases s.findBy X.tokenText with
  | error e => rfl
  | ok found =>
    simp only [Except.ok.injEq]
    congr 1
    funext st
    cases (if t.case_sensitive then t.lookup.get? st.2 else t.lookup.get? (W.toLowercase st.2)) <;> rfl

def posProg (W : World) : LRange → Api W W.Tag :=
  findProg (X.all2 (X.attrEq Ty.textTag TextTag.WORD) X.tokenText)
    (fun p => (W.tagLookup (W.toLowercase p.2)).getD [W.nounTag])

theorem pos_prog (s : LLSelection W) : posTagGo s = (posProg W s.range).run s.ll_line [s.range] := by
  rw [posProg, findProg_run]
  unfold posTagGo
  cases s.findBy (X.all2 (X.attrEq Ty.textTag TextTag.WORD) X.tokenText) <;> rfl

def keywordProg (W : World) (r : ClauseKeywordResolver) : LRange → Api W ClauseKeyword :=
  findProg X.tokenText (fun text => (r.classify (W.toLowercase text)).toList)

theorem keywords_prog (r : ClauseKeywordResolver) (s : LLSelection W) :
    r.go s = (keywordProg W r s.range).run s.ll_line [s.range] := by
  rw [keywordProg, findProg_run]
  simp only [ClauseKeywordResolver.go]
  cases s.findBy X.tokenText with
  | error e => rfl
  | ok found =>
    simp only [Except.ok.injEq]
    induction found with
    | nil => rfl
    | cons st found ih =>
      simp only [List.filterMap_cons, List.flatMap_cons]
      cases r.classify (W.toLowercase st.2) with
      | none => simpa using ih
      | some kw => simpa using ih

/-! ### clauses -/

/-- `x::attr::<ClauseKeyword>()` -/
def kwMatcher (W : World) : XMatch W ClauseKeyword := X.attr Ty.clauseKeyword

/-- the program of the `filter_map` loop: `n` selections so far, the pieces, `condition_clause_found`, results -/
def clauseLoop (W : World) : Nat → List Nat → Bool → List (Nat × Clause) → Api W Clause
  | _, [], _, acc => .finish acc
  | n, h :: hs, found, acc =>
    .call (.trimSelection h X.whitespace true true) (fun rs _ =>
      match rs with
      | [] => clauseLoop W n hs found acc
      | _ :: _ =>
        .call (.matchBackwards h (kwMatcher W)) (fun rs2 (outs : List ClauseKeyword) =>
          let n' := n + rs.length + rs2.length
          match outs with
          | .ConditionStart :: _ => clauseLoop W n' hs true (acc ++ [(n, .Condition)])
          | .Then :: _ => clauseLoop W n' hs found (acc ++ [(n, .TrailingEffect)])
          | .And :: _ => clauseLoop W n' hs found (acc ++ [(n, if found then .TrailingEffect else .LeadingEffect)])
          | [] => clauseLoop W n' hs found (acc ++ [(n, if found then .TrailingEffect else .LeadingEffect)])))

/-- the single-piece branch as a program -/
def clauseOne (W : World) : Api W Clause :=
  .call (.trimSelection 1 X.whitespace true true) (fun rs1 _ =>
    match rs1 with
    | [] => .finish []
    | _ :: _ =>
      .call (.matchBackwards 1 (kwMatcher W)) (fun _ (outs : List ClauseKeyword) =>
        match outs with
        | .ConditionStart :: _ => .finish [(2, .Condition)]
        | _ => .finish [(2, .Independent)]))

/-- the program of the clause resolver -/
def clauseProg (W : World) : LRange → Api W Clause := fun _ =>
  .call (.splitBy 0 (clauseDelimiter W)) (fun rs _ =>
    match rs with
    | [_] => clauseOne W
    | rs => clauseLoop W (1 + rs.length) ((List.range rs.length).map (1 + ·)) false [])

/-- the handle `h` is the selection `s` of line `rc` -/
def Names (rc : Rc (LLLine W)) (store : List LRange) (h : Nat) (s : LLSelection W) : Prop :=
  store[h]? = some s.range ∧ s.ll_line = rc

theorem Names.mono {rc : Rc (LLLine W)} {store : List LRange} {h : Nat} {s : LLSelection W} (n : Names rc store h s)
    (ext : List LRange) : Names rc (store ++ ext) h s := ⟨get_append n.1, n.2⟩

theorem Names.sel {rc : Rc (LLLine W)} {store : List LRange} {h : Nat} {s : LLSelection W} (n : Names rc store h s) :
    selAt rc s.range = s := by
  rw [← n.2]; exact selAt_range s

theorem onHandle_names {rc : Rc (LLLine W)} {store : List LRange} {h : Nat} {s : LLSelection W} (n : Names rc store h s)
    {Resp : Type} (f : LLSelection W → Answer Resp) : onHandle rc store h f = f s := by
  simp only [onHandle, n.1, n.sel]

theorem names_new {rc : Rc (LLLine W)} {store rs : List LRange} {s : LLSelection W} (i : Nat) (h : rs[i]? = some s.range)
    (hl : s.ll_line = rc) : Names rc (store ++ rs) (store.length + i) s := by
  refine ⟨?_, hl⟩
  rw [List.getElem?_append_right (by omega)]
  simpa using h

theorem finishAll_snoc {V : Type} {store : List LRange} {acc : List (Nat × V)} {as} (h : finishAll store acc = .ok as)
    {rc : Rc (LLLine W)} {i : Nat} {s : LLSelection W} (n : Names rc store i s) (v : V) :
    finishAll store (acc ++ [(i, v)]) = .ok (as ++ [s.finishWithAttr v]) :=
  finishAll_append store h (finishAll_one n.1 [v])

theorem trimSelection_line {Out : Type} {m : XMatch W Out} {s s' : LLSelection W} {x y : Bool}
    (h : s.trimSelection m x y = .ok (some s')) : s'.ll_line = s.ll_line := by
  unfold LLSelection.trimSelection at h
  split at h
  · cases h
  split at h
  · cases h
  split at h
  · cases h; rfl
  · cases h

theorem run_call_ok {V Resp : Type} {rc : Rc (LLLine W)} {store rs : List LRange} {op : Op W Resp} {x : Resp}
    {next : List LRange → Resp → Api W V} (h : op.exec rc store = .ok (rs, x)) :
    (Api.call op next).run rc store = (next rs x).run rc (store ++ rs) := by
  simp only [Api.run, h]

theorem run_call_err {V Resp : Type} {rc : Rc (LLLine W)} {store : List LRange} {op : Op W Resp} {e : Panic}
    {next : List LRange → Resp → Api W V} (h : op.exec rc store = .error e) :
    (Api.call op next).run rc store = .error e := by
  simp only [Api.run, h]

section
variable {rc : Rc (LLLine W)} {store : List LRange} {h : Nat} {s : LLSelection W} {Out : Type} {m : XMatch W Out}

theorem exec_trim_err {x y : Bool} {e : Panic} (n : Names rc store h s) (ht : s.trimSelection m x y = .error e) :
    (Op.trimSelection h m x y).exec rc store = .error e := by
  simp only [Op.exec, onHandle_names n, ht, answerOption]
theorem exec_trim_ok {x y : Bool} {o : Option (LLSelection W)} (n : Names rc store h s) (ht : s.trimSelection m x y = .ok o) :
    (Op.trimSelection h m x y).exec rc store = .ok (o.toList.map (·.range), ()) := by
  simp only [Op.exec, onHandle_names n, ht, answerOption]
theorem exec_mb_err {e : Panic} (n : Names rc store h s) (ht : s.matchBackwards m = .error e) :
    (Op.matchBackwards h m).exec rc store = .error e := by
  simp only [Op.exec, onHandle_names n, ht, answerPairs]
theorem exec_mb_ok {out} (n : Names rc store h s) (ht : s.matchBackwards m = .ok out) :
    (Op.matchBackwards h m).exec rc store = .ok (out.map (·.1.range), out.map (·.2)) := by
  simp only [Op.exec, onHandle_names n, ht, answerPairs]
theorem exec_mf_err {e : Panic} (n : Names rc store h s) (ht : s.matchForwards m = .error e) :
    (Op.matchForwards h m).exec rc store = .error e := by
  simp only [Op.exec, onHandle_names n, ht, answerPairs]
theorem exec_mf_ok {out} (n : Names rc store h s) (ht : s.matchForwards m = .ok out) :
    (Op.matchForwards h m).exec rc store = .ok (out.map (·.1.range), out.map (·.2)) := by
  simp only [Op.exec, onHandle_names n, ht, answerPairs]
theorem exec_fb_err {e : Panic} (n : Names rc store h s) (ht : s.findBy m = .error e) :
    (Op.findBy h m).exec rc store = .error e := by
  simp only [Op.exec, onHandle_names n, ht, answerPairs]
theorem exec_fb_ok {out} (n : Names rc store h s) (ht : s.findBy m = .ok out) :
    (Op.findBy h m).exec rc store = .ok (out.map (·.1.range), out.map (·.2)) := by
  simp only [Op.exec, onHandle_names n, ht, answerPairs]
theorem exec_sb_err {e : Panic} (n : Names rc store h s) (ht : s.splitBy m = .error e) :
    (Op.splitBy h m).exec rc store = .error e := by
  simp only [Op.exec, onHandle_names n, ht, answerList]
theorem exec_sb_ok {out} (n : Names rc store h s) (ht : s.splitBy m = .ok out) :
    (Op.splitBy h m).exec rc store = .ok (out.map (·.range), ()) := by
  simp only [Op.exec, onHandle_names n, ht, answerList]
end

theorem clauseLoop_run {rc : Rc (LLLine W)} : ∀ (ps : List (Nat × LLSelection W)) (store : List LRange) (found : Bool)
    (acc : List (Nat × Clause)) (as : List (LLCursorAssignment Clause)), (∀ p ∈ ps, Names rc store p.1 p.2) →
    finishAll store acc = .ok as →
    (clauseLoop W store.length (ps.map (·.1)) found acc).run rc store =
      okMap (·.2) (foldR clauseStep (found, as) (ps.map (·.2)))
  | [], store, found, acc, as, _, hacc => by simpa [clauseLoop, Api.run, foldR, okMap] using hacc
  | (h, s) :: ps, store, found, acc, as, hn, hacc => by
    have hs : Names rc store h s := hn _ (List.mem_cons_self)
    have hn' : ∀ ext, ∀ p ∈ ps, Names rc (store ++ ext) p.1 p.2 := fun ext p hp => (hn p (by simp [hp])).mono ext
    simp only [List.map_cons, clauseLoop]
    have htrim : s.trim X.whitespace = s.trimSelection X.whitespace true true := rfl
    cases ht : s.trimSelection X.whitespace true true with
    | error e =>
      rw [run_call_err (exec_trim_err hs ht)]
      simp only [foldR, clauseStep, htrim, ht, okMap]
    | ok o =>
      rw [run_call_ok (exec_trim_ok hs ht)]
      cases o with
      | none =>
        simp only [foldR, clauseStep, htrim, ht, Option.toList_none, List.map_nil, List.append_nil]
        exact clauseLoop_run ps store found acc as (fun p hp => hn p (by simp [hp])) hacc
      | some t =>
        have hne : Names rc (store ++ [t.range]) store.length t :=
          names_new 0 rfl ((trimSelection_line ht).trans hs.2)
        simp only [Option.toList_some, List.map_cons, List.map_nil]
        cases hm : s.matchBackwards (kwMatcher W) with
        | error e =>
          rw [run_call_err (exec_mb_err (hs.mono [t.range]) hm)]
          have : clauseStep (found, as) s = .error e := by
            simp only [clauseStep, htrim, ht, LLSelection.matchFirstBackwards]
            rw [show s.matchBackwards (X.attr (W := W) Ty.clauseKeyword) = .error e from hm]
          simp only [foldR, this, okMap]
        | ok out =>
          rw [run_call_ok (exec_mb_ok (hs.mono [t.range]) hm)]
          have go : ∀ (found' : Bool) (c : Clause), clauseStep (found, as) s = .ok (found', as ++ [t.finishWithAttr c]) →
              (clauseLoop W (store.length + [t.range].length + (out.map (·.1.range)).length) (ps.map (·.1)) found'
                (acc ++ [(store.length, c)])).run rc (store ++ [t.range] ++ out.map (·.1.range)) =
              okMap (·.2) (foldR clauseStep (found, as) (s :: ps.map (·.2))) := by
            intro found' c hst
            have := clauseLoop_run ps (store ++ [t.range] ++ out.map (·.1.range)) found' (acc ++ [(store.length, c)])
              (as ++ [t.finishWithAttr c]) (by rw [List.append_assoc]; exact hn' _)
              (finishAll_snoc (finishAll_mono _ (finishAll_mono _ hacc)) (hne.mono _) c)
            simp only [foldR, hst]
            rw [List.length_append, List.length_append] at this
            exact this
          have hmf : s.matchFirstBackwards (X.attr (W := W) Ty.clauseKeyword) = .ok out.head? := by
            simp only [LLSelection.matchFirstBackwards]
            rw [show s.matchBackwards (X.attr (W := W) Ty.clauseKeyword) = .ok out from hm]
            rfl
          cases out with
          | nil =>
            cases found
            · simp only [List.map_nil, Bool.false_eq_true, if_false]
              exact go _ _ (by simp only [clauseStep, htrim, ht]; rw [hmf]; rfl)
            · simp only [List.map_nil, if_true]
              exact go _ _ (by simp only [clauseStep, htrim, ht]; rw [hmf]; rfl)
          | cons p out =>
            obtain ⟨p1, p2⟩ := p
            cases p2
            · exact go _ _ (by simp only [clauseStep, htrim, ht]; rw [hmf]; rfl)
            · exact go _ _ (by simp only [clauseStep, htrim, ht]; rw [hmf]; rfl)
            · exact go _ _ (by simp only [clauseStep, htrim, ht]; rw [hmf]; rfl)

theorem clauseSingle_run {rc : Rc (LLLine W)} {r : LRange} {c : LLSelection W} (hl : rc = c.ll_line) :
    clauseSingle c = (clauseOne W).run rc ([r] ++ [c].map (·.range)) := by
  have hc : Names rc ([r] ++ [c].map (·.range)) 1 c := names_new 0 rfl hl.symm
  have htrim : c.trim X.whitespace = c.trimSelection X.whitespace true true := rfl
  unfold clauseSingle clauseOne
  cases ht : c.trimSelection X.whitespace true true with
  | error e =>
    rw [run_call_err (exec_trim_err hc ht)]
    simp only [htrim, ht]
  | ok o =>
    rw [run_call_ok (exec_trim_ok hc ht)]
    cases o with
    | none =>
      simp only [htrim, ht]
      rfl
    | some t =>
      have hne : Names rc ([r] ++ [c].map (·.range) ++ [t.range]) 2 t :=
        names_new 0 rfl ((trimSelection_line ht).trans hc.2)
      simp only [htrim, ht, Option.toList_some, List.map_cons, List.map_nil]
      cases hm : c.matchBackwards (kwMatcher W) with
      | error e =>
        have hmf : c.matchFirstBackwards (X.attr (W := W) Ty.clauseKeyword) = .error e := by
          simp only [LLSelection.matchFirstBackwards]
          rw [show c.matchBackwards (X.attr (W := W) Ty.clauseKeyword) = .error e from hm]
        rw [hmf]
        exact (run_call_err (exec_mb_err (hc.mono [t.range]) hm)).symm
      | ok out =>
        have hmf : c.matchFirstBackwards (X.attr (W := W) Ty.clauseKeyword) = .ok out.head? := by
          simp only [LLSelection.matchFirstBackwards]
          rw [show c.matchBackwards (X.attr (W := W) Ty.clauseKeyword) = .ok out from hm]
          rfl
        rw [hmf]
        refine Eq.trans ?_ (run_call_ok (exec_mb_ok (hc.mono [t.range]) hm)).symm
        have fin : ∀ k, (Api.finish [(2, k)] : Api W Clause).run rc
            ([r] ++ [c].map (·.range) ++ [t.range] ++ out.map (·.1.range)) = .ok [t.finishWithAttr k] := fun k =>
          finishAll_one (hne.mono _).1 [k]
        cases out with
        | nil => exact (fin _).symm
        | cons p out =>
          obtain ⟨p1, p2⟩ := p
          cases p2 <;> exact (fin _).symm

theorem clause_prog (s : LLSelection W) : clauseGo s = (clauseProg W s.range).run s.ll_line [s.range] := by
  have hs : Names s.ll_line [s.range] 0 s := ⟨rfl, rfl⟩
  unfold clauseProg
  unfold clauseGo
  cases hsp : s.splitBy (clauseDelimiter W) with
  | error e => rw [run_call_err (exec_sb_err hs hsp)]
  | ok pieces =>
    rw [run_call_ok (exec_sb_ok hs hsp)]
    have hline : ∀ p ∈ pieces, p.ll_line = s.ll_line := by
      have hsf : ∀ {x y : Nat} {p : LLSelection W}, s.selectionFrom x y = some p → p.ll_line = s.ll_line := by
        intro x y p h
        simp only [LLSelection.selectionFrom] at h
        split at h
        · cases h; rfl
        · cases h
      intro p hp
      by_cases hle : s.start_idx ≤ s.end_idx
      · exact (splitBy_partOf hle hsp hp).1
      · have hn : rangeIncl s.start_idx s.end_idx = [] := by
          apply List.eq_nil_iff_forall_not_mem.2
          intro x hx
          have := mem_rangeIncl.1 hx
          omega
        have hf : s.findBy (clauseDelimiter W) = .ok [] := by simp [LLSelection.findBy, hn]
        unfold LLSelection.splitBy at hsp
        rw [hf] at hsp
        cases hsp
        simp at hp
        rw [hp]
    match pieces, hline with
    | [c], hline => exact clauseSingle_run (hline c (by simp)).symm
    | [], hline => rfl
    | c :: c' :: cs, hline =>
      have hfold : ∀ x : R (Bool × List (LLCursorAssignment Clause)),
          (match x with | .error e => .error e | .ok st => .ok st.2) = okMap (·.2) x := by
        intro x; cases x <;> rfl
      refine (hfold _).trans ?_
      have hps := clauseLoop_run (rc := s.ll_line)
        ((List.range (c :: c' :: cs).length).map (1 + ·) |>.zip (c :: c' :: cs))
        ([s.range] ++ (c :: c' :: cs).map (·.range)) false [] [] (by
          intro p hp
          obtain ⟨i, hi⟩ := List.mem_iff_getElem?.1 hp
          rw [List.getElem?_zip_eq_some] at hi
          obtain ⟨h1, h2⟩ := hi
          have h1' : p.1 = 1 + i := by
            rw [List.getElem?_map] at h1
            cases hr : (List.range (c :: c' :: cs).length)[i]? with
            | none => rw [hr] at h1; cases h1
            | some j =>
              rw [hr] at h1
              rw [List.getElem?_eq_some_iff] at hr
              obtain ⟨hlt, hr⟩ := hr
              rw [List.getElem_range] at hr
              simp only [Option.map_some, Option.some.injEq] at h1
              omega
          rw [h1']
          exact names_new i (by rw [List.getElem?_map, h2]; rfl) (hline p.2 (List.mem_of_getElem? h2))) rfl
      rw [List.map_fst_zip (by simp), List.map_snd_zip (by simp)] at hps
      rw [← hps]
      simp only [List.length_append, List.length_map, List.map_cons, List.length_cons, List.length_nil, Nat.zero_add]

end LNlp
