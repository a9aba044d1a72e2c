import Verif.Lemmas.ProgramStages
import Verif.Model.Currency
/-
Amounts and the resolvers of the currency test as programs of the selection API.
-/
namespace LNlp
variable {W : World}

theorem matchForwards_line {Out : Type} {m : XMatch W Out} {s : LLSelection W} {out} (h : s.matchForwards m = .ok out)
    {p} (hp : p ∈ out) : p.1.ll_line = s.ll_line := by
  unfold LLSelection.matchForwards at h
  split at h
  · cases h; cases hp
  split at h
  · cases h
  · cases h
    obtain ⟨r, _, rfl⟩ := List.mem_map.1 hp
    rfl

theorem findBy_line {Out : Type} {m : XMatch W Out} {s : LLSelection W} {out} (h : s.findBy m = .ok out)
    {p} (hp : p ∈ out) : p.1.ll_line = s.ll_line := by
  unfold LLSelection.findBy at h
  generalize rangeIncl s.start_idx s.end_idx = is at h
  induction is generalizing out with
  | nil => cases h; cases hp
  | cons i is ih =>
    simp only [flatMapR] at h
    split at h
    · cases h
    · rename_i ys hys
      split at h
      · cases h
      · rename_i zs hzs
        cases h
        rcases List.mem_append.1 hp with hp | hp
        · split at hys
          · cases hys
          · cases hys
            obtain ⟨r, _, rfl⟩ := List.mem_map.1 hp
            rfl
        · exact ih hp hzs

theorem selectionFrom_line {s p : LLSelection W} {x y : Nat} (h : s.selectionFrom x y = some p) :
    p.ll_line = s.ll_line := by
  simp only [LLSelection.selectionFrom] at h
  split at h
  · cases h; rfl
  · cases h

theorem splitWith_line {s t : LLSelection W} {out} (h : s.splitWith t = .ok out) :
    (∀ p, out.1 = some p → p.ll_line = s.ll_line) ∧ ∀ p, out.2 = some p → p.ll_line = s.ll_line := by
  unfold LLSelection.splitWith at h
  split at h
  · cases h
    refine ⟨fun p hp => ?_, fun p hp => selectionFrom_line hp⟩
    dsimp only at hp
    split at hp
    · exact selectionFrom_line hp
    · cases hp
  · cases h

theorem exec_sw {rc : Rc (LLLine W)} {store : List LRange} {h g : Nat} {s t : LLSelection W} (n : Names rc store h s)
    (n' : Names rc store g t) : (Op.splitWith h g).exec rc store = answerTwo (s.splitWith t) := by
  simp only [Op.exec, onHandle_names n, onHandle_names n']

/-- `x::token_has_any::<char>(..)` -/
def charMatcher (W : World) (cs : List Char) : XMatch W Char := X.tokenHasAny Ty.char cs

theorem mff_err {Out : Type} {m : XMatch W Out} {s : LLSelection W} {e} (h : s.matchForwards m = .error e) :
    s.matchFirstForwards m = .error e := by simp only [LLSelection.matchFirstForwards, h]

theorem mff_ok {Out : Type} {m : XMatch W Out} {s : LLSelection W} {out} (h : s.matchForwards m = .ok out) :
    s.matchFirstForwards m = .ok out.head? := by simp only [LLSelection.matchFirstForwards, h]

/-! ### the programs -/

/-- how the rest of a program continues: selections so far, the current one, the number, the last valid one -/
abbrev AmountK (W : World) := Nat → Nat → Str → Option Nat → Api W W.Decimal

def delimP (r : AmountResolver) : Nat → Nat → Nat → Str → AmountK W → Api W W.Decimal
  | 0, _, _, _, _ => .panic .stillRunning
  | fuel + 1, n, h, num, k =>
    .call (.matchForwards h (charMatcher W r.delimiters)) (fun rs _ =>
      match rs with
      | [] => k n h num none
      | _ :: _ =>
        .call (.matchForwards n (natnText W)) (fun rs2 (outs : List (Unit × Str)) =>
          match outs with
          | [] => k (n + rs.length + rs2.length) n num (some h)
          | (_, text) :: _ => delimP r fuel (n + rs.length + rs2.length) (n + rs.length) (num ++ text) k))

def decP (r : AmountResolver) (n h : Nat) (num : Str) (o : Option Nat) (k : AmountK W) : Api W W.Decimal :=
  match o with
  | some g => k n h num (some g)
  | none =>
    .call (.matchForwards h (charMatcher W [r.decimal])) (fun rs _ =>
      match rs with
      | [] =>
        .call (.matchForwards h (natnText W)) (fun rs2 (outs : List (Unit × Str)) =>
          match outs with
          | [] => k (n + rs2.length) h num none
          | (_, text) :: _ => k (n + rs2.length) n (num ++ text) none)
      | _ :: _ =>
        .call (.matchForwards n (natnText W)) (fun rs2 (outs : List (Unit × Str)) =>
          match outs with
          | [] => k (n + rs.length + rs2.length) n (num ++ ['.']) (some h)
          | (_, text) :: _ => k (n + rs.length + rs2.length) (n + rs.length) (num ++ ['.'] ++ text) none))

def amountNext (outer : Nat → Nat → List (Nat × W.Decimal) → Api W W.Decimal) (h : Nat)
    (acc : List (Nat × W.Decimal)) : AmountK W := fun n2 h2 num2 o2 =>
  match W.parseDecimal num2 with
  | none => .panic .decimal
  | some d =>
    .call (.splitWith h h2) (fun rs bs =>
      match bs with
      | (_, false) => .finish (acc ++ [(o2.getD h2, d)])
      | (false, true) => outer (n2 + rs.length) n2 (acc ++ [(o2.getD h2, d)])
      | (true, true) => outer (n2 + rs.length) (n2 + 1) (acc ++ [(o2.getD h2, d)]))

def outerP (r : AmountResolver) (inner : Nat) : Nat → Nat → Nat → List (Nat × W.Decimal) → Api W W.Decimal
  | 0, _, _, _ => .panic .stillRunning
  | fuel + 1, n, h, acc =>
    .call (.findBy h (natnText W)) (fun rs (outs : List (Unit × Str)) =>
      match outs with
      | [] => .finish acc
      | (_, text) :: _ =>
        delimP r inner (n + rs.length) n text (fun n1 h1 num1 o1 =>
          decP r n1 h1 num1 o1 (amountNext (outerP r inner fuel) h acc)))

/-- the program of the amount resolver -/
def amountProg (W : World) (r : AmountResolver) : LRange → Api W W.Decimal := fun x =>
  outerP r (x.2 + 2) (x.2 + 2) 1 0 []

/-! ### they do what the resolver does -/

/-- the variables of the loop, as handles -/
structure InStore (rc : Rc (LLLine W)) (store : List LRange) (h : Nat) (o : Option Nat) (st : AmountSt W) : Prop where
  sel : Names rc store h st.selection
  last : st.last_valid_selection = none ∧ o = none ∨
    ∃ g s, o = some g ∧ st.last_valid_selection = some s ∧ Names rc store g s

/-- the program `P` does what the computation `x` does, and goes on -/
def Tracks (rc : Rc (LLLine W)) (store : List LRange) (x : R (AmountSt W)) (P : AmountK W → Api W W.Decimal) : Prop :=
  (∀ e, x = .error e → ∀ k, (P k).run rc store = .error e) ∧
  ∀ st, x = .ok st → ∃ ext h o, InStore rc (store ++ ext) h o st ∧
    ∀ k, (P k).run rc store = (k (store ++ ext).length h st.number_string o).run rc (store ++ ext)

theorem tracks_err {rc : Rc (LLLine W)} {store : List LRange} {e : Panic} {P : AmountK W → Api W W.Decimal}
    (h : ∀ k, (P k).run rc store = .error e) : Tracks rc store (.error e) P :=
  ⟨fun e' he k => by cases he; exact h k, fun st hst => by cases hst⟩

theorem tracks_ok {rc : Rc (LLLine W)} {store : List LRange} {st : AmountSt W} {P : AmountK W → Api W W.Decimal}
    (ext : List LRange) (h : Nat) (o : Option Nat) (i : InStore rc (store ++ ext) h o st)
    (hr : ∀ k, (P k).run rc store = (k (store ++ ext).length h st.number_string o).run rc (store ++ ext)) :
    Tracks rc store (.ok st) P :=
  ⟨fun e he => by (cases he), fun st' hst => by cases hst; exact ⟨ext, h, o, i, hr⟩⟩

theorem delimP_follows (r : AmountResolver) {rc : Rc (LLLine W)} : ∀ (fuel : Nat) (store : List LRange) (h : Nat)
    (st : AmountSt W), Names rc store h st.selection → st.last_valid_selection = none →
    Tracks rc store (r.delimiterLoop fuel st) (delimP r fuel store.length h st.number_string)
  | 0, store, h, st, _, _ => tracks_err (fun k => rfl)
  | fuel + 1, store, h, st, hs, hl => by
    unfold AmountResolver.delimiterLoop
    cases hm : st.selection.matchForwards (charMatcher W r.delimiters) with
    | error e =>
      rw [show st.selection.matchFirstForwards (X.tokenHasAny (W := W) Ty.char r.delimiters) = .error e from mff_err hm]
      exact tracks_err (fun k => run_call_err (exec_mf_err hs hm))
    | ok out =>
      have hmf : st.selection.matchFirstForwards (X.tokenHasAny (W := W) Ty.char r.delimiters) = .ok out.head? := mff_ok hm
      rw [hmf]
      have run1 : ∀ k, (delimP r (fuel + 1) store.length h st.number_string k).run rc store = _ :=
        fun k => run_call_ok (exec_mf_ok hs hm)
      cases out with
      | nil =>
        refine tracks_ok [] h none ⟨by simpa using hs, .inl ⟨hl, rfl⟩⟩ (fun k => ?_)
        rw [run1]
        simp
      | cons p out =>
        obtain ⟨ds, c⟩ := p
        have hd : Names rc (store ++ ((ds, c) :: out).map (·.1.range)) store.length ds :=
          names_new 0 rfl ((matchForwards_line hm List.mem_cons_self).trans hs.2)
        dsimp only [List.head?_cons]
        cases hm2 : ds.matchForwards (natnText W) with
        | error e =>
          rw [mff_err hm2]
          refine tracks_err (fun k => ?_)
          rw [run1]
          exact run_call_err (exec_mf_err hd hm2)
        | ok out2 =>
          rw [mff_ok hm2]
          have run2 : ∀ k, (delimP r (fuel + 1) store.length h st.number_string k).run rc store = _ :=
            fun k => (run1 k).trans (run_call_ok (exec_mf_ok hd hm2))
          cases out2 with
          | nil =>
            refine tracks_ok _ store.length (some h) ⟨hd, .inr ⟨h, st.selection, rfl, rfl, hs.mono _⟩⟩ (fun k => ?_)
            rw [run2]
            simp
          | cons p2 out2 =>
            obtain ⟨fs, u, text⟩ := p2
            dsimp only [List.head?_cons]
            have hf : Names rc (store ++ ((ds, c) :: out).map (·.1.range) ++ ((fs, u, text) :: out2).map (·.1.range))
                (store.length + (((ds, c) :: out).map (·.1.range)).length) fs := by
              rw [← List.length_append]
              exact names_new 0 rfl ((matchForwards_line hm2 List.mem_cons_self).trans hd.2)
            have ih := delimP_follows r fuel _ _ { selection := fs, number_string := st.number_string ++ text, last_valid_selection := none } hf rfl
            constructor
            · intro e he k
              rw [run2]
              have := ih.1 e he k
              rw [List.length_append, List.length_append] at this
              exact this
            · intro st' hst'
              obtain ⟨ext, h', o, hi, hr⟩ := ih.2 st' hst'
              refine ⟨((ds, c) :: out).map (·.1.range) ++ ((fs, u, text) :: out2).map (·.1.range) ++ ext, h', o, ?_, fun k => ?_⟩
              · rw [← List.append_assoc, ← List.append_assoc]; exact hi
              · rw [run2, ← List.append_assoc, ← List.append_assoc]
                have := hr k
                rw [List.length_append, List.length_append (as := store)] at this
                exact this

/-- the second half of `decimalPart`: digits after the current selection -/
theorem digits_follow {rc : Rc (LLLine W)} {store : List LRange} {h : Nat} {o : Option Nat} {st : AmountSt W}
    (hi : InStore rc store h o st) :
    Tracks rc store
      (match st.selection.matchFirstForwards (natnText W) with
      | .error e => .error e
      | .ok (some (following_decimal_sel, (_, text))) =>
        .ok { selection := following_decimal_sel
              number_string := st.number_string ++ text
              last_valid_selection := none }
      | .ok none => .ok st)
      (fun k => .call (.matchForwards h (natnText W)) (fun rs2 (outs : List (Unit × Str)) =>
        match outs with
        | [] => k (store.length + rs2.length) h st.number_string o
        | (_, text) :: _ => k (store.length + rs2.length) store.length (st.number_string ++ text) none)) := by
  cases hm : st.selection.matchForwards (natnText W) with
  | error e =>
    rw [mff_err hm]
    exact tracks_err (fun k => run_call_err (exec_mf_err hi.sel hm))
  | ok out =>
    rw [mff_ok hm]
    cases out with
    | nil =>
      refine tracks_ok [] h o ⟨by simpa using hi.sel, by simpa using hi.last⟩ (fun k => ?_)
      rw [run_call_ok (exec_mf_ok hi.sel hm)]
      simp
    | cons p out =>
      obtain ⟨fs, u, text⟩ := p
      refine tracks_ok (((fs, u, text) :: out).map (·.1.range)) store.length none
        ⟨names_new 0 rfl ((matchForwards_line hm List.mem_cons_self).trans hi.sel.2), .inl ⟨rfl, rfl⟩⟩ (fun k => ?_)
      rw [run_call_ok (exec_mf_ok hi.sel hm)]
      simp

theorem Tracks.after {rc : Rc (LLLine W)} {store ext : List LRange} {x : R (AmountSt W)} {P Q : AmountK W → Api W W.Decimal}
    (h : Tracks rc (store ++ ext) x Q) (hr : ∀ k, (P k).run rc store = (Q k).run rc (store ++ ext)) :
    Tracks rc store x P := by
  refine ⟨fun e he k => (hr k).trans (h.1 e he k), fun st hst => ?_⟩
  obtain ⟨ext', h', o, hi, hk⟩ := h.2 st hst
  refine ⟨ext ++ ext', h', o, by rw [← List.append_assoc]; exact hi, fun k => ?_⟩
  rw [← List.append_assoc, hr, hk]

theorem decP_follows (r : AmountResolver) {rc : Rc (LLLine W)} {store : List LRange} {h : Nat} {o : Option Nat}
    {st : AmountSt W} (hi : InStore rc store h o st) :
    Tracks rc store (r.decimalPart st) (decP r store.length h st.number_string o) := by
  unfold AmountResolver.decimalPart
  rcases hi.last with ⟨hl, rfl⟩ | ⟨g, s, rfl, hl, hg⟩
  · rw [hl]
    dsimp only
    cases hm : st.selection.matchForwards (charMatcher W [r.decimal]) with
    | error e =>
      rw [show st.selection.matchFirstForwards (X.tokenHasAny (W := W) Ty.char [r.decimal]) = .error e from mff_err hm]
      exact tracks_err (fun k => run_call_err (exec_mf_err hi.sel hm))
    | ok out =>
      have hmf : st.selection.matchFirstForwards (X.tokenHasAny (W := W) Ty.char [r.decimal]) = .ok out.head? := mff_ok hm
      rw [hmf]
      have run1 : ∀ k, (decP r store.length h st.number_string none k).run rc store = _ :=
        fun k => run_call_ok (exec_mf_ok hi.sel hm)
      cases out with
      | nil =>
        refine Tracks.after (ext := []) (by rw [List.append_nil]; exact digits_follow hi) (fun k => ?_)
        rw [run1]
        rfl
      | cons p out =>
        obtain ⟨ds, c⟩ := p
        have hd : Names rc (store ++ ((ds, c) :: out).map (·.1.range)) store.length ds :=
          names_new 0 rfl ((matchForwards_line hm List.mem_cons_self).trans hi.sel.2)
        refine Tracks.after (digits_follow (h := store.length) (o := some h)
          (st := { selection := ds, number_string := st.number_string ++ ['.'], last_valid_selection := some st.selection })
          ⟨hd, .inr ⟨h, _, rfl, rfl, hi.sel.mono _⟩⟩) (fun k => ?_)
        rw [run1, List.length_append]
        rfl
  · rw [hl]
    exact tracks_ok [] h (some g) ⟨by simpa using hi.sel, by simpa using hi.last⟩ (fun k => by simp [decP])

theorem outerP_run (r : AmountResolver) (inner : Nat) {rc : Rc (LLLine W)} : ∀ (fuel : Nat) (store : List LRange) (h : Nat)
    (s : LLSelection W) (acc : List (Nat × W.Decimal)) (as : List (LLCursorAssignment W.Decimal)),
    Names rc store h s → finishAll store acc = .ok as →
    r.outerLoop inner fuel s as = (outerP r inner fuel store.length h acc).run rc store
  | 0, _, _, _, _, _, _, _ => rfl
  | fuel + 1, store, h, s, acc, as, hs, hacc => by
    unfold AmountResolver.outerLoop LLSelection.findFirstBy outerP
    cases hm : s.findBy (natnText W) with
    | error e => exact (run_call_err (exec_fb_err hs hm)).symm
    | ok out =>
      rw [run_call_ok (exec_fb_ok hs hm)]
      cases out with
      | nil => exact (finishAll_mono [] hacc).symm
      | cons p out =>
        obtain ⟨sel, u, text⟩ := p
        have h0 : Names rc (store ++ ((sel, u, text) :: out).map (·.1.range)) store.length sel :=
          names_new 0 rfl ((findBy_line hm List.mem_cons_self).trans hs.2)
        have f1 := delimP_follows r inner _ _ { selection := sel, number_string := text, last_valid_selection := none } h0 rfl
        dsimp only [List.head?_cons, List.map_cons]
        rw [List.length_append] at f1
        cases hd : r.delimiterLoop inner { selection := sel, number_string := text, last_valid_selection := none } with
        | error e => exact (f1.1 e hd _).symm
        | ok st =>
          obtain ⟨ext, h1, o1, hi1, hr1⟩ := f1.2 st hd
          refine Eq.trans ?_ (hr1 _).symm
          have f2 := decP_follows r hi1
          dsimp only
          cases hdec : r.decimalPart st with
          | error e => exact (f2.1 e hdec _).symm
          | ok st2 =>
            obtain ⟨ext2, h2, o2, hi2, hr2⟩ := f2.2 st2 hdec
            refine Eq.trans ?_ (hr2 _).symm
            unfold amountNext
            dsimp only
            cases W.parseDecimal st2.number_string with
            | none => rfl
            | some d =>
              dsimp only
              have hs2 : Names rc (store ++ ((sel, u, text) :: out).map (·.1.range) ++ ext ++ ext2) h s := ((hs.mono _).mono _).mono _
              have hacc2 : finishAll (store ++ ((sel, u, text) :: out).map (·.1.range) ++ ext ++ ext2) (acc ++ [(o2.getD h2, d)]) =
                  .ok (as ++ [(st2.last_valid_selection.getD st2.selection).finishWithAttr d]) := by
                refine finishAll_snoc (finishAll_mono _ (finishAll_mono _ (finishAll_mono _ hacc))) (rc := rc) ?_ d
                rcases hi2.last with ⟨hl, rfl⟩ | ⟨g, s', rfl, hl, hg⟩
                · rw [hl]; exact hi2.sel
                · rw [hl]; exact hg
              have hex := exec_sw hs2 hi2.sel
              cases hw : s.splitWith st2.selection with
              | error e =>
                rw [hw] at hex
                exact (run_call_err hex).symm
              | ok two =>
                rw [hw] at hex
                refine Eq.trans ?_ (run_call_ok hex).symm
                obtain ⟨hla, hlb⟩ := splitWith_line hw
                obtain ⟨a, b⟩ := two
                cases b with
                | none => 
                  cases a <;> exact (finishAll_mono _ hacc2).symm
                | some right =>
                  cases a with
                  | none =>
                    dsimp only [Option.isSome, Option.toList]
                    refine (outerP_run r inner fuel _ _ _ _ _ (names_new (rs := [right.range]) 0 rfl ((hlb _ rfl).trans hs.2)) (finishAll_mono _ hacc2)).trans ?_
                    rw [List.length_append]
                    rfl
                  | some left =>
                    dsimp only [Option.isSome, Option.toList]
                    refine (outerP_run r inner fuel _ _ _ _ _ (names_new (rs := [left.range, right.range]) 1 rfl ((hlb _ rfl).trans hs.2)) (finishAll_mono _ hacc2)).trans ?_
                    rw [List.length_append]
                    rfl

theorem amount_prog (r : AmountResolver) (l : LLLine W) (ptr : Nat) (hne : l.ll_tokens ≠ []) :
    r.go (wholeLine l ptr) = (amountProg W r (wholeLine l ptr).range).run (wholeLine l ptr).ll_line [(wholeLine l ptr).range] := by
  have : l.ll_tokens.length - 1 + 2 = l.ll_tokens.length + 1 := by
    have := List.length_pos_iff.2 hne
    omega
  unfold AmountResolver.go amountProg
  rw [outerP_run r _ _ [(wholeLine l ptr).range] 0 (wholeLine l ptr) [] [] ⟨rfl, rfl⟩ rfl]
  simp only [wholeLine, LLSelection.range, this, List.length_singleton]

end LNlp
