import Verif.Lemmas.Steps
import Verif.Props.Resolve
import Verif.Props.Amount
import Verif.Lemmas.Currency
import Verif.Spec.Silent
/- Steps that do nothing with a text of one token leave its line as it is. -/
namespace LNlp
variable {W : World}

/-- a resolver that assigns nothing leaves the line as it is -/
theorem run_nothing {l : LLLine W} {p : Nat} {r : Resolver W} (ne : l.ll_tokens ≠ []) (h : r.go (wholeLine l p) = .ok ([], false)) :
    l.run p r = .ok l := by
  unfold LLLine.run
  rw [if_neg (by simpa using ne)]
  have : r.go { ll_line := ⟨p, l⟩, start_idx := 0, end_idx := l.ll_tokens.length - 1 } = .ok ([], false) := h
  rw [this]
  rfl

/-- a text of one token, which is no number -/
theorem silent_stage {w : Str} {l : LLLine W} (ok : createLineFromString W w = .ok l) (one : l.ll_tokens.length = 1)
    (text : textAt l 0 = some w) (nn : ∃ c ∈ w, ¬ IsDigit c) {s : Stage W} (hs : s.Silent w) (p : Nat) {l' : LLLine W}
    (run : l.run p s.resolver = .ok l') : l' = l := by
  have hh : Honest l _ := .create _ _ _ (string_wf w) ok
  have ne : l.ll_tokens ≠ [] := List.length_pos_iff.1 (by omega)
  have inside := wholeLine_inside ne p
  have btw : between (wholeLine l p).start_idx (wholeLine l p).end_idx = [0] := by
    show between 0 (l.ll_tokens.length - 1) = [0]
    rw [one]
    rfl
  have plain := creation_plainTags (string_wf w) ok (string_noCustom _ _)
  have fin : ∀ {r : Resolver W}, l.run p r = .ok l' → r.go (wholeLine l p) = .ok ([], false) → l' = l := by
    intro r h1 h2
    cases h1.symm.trans (run_nothing ne h2)
    rfl
  cases s with
  | table t =>
    refine fin run (table_resolver t ?_)
    rw [C58_table t _ inside, btw]
    have : tableValues t l 0 = [] := by
      unfold tableValues
      rw [text]
      exact hs
    have e : tableValues t (wholeLine l p).ll_line.val 0 = [] := this
    rw [List.flatMap_singleton, e]
    rfl
  | pos =>
    refine fin run (pos_resolver ?_)
    rw [C63_words (s := wholeLine l p) hh.spec.1 plain inside, btw]
    have := hs l ok
    have e : ¬ tagAt (wholeLine l p).ll_line.val 0 = some .WORD := this
    rw [List.flatMap_singleton, if_neg e]
    rfl
  | keywords r =>
    refine fin run (keyword_resolver r ?_)
    rw [keywordGo_eq r inside, btw]
    have : r.classify (W.toLowercase w) = none := by
      cases h : r.classify (W.toLowercase w) with
      | none => rfl
      | some kw => exact absurd ((classify_iff r _ _).1 h) (hs kw)
    have e : textAt (wholeLine l p).ll_line.val 0 = some w := text
    rw [List.flatMap_singleton, e, Option.bind_some, this]
    rfl
  | clauses => exact hs.elim
  | amounts r =>
    have e : ∀ out, r.go (wholeLine l p) = .ok out → out = [] := by
      intro out ho
      cases out with
      | nil => rfl
      | cons x xs =>
        obtain ⟨⟨t, hn⟩, _⟩ := (C66_partial r (s := wholeLine l p) hh.spec.1 inside _ ho).2.2 x (by simp)
        obtain ⟨ht, _, hd⟩ := (plain_num (l := l) hh.spec.1 plain).1 hn
        have lt : x.start_idx < l.ll_tokens.length := by
          refine Nat.lt_of_not_le fun hc => ?_
          unfold textAt at ht
          rw [List.getElem?_eq_none (by omega)] at ht
          cases ht
        have : x.start_idx = 0 := by omega
        rw [this, text] at ht
        cases ht
        obtain ⟨c, hc, nd⟩ := nn
        exact absurd (hd c hc) nd
    have go : (r.resolver W).go (wholeLine l p) = match r.go (wholeLine l p) with
      | .ok as => .ok (as, false)
      | .error e => .error e := rfl
    cases h : r.go (wholeLine l p) with
    | ok out =>
      rw [h, e out h] at go
      exact fin run go
    | error er =>
      rw [h] at go
      have : l.run p (r.resolver W) = .error er := by
        unfold LLLine.run
        rw [if_neg (by simpa using ne)]
        have : (r.resolver W).go { ll_line := ⟨p, l⟩, start_idx := 0, end_idx := l.ll_tokens.length - 1 } = .error er := go
        rw [this]
      cases run.symm.trans this

/-- a step that stops at the only token of a line adds nothing, unless it is there already -/
theorem stops_nothing {l l' : LLLine W} {h new : History W} (hh : Honest l h) (hh' : Honest l' (h ++ new)) (t : l'.ll_tokens = l.ll_tokens)
    (one : l.ll_tokens.length = 1) {k : Ty W} (ty : ∀ x ∈ new, x.ty = k) (fresh : ∀ x ∈ h, x.ty ≠ k)
    (no : ∀ x ∈ new, x ∈ h ∨ ¬ Over 0 x.range) : l' = l := by
  have : new = [] := by
    refine List.eq_nil_iff_forall_not_mem.2 fun x hx => ?_
    rcases no x hx with h1 | h1
    · exact fresh x h1 (ty x hx)
    · have b := (hh'.spec.1.rep.bounds x (by simp [hx])).2
      have o := hh'.spec.2 x (by simp [hx])
      rw [t, one] at b
      exact h1 ⟨by omega, by omega⟩
  subst this
  rw [List.append_nil] at hh'
  exact rep_ext hh'.spec.1.rep hh.spec.1.rep t (fun _ => rfl) (fun _ _ => rfl)

/-- steps that do nothing with a text of one token stop there when their turn comes -/
theorem silent_steps {w : Str} {l : LLLine W} (ok : createLineFromString W w = .ok l) (one : l.ll_tokens.length = 1)
    (text : textAt l 0 = some w) (nn : ∃ c ∈ w, ¬ IsDigit c) : ∀ (ss : List (Step W)) (_ : OwnSteps ss) (_ : ∀ s ∈ ss, s.Silent w)
    (p : Nat → Nat), StopWhenRun 0 p ss l ∧ ∀ l', runAll l (stepsAt p ss) = .ok l' → l' = l
  | [], _, _, _ => ⟨trivial, fun _ h => by cases h; rfl⟩
  | s :: ss, own, hs, p => by
    have hh : Honest l _ := .create _ _ _ (string_wf w) ok
    have ne : l.ll_tokens ≠ [] := List.length_pos_iff.1 (by omega)
    have own1 := own s (by simp)
    have hs1 := hs s (by simp)
    have fresh : ∀ x ∈ creationHistory W utf8Len [.Text w []], x.ty = .char ∨ x.ty = .textTag := string_types w
    have stay : ∀ l', l.run (p 0) s.resolver = .ok l' → l' = l := by
      intro l' run
      cases s with
      | stage s => exact silent_stage ok one text nn hs1 _ run
      | rule look r =>
        obtain ⟨l1, new, run1, hh1, t, ty, _, st⟩ := step_rule (look := look) (r := r) hh ne (p 0)
        cases run.symm.trans run1
        have at' : (Step.rule look r).resolver.attr = r.attr := by cases look <;> rfl
        rw [at'] at own1
        exact stops_nothing hh hh1 t one ty (fun x hx e => (fresh x hx).elim (fun h => own1.1 (e ▸ h)) (fun h => own1.2 (e ▸ h)))
          (st 0 (hs1 l ok))
      | erule look r =>
        obtain ⟨l1, new, run1, hh1, t, ty, _, st⟩ := step_erule (look := look) (r := r) hh ne (p 0)
        cases run.symm.trans run1
        have at' : (Step.erule look r).resolver.attr = r.attr := by cases look <;> rfl
        rw [at'] at own1
        exact stops_nothing hh hh1 t one ty (fun x hx e => (fresh x hx).elim (fun h => own1.1 (e ▸ h)) (fun h => own1.2 (e ▸ h)))
          (st 0 (hs1 l ok).1)
    have ih := silent_steps ok one text nn ss (fun s h => own s (by simp [h])) (fun s h => hs s (by simp [h])) (fun i => p (i + 1))
    refine ⟨⟨?_, fun l' run => ?_⟩, fun l' run => ?_⟩
    · cases s with
      | stage _ => trivial
      | rule _ r =>
        intro h' hh'
        exact Pat.Stops.more rfl (fun x hx => .inl ((honest_mem hh' hh x).1 hx)) (hs1 l ok)
      | erule _ r =>
        intro h' hh'
        exact ⟨EPat.Stops.more rfl (fun x hx => .inl ((honest_mem hh' hh x).1 hx)) (hs1 l ok).1,
          EPat.Clear.more rfl (fun x hx => .inl ((honest_mem hh' hh x).1 hx)) (hs1 l ok).2⟩
    · rw [stay l' run]
      exact ih.1
    · rw [stepsAt, runAll] at run
      cases h : l.run (p 0) s.resolver with
      | error e => rw [h] at run; cases run
      | ok l1 =>
        rw [h] at run
        cases stay l1 h
        exact ih.2 l' run

/-- the line of a text that is just a newline -/
theorem newline_line {cls : Char → WBChar} (U : Uax29 W cls) {l : LLLine W} (ok : createLineFromString W ['\n'] = .ok l) :
    l.ll_tokens.length = 1 ∧ textAt l 0 = some ['\n'] := by
  have h : W.splitWordBounds ['\n'] = [['\n']] := by rw [U.split]; rfl
  have hd : ¬ ∃ c ∈ (['\n'] : Str).head?, IsDigit c := by
    simp only [List.head?_cons, Option.mem_def, Option.some.injEq, exists_eq_left']
    decide
  have e := text_tokens ok
  rw [textPieces, h, List.flatMap_singleton, wordPieces, if_neg hd] at e
  cases hl : l.ll_tokens with
  | nil => rw [hl] at e; cases e
  | cons t ts =>
    rw [hl] at e
    obtain ⟨e1, e2⟩ := List.cons.inj e
    cases List.map_eq_nil_iff.1 e2
    refine ⟨rfl, ?_⟩
    unfold textAt
    rw [hl]
    show (match t.token with | .Text s _ => some s | .Value => none) = _
    rw [show t.token = .Text ['\n'] (wordTag W ['\n']) from e1]

theorem analysedEach_mem {p : Nat → Nat} {ss : List (Step W)} : ∀ {ts : List Str} {ls : List (LLLine W)}, AnalysedEach p ss ts ls →
    ∀ t ∈ ts, ∃ l, AnalysedBy p ss t l
  | [], _, _, _, h => absurd h List.not_mem_nil
  | _ :: _, [], h, _, _ => h.elim
  | _ :: _, l :: _, h, t, ht => by
    rcases List.mem_cons.1 ht with rfl | ht
    · exact ⟨l, h.1⟩
    · exact analysedEach_mem h.2 t ht

end LNlp
