import Verif.Spec.Sink
/- Helper lemmas about writing to a sink: what is written does not depend on the sink. -/
namespace LNlp
variable {W : World}

/-- write these texts in turn, then return `r` -/
def script {α : Type} (snk : Sink) (texts : List Str) (r : R α) : Put α :=
  match texts with
  | [] => Put.lift r
  | s :: texts => Put.bind (writeStr snk s) (fun _ => script snk texts r)

theorem Put.bind_assoc {α β γ : Type} (m : Put α) (f : α → Put β) (g : β → Put γ) :
    Put.bind (Put.bind m f) g = Put.bind m (fun a => Put.bind (f a) g) := by
  funext calls
  simp only [Put.bind]
  rcases m calls with ⟨c, _ | _⟩ <;> rfl

theorem Put.bind_eq {α β : Type} (m : Put α) (f : α → Put β) : (m >>= f) = Put.bind m f := rfl

theorem Put.lift_ok {α β : Type} (a : α) (f : α → Put β) : Put.bind (Put.lift (.ok a)) f = f a := rfl
theorem Put.lift_error {α β : Type} (e : Panic) (f : α → Put β) : Put.bind (Put.lift (.error e)) f = Put.lift (.error e) := rfl

theorem writeStr_script (snk : Sink) (s : Str) : writeStr snk s = script snk [s] (.ok ()) := by
  funext calls
  simp only [script, Put.bind]
  cases h : writeStr snk s calls with
  | mk c r => cases r <;> rfl

theorem writeChars_script (snk : Sink) (c : Char) : ∀ n, writeChars snk c n = script snk (List.replicate n [c]) (.ok ())
  | 0 => rfl
  | n + 1 => by
    rw [writeChars, Put.bind_eq, writeChar, List.replicate_succ, script, writeChars_script snk c n]

/-- two scripts after one another -/
theorem script_seq {α β : Type} (snk : Sink) (t1 : List Str) (a : α) (f : α → Put β) (t2 : List Str) (r : R β)
    (h : f a = script snk t2 r) : Put.bind (script snk t1 (.ok a)) f = script snk (t1 ++ t2) r := by
  induction t1 with
  | nil =>
    have : Put.bind (script snk [] (.ok a)) f = f a := by funext calls; rfl
    rw [this, h]; rfl
  | cons s t1 ih =>
    simp only [script, Put.bind_assoc, List.cons_append]
    rw [ih]

theorem script_error {α β : Type} (snk : Sink) (t1 : List Str) (e : Panic) (f : α → Put β) :
    Put.bind (script snk t1 (.error e)) f = script snk t1 (.error e) := by
  induction t1 with
  | nil => funext calls; rfl
  | cons s t1 ih =>
    simp only [script, Put.bind_assoc]
    rw [ih]

/-- what is written for one attribute, and how that ends -/
def bracketTexts (W : World) (starts ends : List Nat) (item : LRange × Str) : List Str × R Unit :=
  match starts[item.1.1]? with
  | none => ([['\n']], .error .displayOob)
  | some s =>
    let front := [['\n']] ++ List.replicate s [' '] ++ [['╰']]
    match ends[item.1.2]? with
    | none => (front, .error .displayOob)
    | some e =>
      match W.subUsize e s with
      | .error p => (front, .error p)
      | .ok len => (front ++ List.replicate ((e - 1) - (s + 1)) ['─'] ++ (if len > 1 then [['╯']] else []) ++ [item.2], .ok ())

theorem bracketTo_script (snk : Sink) (starts ends : List Nat) (item : LRange × Str) :
    bracketTo W snk starts ends item = script snk (bracketTexts W starts ends item).1 (bracketTexts W starts ends item).2 := by
  unfold bracketTo bracketTexts
  simp only [Put.bind_eq, writeChar, writeStr_script, writeChars_script, indexDisplay]
  cases starts[item.1.1]? with
  | none => exact script_seq snk [['\n']] () _ [] _ rfl
  | some s =>
    cases ends[item.1.2]? with
    | none =>
      simp only [List.append_assoc, Put.lift_ok, Put.lift_error]
      exact script_seq snk [['\n']] () _ _ _ (script_seq snk _ () _ _ _ (script_seq snk [['╰']] () _ [] _ rfl))
    | some e =>
      simp only [Put.lift_ok]
      cases W.subUsize e s with
      | error p =>
        simp only [List.append_assoc, Put.lift_error]
        exact script_seq snk [['\n']] () _ _ _ (script_seq snk _ () _ _ _ (script_seq snk [['╰']] () _ [] _ rfl))
      | ok len =>
        simp only [List.append_assoc, Put.lift_ok]
        refine script_seq snk [['\n']] () _ _ _ (script_seq snk _ () _ _ _ (script_seq snk [['╰']] () _ _ _
          (script_seq snk _ () _ _ _ ?_)))
        by_cases h : len > 1
        · simp only [h, if_true]
          exact script_seq snk [['╯']] () _ _ _ rfl
        · simp only [h, if_false]
          rfl

/-- what is written for all attributes -/
def bracketsTexts (W : World) (starts ends : List Nat) : List (LRange × Str) → List Str × R Unit
  | [] => ([], .ok ())
  | item :: items =>
    match (bracketTexts W starts ends item).2 with
    | .error e => ((bracketTexts W starts ends item).1, .error e)
    | .ok _ => ((bracketTexts W starts ends item).1 ++ (bracketsTexts W starts ends items).1, (bracketsTexts W starts ends items).2)

theorem bracketsTo_script (snk : Sink) (starts ends : List Nat) : ∀ items,
    bracketsTo W snk starts ends items = script snk (bracketsTexts W starts ends items).1 (bracketsTexts W starts ends items).2
  | [] => rfl
  | item :: items => by
    rw [bracketsTo, Put.bind_eq, bracketTo_script, bracketsTexts]
    cases (bracketTexts W starts ends item).2 with
    | error e => exact script_error snk _ e _
    | ok u => exact script_seq snk _ u _ _ _ (bracketsTo_script snk starts ends items)

theorem bracketTexts_line (starts ends : List Nat) (item : LRange × Str) :
    bracketLine W starts ends item = (bracketTexts W starts ends item).2.map (fun _ => (bracketTexts W starts ends item).1.flatten) := by
  have rep : ∀ (n : Nat) (c : Char), (List.replicate n [c]).flatten = List.replicate n c := by
    intro n c
    induction n with
    | zero => rfl
    | succ n ih => rw [List.replicate_succ, List.flatten_cons, ih]; rfl
  unfold bracketLine bracketTexts
  cases starts[item.1.1]? with
  | none => rfl
  | some s =>
    cases ends[item.1.2]? with
    | none => rfl
    | some e =>
      simp only
      cases W.subUsize e s with
      | error p => rfl
      | ok len =>
        simp only [Except.map, List.flatten_append, rep]
        by_cases h : len > 1 <;> simp [h]

/-- the texts of a rendering, and how it ends -/
def LLLineDisplay.texts (d : LLLineDisplay W) : List Str × R Unit :=
  let st := d.ll_line.ll_tokens.foldl (HeaderSt.step W) { starts := [], ends := [], opening_line := [], is_first := true }
  (st.opening_line :: (bracketsTexts W st.starts st.ends d.include_attrs).1, (bracketsTexts W st.starts st.ends d.include_attrs).2)

theorem fmtTo_script (d : LLLineDisplay W) (snk : Sink) : d.fmtTo snk = script snk d.texts.1 d.texts.2 := by
  unfold LLLineDisplay.fmtTo LLLineDisplay.texts
  simp only [Put.bind_eq, bracketsTo_script]
  rfl

theorem bracketsTexts_lines (starts ends : List Nat) : ∀ items, flatMapR (bracketLine W starts ends) items =
    (bracketsTexts W starts ends items).2.map (fun _ => (bracketsTexts W starts ends items).1.flatten)
  | [] => rfl
  | item :: items => by
    rw [flatMapR, bracketTexts_line, bracketsTexts, bracketsTexts_lines starts ends items]
    cases (bracketTexts W starts ends item).2 with
    | error e => rfl
    | ok u =>
      cases h : (bracketsTexts W starts ends items).2 with
      | error e => simp [Except.map]
      | ok u => simp [Except.map]

theorem fmt_texts (d : LLLineDisplay W) : d.fmt = d.texts.2.map (fun _ => d.texts.1.flatten) := by
  unfold LLLineDisplay.fmt LLLineDisplay.texts
  simp only [bracketsTexts_lines]
  cases (bracketsTexts W _ _ d.include_attrs).2 <;> rfl

/-! ### running a script -/

theorem takes_cons {snk : Sink} {s : Str} {texts : List Str} :
    Takes snk (s :: texts) ↔ snk [] s = .taken ∧ Takes (fun c => snk (s :: c)) texts := by
  constructor
  · intro h
    exact ⟨h [] s texts rfl, fun a t b e => h (s :: a) t b (by rw [e]; rfl)⟩
  · rintro ⟨h1, h2⟩ a t b e
    cases a with
    | nil => simp only [List.nil_append, List.cons.injEq] at e; rw [← e.1]; exact h1
    | cons x a =>
      simp only [List.cons_append, List.cons.injEq] at e
      obtain ⟨rfl, e⟩ := e
      exact h2 a t b e

theorem takes_nil (snk : Sink) : Takes snk [] := fun a s b e => by simp at e

theorem script_run {α : Type} (r : R α) : ∀ (texts : List Str) (snk : Sink) (calls : List Str),
    (Takes (fun c => snk (calls ++ c)) texts ∧
      script snk texts r calls = (calls ++ texts, match r with | .ok a => .ok a | .error p => .error (.code p))) ∨
    ∃ a s, StopsAt (fun c => snk (calls ++ c)) texts a s ∧ script snk texts r calls =
      (calls ++ a ++ [s], if snk (calls ++ a) s = .refused then .error .err else .error .sink)
  | [], snk, calls => by
    left
    refine ⟨takes_nil _, ?_⟩
    cases r <;> simp [script, Put.lift]
  | s :: texts, snk, calls => by
    simp only [script, Put.bind, writeStr]
    cases h : snk calls s with
    | refused => exact .inr ⟨[], s, ⟨takes_nil _, by simp [h], by simp⟩, by simp [h]⟩
    | panicked => exact .inr ⟨[], s, ⟨takes_nil _, by simp [h], by simp⟩, by simp [h]⟩
    | taken =>
      simp only
      have e : (fun c => snk (calls ++ [s] ++ c)) = fun c => snk (calls ++ s :: c) := by funext c; simp
      rcases script_run r texts snk (calls ++ [s]) with ⟨h1, h2⟩ | ⟨a, t, ⟨h1, h2, h3⟩, h4⟩
      · left
        rw [e] at h1
        refine ⟨takes_cons.2 ⟨by simpa using h, h1⟩, ?_⟩
        rw [h2]; simp
      · right
        rw [e] at h1
        refine ⟨s :: a, t, ⟨takes_cons.2 ⟨by simpa using h, h1⟩, by simpa using h2, ?_⟩, ?_⟩
        · obtain ⟨b, rfl⟩ := h3
          exact ⟨b, by simp⟩
        · rw [h4]; simp

end LNlp
