import Verif.Spec.Callback
import Verif.Lemmas.ProgramLines
/- Helper lemmas for Props/Callback.lean. -/
namespace LNlp
variable {W : World}

@[simp] theorem Ask.pure_run {α : Type} (a : α) (calls : List Str) : (Pure.pure a : Ask α) calls = (calls, .ok a) := rfl
theorem Ask.bind_run {α β : Type} (m : Ask α) (f : α → Ask β) (calls : List Str) : (m >>= f) calls =
    match m calls with
    | (calls', .ok a) => f a calls'
    | (calls', .error e) => (calls', .error e) := rfl
theorem Ask.bind_assoc {α β γ : Type} (m : Ask α) (f : α → Ask β) (g : β → Ask γ) :
    (m >>= f) >>= g = m >>= fun a => f a >>= g := by
  funext calls
  simp only [Ask.bind_run]
  rcases m calls with ⟨c, a | e⟩ <;> rfl
theorem Ask.pure_bind {α β : Type} (a : α) (f : α → Ask β) : (Pure.pure a : Ask α) >>= f = f a := rfl
theorem Ask.bind_pure {α : Type} (m : Ask α) : m >>= Pure.pure = m := by
  funext calls
  simp only [Ask.bind_run]
  rcases m calls with ⟨c, a | e⟩ <;> rfl

/-- ask for the sizes of pieces, one after the other -/
def sizeAll (cb : Callback) : List (Str × TextTag) → Ask (List (LToken × Nat))
  | [] => return []
  | (s, t) :: ps => do
    let n ← getTextSize cb s
    let rest ← sizeAll cb ps
    return (.Text s t, n) :: rest

theorem sizeAll_append (cb : Callback) : ∀ (ps qs : List (Str × TextTag)), sizeAll cb (ps ++ qs) = do
    let a ← sizeAll cb ps
    let b ← sizeAll cb qs
    return a ++ b
  | [], qs => by
    simp only [List.nil_append, sizeAll, Ask.pure_bind]
    exact (Ask.bind_pure _).symm
  | (s, t) :: ps, qs => by
    simp only [List.cons_append, sizeAll, sizeAll_append cb ps qs, Ask.bind_assoc, Ask.pure_bind]

/-- append to what was collected -/
theorem appendAll (cb : Callback) (acc : List (LToken × Nat)) (ps qs : List (Str × TextTag)) :
    (do
      let a ← sizeAll cb (ps ++ qs)
      return acc ++ a : Ask _) = do
    let a ← sizeAll cb ps
    let b ← sizeAll cb qs
    return (acc ++ a) ++ b := by
  simp only [sizeAll_append, Ask.bind_assoc, Ask.pure_bind, List.append_assoc]

/-- the flush at the end of the digit branch -/
def DigitSt.flushE (cb : Callback) (st : DigitSt) : Ask (List (LToken × Nat)) := do
  let st ← st.insertLettersE cb
  let st ← st.insertDigitsE cb
  return st.ltokens

/-- the sizes of pieces behind what was collected -/
def collect (cb : Callback) (acc : List (LToken × Nat)) (ps : List (Str × TextTag)) : Ask (List (LToken × Nat)) := do
  let a ← sizeAll cb ps
  return acc ++ a

theorem collect_cons (cb : Callback) (acc : List (LToken × Nat)) (s : Str) (t : TextTag) (ps : List (Str × TextTag)) :
    collect cb acc ((s, t) :: ps) = getTextSize cb s >>= fun n => collect cb (acc ++ [(.Text s t, n)]) ps := by
  simp only [collect, sizeAll, Ask.bind_assoc, Ask.pure_bind, List.append_assoc, List.singleton_append]

theorem collect_nil (cb : Callback) (acc : List (LToken × Nat)) : collect cb acc [] = Pure.pure acc := by
  simp only [collect, sizeAll, Ask.pure_bind, List.append_nil]

theorem collect_append (cb : Callback) (acc : List (LToken × Nat)) (ps qs : List (Str × TextTag)) :
    collect cb acc (ps ++ qs) = collect cb acc ps >>= fun a => collect cb a qs := by
  simp only [collect, sizeAll_append, Ask.bind_assoc, Ask.pure_bind, List.append_assoc]

theorem digit_loopE (W : World) (cb : Callback) : ∀ (cs : Str) (acc : List (LToken × Nat)),
    (∀ d : Str, (∀ x ∈ d, charTag W x = .NATN) →
      foldE (DigitSt.stepE W cb) ⟨acc, d, []⟩ cs >>= DigitSt.flushE cb = collect cb acc (runsOf W (d ++ cs))) ∧
    (∀ s : Str, (∀ x ∈ s, charTag W x = .WORD) →
      foldE (DigitSt.stepE W cb) ⟨acc, [], s⟩ cs >>= DigitSt.flushE cb = collect cb acc (runsOf W (s ++ cs)))
  | [], acc => by
    constructor
    · intro d hd
      cases d with
      | nil => simp [foldE, Ask.pure_bind, DigitSt.flushE, DigitSt.insertLettersE, DigitSt.insertDigitsE, runsOf, collect_nil]
      | cons x xs =>
        rw [runsOf_run W .NATN (by simp) (x :: xs) (by simp) hd [] (by simp)]
        simp [foldE, Ask.pure_bind, Ask.bind_assoc, DigitSt.flushE, DigitSt.insertLettersE, DigitSt.insertDigitsE, runsOf, collect_nil, collect_cons]
    · intro s hs
      cases s with
      | nil => simp [foldE, Ask.pure_bind, DigitSt.flushE, DigitSt.insertLettersE, DigitSt.insertDigitsE, runsOf, collect_nil]
      | cons x xs =>
        rw [runsOf_run W .WORD (by simp) (x :: xs) (by simp) hs [] (by simp)]
        simp [foldE, Ask.pure_bind, Ask.bind_assoc, DigitSt.flushE, DigitSt.insertLettersE, DigitSt.insertDigitsE, runsOf, collect_nil, collect_cons]
  | c :: cs, acc => by
    have ih := digit_loopE W cb cs
    simp only [foldE, Ask.bind_assoc]
    by_cases hc : IsDigit c
    · have hc' : isAsciiDigit c = true := (isAsciiDigit_iff c).2 hc
      have ht : charTag W c = .NATN := charTag_digit.2 hc
      constructor
      · intro d hd
        have e : DigitSt.stepE W cb ⟨acc, d, []⟩ c = Pure.pure ⟨acc, d ++ [c], []⟩ := by
          simp [DigitSt.stepE, hc', DigitSt.insertLettersE, Ask.pure_bind]
        rw [e, Ask.pure_bind, (ih acc).1 (d ++ [c]) (by
          intro x hx; rcases List.mem_append.1 hx with hx | hx
          · exact hd x hx
          · simp at hx; rw [hx]; exact ht)]
        simp
      · intro s hs
        cases s with
        | nil =>
          have e : DigitSt.stepE W cb ⟨acc, [], []⟩ c = Pure.pure ⟨acc, [c], []⟩ := by
            simp [DigitSt.stepE, hc', DigitSt.insertLettersE, Ask.pure_bind]
          rw [e, Ask.pure_bind, (ih acc).1 [c] (by simpa using ht)]
          simp
        | cons x xs =>
          have e : DigitSt.stepE W cb ⟨acc, [], x :: xs⟩ c = getTextSize cb (x :: xs) >>= fun n =>
              Pure.pure ⟨acc ++ [(.Text (x :: xs) .WORD, n)], [c], []⟩ := by
            simp [DigitSt.stepE, hc', DigitSt.insertLettersE, Ask.pure_bind, Ask.bind_assoc]
          rw [e, runsOf_run W .WORD (by simp) (x :: xs) (by simp) hs (c :: cs) (by simp [ht]), collect_cons, Ask.bind_assoc]
          simp only [Ask.pure_bind]
          congr 1
          funext n
          exact (ih _).1 [c] (by simpa using ht)
    · have hc' : isAsciiDigit c = false := by
        cases h : isAsciiDigit c
        · rfl
        · exact absurd ((isAsciiDigit_iff c).1 h) hc
      by_cases ha : W.isAlphabetic c = true
      · have ht : charTag W c = .WORD := by simp [charTag, hc, ha]
        constructor
        · intro d hd
          cases d with
          | nil =>
            have e : DigitSt.stepE W cb ⟨acc, [], []⟩ c = Pure.pure ⟨acc, [], [c]⟩ := by
              simp [DigitSt.stepE, hc', ha, DigitSt.insertDigitsE, Ask.pure_bind]
            rw [e, Ask.pure_bind, (ih acc).2 [c] (by simpa using ht)]
            simp
          | cons x xs =>
            have e : DigitSt.stepE W cb ⟨acc, x :: xs, []⟩ c = getTextSize cb (x :: xs) >>= fun n =>
                Pure.pure ⟨acc ++ [(.Text (x :: xs) .NATN, n)], [], [c]⟩ := by
              simp [DigitSt.stepE, hc', ha, DigitSt.insertDigitsE, Ask.pure_bind, Ask.bind_assoc]
            rw [e, runsOf_run W .NATN (by simp) (x :: xs) (by simp) hd (c :: cs) (by simp [ht]), collect_cons, Ask.bind_assoc]
            simp only [Ask.pure_bind]
            congr 1
            funext n
            exact (ih _).2 [c] (by simpa using ht)
        · intro s hs
          have e : DigitSt.stepE W cb ⟨acc, [], s⟩ c = Pure.pure ⟨acc, [], s ++ [c]⟩ := by
            simp [DigitSt.stepE, hc', ha, DigitSt.insertDigitsE, Ask.pure_bind]
          rw [e, Ask.pure_bind, (ih acc).2 (s ++ [c]) (by
            intro x hx; rcases List.mem_append.1 hx with hx | hx
            · exact hs x hx
            · simp at hx; rw [hx]; exact ht)]
          simp
      · have ht : charTag W c = .PUNC := by simp [charTag, hc, ha]
        have hrc := runsOf_cons_of_ne W c cs (Or.inl ht)
        have enil : ∀ acc, DigitSt.stepE W cb ⟨acc, [], []⟩ c = getTextSize cb [c] >>= fun n =>
            Pure.pure ⟨acc ++ [(.Text [c] .PUNC, n)], [], []⟩ := by
          intro acc
          simp [DigitSt.stepE, hc', ha, DigitSt.insertDigitsE, DigitSt.insertLettersE, Ask.pure_bind]
        have hnil : ∀ acc, (DigitSt.stepE W cb ⟨acc, [], []⟩ c >>= fun st => foldE (DigitSt.stepE W cb) st cs >>= DigitSt.flushE cb) =
            collect cb acc (([c], .PUNC) :: runsOf W cs) := by
          intro acc
          rw [enil, collect_cons, Ask.bind_assoc]
          simp only [Ask.pure_bind]
          congr 1
          funext n
          exact (ih _).1 [] (by simp)
        constructor
        · intro d hd
          cases d with
          | nil => rw [List.nil_append, hrc, ht]; exact hnil acc
          | cons x xs =>
            have e : DigitSt.stepE W cb ⟨acc, x :: xs, []⟩ c = getTextSize cb (x :: xs) >>= fun n =>
                DigitSt.stepE W cb ⟨acc ++ [(.Text (x :: xs) .NATN, n)], [], []⟩ c := by
              simp only [enil]
              simp [DigitSt.stepE, hc', ha, DigitSt.insertDigitsE, DigitSt.insertLettersE, Ask.pure_bind, Ask.bind_assoc]
            rw [e, runsOf_run W .NATN (by simp) (x :: xs) (by simp) hd (c :: cs) (by simp [ht]), hrc, ht, collect_cons, Ask.bind_assoc]
            congr 1
            funext n
            exact hnil _
        · intro s hs
          cases s with
          | nil => rw [List.nil_append, hrc, ht]; exact hnil acc
          | cons x xs =>
            have e : DigitSt.stepE W cb ⟨acc, [], x :: xs⟩ c = getTextSize cb (x :: xs) >>= fun n =>
                DigitSt.stepE W cb ⟨acc ++ [(.Text (x :: xs) .WORD, n)], [], []⟩ c := by
              simp only [enil]
              simp [DigitSt.stepE, hc', ha, DigitSt.insertDigitsE, DigitSt.insertLettersE, Ask.pure_bind, Ask.bind_assoc]
            rw [e, runsOf_run W .WORD (by simp) (x :: xs) (by simp) hs (c :: cs) (by simp [ht]), hrc, ht, collect_cons, Ask.bind_assoc]
            congr 1
            funext n
            exact hnil _

theorem foldWordE_ok (cb : Callback) (acc : List (LToken × Nat)) {w : Str} (h : GoodWord w) :
    foldWordE W cb acc w = collect cb acc (wordPieces W w) := by
  cases w with
  | nil => exact absurd rfl h.1
  | cons c cs =>
    simp only [foldWordE, wordPieces, List.head?_cons, Option.mem_def, Option.some.injEq, exists_eq_left']
    by_cases hd : IsDigit c
    · have ha := (all_isAscii (c :: cs)).2 (h.2 ⟨c, by simp, hd⟩)
      rw [if_pos ((isAsciiDigit_iff c).2 hd), if_pos ha, if_pos hd]
      have := (digit_loopE W cb (c :: cs) acc).1 [] (by simp)
      rw [List.nil_append] at this
      rw [← this]
      rfl
    · rw [if_neg (fun hc => hd ((isAsciiDigit_iff c).1 hc)), if_neg hd, collect_cons, getUnicodeWordTag_eq]
      simp only [collect_nil]

theorem foldWordE_err (cb : Callback) (acc : List (LToken × Nat)) {w : Str} (h : ¬ GoodWord w) :
    foldWordE W cb acc w = Ask.lift (.error (if w = [] then .emptyWord else .nonAsciiDigitWord)) := by
  cases w with
  | nil => rfl
  | cons c cs =>
    have : ∃ hd : IsDigit c, ¬ ∀ x ∈ c :: cs, x.toNat < 128 := by
      apply Classical.byContradiction
      intro hn
      exact h ⟨by simp, fun hd => Classical.byContradiction fun hc => hn ⟨by simpa using hd, hc⟩⟩
    obtain ⟨hd, ha⟩ := this
    have ha' : ¬ (c :: cs).all isAscii = true := fun hc => ha ((all_isAscii _).1 hc)
    simp only [foldWordE]
    rw [if_pos ((isAsciiDigit_iff c).2 hd), if_neg ha']
    simp

/-! ### which texts are asked for -/

theorem answers_append {cb : Callback} : ∀ {a calls b : List Str}, Answers cb calls (a ++ b) ↔
    Answers cb calls a ∧ Answers cb (calls ++ a) b
  | [], calls, b => by simp [Answers]
  | s :: a, calls, b => by
    simp only [List.cons_append, Answers, answers_append (a := a), List.append_assoc, List.nil_append, and_assoc]

/-- the computation asks for the texts `T` in order, and stops early only if it fails -/
def Asks (cb : Callback) (T : List Str) {α : Type} (m : Ask α) : Prop :=
  ∀ calls, ∃ asked r, m calls = (calls ++ asked, r) ∧ asked <+: T ∧ (∀ a, r = .ok a → asked = T) ∧
    (r = .error .callback → ∃ pre s, asked = pre ++ [s] ∧ Answers cb calls pre ∧ cb (calls ++ pre) s = none) ∧
    (r ≠ .error .callback → Answers cb calls asked)

theorem asks_pure (cb : Callback) {α : Type} (a : α) : Asks cb [] (Pure.pure a : Ask α) := by
  intro calls
  refine ⟨[], .ok a, ?_, List.prefix_refl _, fun _ _ => rfl, fun h => ?_, fun _ => trivial⟩
  · rw [List.append_nil]; rfl
  · cases h

theorem asks_error (cb : Callback) (T : List Str) {α : Type} (p : Panic) : Asks cb T (Ask.lift (.error p) : Ask α) := by
  intro calls
  refine ⟨[], .error (.code p), ?_, List.nil_prefix, fun _ h => ?_, fun h => ?_, fun _ => trivial⟩
  · rw [List.append_nil]; rfl
  · cases h
  · cases h

theorem asks_lift (cb : Callback) {α : Type} (r : R α) : Asks cb [] (Ask.lift r) := by
  cases r with
  | ok a => exact asks_pure cb a
  | error p => exact asks_error cb [] p

theorem asks_size (cb : Callback) (s : Str) : Asks cb [s] (getTextSize cb s) := by
  intro calls
  refine ⟨[s], _, rfl, List.prefix_refl _, fun _ _ => rfl, fun h => ⟨[], s, rfl, trivial, ?_⟩, fun h => ⟨?_, trivial⟩⟩
  · rw [List.append_nil]
    cases hc : cb calls s with
    | none => rfl
    | some n => rw [hc] at h; cases h
  · cases hc : cb calls s with
    | none => rw [hc] at h; exact absurd rfl h
    | some n => exact ⟨n, rfl⟩

theorem asks_bind {cb : Callback} {T U : List Str} {α β : Type} {m : Ask α} {f : α → Ask β} (hm : Asks cb T m)
    (hf : ∀ a, Asks cb U (f a)) : Asks cb (T ++ U) (m >>= f) := by
  intro calls
  obtain ⟨asked, r, he, hp, hok, hcb, hna⟩ := hm calls
  simp only [Ask.bind_run, he]
  cases r with
  | error e =>
    refine ⟨asked, .error e, rfl, hp.trans (List.prefix_append _ _), fun _ h => ?_, fun h => ?_, fun h => ?_⟩
    · cases h
    · exact hcb (by cases h; rfl)
    · exact hna (fun h' => h (by cases h'; rfl))
  | ok a =>
    obtain rfl := hok a rfl
    obtain ⟨asked2, r2, he2, hp2, hok2, hcb2, hna2⟩ := hf a (calls ++ asked)
    have ha := hna (by simp)
    refine ⟨asked ++ asked2, r2, ?_, (List.prefix_append_right_inj _).2 hp2, fun b h => ?_, fun h => ?_, fun h => ?_⟩
    · simp only [he2, List.append_assoc]
    · rw [hok2 b h]
    · obtain ⟨pre, s, e, h1, h2⟩ := hcb2 h
      exact ⟨asked ++ pre, s, by rw [e, List.append_assoc], answers_append.2 ⟨ha, h1⟩, by rw [← List.append_assoc]; exact h2⟩
    · exact answers_append.2 ⟨ha, hna2 h⟩

theorem asks_fold {cb : Callback} {σ α : Type} {f : σ → α → Ask σ} {T : α → List Str} (hf : ∀ s x, Asks cb (T x) (f s x)) :
    ∀ (xs : List α) (s : σ), Asks cb (xs.flatMap T) (foldE f s xs)
  | [], s => asks_pure cb s
  | x :: xs, s => by
    rw [List.flatMap_cons]
    exact asks_bind (hf s x) (fun s' => asks_fold hf xs s')

theorem asks_collect (cb : Callback) : ∀ (ps : List (Str × TextTag)) (acc : List (LToken × Nat)),
    Asks cb (ps.map (·.1)) (collect cb acc ps)
  | [], acc => by rw [collect_nil]; exact asks_pure cb acc
  | (s, t) :: ps, acc => by
    rw [collect_cons]
    exact asks_bind (asks_size cb s) (fun n => asks_collect cb ps _)

theorem asks_word (cb : Callback) (acc : List (LToken × Nat)) (w : Str) :
    Asks cb ((wordPieces W w).map (·.1)) (foldWordE W cb acc w) := by
  by_cases h : GoodWord w
  · rw [foldWordE_ok cb acc h]; exact asks_collect cb _ _
  · rw [foldWordE_err cb acc h]; exact asks_error cb _ _

theorem asks_input (cb : Callback) (t : InputToken W) : Asks cb (inputTexts W t) (inputTokensE W cb t) := by
  cases t with
  | Custom n as => exact asks_pure cb _
  | Text s as =>
    have := asks_bind (asks_fold (cb := cb) (f := foldWordE W cb) (fun acc w => asks_word cb acc w)
      (W.splitWordBounds s) []) (fun lt => asks_pure cb (lt, as))
    rw [List.append_nil] at this
    have e : inputTexts W (.Text s as) = (W.splitWordBounds s).flatMap (fun w => (wordPieces W w).map (·.1)) := by
      simp only [inputTexts, textPieces, List.map_flatMap]
    rw [e]
    exact this

theorem asks_step (cb : Callback) (st : CreateSt W) (t : InputToken W) : Asks cb (inputTexts W t) (createStepE W cb st t) := by
  have := asks_bind (asks_input cb t) (fun p => asks_lift cb (createPush W st p.1 p.2))
  rw [List.append_nil] at this
  exact this

theorem asks_create (cb : Callback) (input : List (InputToken W)) : Asks cb (input.flatMap (inputTexts W))
    (foldE (createStepE W cb) { spans := [], lltokens := [], current_size := 0 } input >>= fun st =>
      Ask.lift (createFinish W st)) := by
  have := asks_bind (asks_fold (fun st t => asks_step cb st t) input ({ spans := [], lltokens := [], current_size := 0 } : CreateSt W))
    (fun st => asks_lift cb (createFinish W st))
  rw [List.append_nil] at this
  exact this

/-! ### what comes out -/

/-- pieces with the sizes the callback answers -/
def sizedPieces (cb : Callback) : List Str → List (Str × TextTag) → List (LToken × Nat)
  | _, [] => []
  | calls, (s, t) :: ps => (.Text s t, (cb calls s).getD 0) :: sizedPieces cb (calls ++ [s]) ps

theorem sizedPieces_append (cb : Callback) : ∀ (ps : List (Str × TextTag)) (calls : List Str) (qs : List (Str × TextTag)),
    sizedPieces cb calls (ps ++ qs) = sizedPieces cb calls ps ++ sizedPieces cb (calls ++ ps.map (·.1)) qs
  | [], calls, qs => by simp [sizedPieces]
  | (s, t) :: ps, calls, qs => by simp [sizedPieces, sizedPieces_append cb ps]

theorem sizedPieces_tokens (cb : Callback) : ∀ (ps : List (Str × TextTag)) (calls : List Str),
    (sizedPieces cb calls ps).map (·.1) = ps.map (fun p => .Text p.1 p.2)
  | [], calls => rfl
  | (s, t) :: ps, calls => by simp [sizedPieces, sizedPieces_tokens cb ps]

theorem bind_ok {α β : Type} {m : Ask α} {f : α → Ask β} {calls calls' : List Str} {b : β}
    (h : (m >>= f) calls = (calls', .ok b)) : ∃ c a, m calls = (c, .ok a) ∧ f a c = (calls', .ok b) := by
  rw [Ask.bind_run] at h
  rcases hm : m calls with ⟨c, e | a⟩
  · rw [hm] at h; cases h
  · rw [hm] at h; exact ⟨c, a, rfl, h⟩

theorem lift_ok {α : Type} {r : R α} {calls calls' : List Str} {a : α} (h : Ask.lift r calls = (calls', .ok a)) :
    r = .ok a ∧ calls' = calls := by
  cases r with
  | ok b => cases h; exact ⟨rfl, rfl⟩
  | error p => cases h

theorem size_ok {cb : Callback} {s : Str} {calls calls' : List Str} {n : Nat} (h : getTextSize cb s calls = (calls', .ok n)) :
    cb calls s = some n ∧ calls' = calls ++ [s] := by
  unfold getTextSize at h
  cases hc : cb calls s with
  | none => rw [hc] at h; cases h
  | some m => rw [hc] at h; cases h; exact ⟨rfl, rfl⟩

theorem collect_ok {cb : Callback} : ∀ {ps : List (Str × TextTag)} {acc v : List (LToken × Nat)} {calls calls' : List Str},
    collect cb acc ps calls = (calls', .ok v) → v = acc ++ sizedPieces cb calls ps ∧ calls' = calls ++ ps.map (·.1)
  | [], acc, v, calls, calls', h => by
    rw [collect_nil] at h
    cases h
    simp [sizedPieces]
  | (s, t) :: ps, acc, v, calls, calls', h => by
    rw [collect_cons] at h
    obtain ⟨c, n, h1, h2⟩ := bind_ok h
    obtain ⟨h3, rfl⟩ := size_ok h1
    obtain ⟨rfl, rfl⟩ := collect_ok h2
    simp [sizedPieces, h3]

theorem words_ok {cb : Callback} : ∀ {ws : List Str} {acc v : List (LToken × Nat)} {calls calls' : List Str},
    foldE (foldWordE W cb) acc ws calls = (calls', .ok v) → (∀ w ∈ ws, GoodWord w) ∧
      v = acc ++ sizedPieces cb calls (ws.flatMap (wordPieces W)) ∧ calls' = calls ++ (ws.flatMap (wordPieces W)).map (·.1)
  | [], acc, v, calls, calls', h => by
    cases h
    simp [sizedPieces]
  | w :: ws, acc, v, calls, calls', h => by
    obtain ⟨c, a, h1, h2⟩ := bind_ok h
    have hw : GoodWord w := by
      apply Classical.byContradiction
      intro hn
      rw [foldWordE_err cb acc hn] at h1
      cases h1
    rw [foldWordE_ok cb acc hw] at h1
    obtain ⟨rfl, rfl⟩ := collect_ok h1
    obtain ⟨h3, rfl, rfl⟩ := words_ok h2
    refine ⟨?_, ?_, ?_⟩
    · intro x hx
      rcases List.mem_cons.1 hx with rfl | hx
      · exact hw
      · exact h3 x hx
    · simp [sizedPieces_append]
    · simp

/-- the tokens of an input with the sizes the callback answers -/
def sizedInput (W : World) (cb : Callback) (calls : List Str) : InputToken W → List (LToken × Nat)
  | .Text s _ => sizedPieces cb calls (textPieces W s)
  | .Custom n _ => [(.Value, n)]

/-- … of all inputs -/
def sizedInputs (W : World) (cb : Callback) : List Str → List (InputToken W) → List (LToken × Nat)
  | _, [] => []
  | calls, t :: ts => sizedInput W cb calls t ++ sizedInputs W cb (calls ++ inputTexts W t) ts

theorem sizedInput_tokens (cb : Callback) (calls : List Str) (size : Str → Nat) (t : InputToken W) :
    (sizedInput W cb calls t).map (·.1) = (tokensOf W size t).map (·.1) := by
  cases t with
  | Text s as => simp [sizedInput, tokensOf, sizedPieces_tokens]
  | Custom n as => rfl

theorem sizedInput_length (cb : Callback) (calls : List Str) (size : Str → Nat) (t : InputToken W) :
    (sizedInput W cb calls t).length = (tokensOf W size t).length := by
  have := congrArg List.length (sizedInput_tokens cb calls size t)
  simpa using this

theorem input_ok {cb : Callback} {t : InputToken W} {p : List (LToken × Nat) × List (AnyAttribute W)}
    {calls calls' : List Str} (h : inputTokensE W cb t calls = (calls', .ok p)) :
    p = (sizedInput W cb calls t, t.attrList) ∧ calls' = calls ++ inputTexts W t ∧
      (p.1 ≠ [] → GoodInput W t) := by
  cases t with
  | Custom n as => cases h; simp [sizedInput, InputToken.attrList, inputTexts, GoodInput]
  | Text s as =>
    obtain ⟨c, a, h1, h2⟩ := bind_ok h
    obtain ⟨h3, rfl, rfl⟩ := words_ok h1
    cases h2
    refine ⟨rfl, rfl, fun hne => ⟨h3, fun he => hne ?_⟩⟩
    simp only [textPieces] at he
    simp [he, sizedPieces]

theorem step_ok {cb : Callback} {t : InputToken W} {st st' : CreateSt W} {calls calls' : List Str}
    (h : createStepE W cb st t calls = (calls', .ok st')) : GoodInput W t ∧ calls' = calls ++ inputTexts W t ∧
    st' = { spans := st.spans ++ [(st.lltokens.length, st.lltokens.length + (sizedInput W cb calls t).length - 1, t.attrList)]
            lltokens := st.lltokens ++ layoutM W.usizeBound st.lltokens.length st.current_size (sizedInput W cb calls t)
            current_size := endPosM W.usizeBound st.current_size (sizedInput W cb calls t) } := by
  obtain ⟨c, p, h1, h2⟩ := bind_ok h
  obtain ⟨h3, rfl, h4⟩ := input_ok h1
  obtain ⟨h5, rfl⟩ := lift_ok h2
  unfold createPush at h5
  split at h5
  · cases h5
  · rename_i hne
    have hg := h4 (fun e => hne (by rw [e]; rfl))
    subst h3
    refine ⟨hg, rfl, ?_⟩
    split at h5
    · cases h5
    · next lts cs hp =>
      have hinv := pushTokens_inv _ _ _ _ hp
      simp only [Prod.mk.injEq] at hinv
      cases h5
      simp only [hinv.1, hinv.2, List.length_append, layoutM_length]

theorem loop_ok {cb : Callback} {size : Str → Nat} : ∀ {input : List (InputToken W)} {st st' : CreateSt W} {calls calls' : List Str},
    foldE (createStepE W cb) st input calls = (calls', .ok st') → (∀ t ∈ input, GoodInput W t) ∧
    calls' = calls ++ input.flatMap (inputTexts W) ∧
    st' = { spans := st.spans ++ spansFrom W size st.lltokens.length input
            lltokens := st.lltokens ++ layoutM W.usizeBound st.lltokens.length st.current_size (sizedInputs W cb calls input)
            current_size := endPosM W.usizeBound st.current_size (sizedInputs W cb calls input) }
  | [], st, st', calls, calls', h => by
    cases h
    simp [spansFrom, sizedInputs, layoutM, endPosM]
  | t :: ts, st, st', calls, calls', h => by
    obtain ⟨c, st1, h1, h2⟩ := bind_ok h
    obtain ⟨hg, rfl, e⟩ := step_ok h1
    obtain ⟨hg2, rfl, e2⟩ := loop_ok (size := size) h2
    refine ⟨?_, by simp, ?_⟩
    · intro x hx
      rcases List.mem_cons.1 hx with rfl | hx
      · exact hg
      · exact hg2 x hx
    · rw [e2, e]
      simp only [sizedInputs, layoutM_append, endPosM_append, spansFrom, List.append_assoc, List.length_append, layoutM_length,
        List.singleton_append, sizedInput_length cb calls size t]

/-! ### when creation succeeds -/

theorem collect_run {cb : Callback} : ∀ {ps : List (Str × TextTag)} {acc : List (LToken × Nat)} {calls : List Str},
    Answers cb calls (ps.map (·.1)) →
    collect cb acc ps calls = (calls ++ ps.map (·.1), .ok (acc ++ sizedPieces cb calls ps))
  | [], acc, calls, _ => by rw [collect_nil]; simp [sizedPieces]
  | (s, t) :: ps, acc, calls, h => by
    obtain ⟨⟨n, hn⟩, h2⟩ := h
    rw [collect_cons, Ask.bind_run]
    simp only [getTextSize, hn]
    rw [collect_run h2]
    simp [sizedPieces, hn]

theorem words_run {cb : Callback} : ∀ {ws : List Str} {acc : List (LToken × Nat)} {calls : List Str}, (∀ w ∈ ws, GoodWord w) →
    Answers cb calls ((ws.flatMap (wordPieces W)).map (·.1)) →
    foldE (foldWordE W cb) acc ws calls = (calls ++ (ws.flatMap (wordPieces W)).map (·.1),
      .ok (acc ++ sizedPieces cb calls (ws.flatMap (wordPieces W))))
  | [], acc, calls, _, _ => by simp [sizedPieces]; rfl
  | w :: ws, acc, calls, hg, h => by
    rw [List.flatMap_cons, List.map_append] at h
    obtain ⟨h1, h2⟩ := answers_append.1 h
    have : foldE (foldWordE W cb) acc (w :: ws) calls = (foldWordE W cb acc w >>= fun s => foldE (foldWordE W cb) s ws) calls := rfl
    rw [this, Ask.bind_run, foldWordE_ok cb acc (hg w (.head _)), collect_run h1]
    simp only
    rw [words_run (fun x hx => hg x (.tail _ hx)) h2]
    simp [sizedPieces_append]

theorem step_run {cb : Callback} {t : InputToken W} {st : CreateSt W} {calls : List Str} (hg : GoodInput W t)
    (h : Answers cb calls (inputTexts W t)) :
    createStepE W cb st t calls = Ask.lift (createPush W st (sizedInput W cb calls t) t.attrList) (calls ++ inputTexts W t) := by
  cases t with
  | Custom n as => simp [inputTexts]; rfl
  | Text s as =>
    have : createStepE W cb st (.Text s as) calls = ((foldE (foldWordE W cb) [] (W.splitWordBounds s) >>= fun lt =>
      (Pure.pure (lt, as) : Ask _)) >>= fun p => Ask.lift (createPush W st p.1 p.2)) calls := rfl
    rw [this, Ask.bind_run, Ask.bind_run, words_run hg.1 h]
    rfl

theorem sizedInput_ne {cb : Callback} {t : InputToken W} {calls : List Str} (hg : GoodInput W t) : sizedInput W cb calls t ≠ [] := by
  intro e
  have := sizedInput_length cb calls (fun _ => 0) t
  rw [e] at this
  exact (inputTokens_ok (fun _ => 0) hg).2 (List.eq_nil_of_length_eq_zero this.symm)

theorem createPush_ok {st : CreateSt W} {toks : List (LToken × Nat)} {as : List (AnyAttribute W)} (ne : toks ≠ [])
    (ho : W.overflowChecks = false ∨ st.current_size + totalSize toks < W.usizeBound) :
    ∃ st', createPush W st toks as = .ok st' := by
  obtain ⟨out, h⟩ := pushTokens_ok toks st.lltokens st.current_size ho
  have hne : toks.isEmpty = false := by
    cases toks with
    | nil => exact absurd rfl ne
    | cons _ _ => rfl
  simp [createPush, hne, h]

theorem createPush_overflow (hc : W.overflowChecks = true) {st : CreateSt W} {toks : List (LToken × Nat)} {as : List (AnyAttribute W)}
    (ne : toks ≠ []) (ho : ¬ st.current_size + totalSize toks < W.usizeBound) :
    createPush W st toks as = .error .overflow := by
  have hne : toks.isEmpty = false := by
    cases toks with
    | nil => exact absurd rfl ne
    | cons _ _ => rfl
  simp [createPush, hne, pushTokens_overflow hc toks st.lltokens st.current_size ne ho]

theorem loop_run {cb : Callback} : ∀ {input : List (InputToken W)} {st : CreateSt W} {calls : List Str},
    (∀ t ∈ input, GoodInput W t) → Answers cb calls (input.flatMap (inputTexts W)) →
    (W.overflowChecks = false ∨ st.current_size + totalSize (sizedInputs W cb calls input) < W.usizeBound) →
    ∃ c st', foldE (createStepE W cb) st input calls = (c, .ok st')
  | [], st, calls, _, _, _ => ⟨calls, st, rfl⟩
  | t :: ts, st, calls, hg, h, ho => by
    rw [List.flatMap_cons] at h
    obtain ⟨h1, h2⟩ := answers_append.1 h
    have hs := step_run (st := st) (hg t (.head _)) h1
    have ho1 : W.overflowChecks = false ∨ st.current_size + totalSize (sizedInput W cb calls t) < W.usizeBound := by
      rcases ho with ho | ho
      · exact .inl ho
      · right; simp [totalSize, sizedInputs] at ho ⊢; omega
    obtain ⟨st1, e1⟩ := createPush_ok (as := t.attrList) (sizedInput_ne (cb := cb) (calls := calls) (hg t (.head _))) ho1
    rw [e1] at hs
    have hs' : createStepE W cb st t calls = (calls ++ inputTexts W t, .ok st1) := hs
    obtain ⟨_, _, est⟩ := step_ok hs'
    have : foldE (createStepE W cb) st (t :: ts) calls = (createStepE W cb st t >>= fun s => foldE (createStepE W cb) s ts) calls := rfl
    rw [this, Ask.bind_run, hs']
    refine loop_run (fun x hx => hg x (.tail _ hx)) h2 ?_
    rcases ho with ho | ho
    · exact .inl ho
    · rcases ho1 with ho1 | ho1
      · exact .inl ho1
      · right
        rw [est]
        simp only
        rw [endPosM_eq _ _ ho1]
        simp [totalSize, sizedInputs] at ho ⊢; omega

theorem loop_overflow (hc : W.overflowChecks = true) {cb : Callback} : ∀ {input : List (InputToken W)} {st st' : CreateSt W}
    {calls calls' : List Str}, input ≠ [] → foldE (createStepE W cb) st input calls = (calls', .ok st') →
    st.current_size + totalSize (sizedInputs W cb calls input) < W.usizeBound
  | [], _, _, _, _, h, _ => absurd rfl h
  | t :: ts, st, st', calls, calls', _, h => by
    obtain ⟨c, st1, h1, h2⟩ := bind_ok h
    obtain ⟨hg, rfl, est⟩ := step_ok h1
    have hlt : st.current_size + totalSize (sizedInput W cb calls t) < W.usizeBound := by
      apply Classical.byContradiction
      intro hn
      obtain ⟨c', p, h3, h4⟩ := bind_ok h1
      obtain ⟨rfl, rfl, _⟩ := input_ok h3
      obtain ⟨h5, _⟩ := lift_ok h4
      rw [createPush_overflow hc (sizedInput_ne hg) hn] at h5
      cases h5
    cases ts with
    | nil => simpa [sizedInputs, totalSize] using hlt
    | cons u us =>
      have := loop_overflow hc (by simp) h2
      rw [est] at this
      simp only at this
      rw [endPosM_eq _ _ hlt] at this
      rw [sizedInputs]
      simp [totalSize] at this ⊢; omega

theorem sizedPieces_total (cb : Callback) : ∀ (ps : List (Str × TextTag)) (calls : List Str),
    (sizedPieces cb calls ps).map (·.2) = answered cb calls (ps.map (·.1))
  | [], _ => rfl
  | (s, t) :: ps, calls => by simp [sizedPieces, answered, sizedPieces_total cb ps]

theorem answered_append (cb : Callback) : ∀ (a calls b : List Str),
    answered cb calls (a ++ b) = answered cb calls a ++ answered cb (calls ++ a) b
  | [], calls, b => by simp [answered]
  | s :: a, calls, b => by simp [answered, answered_append cb a]

theorem sizedInputs_total (cb : Callback) : ∀ (input : List (InputToken W)) (calls : List Str),
    totalSize (sizedInputs W cb calls input) =
      (answered cb calls (input.flatMap (inputTexts W))).sum + (input.map ownSize).sum
  | [], _ => rfl
  | t :: ts, calls => by
    have ih := sizedInputs_total cb ts (calls ++ inputTexts W t)
    have ht : ((sizedInput W cb calls t).map (·.2)).sum = (answered cb calls (inputTexts W t)).sum + ownSize t := by
      cases t with
      | Text s as => simp [sizedInput, sizedPieces_total, inputTexts, ownSize]
      | Custom n as => simp [sizedInput, inputTexts, answered, ownSize]
    simp only [totalSize] at ih
    simp only [sizedInputs, totalSize, List.map_append, List.sum_append, ht, ih, List.flatMap_cons, answered_append, List.map_cons,
      List.sum_cons]
    omega

/-! ### the line -/

theorem createFinish_rep {input : List (InputToken W)} {st : CreateSt W} (wf : ∀ t ∈ input, t.WF) (hg : ∀ t ∈ input, GoodInput W t)
    {size : Str → Nat} (hs : st.spans = spansFrom W size 0 input) (hl : st.lltokens.length = (input.flatMap (tokensOf W size)).length) :
    ∃ l, createFinish W st = .ok l ∧ l.ll_tokens = st.lltokens := by
  obtain ⟨l1, e1, t1, r1⟩ := new_rep (W := W) st.lltokens
  obtain ⟨l2, e2, t2, r2⟩ := spans_fold (size := size) input 0 r1 wf
    (fun t ht => (inputTokens_ok size (hg t ht)).2) (by rw [t1, hl]; simp)
  exact ⟨l2, by simp only [createFinish, e1, hs]; exact e2, t2.trans t1⟩

theorem sizedInputs_tokens (cb : Callback) (size : Str → Nat) : ∀ (input : List (InputToken W)) (calls : List Str),
    (sizedInputs W cb calls input).map (·.1) = (input.flatMap (tokensOf W size)).map (·.1)
  | [], _ => rfl
  | t :: ts, calls => by
    simp only [sizedInputs, List.map_append, List.flatMap_cons, sizedInput_tokens cb calls size t, sizedInputs_tokens cb size ts]

theorem sizedInputs_length (cb : Callback) (size : Str → Nat) (input : List (InputToken W)) (calls : List Str) :
    (sizedInputs W cb calls input).length = (input.flatMap (tokensOf W size)).length := by
  have := congrArg List.length (sizedInputs_tokens cb size input calls)
  simpa using this

/-- a successful creation, taken apart -/
theorem createE_ok {cb : Callback} {input : List (InputToken W)} {calls : List Str} {l : LLLine W} (wf : ∀ t ∈ input, t.WF)
    (h : createLineFromInputTokensE W input cb = (calls, .ok l)) :
    (∀ t ∈ input, GoodInput W t) ∧ calls = input.flatMap (inputTexts W) ∧
    l.ll_tokens = layoutM W.usizeBound 0 0 (sizedInputs W cb [] input) ∧
    ∃ st, foldE (createStepE W cb) { spans := [], lltokens := [], current_size := 0 } input [] = (calls, .ok st) ∧
      createFinish W st = .ok l := by
  obtain ⟨c, st, h1, h2⟩ := bind_ok h
  obtain ⟨h3, rfl⟩ := lift_ok h2
  obtain ⟨hg, hc, est⟩ := loop_ok (size := fun _ => 0) h1
  simp only [List.length_nil, List.nil_append] at est hc
  obtain ⟨l', e, t⟩ := createFinish_rep (st := st) (size := fun _ => 0) wf hg (by rw [est])
    (by rw [est]; simp only [layoutM_length]; exact sizedInputs_length cb _ input [])
  rw [e] at h3
  cases h3
  exact ⟨hg, hc, by rw [t, est], st, h1, e⟩

theorem createE_run {cb : Callback} {input : List (InputToken W)} (wf : ∀ t ∈ input, t.WF)
    (hg : ∀ t ∈ input, GoodInput W t) (h : Answers cb [] (input.flatMap (inputTexts W)))
    (ho : W.overflowChecks = false ∨ totalSize (sizedInputs W cb [] input) < W.usizeBound) :
    ∃ calls l, createLineFromInputTokensE W input cb = (calls, .ok l) := by
  obtain ⟨c, st, h1⟩ := loop_run (st := { spans := [], lltokens := [], current_size := 0 }) hg h (by simpa using ho)
  obtain ⟨_, hc, est⟩ := loop_ok (size := fun _ => 0) h1
  simp only [List.length_nil, List.nil_append] at est
  obtain ⟨l', e, t⟩ := createFinish_rep (st := st) (size := fun _ => 0) wf hg (by rw [est])
    (by rw [est]; simp only [layoutM_length]; exact sizedInputs_length cb _ input [])
  refine ⟨c, l', ?_⟩
  unfold createLineFromInputTokensE
  rw [Ask.bind_run, h1]
  simp only [e]
  rfl

/-! ### sizes -/

/-- the sizes are the callback's answers -/
def SizedBy (cb : Callback) : List Str → List (LToken × Nat) → Prop
  | _, [] => True
  | calls, (.Text s _, n) :: r => cb calls s = some n ∧ SizedBy cb (calls ++ [s]) r
  | calls, (.Value, _) :: r => SizedBy cb calls r

theorem sizedBy_pieces {cb : Callback} : ∀ {ps : List (Str × TextTag)} {calls : List Str} {r : List (LToken × Nat)},
    Answers cb calls (ps.map (·.1)) → SizedBy cb (calls ++ ps.map (·.1)) r → SizedBy cb calls (sizedPieces cb calls ps ++ r)
  | [], calls, r, _, h => by simpa [sizedPieces] using h
  | (s, t) :: ps, calls, r, ha, h => by
    obtain ⟨⟨n, hn⟩, h2⟩ := ha
    refine ⟨by rw [hn]; rfl, sizedBy_pieces h2 ?_⟩
    simpa using h

theorem sizedBy_inputs {cb : Callback} : ∀ {input : List (InputToken W)} {calls : List Str},
    Answers cb calls (input.flatMap (inputTexts W)) → SizedBy cb calls (sizedInputs W cb calls input)
  | [], _, _ => trivial
  | t :: ts, calls, h => by
    rw [List.flatMap_cons] at h
    obtain ⟨h1, h2⟩ := answers_append.1 h
    have ih := sizedBy_inputs h2
    cases t with
    | Text s as => exact sizedBy_pieces h1 ih
    | Custom n as =>
      rw [inputTexts, List.append_nil] at ih
      show SizedBy cb calls (sizedInputs W cb (calls ++ []) ts)
      rw [List.append_nil]; exact ih

theorem sizedBy_layout {cb : Callback} {B : Nat} : ∀ {a : List (LToken × Nat)} {calls : List Str} {k p i : Nat} {t : LLToken}
    {s : Str} {tag : TextTag}, SizedBy cb calls a → (layoutM B k p a)[i]? = some t → t.token = .Text s tag →
    ∃ n, cb (calls ++ textsOf ((layoutM B k p a).take i)) s = some n ∧ t.pos_ends_at = (t.pos_starts_at + n) % B
  | [], calls, k, p, i, t, s, tag, _, h, _ => by simp [layoutM] at h
  | (x, m) :: a, calls, k, p, 0, t, s, tag, hs, h, ht => by
    simp [layoutM] at h
    subst h
    simp only at ht
    subst ht
    exact ⟨m, by simpa [textsOf] using hs.1, rfl⟩
  | (.Text s0 t0, m) :: a, calls, k, p, i + 1, t, s, tag, hs, h, ht => by
    simp only [layoutM, List.getElem?_cons_succ] at h
    have := sizedBy_layout hs.2 h ht
    simpa [layoutM, textsOf] using this
  | (.Value, m) :: a, calls, k, p, i + 1, t, s, tag, hs, h, ht => by
    simp only [layoutM, List.getElem?_cons_succ] at h
    have := sizedBy_layout (a := a) (cb := cb) (calls := calls) hs h ht
    simpa [layoutM, textsOf] using this

theorem textsOf_layout (B : Nat) : ∀ (a : List (LToken × Nat)) (k p : Nat), textsOf (layoutM B k p a) =
    a.filterMap (fun t => match t.1 with
      | .Text s _ => some s
      | .Value => none)
  | [], _, _ => rfl
  | (.Text s t, m) :: a, k, p => by
    have := textsOf_layout B a (k + 1) ((p + m) % B)
    simp only [textsOf] at this
    simp [textsOf, layoutM, this]
  | (.Value, m) :: a, k, p => by
    have := textsOf_layout B a (k + 1) ((p + m) % B)
    simp only [textsOf] at this
    simp [textsOf, layoutM, this]

theorem texts_pieces (cb : Callback) : ∀ (ps : List (Str × TextTag)) (calls : List Str),
    (sizedPieces cb calls ps).filterMap (fun t => match t.1 with
      | .Text s _ => some s
      | .Value => none) = ps.map (·.1)
  | [], _ => rfl
  | (s, t) :: ps, calls => by simp [sizedPieces, texts_pieces cb ps]

theorem texts_inputs (cb : Callback) : ∀ (input : List (InputToken W)) (calls : List Str),
    (sizedInputs W cb calls input).filterMap (fun t => match t.1 with
      | .Text s _ => some s
      | .Value => none) = input.flatMap (inputTexts W)
  | [], _ => rfl
  | .Text s as :: ts, calls => by
    simp only [sizedInputs, sizedInput, List.filterMap_append, texts_pieces, texts_inputs cb ts, List.flatMap_cons, inputTexts]
  | .Custom n as :: ts, calls => by
    simp only [sizedInputs, sizedInput, List.filterMap_append, texts_inputs cb ts, List.flatMap_cons, inputTexts]
    rfl

/-! ### a callback that is a function -/

/-- the computation and the one without calls end alike -/
def EndsAs {α : Type} (m : Ask α) (r : R α) : Prop := ∀ calls, (m calls).2 = r.mapError Stop.code

theorem ends_lift {α : Type} (r : R α) : EndsAs (Ask.lift r) r := by
  intro calls
  cases r <;> rfl

theorem ends_bind {α β : Type} {m : Ask α} {f : α → Ask β} {r : R α} {g : α → R β} (hm : EndsAs m r)
    (hf : ∀ a, r = .ok a → EndsAs (f a) (g a)) : EndsAs (m >>= f) (Except.bind r g) := by
  intro calls
  have := hm calls
  rw [Ask.bind_run]
  rcases hmc : m calls with ⟨c, x⟩
  rw [hmc] at this
  cases r with
  | ok a => simp only [Except.mapError] at this; subst this; exact hf a rfl c
  | error p => simp only [Except.mapError] at this; subst this; rfl

theorem ends_fold {σ α : Type} {f : σ → α → Ask σ} {g : σ → α → R σ} (h : ∀ s x, EndsAs (f s x) (g s x)) :
    ∀ (xs : List α) (s : σ), EndsAs (foldE f s xs) (foldR g s xs)
  | [], s => ends_lift (.ok s)
  | x :: xs, s => by
    have := ends_bind (h s x) (f := fun s' => foldE f s' xs) (g := fun s' => foldR g s' xs) (fun s' _ => ends_fold h xs s')
    have e : foldR g s (x :: xs) = Except.bind (g s x) (fun s' => foldR g s' xs) := by
      rw [foldR]; cases g s x <;> rfl
    rw [e]
    exact this

theorem ends_collect (size : Str → Nat) : ∀ (ps : List (Str × TextTag)) (acc : List (LToken × Nat)),
    EndsAs (collect (Callback.of size) acc ps) (.ok (acc ++ ps.map (pieceTok size)))
  | [], acc => by rw [collect_nil, List.map_nil, List.append_nil]; exact ends_lift (.ok acc)
  | (s, t) :: ps, acc => by
    rw [collect_cons]
    intro calls
    have := ends_collect size ps (acc ++ [(LToken.Text s t, size s)]) (calls ++ [s])
    rw [List.append_assoc] at this
    exact this

theorem ends_word (size : Str → Nat) (acc : List (LToken × Nat)) (w : Str) :
    EndsAs (foldWordE W (Callback.of size) acc w) (foldWord W size acc w) := by
  by_cases h : GoodWord w
  · rw [foldWordE_ok _ acc h, foldWord_ok size acc h]; exact ends_collect size _ acc
  · rw [foldWordE_err _ acc h, foldWord_err size acc h]; exact ends_lift _

theorem ends_input (size : Str → Nat) (t : InputToken W) : EndsAs (inputTokensE W (Callback.of size) t) (inputTokens W size t) := by
  cases t with
  | Custom n as => exact ends_lift (.ok _)
  | Text s as =>
    have := ends_bind (ends_fold (ends_word (W := W) size) (W.splitWordBounds s) [])
      (f := fun lt => (Pure.pure (lt, as) : Ask (List (LToken × Nat) × List (AnyAttribute W))))
      (g := fun lt => .ok (lt, as)) (fun lt _ => ends_lift (.ok (lt, as)))
    have e : inputTokens W size (.Text s as) = Except.bind (foldR (foldWord W size) [] (W.splitWordBounds s)) (fun lt => .ok (lt, as)) := by
      simp only [inputTokens, createTokensForString]
      cases foldR (foldWord W size) [] (W.splitWordBounds s) <;> rfl
    rw [e]
    exact this

theorem ends_step (size : Str → Nat) (st : CreateSt W) (t : InputToken W) :
    EndsAs (createStepE W (Callback.of size) st t) (createStep W size st t) := by
  have := ends_bind (ends_input size t) (f := fun p => Ask.lift (createPush W st p.1 p.2))
    (g := fun p => createPush W st p.1 p.2) (fun p _ => ends_lift _)
  have e : createStep W size st t = Except.bind (inputTokens W size t) (fun p => createPush W st p.1 p.2) := by
    unfold createStep
    cases inputTokens W size t <;> rfl
  rw [e]
  exact this

theorem ends_create (size : Str → Nat) (input : List (InputToken W)) (calls : List Str) :
    ((foldE (createStepE W (Callback.of size)) { spans := [], lltokens := [], current_size := 0 } input >>= fun st =>
      Ask.lift (createFinish W st)) calls).2 = (createLineFromInputTokens W input size).mapError Stop.code := by
  have := ends_bind (ends_fold (ends_step (W := W) size) input { spans := [], lltokens := [], current_size := 0 })
    (f := fun st => Ask.lift (createFinish W st)) (g := createFinish W) (fun st _ => ends_lift _)
  have e : createLineFromInputTokens W input size =
      Except.bind (foldR (createStep W size) { spans := [], lltokens := [], current_size := 0 } input) (createFinish W) := by
    unfold createLineFromInputTokens
    cases foldR (createStep W size) { spans := [], lltokens := [], current_size := 0 } input <;> rfl
  rw [e]
  exact this calls

end LNlp
