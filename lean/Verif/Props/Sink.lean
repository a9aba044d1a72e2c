import Verif.Lemmas.Sink
import Verif.Props.Display
/- Property C128: rendering into a sink that may refuse or panic. -/
namespace LNlp
variable {W : World}

/-- the texts a String is given when the display is formatted into it -/
def LLLineDisplay.pieces (d : LLLineDisplay W) : List Str := (d.fmtTo stringSink []).1

theorem string_takes (texts : List Str) : Takes stringSink texts := fun _ _ _ _ => rfl

theorem fmtTo_string (d : LLLineDisplay W) : d.fmtTo stringSink [] =
    (d.texts.1, match d.texts.2 with | .ok a => .ok a | .error p => .error (.code p)) := by
  rw [fmtTo_script]
  rcases script_run d.texts.2 d.texts.1 stringSink [] with ⟨_, h⟩ | ⟨a, s, ⟨_, h, _⟩, _⟩
  · cases hd : d.texts.2 <;> rw [hd] at h <;> simpa using h
  · exact absurd rfl h

theorem pieces_texts (d : LLLineDisplay W) : d.pieces = d.texts.1 := by
  rw [LLLineDisplay.pieces, fmtTo_string]

/-- C128: `format!("{}", d)` gives the rendering the other properties speak about, and panics where they say it does. -/
theorem C128_string (d : LLLineDisplay W) :
    (∀ t, d.fmt = .ok t ↔ (d.fmtTo stringSink []).2 = .ok () ∧ d.pieces.flatten = t) ∧
    ∀ p, d.fmt = .error p ↔ (d.fmtTo stringSink []).2 = .error (.code p) := by
  rw [pieces_texts, fmtTo_string, fmt_texts]
  cases d.texts.2 with
  | ok u => exact ⟨fun t => by simp [Except.map], fun p => by simp [Except.map]⟩
  | error e => exact ⟨fun t => by simp [Except.map], fun p => by simp [Except.map]⟩

/-- C128: every sink is given the same texts, in the same order: all of them, if it takes them all, and then rendering
ends as it does into a String; otherwise up to the first one it does not take and nothing after that, and rendering
returns `Err` if the sink refused and unwinds if it panicked. -/
theorem C128_sink (d : LLLineDisplay W) (snk : Sink) :
    (Takes snk d.pieces ∧ d.fmtTo snk [] = d.fmtTo stringSink []) ∨
    ∃ a s, StopsAt snk d.pieces a s ∧
      d.fmtTo snk [] = (a ++ [s], if snk a s = .refused then .error .err else .error .sink) := by
  rw [pieces_texts, fmtTo_string, fmtTo_script]
  rcases script_run d.texts.2 d.texts.1 snk [] with ⟨h1, h2⟩ | ⟨a, s, h1, h2⟩
  · exact .inl ⟨h1, by cases hd : d.texts.2 <;> rw [hd] at h2 <;> simpa using h2⟩
  · exact .inr ⟨a, s, h1, by simpa using h2⟩

/-- C128: rendering succeeds exactly if the display has a rendering and the sink takes every piece; the sink has then
been given the rendering. -/
theorem C128_ok (d : LLLineDisplay W) (snk : Sink) :
    (d.fmtTo snk []).2 = .ok () ↔ (∃ t, d.fmt = .ok t ∧ (d.fmtTo snk []).1.flatten = t) ∧ Takes snk d.pieces := by
  obtain ⟨h1, h2⟩ := C128_string d
  rcases C128_sink d snk with ⟨ht, e⟩ | ⟨a, s, hs, e⟩
  · rw [e]
    constructor
    · intro h
      exact ⟨⟨_, (h1 _).2 ⟨h, rfl⟩, rfl⟩, ht⟩
    · rintro ⟨⟨t, h, _⟩, _⟩
      exact ((h1 t).1 h).1
  · rw [e]
    constructor
    · intro h
      simp only at h
      split at h <;> cases h
    · rintro ⟨_, ht⟩
      obtain ⟨b, hb⟩ := hs.2.2
      exact absurd (ht a s b (by rw [← hb]; simp)) hs.2.1

/-- C128: whatever happens, what the sink was given is the beginning of the rendering. -/
theorem C128_prefix (d : LLLineDisplay W) (snk : Sink) {t : Str} (h : d.fmt = .ok t) : (d.fmtTo snk []).1.flatten <+: t := by
  obtain ⟨_, e⟩ := ((C128_string d).1 t).1 h
  rcases C128_sink d snk with ⟨_, e'⟩ | ⟨a, s, hs, e'⟩
  · rw [e', ← e]
    exact List.prefix_refl _
  · rw [e', ← e]
    obtain ⟨b, hb⟩ := hs.2.2
    exact ⟨b.flatten, by rw [← hb]; simp⟩

/-- C128: `Err` is returned only if the sink refused something, and a panic comes from the sink or is the panic of the
rendering. -/
theorem C128_blame (d : LLLineDisplay W) (snk : Sink) :
    ((d.fmtTo snk []).2 = .error .err → ∃ a s, (d.fmtTo snk []).1 = a ++ [s] ∧ snk a s = .refused) ∧
    ((d.fmtTo snk []).2 = .error .sink → ∃ a s, (d.fmtTo snk []).1 = a ++ [s] ∧ snk a s = .panicked) ∧
    ∀ p, (d.fmtTo snk []).2 = .error (.code p) → d.fmt = .error p := by
  obtain ⟨h1, h2⟩ := C128_string d
  rcases C128_sink d snk with ⟨ht, e⟩ | ⟨a, s, hs, e⟩
  · rw [e]
    refine ⟨fun h => ?_, fun h => ?_, fun p h => (h2 p).2 h⟩ <;>
    · rw [fmtTo_string] at h
      simp only at h
      cases hd : d.texts.2 <;> rw [hd] at h <;> cases h
  · rw [e]
    cases hr : snk a s with
    | taken => exact absurd hr hs.2.1
    | refused => exact ⟨fun _ => ⟨a, s, rfl, hr⟩, fun h => by simp at h, fun p h => by simp at h⟩
    | panicked => exact ⟨fun h => by simp at h, fun _ => ⟨a, s, rfl, hr⟩, fun p h => by simp at h⟩

/-- a sink with room for `n` bytes, which refuses what does not fit -/
def roomFor (n : Nat) : Sink := fun before s => if utf8Len before.flatten + utf8Len s ≤ n then .taken else .refused

/-- C128: into a buffer of `n` bytes rendering succeeds exactly if the rendering is at most `n` bytes long. -/
theorem C128_room (d : LLLineDisplay W) (n : Nat) {t : Str} (h : d.fmt = .ok t) :
    (d.fmtTo (roomFor n) []).2 = .ok () ↔ utf8Len t ≤ n := by
  have hap : ∀ a b : Str, utf8Len (a ++ b) = utf8Len a + utf8Len b := fun a b => by simp [utf8Len]
  obtain ⟨_, e⟩ := ((C128_string d).1 t).1 h
  have key : Takes (roomFor n) d.pieces ↔ utf8Len t ≤ n := by
    constructor
    · intro ht
      rcases List.eq_nil_or_concat d.pieces with h0 | ⟨a, s, h0⟩
      · rw [← e, h0]; exact Nat.zero_le _
      · have := ht a s [] (by rw [h0]; simp)
        rw [← e, h0, List.concat_eq_append, List.flatten_append, hap]
        simp only [roomFor] at this
        split at this
        · next hle => simpa using hle
        · cases this
    · intro hle a s b hp
      rw [← e, hp, List.flatten_append, List.flatten_cons, hap, hap] at hle
      simp only [roomFor]
      rw [if_pos (by omega)]
  rw [C128_ok, key]
  constructor
  · exact fun h => h.2
  · intro hle
    refine ⟨⟨t, h, ?_⟩, hle⟩
    rcases C128_sink d (roomFor n) with ⟨_, e'⟩ | ⟨a, s, hs, _⟩
    · rw [e']; exact e
    · obtain ⟨b, hb⟩ := hs.2.2
      exact absurd (key.2 hle a s b (by rw [← hb]; simp)) hs.2.1

/-- what has been written when an attribute's rendering panics -/
theorem bracketsTexts_panic {starts ends : List Nat} {p : Panic} : ∀ {items : List (LRange × Str)},
    (∀ item ∈ items, item.1.1 < starts.length ∧ item.1.2 < ends.length) →
    (bracketsTexts W starts ends items).2 = .error p →
    ∃ before item after s, items = before ++ item :: after ∧ starts[item.1.1]? = some s ∧
      (bracketsTexts W starts ends before).2 = .ok () ∧
      (bracketsTexts W starts ends items).1 = (bracketsTexts W starts ends before).1 ++ ([['\n']] ++ List.replicate s [' '] ++ [['╰']])
  | [], _, h => by cases h
  | item :: items, hb, h => by
    have hi := hb item (by simp)
    simp only [bracketsTexts] at h ⊢
    cases hr : (bracketTexts W starts ends item).2 with
    | error e =>
      rw [hr] at h
      refine ⟨[], item, items, starts[item.1.1]'hi.1, rfl, List.getElem?_eq_getElem hi.1, rfl, ?_⟩
      simp only [bracketsTexts, List.nil_append]
      rw [bracketTexts, List.getElem?_eq_getElem hi.1, List.getElem?_eq_getElem hi.2] at hr ⊢
      simp only at hr ⊢
      cases hs : W.subUsize ends[item.1.2] starts[item.1.1] with
      | error e => rfl
      | ok len => rw [hs] at hr; cases hr
    | ok u =>
      rw [hr] at h
      obtain ⟨b, x, a, s, e1, e2, e3, e4⟩ := bracketsTexts_panic (fun x hx => hb x (List.mem_cons_of_mem _ hx)) h
      refine ⟨item :: b, x, a, s, by rw [e1]; rfl, e2, ?_, ?_⟩
      · simp only [bracketsTexts, hr, e3]
      · simp only [bracketsTexts, hr, e4, List.append_assoc]

/-- C128: if rendering a line panics, then the sink was given the header, the rendering of the attributes before the one
that cannot be drawn, and the beginning of that one: a line break, blanks up to its first column and the corner. -/
theorem C128_panic {l : LLLine W} {h : History W} (hr : Reachable l h) (ks : List (Ty W)) :
    ∃ d, displayWith l ks = .ok d ∧ ∀ p, d.fmt = .error p → ∃ before item after t,
      d.include_attrs = before ++ item :: after ∧ (LLLineDisplay.mk l before).fmt = .ok t ∧
      d.pieces.flatten = t ++ (['\n'] ++ List.replicate (colStart W l.ll_tokens item.1.1) ' ' ++ ['╰']) := by
  refine ⟨_, include_fold hr.rep ks [], fun p hp => ?_⟩
  have rep : ∀ (n : Nat) (c : Char), (List.replicate n [c]).flatten = List.replicate n c := by
    intro n c
    induction n with
    | zero => rfl
    | succ n ih => rw [List.replicate_succ, List.flatten_cons, ih]; rfl
  rw [pieces_texts]
  simp only [fmt_texts, LLLineDisplay.texts, header_loop, List.nil_append] at hp ⊢
  have hp' : (bracketsTexts W ((List.range l.ll_tokens.length).map (colStart W l.ll_tokens))
      ((List.range l.ll_tokens.length).map (colEnd W l.ll_tokens)) (ks.flatMap (fun k => shownValues k h))).2 = .error p := by
    cases hc : (bracketsTexts W ((List.range l.ll_tokens.length).map (colStart W l.ll_tokens))
      ((List.range l.ll_tokens.length).map (colEnd W l.ll_tokens)) (ks.flatMap (fun k => shownValues k h))).2 with
    | ok u => rw [hc] at hp; cases hp
    | error e => rw [hc] at hp; simpa [Except.map] using hp
  obtain ⟨b, x, a, s, e1, e2, e3, e4⟩ := bracketsTexts_panic (fun item hi => by
    obtain ⟨k, _, hi⟩ := List.mem_flatMap.1 hi
    obtain ⟨_, _, _, h1, h2⟩ := shownValues_bounds hr.rep hi
    simpa using ⟨h1, h2⟩) hp'
  refine ⟨b, x, a, _, e1, by rw [e3]; rfl, ?_⟩
  have hs : s = colStart W l.ll_tokens x.1.1 := by
    simp only [List.getElem?_map, Option.map_eq_some_iff] at e2
    obtain ⟨n, hn, rfl⟩ := e2
    rw [List.getElem?_range (by
      rcases Nat.lt_or_ge x.1.1 l.ll_tokens.length with h | h
      · exact h
      · rw [List.getElem?_eq_none (by simpa using h)] at hn; cases hn)] at hn
    cases hn; rfl
  rw [e4, ← hs]
  simp [rep]

/-! ### instances -/

/-- the words of a line, with their tags -/
def Demo.shown : LLLineDisplay Demo.W := Demo.getOk (LLLineDisplay.new Demo.exLine2) (displayWith Demo.exLine2 [Ty.user 2])

/-- 132 bytes in 44 pieces -/
theorem Demo.shown_text : Demo.shown.fmt = .ok (Demo.shown.pieces.flatten) := rfl
example := C128_string Demo.shown
example := C128_sink Demo.shown (roomFor 12)
example := (C128_ok Demo.shown stringSink).1 rfl
/-- sinks that break in the middle of a bracket -/
example : (Demo.shown.fmtTo (roomFor 45) []).2 = .error .err := rfl
example : (Demo.shown.fmtTo (fun c _ => if c.length < 4 then .taken else .panicked) []).2 = .error .sink := rfl
example := C128_prefix Demo.shown (roomFor 45) Demo.shown_text
example := (C128_blame Demo.shown (roomFor 45)).1 rfl
example := (C128_room Demo.shown 45 Demo.shown_text).1
example := C128_panic Demo.invReach [Ty.user 2]

end LNlp
