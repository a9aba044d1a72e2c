import Verif.Lemmas.DebugTokens
import Verif.Props.Debug
import Verif.Props.Tokenize
import Verif.Demo.Examples
/- C132: what `{:?}` and `{:#?}` tell about tokens, finds and the results of choices. -/
namespace LNlp

section
variable {W : World}

/-- C132: in either form, lines print the same tokens exactly if they have the same tokens: texts, tags, indexes and
positions. -/
theorem C132_tokens {V : World} (esc : Char → Bool) (m : Form) (l : LLLine W) (k : LLLine V) :
    l.tokensDbg esc m = k.tokensDbg esc m ↔ l.ll_tokens = k.ll_tokens := by
  constructor
  · intro h
    simp only [LLLine.tokensDbg] at h
    generalize l.ll_tokens = ts at h
    generalize k.ll_tokens = us at h
    cases ts with
    | nil =>
      cases us with
      | nil => rfl
      | cons u us =>
        cases m with
        | plain =>
          obtain ⟨r, hr⟩ := lltoken_first esc .plain u
          cases us <;> simp [Form.list, commaSep, hr] at h
        | pretty => simp [Form.list] at h
    | cons t ts =>
      cases us with
      | nil =>
        cases m with
        | plain =>
          obtain ⟨r, hr⟩ := lltoken_first esc .plain t
          cases ts <;> simp [Form.list, commaSep, hr] at h
        | pretty => simp [Form.list] at h
      | cons u us =>
        cases m with
        | plain =>
          exact commaSep_inj (esc := esc) (by simp) (by simp) (by
            simpa only [Form.list, List.map_cons, List.append_assoc, List.append_cancel_left_eq] using h)
        | pretty =>
          refine entryText_inj (esc := esc) (entries_prefix (c := ']') (x := []) (y := []) (by decide) ?_).1
          simpa only [Form.list, List.map_cons, List.append_assoc, List.append_cancel_left_eq] using h
  · intro h
    simp only [LLLine.tokensDbg, h]

example := C132_tokens (fun c => c.toNat > 127) .pretty Demo.exLine Demo.exLine2

/-- C132: the printed tokens of a line made from a text tell the text. -/
theorem C132_text (L : SplitLaws W) (esc : Char → Bool) (m : Form) {s t : Str} {l k : LLLine W}
    (hl : createLineFromString W s = .ok l) (hk : createLineFromString W t = .ok k) :
    l.tokensDbg esc m = k.tokensDbg esc m ↔ s = t := by
  rw [C132_tokens]
  constructor
  · intro h
    have wf : ∀ u : Str, ∀ x ∈ [InputToken.Text (W := W) u []], x.WF := by
      intro u x hx a ha
      rw [List.mem_singleton.1 hx] at ha
      cases ha
    have key : ∀ {u : Str} {j : LLLine W}, createLineFromString W u = .ok j →
        u = (j.ll_tokens.map (·.token)).flatMap LToken.str := by
      intro u j hj
      obtain ⟨gs, hlen, hts, hg⟩ := C01_lossless L utf8Len _ j (wf u) hj
      match gs, hlen with
      | [g], _ =>
        obtain ⟨_, hg⟩ := hg (InputToken.Text u [], g) (by simp)
        rw [hts]
        have := hg.2
        simp only [List.flatten_cons, List.flatten_nil, List.append_nil, List.flatMap_def]
        exact this.symm
    rw [key hl, key hk, h]
  · rintro rfl
    rw [hl] at hk
    cases hk
    rfl

/-- C132: the plain form is one line, whatever the texts are. -/
theorem C132_one_line (esc : Char → Bool) (l : LLLine W) : '\n' ∉ l.tokensDbg esc .plain := by
  have hn : ∀ n, '\n' ∉ natDbg n := fun n h => by
    have := natDbg_digits n _ h
    exact absurd this (by decide)
  have ht : ∀ t : LLToken, '\n' ∉ t.dbg esc .plain := by
    intro t h
    simp only [LLToken.dbg, Form.struct, debugStruct, debugFields, List.mem_append] at h
    have hv : '\n' ∉ t.token.dbg esc .plain := by
      intro h
      cases ht : t.token with
      | Value => rw [ht] at h; simp [LToken.dbg] at h
      | Text s g =>
        rw [ht] at h
        simp only [LToken.dbg, Form.tuple, commaSep, List.mem_append] at h
        rcases h with ((h | h) | (h | h) | h) | h
        · exact absurd h (by decide)
        · exact absurd h (by decide)
        · exact strDbg_line esc s h
        · exact absurd h (by decide)
        · revert h; cases g <;> decide
        · exact absurd h (by decide)
    simp [hn, hv] at h
  unfold LLLine.tokensDbg
  generalize l.ll_tokens = ts
  have hc := fun ts : List LLToken => commaSep_line (ts.map (LLToken.dbg esc .plain)) (by simpa using fun t _ => ht t)
  cases ts with
  | nil => simp [Form.list]
  | cons t ts =>
    intro h
    simp only [Form.list, List.map_cons, List.mem_append] at h
    rcases h with (h | h) | h
    · exact absurd h (by decide)
    · exact hc (t :: ts) h
    · exact absurd h (by decide)

/-- C132: in either form, selections of one line print the same exactly if they are equal. -/
theorem C132_selections (m : Form) (s t : LLSelection W) (hl : s.ll_line.ptr = t.ll_line.ptr) :
    s.dbgIn m = t.dbgIn m ↔ s.eq t = true := by
  cases m with
  | plain => exact C116_selections s t hl
  | pretty =>
    constructor
    · intro h
      simp only [LLSelection.dbgIn, Form.struct, List.map_cons, List.map_nil, List.append_assoc, List.append_cancel_left_eq] at h
      obtain ⟨h1, _⟩ := entries_prefix (x := []) (y := []) (by decide) h
      simp only [entryText, List.flatMap_cons, List.flatMap_nil, List.append_nil, List.append_assoc,
        List.append_cancel_left_eq, List.cons_append, List.nil_append, List.cons.injEq, true_and] at h1
      obtain ⟨h2, h3⟩ := nat_prefix (by decide) h1
      simp only [List.append_cancel_left_eq, List.cons.injEq, true_and] at h3
      obtain ⟨h4, _⟩ := nat_prefix (by decide) h3
      simp [LLSelection.eq, h2, h4, hl]
    · intro h
      simp only [LLSelection.eq, Bool.and_eq_true, decide_eq_true_eq] at h
      simp only [LLSelection.dbgIn, h.1.1, h.1.2]

example := C132_selections .pretty ⟨⟨7, Demo.exLine⟩, 1, 12⟩ ⟨⟨7, Demo.exLine⟩, 11, 2⟩ rfl

/-- C132: in either form, finds print the same exactly if they have the same `range()` and their values print the same in
that form. -/
theorem C132_finds {Found : Type} (dbg : Form → Found → Str) (m : Form) (f g : LLLineFind Found) :
    f.dbgIn dbg m = g.dbgIn dbg m ↔ f.range = g.range ∧ dbg m f.attr = dbg m g.attr := by
  cases m with
  | plain => exact C116_finds (dbg .plain) f g
  | pretty =>
    constructor
    · intro h
      simp only [LLLineFind.dbgIn, Form.struct, List.map_cons, List.map_nil, List.append_assoc, List.append_cancel_left_eq] at h
      obtain ⟨h1, _⟩ := entries_prefix (x := []) (y := []) (by decide) h
      simp only [entryText, List.flatMap_cons, List.flatMap_nil, List.append_nil, List.append_assoc,
        List.append_cancel_left_eq, List.cons_append, List.nil_append, List.cons.injEq, true_and] at h1
      obtain ⟨h2, h3⟩ := nat_prefix (by decide) h1
      simp only [List.append_cancel_left_eq, List.cons.injEq, true_and] at h3
      obtain ⟨h4, h5⟩ := nat_prefix (by decide) h3
      simp only [List.append_cancel_left_eq, List.append_cancel_right_eq, List.cons.injEq, true_and] at h5
      exact ⟨by simp only [LLLineFind.range, h2, h4], h5⟩
    · rintro ⟨h1, h2⟩
      simp only [LLLineFind.range, Prod.mk.injEq] at h1
      simp only [LLLineFind.attr] at h2
      simp only [LLLineFind.dbgIn, h1.1, h1.2, h2]

example := C132_finds (fun _ => natDbg) .pretty ⟨3, 14, 5⟩ ⟨31, 4, 5⟩

/-- C132: in either form, assignments print the same exactly if they have the same range and their values print the same in
that form. -/
theorem C132_assignments {Attr : Type} (dbg : Form → Attr → Str) (m : Form) (a b : LLCursorAssignment Attr) :
    a.dbgIn dbg m = b.dbgIn dbg m ↔ a.start_idx = b.start_idx ∧ a.end_idx = b.end_idx ∧ dbg m a.value = dbg m b.value := by
  cases m with
  | plain => exact C116_assignments (dbg .plain) a b
  | pretty =>
    constructor
    · intro h
      simp only [LLCursorAssignment.dbgIn, Form.struct, List.map_cons, List.map_nil, List.append_assoc,
        List.append_cancel_left_eq] at h
      obtain ⟨h1, _⟩ := entries_prefix (x := []) (y := []) (by decide) h
      simp only [entryText, List.flatMap_cons, List.flatMap_nil, List.append_nil, List.append_assoc,
        List.append_cancel_left_eq, List.cons_append, List.nil_append, List.cons.injEq, true_and] at h1
      obtain ⟨h2, h3⟩ := nat_prefix (by decide) h1
      simp only [List.append_cancel_left_eq, List.cons.injEq, true_and] at h3
      obtain ⟨h4, h5⟩ := nat_prefix (by decide) h3
      simp only [List.append_cancel_left_eq, List.append_cancel_right_eq, List.cons.injEq, true_and] at h5
      exact ⟨h2, h4, h5⟩
    · rintro ⟨h1, h2, h3⟩
      simp only [LLCursorAssignment.dbgIn, h1, h2, h3]

example := C132_assignments (fun _ => natDbg) .pretty ⟨3, 14, 5⟩ ⟨31, 4, 5⟩

/-- C132: results of `any_of` print the same exactly if they come from the same alternative and print the same there, and
they are equal exactly if they come from the same alternative and are equal there. -/
theorem C132_any_of {α β : Type} (m : Form) (f : Form → α → Str) (g : Form → β → Str) (p : α → α → Bool) (q : β → β → Bool)
    (u v : AnyOf2 α β) :
    (u.dbg f g m = v.dbg f g m ↔ (∃ a a', u = .A a ∧ v = .A a' ∧ f m a = f m a') ∨
      ∃ b b', u = .B b ∧ v = .B b' ∧ g m b = g m b') ∧
    (u.eq p q v = true ↔ (∃ a a', u = .A a ∧ v = .A a' ∧ p a a' = true) ∨
      ∃ b b', u = .B b ∧ v = .B b' ∧ q b b' = true) := by
  have ne : ∀ {c d : Char} {a b : Str}, c ≠ d → (m.tuple [c] [a] = m.tuple [d] [b]) = False :=
    fun hd => eq_false (tuple_ne hd)
  have eq : ∀ {c : Char} {a b : Str}, (m.tuple [c] [a] = m.tuple [c] [b]) = (a = b) :=
    propext ⟨tuple_inj, fun h => by rw [h]⟩
  cases u <;> cases v <;> simp [AnyOf2.dbg, AnyOf2.eq, eq, ne]

example := C132_any_of .pretty (fun _ => natDbg) (fun _ => strDbg (fun _ => false)) (· == ·) (· == ·) (.A 3) (.B ['3'])

/-- C132: the same for three alternatives. -/
theorem C132_any_of3 {α β γ : Type} (m : Form) (f : Form → α → Str) (g : Form → β → Str) (h : Form → γ → Str)
    (p : α → α → Bool) (q : β → β → Bool) (r : γ → γ → Bool) (u v : AnyOf3 α β γ) :
    (u.dbg f g h m = v.dbg f g h m ↔ (∃ a a', u = .A a ∧ v = .A a' ∧ f m a = f m a') ∨
      (∃ b b', u = .B b ∧ v = .B b' ∧ g m b = g m b') ∨ ∃ c c', u = .C c ∧ v = .C c' ∧ h m c = h m c') ∧
    (u.eq p q r v = true ↔ (∃ a a', u = .A a ∧ v = .A a' ∧ p a a' = true) ∨
      (∃ b b', u = .B b ∧ v = .B b' ∧ q b b' = true) ∨ ∃ c c', u = .C c ∧ v = .C c' ∧ r c c' = true) := by
  have ne : ∀ {c d : Char} {a b : Str}, c ≠ d → (m.tuple [c] [a] = m.tuple [d] [b]) = False :=
    fun hd => eq_false (tuple_ne hd)
  have eq : ∀ {c : Char} {a b : Str}, (m.tuple [c] [a] = m.tuple [c] [b]) = (a = b) :=
    propext ⟨tuple_inj, fun h => by rw [h]⟩
  cases u <;> cases v <;> simp [AnyOf3.dbg, AnyOf3.eq, eq, ne]

example := C132_any_of3 .plain (fun _ => natDbg) (fun _ => natDbg) (fun _ => natDbg) (· == ·) (· == ·) (· == ·) (.A 3) (.C 3)

/-- C132: the text of a result of `any_of` is the name of the alternative and what was found, in parentheses. -/
theorem C132_any_of_text {α β : Type} (f : Form → α → Str) (g : Form → β → Str) :
    (∀ a, (AnyOf2.A a : AnyOf2 α β).dbg f g .plain = ['A', '('] ++ f .plain a ++ [')'] ∧
      ∃ rest, (AnyOf2.A a : AnyOf2 α β).dbg f g .pretty = ['A', '(', '\n'] ++ rest ++ [')']) ∧
    (∀ b, (AnyOf2.B b : AnyOf2 α β).dbg f g .plain = ['B', '('] ++ g .plain b ++ [')'] ∧
      ∃ rest, (AnyOf2.B b : AnyOf2 α β).dbg f g .pretty = ['B', '(', '\n'] ++ rest ++ [')']) :=
  ⟨fun _ => ⟨rfl, _, rfl⟩, fun _ => ⟨rfl, _, rfl⟩⟩

/-- C132: the same for three alternatives. -/
theorem C132_any_of3_text {α β γ : Type} (f : Form → α → Str) (g : Form → β → Str) (h : Form → γ → Str) :
    (∀ a, (AnyOf3.A a : AnyOf3 α β γ).dbg f g h .plain = ['A', '('] ++ f .plain a ++ [')'] ∧
      ∃ rest, (AnyOf3.A a : AnyOf3 α β γ).dbg f g h .pretty = ['A', '(', '\n'] ++ rest ++ [')']) ∧
    (∀ b, (AnyOf3.B b : AnyOf3 α β γ).dbg f g h .plain = ['B', '('] ++ g .plain b ++ [')'] ∧
      ∃ rest, (AnyOf3.B b : AnyOf3 α β γ).dbg f g h .pretty = ['B', '(', '\n'] ++ rest ++ [')']) ∧
    (∀ c, (AnyOf3.C c : AnyOf3 α β γ).dbg f g h .plain = ['C', '('] ++ h .plain c ++ [')'] ∧
      ∃ rest, (AnyOf3.C c : AnyOf3 α β γ).dbg f g h .pretty = ['C', '(', '\n'] ++ rest ++ [')']) :=
  ⟨fun _ => ⟨rfl, _, rfl⟩, fun _ => ⟨rfl, _, rfl⟩, fun _ => ⟨rfl, _, rfl⟩⟩

example : (AnyOf3.B 31 : AnyOf3 Nat Nat Nat).dbg (fun _ => natDbg) (fun _ => natDbg) (fun _ => natDbg) .plain = "B(31)".toList :=
  ((C132_any_of3_text (fun _ => natDbg) (fun _ => natDbg) (fun _ => natDbg)).2.1 31).1.trans rfl
example := C132_any_of_text (fun _ => natDbg) (fun _ => strDbg (fun _ => false))

/-- C132: the plain form of C116 is the plain form here. -/
theorem C132_plain {Found : Type} (s : LLSelection W) (f : LLLineFind Found) (a : LLCursorAssignment Found)
    (dbg : Form → Found → Str) :
    s.dbgIn .plain = s.dbg ∧ f.dbgIn dbg .plain = f.dbg (dbg .plain) ∧ a.dbgIn dbg .plain = a.dbg (dbg .plain) :=
  ⟨rfl, rfl, rfl⟩

end

namespace Demo
/-- the texts of tests/tokenizing.rs:12-38, for the line of the two tokens `.` and a quoted newline -/
def shownTokens : LLLine W :=
  { emptyLine with ll_tokens := [⟨0, 0, 1, .Text ['.'] .PUNC⟩, ⟨1, 1, 4, .Text ['"', '\n', 'é'] .SYMB⟩, ⟨2, 4, 9, .Value⟩] }

theorem shownTokens_pretty : shownTokens.tokensDbg (fun c => c.toNat > 127) .pretty =
"[
    LLToken {
        token_idx: 0,
        pos_starts_at: 0,
        pos_ends_at: 1,
        token: Text(
            \".\",
            PUNC,
        ),
    },
    LLToken {
        token_idx: 1,
        pos_starts_at: 1,
        pos_ends_at: 4,
        token: Text(
            \"\\\"\\n\\u{e9}\",
            SYMB,
        ),
    },
    LLToken {
        token_idx: 2,
        pos_starts_at: 4,
        pos_ends_at: 9,
        token: Value,
    },
]".toList := by decide +kernel

theorem shownTokens_plain : shownTokens.tokensDbg (fun _ => false) .plain =
"[LLToken { token_idx: 0, pos_starts_at: 0, pos_ends_at: 1, token: Text(\".\", PUNC) }, LLToken { token_idx: 1, pos_starts_at: 1, pos_ends_at: 4, token: Text(\"\\\"\\né\", SYMB) }, LLToken { token_idx: 2, pos_starts_at: 4, pos_ends_at: 9, token: Value }]".toList := by
  decide +kernel

example := C132_one_line (fun _ => false) shownTokens
example := C132_text (W := W) (s := ['a', ' ', '1']) (t := ['a', '\n', '1']) splitLaws (fun _ => false) .plain rfl rfl
end Demo

end LNlp
