import Verif.Lemmas.Debug
/- Reading back the tokens that `Debug` writes (for C132). -/
namespace LNlp
variable {W : World}

theorem token_prefix {esc : Char → Bool} {m : Form} {a b : LToken} {c : Char} {x y : Str} (hc : c ≠ '(')
    (h : a.dbg esc m ++ c :: x = b.dbg esc m ++ c :: y) : a = b ∧ x = y := by
  cases a with
  | Value =>
    cases b with
    | Value => simpa [LToken.dbg] using h
    | Text t g => cases m <;> simp [LToken.dbg, Form.tuple] at h
  | Text s f =>
    cases b with
    | Value => cases m <;> simp [LToken.dbg, Form.tuple] at h
    | Text t g =>
      cases m with
      | plain =>
        simp only [LToken.dbg, Form.tuple, commaSep, List.append_assoc, List.append_cancel_left_eq, List.cons_append,
          List.nil_append, List.cons.injEq, true_and] at h
        obtain ⟨rfl, k1⟩ := str_prefix h
        simp only [List.cons.injEq, true_and] at k1
        obtain ⟨rfl, k2⟩ := tag_prefix (by decide) k1
        exact ⟨rfl, by simpa using k2⟩
      | pretty =>
        simp only [LToken.dbg, Form.tuple, List.append_assoc, List.append_cancel_left_eq, List.cons_append,
          List.nil_append, List.cons.injEq, true_and] at h
        obtain ⟨h1, h2⟩ := entries_prefix (by decide) h
        simp only [entryText, List.flatMap_cons, List.flatMap_nil, List.append_nil, List.append_assoc] at h1
        obtain ⟨rfl, k3⟩ := str_prefix h1
        simp only [List.cons_append, List.nil_append, List.cons.injEq, true_and] at k3
        obtain ⟨rfl, _⟩ := tag_prefix (by decide) k3
        exact ⟨rfl, by simpa using h2⟩

theorem lltoken_prefix {esc : Char → Bool} {m : Form} {a b : LLToken} {x y : Str}
    (h : a.dbg esc m ++ x = b.dbg esc m ++ y) : a = b ∧ x = y := by
  obtain ⟨i, s, e, t⟩ := a
  obtain ⟨i', s', e', t'⟩ := b
  cases m with
  | plain =>
    simp only [LLToken.dbg, Form.struct, debugStruct, debugFields, List.append_assoc, List.append_cancel_left_eq,
      List.cons_append, List.nil_append, List.cons.injEq, true_and] at h
    obtain ⟨rfl, k4⟩ := nat_prefix (by decide) h
    simp only [List.append_cancel_left_eq, List.cons.injEq, true_and] at k4
    obtain ⟨rfl, k5⟩ := nat_prefix (by decide) k4
    simp only [List.append_cancel_left_eq, List.cons.injEq, true_and] at k5
    obtain ⟨rfl, k6⟩ := nat_prefix (by decide) k5
    simp only [List.append_cancel_left_eq, List.cons.injEq, true_and] at k6
    obtain ⟨rfl, k7⟩ := token_prefix (by decide) k6
    exact ⟨rfl, by simpa using k7⟩
  | pretty =>
    simp only [LLToken.dbg, Form.struct, List.map_cons, List.map_nil, List.append_assoc, List.append_cancel_left_eq,
      List.cons_append, List.nil_append, List.cons.injEq, true_and] at h
    obtain ⟨h1, h2⟩ := entries_prefix (by decide) h
    simp only [entryText, List.flatMap_cons, List.flatMap_nil, List.append_nil, List.append_assoc,
      List.append_cancel_left_eq, List.cons_append, List.nil_append, List.cons.injEq, true_and] at h1
    obtain ⟨rfl, k8⟩ := nat_prefix (by decide) h1
    simp only [List.append_cancel_left_eq, List.cons.injEq, true_and] at k8
    obtain ⟨rfl, k9⟩ := nat_prefix (by decide) k8
    simp only [List.append_cancel_left_eq, List.cons.injEq, true_and] at k9
    obtain ⟨rfl, k10⟩ := nat_prefix (by decide) k9
    simp only [List.append_cancel_left_eq, List.cons.injEq, true_and] at k10
    obtain ⟨rfl, _⟩ := token_prefix (by decide) k10
    exact ⟨rfl, h2⟩

theorem lltoken_first (esc : Char → Bool) (m : Form) (a : LLToken) : ∃ r, a.dbg esc m = 'L' :: r := by
  cases m <;> exact ⟨_, rfl⟩

theorem entryText_inj {esc : Char → Bool} : ∀ {ts us : List LLToken},
    entryText (ts.map (LLToken.dbg esc .pretty)) = entryText (us.map (LLToken.dbg esc .pretty)) → ts = us
  | [], [], _ => rfl
  | [], u :: us, h => by simp [entryText] at h
  | t :: ts, [], h => by simp [entryText] at h
  | t :: ts, u :: us, h => by
    simp only [entryText, List.map_cons, List.flatMap_cons, List.append_assoc] at h
    obtain ⟨rfl, k11⟩ := lltoken_prefix h
    simp only [List.cons_append, List.nil_append, List.cons.injEq, true_and] at k11
    rw [entryText_inj (ts := ts) (us := us) k11]

theorem commaSep_inj {esc : Char → Bool} : ∀ {ts us : List LLToken}, ts ≠ [] → us ≠ [] →
    commaSep (ts.map (LLToken.dbg esc .plain)) ++ [']'] = commaSep (us.map (LLToken.dbg esc .plain)) ++ [']'] → ts = us
  | [], _, h, _, _ => absurd rfl h
  | _, [], _, h, _ => absurd rfl h
  | [t], [u], _, _, h => by
    simp only [List.map_cons, List.map_nil, commaSep] at h
    rw [(lltoken_prefix h).1]
  | [t], u :: u' :: us, _, _, h => by
    simp only [List.map_cons, List.map_nil, commaSep, List.append_assoc] at h
    have := (lltoken_prefix h).2
    simp at this
  | t :: t' :: ts, [u], _, _, h => by
    simp only [List.map_cons, List.map_nil, commaSep, List.append_assoc] at h
    have := (lltoken_prefix h).2
    simp at this
  | t :: t' :: ts, u :: u' :: us, _, _, h => by
    simp only [List.map_cons, commaSep, List.append_assoc] at h
    obtain ⟨rfl, k12⟩ := lltoken_prefix h
    simp only [List.cons_append, List.nil_append, List.cons.injEq, true_and] at k12
    rw [commaSep_inj (ts := t' :: ts) (us := u' :: us) (by simp) (by simp) k12]

theorem tuple_inj {m : Form} {c : Char} {a b : Str} (h : m.tuple [c] [a] = m.tuple [c] [b]) : a = b := by
  cases m with
  | plain => simpa [Form.tuple, commaSep] using h
  | pretty =>
    simp only [Form.tuple, List.append_assoc, List.append_cancel_left_eq] at h
    have := (entries_prefix (x := []) (y := []) (by decide) h).1
    simpa [entryText] using this

theorem tuple_ne {m : Form} {c d : Char} {a b : Str} (hd : c ≠ d) : m.tuple [c] [a] ≠ m.tuple [d] [b] := by
  cases m <;> simp [Form.tuple, hd]

theorem commaSep_line : ∀ (es : List Str), (∀ e ∈ es, '\n' ∉ e) → '\n' ∉ commaSep es
  | [], _ => by decide
  | [e], h => by simpa [commaSep] using h
  | e :: e' :: es, h => by
    have ih := commaSep_line (e' :: es) (fun x hx => h x (by simp [List.mem_cons.1 hx]))
    simp only [commaSep, List.mem_append, not_or]
    exact ⟨⟨h e (by simp), by decide⟩, ih⟩

end LNlp
