import Verif.Spec.TokenLines
import Verif.Lemmas.Debug
/- Lines and indentation of `Debug` output (for C132). -/
namespace LNlp

theorem unlines_append (a b : List Str) : unlines (a ++ b) = unlines a ++ unlines b := by
  simp [unlines]

theorem natDbg_toString (n : Nat) : natDbg n = (toString n).toList := by
  simp [natDbg, Nat.toString_eq_repr, Nat.repr]

theorem nat_line (n : Nat) : '\n' ∉ natDbg n := fun h => absurd (natDbg_digits n _ h) (by decide)

theorem indent_within : ∀ (s t : Str), '\n' ∉ s → indent false (s ++ '\n' :: t) = s ++ '\n' :: indent true t
  | [], _, _ => rfl
  | c :: s, t, h => by
    have hc : (c == '\n') = false := by
      simp only [beq_eq_false_iff_ne]
      exact fun e => h (by simp [e])
    simp only [List.cons_append, indent, hc, indent_within s t (fun k => h (by simp [k]))]
    simp

theorem indent_line : ∀ (s t : Str), s ≠ [] → '\n' ∉ s →
    indent true (s ++ '\n' :: t) = "    ".toList ++ s ++ '\n' :: indent true t
  | [], _, h, _ => absurd rfl h
  | c :: s, t, _, h => by
    have hc : (c == '\n') = false := by
      simp only [beq_eq_false_iff_ne]
      exact fun e => h (by simp [e])
    simp only [List.cons_append, indent, hc, indent_within s t (fun k => h (by simp [k]))]
    simp

theorem indent_unlines : ∀ (ls : List Str), (∀ s ∈ ls, s ≠ [] ∧ '\n' ∉ s) →
    indent true (unlines ls) = unlines (ls.map ("    ".toList ++ ·))
  | [], _ => rfl
  | s :: ls, h => by
    have e : unlines (s :: ls) = s ++ '\n' :: unlines ls := by simp [unlines]
    rw [e, indent_line s _ (h s (by simp)).1 (h s (by simp)).2, indent_unlines ls (fun x hx => h x (by simp [hx]))]
    simp [unlines]

/-- an entry that is one line -/
theorem entry_line {s : Str} (h : '\n' ∉ s) : indent true (s ++ [',', '\n']) = unlines ["    ".toList ++ s ++ [',']] := by
  have := indent_unlines [s ++ [',']] (by simp [h])
  simpa [unlines] using this

theorem token_plain (esc : Char → Bool) (t : LLToken) : t.dbg esc .plain = tokenLine (strDbg esc) t := by
  have e1 : ∀ x : Str, "LLToken".toList ++ ([' ', '{', ' '] ++ ("token_idx".toList ++ ([':', ' '] ++ x))) =
    "LLToken { token_idx: ".toList ++ x := fun _ => rfl
  have e2 : ∀ x : Str, [',', ' '] ++ ("pos_starts_at".toList ++ ([':', ' '] ++ x)) =
    ", pos_starts_at: ".toList ++ x := fun _ => rfl
  have e3 : ∀ x : Str, [',', ' '] ++ ("pos_ends_at".toList ++ ([':', ' '] ++ x)) =
    ", pos_ends_at: ".toList ++ x := fun _ => rfl
  have e4 : ∀ x : Str, [',', ' '] ++ ("token".toList ++ ([':', ' '] ++ x)) = ", token: ".toList ++ x := fun _ => rfl
  have e5 : ∀ x : Str, "Text".toList ++ (['('] ++ x) = "Text(".toList ++ x := fun _ => rfl
  have e6 : [' ', '}'] = " }".toList := rfl
  have e7 : ∀ x : Str, [',', ' '] ++ x = ", ".toList ++ x := fun _ => rfl
  have e8 : ∀ x : Str, [')'] ++ x = ")".toList ++ x := fun _ => rfl
  have c : ∀ {p x y : Str}, x = y → p ++ x = p ++ y := fun h => by rw [h]
  cases t with
  | mk i a b k =>
    cases k with
    | Value =>
      simp only [LLToken.dbg, Form.struct, debugStruct, debugFields, LToken.dbg, List.append_assoc, natDbg_toString]
      unfold tokenLine
      simp only [List.append_assoc]
      exact (e1 _).trans (c (c ((e2 _).trans (c (c ((e3 _).trans (c (c ((e4 _).trans (c (c e6)))))))))))
    | Text x g =>
      simp only [LLToken.dbg, Form.struct, debugStruct, debugFields, LToken.dbg, Form.tuple, commaSep, List.append_assoc,
        natDbg_toString]
      unfold tokenLine
      simp only [List.append_assoc]
      exact (e1 _).trans (c (c ((e2 _).trans (c (c ((e3 _).trans (c (c ((e4 _).trans (c ((e5 _).trans
        (c (c ((e7 _).trans (c (c ((e8 _).trans (c e6))))))))))))))))))

theorem comma_intercalate (es : List Str) : commaSep es = (", ".toList).intercalate es := by
  induction es with
  | nil => rfl
  | cons e es ih => cases es <;> simp_all [commaSep, List.intercalate]

theorem bracket_lit : "[".toList = ['['] ∧ "]".toList = [']'] := ⟨rfl, rfl⟩

end LNlp
