import Verif.Lemmas.Debug
import Verif.Demo.Examples
/- C116: what `{:?}` tells about selections, finds and assignments. -/
namespace LNlp
variable {W : World}

/-- C116: selections of one line print the same exactly if they are equal. -/
theorem C116_selections (s t : LLSelection W) (hl : s.ll_line.ptr = t.ll_line.ptr) :
    s.dbg = t.dbg ↔ s.eq t = true := by
  constructor
  · intro h
    simp only [LLSelection.dbg, debugStruct, debugFields, List.append_assoc, List.cons_append, List.nil_append,
      List.append_cancel_left_eq, List.cons.injEq, true_and] at h
    obtain ⟨h1, h2⟩ := nat_prefix (by decide) h
    simp only [List.cons.injEq, true_and, List.append_cancel_left_eq] at h2
    obtain ⟨h3, _⟩ := nat_prefix (by decide) h2
    simp [LLSelection.eq, h1, h3, hl]
  · intro h
    simp only [LLSelection.eq, Bool.and_eq_true, beq_iff_eq, decide_eq_true_eq] at h
    simp only [LLSelection.dbg, h.1.1, h.1.2]

example := C116_selections ⟨⟨7, Demo.exLine⟩, 1, 12⟩ ⟨⟨7, Demo.exLine⟩, 11, 2⟩ rfl

/-- C116: finds print the same exactly if they have the same `range()` and their values print the same. -/
theorem C116_finds {Found : Type} (dbg : Found → Str) (f g : LLLineFind Found) :
    f.dbg dbg = g.dbg dbg ↔ f.range = g.range ∧ dbg f.attr = dbg g.attr := by
  constructor
  · intro h
    simp only [LLLineFind.dbg, debugStruct, debugFields, List.append_assoc, List.cons_append, List.nil_append,
      List.append_cancel_left_eq, List.cons.injEq, true_and] at h
    obtain ⟨h1, h2⟩ := nat_prefix (by decide) h
    simp only [List.cons.injEq, true_and, List.append_cancel_left_eq] at h2
    obtain ⟨h3, h4⟩ := nat_prefix (by decide) h2
    simp only [List.cons.injEq, true_and, List.append_cancel_left_eq, List.append_cancel_right_eq] at h4
    exact ⟨by simp only [LLLineFind.range, h1, h3], h4⟩
  · rintro ⟨h1, h2⟩
    simp only [LLLineFind.range, Prod.mk.injEq] at h1
    simp only [LLLineFind.attr] at h2
    simp only [LLLineFind.dbg, h1.1, h1.2, h2]

example := C116_finds natDbg ⟨3, 14, 5⟩ ⟨31, 4, 5⟩

/-- C116: assignments print the same exactly if they have the same range and their values print the same. -/
theorem C116_assignments {Attr : Type} (dbg : Attr → Str) (a b : LLCursorAssignment Attr) :
    a.dbg dbg = b.dbg dbg ↔ a.start_idx = b.start_idx ∧ a.end_idx = b.end_idx ∧ dbg a.value = dbg b.value := by
  constructor
  · intro h
    simp only [LLCursorAssignment.dbg, debugStruct, debugFields, List.append_assoc, List.cons_append, List.nil_append,
      List.append_cancel_left_eq, List.cons.injEq, true_and] at h
    obtain ⟨h1, h2⟩ := nat_prefix (by decide) h
    simp only [List.cons.injEq, true_and, List.append_cancel_left_eq] at h2
    obtain ⟨h3, h4⟩ := nat_prefix (by decide) h2
    simp only [List.cons.injEq, true_and, List.append_cancel_left_eq, List.append_cancel_right_eq] at h4
    exact ⟨h1, h3, h4⟩
  · rintro ⟨h1, h2, h3⟩
    simp only [LLCursorAssignment.dbg, h1, h2, h3]

example := C116_assignments natDbg ⟨3, 14, 5⟩ ⟨31, 4, 5⟩

/-- C116: a prepared attribute does not print its value. -/
theorem C116_attributes (k k' : Ty W) (v : Val k) (v' : Val k') :
    (AnyAttribute.new k v).dbg = (AnyAttribute.new k' v').dbg := rfl

example := C116_attributes (W := Demo.W) (Ty.user (0 : Nat)) .char (['A'] : Str) 'x'

/-- C116: the tags, keywords and clauses that come with the crates print as their names in the source, so different ones
print differently. -/
theorem C116_names :
    (∀ a b : TextTag, a.dbg = b.dbg ↔ a = b) ∧ (∀ a b : ClauseKeyword, a.dbg = b.dbg ↔ a = b) ∧
    (∀ a b : Clause, a.dbg = b.dbg ↔ a = b) ∧
    [TextTag.NATN, .PUNC, .SYMB, .SPACE, .WORD].map TextTag.dbg = ["NATN", "PUNC", "SYMB", "SPACE", "WORD"].map String.toList ∧
    [ClauseKeyword.ConditionStart, .Then, .And].map ClauseKeyword.dbg = ["ConditionStart", "Then", "And"].map String.toList ∧
    [Clause.LeadingEffect, .TrailingEffect, .Condition, .Independent].map Clause.dbg =
      ["LeadingEffect", "TrailingEffect", "Condition", "Independent"].map String.toList := by
  refine ⟨fun a b => ?_, fun a b => ?_, fun a b => ?_, by decide, by decide, by decide⟩ <;>
    cases a <;> cases b <;> decide

/-- two exact texts -/
theorem Demo.debugTexts : (LLSelection.mk (W := Demo.W) ⟨7, Demo.exLine⟩ 1 12).dbg = "LLSelection { start_idx: 1, end_idx: 12 }".toList ∧
    (LLLineFind.mk 0 5 2).dbg natDbg = "LLLineFind { start: 0, end: 5, found: 2 }".toList := ⟨by decide, by decide⟩

end LNlp
