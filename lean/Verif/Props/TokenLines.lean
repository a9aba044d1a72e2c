import Verif.Lemmas.TokenLines
import Verif.Props.DebugTokens
/- C132: the `Debug` output of tokens, written out. -/
namespace LNlp

section
variable {W : World}

/-- C132: `{:?}` writes the tokens, with the names of their fields, between brackets and with commas between them. -/
theorem C132_line (esc : Char → Bool) (l : LLLine W) :
    l.tokensDbg esc .plain =
      "[".toList ++ (", ".toList).intercalate (l.ll_tokens.map (tokenLine (strDbg esc))) ++ "]".toList := by
  rw [LLLine.tokensDbg, List.map_congr_left (fun t _ => token_plain esc t)]
  cases l.ll_tokens with
  | nil => simp [Form.list]
  | cons t ts => simp only [Form.list, comma_intercalate, List.map_cons, bracket_lit]

example := C132_line (fun _ => false) Demo.exLine

/-- C132: `{:#?}` writes the tokens of a line on lines of their own, with the names of their fields, each field on a line
of its own; no tokens are written as two brackets. -/
theorem C132_lines (esc : Char → Bool) (l : LLLine W) :
    (l.ll_tokens = [] → l.tokensDbg esc .pretty = "[]".toList) ∧
    (l.ll_tokens ≠ [] → l.tokensDbg esc .pretty ++ ['\n'] =
      unlines (["[".toList] ++ l.ll_tokens.flatMap (tokenLines (strDbg esc)) ++ ["]".toList])) := by
  constructor
  · intro h
    simp [LLLine.tokensDbg, h, Form.list]
  · intro ne
    have hq : ∀ s, '\n' ∉ strDbg esc s := strDbg_line esc
    have hg : ∀ g : TextTag, '\n' ∉ g.dbg := by intro g; cases g <;> decide
    have field : ∀ (name : Str) (n : Nat), '\n' ∉ name →
        indent true (name ++ [':', ' '] ++ natDbg n ++ [',', '\n']) =
          unlines ["    ".toList ++ name ++ [':', ' '] ++ natDbg n ++ [',']] := by
      intro name n hn
      rw [entry_line (by simp [hn, nat_line n])]
      simp
    have one : ∀ t : LLToken, indent true (t.dbg esc .pretty ++ [',', '\n']) = unlines (tokenLines (strDbg esc) t) := by
      intro t
      have f1 := field "token_idx".toList t.token_idx (by decide)
      have f2 := field "pos_starts_at".toList t.pos_starts_at (by decide)
      have f3 := field "pos_ends_at".toList t.pos_ends_at (by decide)
      cases h : t.token with
      | Value =>
        have f4 : indent true ("token".toList ++ [':', ' '] ++ "Value".toList ++ [',', '\n']) =
          unlines ["    token: Value,".toList] := by decide
        have e : t.dbg esc .pretty ++ [',', '\n'] = unlines ["LLToken {".toList,
            "    token_idx: ".toList ++ natDbg t.token_idx ++ [','],
            "    pos_starts_at: ".toList ++ natDbg t.pos_starts_at ++ [','],
            "    pos_ends_at: ".toList ++ natDbg t.pos_ends_at ++ [','],
            "    token: Value,".toList, "},".toList] := by
          simp only [LLToken.dbg, Form.struct, prettyEntries, List.map_cons, List.map_nil, List.flatMap_cons,
            List.flatMap_nil, f1, f2, f3, LToken.dbg, h, f4]
          simp [unlines]
        rw [e, indent_unlines _ (by simp [nat_line])]
        simp [tokenLines, h, natDbg_toString]
      | Text s g =>
        have f4 : indent true ("token".toList ++ [':', ' '] ++ (LToken.Text s g).dbg esc .pretty ++ [',', '\n']) =
          unlines ["    token: Text(".toList, "        ".toList ++ strDbg esc s ++ [','],
            "        ".toList ++ g.dbg ++ [','], "    ),".toList] := by
          have e : "token".toList ++ [':', ' '] ++ (LToken.Text s g).dbg esc .pretty ++ [',', '\n'] =
              unlines ["token: Text(".toList, "    ".toList ++ strDbg esc s ++ [','], "    ".toList ++ g.dbg ++ [','],
                "),".toList] := by
            simp only [LToken.dbg, Form.tuple, prettyEntries, List.flatMap_cons, List.flatMap_nil, entry_line (hq s),
              entry_line (hg g)]
            simp [unlines]
          rw [e, indent_unlines _ (by simp [hq s, hg g])]
          simp
        have e : t.dbg esc .pretty ++ [',', '\n'] = unlines ["LLToken {".toList,
            "    token_idx: ".toList ++ natDbg t.token_idx ++ [','],
            "    pos_starts_at: ".toList ++ natDbg t.pos_starts_at ++ [','],
            "    pos_ends_at: ".toList ++ natDbg t.pos_ends_at ++ [','],
            "    token: Text(".toList, "        ".toList ++ strDbg esc s ++ [','],
            "        ".toList ++ g.dbg ++ [','], "    ),".toList, "},".toList] := by
          simp only [LLToken.dbg, Form.struct, prettyEntries, List.map_cons, List.map_nil, List.flatMap_cons,
            List.flatMap_nil, f1, f2, f3, h, f4]
          simp [unlines]
        rw [e, indent_unlines _ (by simp [nat_line, hq s, hg g])]
        simp [tokenLines, h, natDbg_toString]
    have all : ∀ ts : List LLToken, prettyEntries (ts.map (LLToken.dbg esc .pretty)) =
        unlines (ts.flatMap (tokenLines (strDbg esc))) := by
      intro ts
      induction ts with
      | nil => rfl
      | cons t ts ih =>
        rw [List.flatMap_cons, unlines_append, ← ih, ← one t]
        simp [prettyEntries]
    rw [unlines_append, unlines_append, ← all]
    cases hts : l.ll_tokens with
    | nil => exact absurd hts ne
    | cons t ts => simp [LLLine.tokensDbg, hts, Form.list, unlines]

example : Demo.exLine.ll_tokens ≠ [] := by decide
example := C132_lines (fun _ => false) Demo.exLine

/-- C132: texts are written in quotes, with the usual escapes for the characters that have one, the other characters that
are not printable by their number, and all other characters as they are. -/
theorem C132_strings (esc : Char → Bool) (s : Str) : ∃ t, strDbg esc s = ['"'] ++ t ++ ['"'] ∧ Escaped esc s t := by
  refine ⟨s.flatMap (escapeChar esc), rfl, ?_⟩
  induction s with
  | nil => exact .nil
  | cons c s ih =>
    rw [List.flatMap_cons]
    unfold escapeChar
    split
    · next h => exact .named (by simp [namedEscapes, h]) ih
    split
    · next h => exact .named (by simp [namedEscapes, h]) ih
    split
    · next h => exact .named (by simp [namedEscapes, h]) ih
    split
    · next h => exact .named (by simp [namedEscapes, h]) ih
    split
    · next h => exact .named (by simp [namedEscapes, h]) ih
    split
    · next h => exact .named (by simp [namedEscapes, h]) ih
    next h1 h2 h3 h4 h5 h6 =>
    have no : ∀ d, (c, d) ∉ namedEscapes := by
      intro d hd
      simp [namedEscapes, h1, h2, h3, h4, h5, h6] at hd
    split
    · next h => exact .number no h ih
    · next h => exact .itself no (by simpa using h) ih

example : strDbg (fun c => c.toNat > 127) "a\"é\n".toList = "\"a\\\"\\u{e9}\\n\"".toList := by decide
example := C132_strings (fun c => c.toNat > 127) "a\"é\n".toList
end

end LNlp
