import Verif.Model.Debug
/- What the `Debug` output of tokens looks like, written out (for C132). -/
namespace LNlp

/-- a token in the form `{:?}`; `text` is the quoted text of a text token -/
def tokenLine (quote : Str → Str) (t : LLToken) : Str :=
  "LLToken { token_idx: ".toList ++ (toString t.token_idx).toList ++
  ", pos_starts_at: ".toList ++ (toString t.pos_starts_at).toList ++
  ", pos_ends_at: ".toList ++ (toString t.pos_ends_at).toList ++
  ", token: ".toList ++
  (match t.token with
    | .Text s tag => "Text(".toList ++ quote s ++ ", ".toList ++ tag.dbg ++ ")".toList
    | .Value => "Value".toList) ++
  " }".toList

/-- the lines of a token in the form `{:#?}` -/
def tokenLines (quote : Str → Str) (t : LLToken) : List Str :=
  ["    LLToken {".toList,
   "        token_idx: ".toList ++ (toString t.token_idx).toList ++ ",".toList,
   "        pos_starts_at: ".toList ++ (toString t.pos_starts_at).toList ++ ",".toList,
   "        pos_ends_at: ".toList ++ (toString t.pos_ends_at).toList ++ ",".toList] ++
  (match t.token with
    | .Text s tag =>
      ["        token: Text(".toList,
       "            ".toList ++ quote s ++ ",".toList,
       "            ".toList ++ tag.dbg ++ ",".toList,
       "        ),".toList]
    | .Value => ["        token: Value,".toList]) ++
  ["    },".toList]

/-- lines, each with its line break -/
def unlines (ls : List Str) : Str := ls.flatMap (· ++ ['\n'])

/-- the characters that are written by a letter behind a backslash -/
def namedEscapes : List (Char × Char) := [('\x00', '0'), ('\t', 't'), ('\r', 'r'), ('\n', 'n'), ('"', '"'), ('\\', '\\')]

/-- `Escaped esc s t`: `t` is the text `s` as it is written between quotes; `esc` are the characters written by number -/
inductive Escaped (esc : Char → Bool) : Str → Str → Prop
  | nil : Escaped esc [] []
  | named {c d : Char} {s t : Str} : (c, d) ∈ namedEscapes → Escaped esc s t → Escaped esc (c :: s) (['\\', d] ++ t)
  | number {c : Char} {s t : Str} : (∀ d, (c, d) ∉ namedEscapes) → esc c = true → Escaped esc s t →
      Escaped esc (c :: s) (['\\', 'u', '{'] ++ Nat.toDigits 16 c.toNat ++ ['}'] ++ t)
  | itself {c : Char} {s t : Str} : (∀ d, (c, d) ∉ namedEscapes) → esc c = false → Escaped esc s t → Escaped esc (c :: s) (c :: t)

end LNlp
