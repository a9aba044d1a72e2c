import Verif.Spec.Select
import Verif.Model.Resolvers
/- Specification of the resolvers. -/
namespace LNlp
variable {W : World}

/-- the text of token `i`, if it is a text token of the line -/
def textAt (l : LLLine W) (i : Nat) : Option Str :=
  (l.ll_tokens[i]?).bind (fun t => match t.token with
    | .Text s _ => some s
    | .Value => none)

/-- the indices `a ..= b` in order -/
def between (a b : Nat) : List Nat := List.range' a (b + 1 - a)

/-- the tag the tokenizer gave token `i` -/
def tagAt (l : LLLine W) (i : Nat) : Option TextTag :=
  (l.ll_tokens[i]?).bind (fun t => match t.token with
    | .Text _ tag => some tag
    | .Value => none)

/-- the tags of the line are exactly those of the tokenizer -/
def PlainTags (l : LLLine W) (h : History W) : Prop :=
  (∀ i, (valuesOf .textTag (i, i) h : List TextTag) = (tagAt l i).toList) ∧
  ∀ x ∈ h, x.ty = .textTag → x.range.1 = x.range.2

/-- the character of token `i`, if it is a text token of one character -/
def charAt (l : LLLine W) (i : Nat) : Option Char :=
  match textAt l i with
  | some [c] => some c
  | _ => none

/-- the `char` attributes of the line are exactly those of the tokenizer -/
def PlainChars (l : LLLine W) (h : History W) : Prop :=
  (∀ i, (valuesOf .char (i, i) h : List Char) = (charAt l i).toList) ∧
  ∀ x ∈ h, x.ty = .char → x.range.1 = x.range.2

/-- no input carries custom attributes of type `k` -/
def NoCustom (k : Ty W) (input : List (InputToken W)) : Prop :=
  ∀ t ∈ input, ∀ a ∈ t.attrList, a.value.ty ≠ k

/-- the tag values on token `i` -/
def tagsOn (h : History W) (i : Nat) : List TextTag := valuesOf (W := W) .textTag (i, i) h

/-- the clause keywords on token `i`, oldest first -/
def keywordsOn (h : History W) (i : Nat) : List ClauseKeyword := valuesOf (W := W) .clauseKeyword (i, i) h

/-- lowercasing twice is lowercasing once -/
def LowerIdem (W : World) : Prop := ∀ s, W.toLowercase (W.toLowercase s) = W.toLowercase s

/-- what a table assigns to token `i`: nothing if it is not a text token, otherwise the entry of its text,
in lowercase unless the table is case sensitive -/
def tableValues {k : Ty W} (r : TextMatchAssignResolver W k) (l : LLLine W) (i : Nat) : List (Val k) :=
  match textAt l i with
  | none => []
  | some t => (r.lookup (if r.case_sensitive then t else W.toLowercase t)).getD []

/-- the part-of-speech tags of token `i`: for every `WORD` tag the tags of its lowercase text, `Noun` if
there are none -/
def posTags (l : LLLine W) (h : History W) (i : Nat) : List W.Tag :=
  match textAt l i with
  | none => []
  | some t => (List.replicate ((tagsOn h i).count .WORD) ((W.tagLookup (W.toLowercase t)).getD [W.nounTag])).flatten

/-! ### Clauses -/

/-- the keyword a lowercase text stands for -/
def IsKeyword (r : ClauseKeywordResolver) (t : Str) : ClauseKeyword → Prop
  | .ConditionStart => t ∈ r.cond_start
  | .Then => t ∉ r.cond_start ∧ t ∈ r.then_
  | .And => t ∉ r.cond_start ∧ t ∉ r.then_ ∧ t ∈ r.and

/-- token `i` separates clauses: it carries a clause keyword or is punctuation -/
def Delim (h : History W) (i : Nat) : Prop := keywordsOn h i ≠ [] ∨ TextTag.PUNC ∈ tagsOn h i

/-- tags and clause keywords sit on single tokens -/
def OneToken (h : History W) : Prop :=
  ∀ x ∈ h, (x.ty = .clauseKeyword ∨ x.ty = .textTag) → x.range.1 = x.range.2

/-- `ps` lists, in order, the maximal runs of tokens of `a ..= b` that do not satisfy `D` -/
def MaximalRuns (D : Nat → Prop) (a b : Nat) (ps : List LRange) : Prop :=
  ps.Pairwise (fun p q => p.2 < q.1) ∧
  ∀ i j, (i, j) ∈ ps ↔ a ≤ i ∧ i ≤ j ∧ j ≤ b ∧ (∀ t, i ≤ t → t ≤ j → ¬ D t) ∧
    (i = a ∨ D (i - 1)) ∧ (j = b ∨ D (j + 1))

/-- a run without one leading and one trailing whitespace token; nothing if no token is left -/
def trimmed (h : History W) (p : LRange) : Option LRange :=
  let first := if TextTag.SPACE ∈ tagsOn h p.1 then p.1 + 1 else p.1
  let stop := if TextTag.SPACE ∈ tagsOn h p.2 then p.2 else p.2 + 1
  if first < stop then some (first, stop - 1) else none

/-- the keyword on the token just before the run -/
def keywordBefore (h : History W) (p : LRange) : Option ClauseKeyword :=
  if p.1 = 0 then none else (keywordsOn h (p.1 - 1)).head?

/-- a run that becomes a `Condition` -/
def isCondition (h : History W) (p : LRange) : Bool :=
  (trimmed h p).isSome && keywordBefore h p == some .ConditionStart

/-- the kind of a clause after keyword `kw`, if there are several runs; `afterCondition`: an earlier run
is a condition -/
def kindOf (afterCondition : Bool) (kw : Option ClauseKeyword) : Clause :=
  match kw with
  | some .ConditionStart => .Condition
  | some .Then => .TrailingEffect
  | _ => if afterCondition then .TrailingEffect else .LeadingEffect

/-- the kind of a clause, if there are several runs; `earlier` are the runs before it -/
def clauseKind (h : History W) (earlier : List LRange) (p : LRange) : Clause :=
  kindOf (earlier.any (isCondition h)) (keywordBefore h p)

/-- the clauses of the runs `ps` -/
def clausesOf (h : History W) (ps : List LRange) : List (LLCursorAssignment Clause) :=
  match ps with
  | [p] => (trimmed h p).toList.map (fun r => ⟨r.1, r.2,
      if keywordBefore h p = some .ConditionStart then .Condition else .Independent⟩)
  | ps => ps.zipIdx.filterMap (fun q =>
      (trimmed h q.1).map (fun r => ⟨r.1, r.2, clauseKind h (ps.take q.2) q.1⟩))

end LNlp
