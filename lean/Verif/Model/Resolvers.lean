import Verif.Model.Selection
/-
Model of the resolvers: /repo/src/resolvers/text_match.rs, /repo/layered-part-of-speech/src/lib.rs,
/repo/layered-clauses/src/{clause_keyword,clauses}.rs and /repo/layered-amount/src/amounts.rs.
None of them keeps a selection alive, hence `false` as the leak flag in the `Resolver` values.
-/
namespace LNlp
variable {W : World}

/-! ### TextMatchAssignResolver -/

/-- `TextMatchAssignResolver<T>`, text_match.rs:9-13 -/
structure TextMatchAssignResolver (W : World) (k : Ty W) where
  case_sensitive : Bool
  lookup : HMap Str (List (Val k))

/-- `TextMatchAssignResolver::new`, text_match.rs:16-21 -/
def TextMatchAssignResolver.new (k : Ty W) (lookup : HMap Str (List (Val k))) :
    TextMatchAssignResolver W k :=
  { case_sensitive := true, lookup }

/-- `iter.collect::<HashMap<_, _>>()`, text_match.rs:25-28, 34-37: later pairs overwrite earlier ones -/
def collectMap {V : Type} (entries : List (Str × V)) : HMap Str V :=
  entries.foldl (fun m e => m.set e.1 e.2) HMap.empty

/-- `new_case_insensitive`, text_match.rs:22-30.  `entries` are the entries of the given `HashMap`
in the (unspecified) order in which `into_iter` yields them. -/
def TextMatchAssignResolver.newCaseInsensitive (k : Ty W) (entries : List (Str × List (Val k))) :
    TextMatchAssignResolver W k :=
  { case_sensitive := false
    lookup := collectMap (entries.map (fun e => (W.toLowercase e.1, e.2))) }

/-- `new_case_insensitive_str_arr`, text_match.rs:31-39 -/
def TextMatchAssignResolver.newCaseInsensitiveStrArr (k : Ty W) (arr : List (Str × Val k)) :
    TextMatchAssignResolver W k :=
  { case_sensitive := false
    lookup := collectMap (arr.map (fun e => (W.toLowercase e.1, [e.2]))) }

/-- `TextMatchAssignResolver::go`, text_match.rs:45-64 -/
def TextMatchAssignResolver.go {k : Ty W} (r : TextMatchAssignResolver W k)
    (selection : LLSelection W) : R (List (LLCursorAssignment (Val k))) :=
  match selection.findBy X.tokenText with
  | .error e => .error e
  | .ok found =>
    .ok (found.flatMap (fun st =>
      match (if r.case_sensitive then r.lookup.get? st.2
             else r.lookup.get? (W.toLowercase st.2)) with
      | some values => values.map (fun attr => st.1.finishWithAttr attr)
      | none => []))

/-- `impl Resolver for TextMatchAssignResolver`, text_match.rs:42-65 -/
def TextMatchAssignResolver.resolver {k : Ty W} (r : TextMatchAssignResolver W k) : Resolver W :=
  { attr := k
    go := fun sel => match r.go sel with
      | .ok as => .ok (as, false)
      | .error e => .error e }

/-! ### POSTagResolver -/

/-- `POSTagResolver::go`, layered-part-of-speech/src/lib.rs:17-29 -/
def posTagGo (selection : LLSelection W) : R (List (LLCursorAssignment W.Tag)) :=
  match selection.findBy (X.all2 (X.attrEq Ty.textTag TextTag.WORD) X.tokenText) with
  | .error e => .error e
  | .ok found =>
    .ok (found.flatMap (fun st =>
      ((W.tagLookup (W.toLowercase st.2.2)).getD [W.nounTag]).map
        (fun tag => st.1.finishWithAttr tag)))

/-- `impl Resolver for POSTagResolver`, layered-part-of-speech/src/lib.rs:14-30 -/
def posTagResolver (W : World) : Resolver W :=
  { attr := Ty.tag
    go := fun sel => match posTagGo sel with
      | .ok as => .ok (as, false)
      | .error e => .error e }

/-! ### ClauseKeywordResolver -/

/-- `ClauseKeywordResolver`, layered-clauses/src/clause_keyword.rs:13-27 -/
structure ClauseKeywordResolver where
  cond_start : List Str
  and : List Str
  then_ : List Str

/-- the body of the `flat_map` closure, clause_keyword.rs:36-47 -/
def ClauseKeywordResolver.classify (r : ClauseKeywordResolver) (text : Str) :
    Option ClauseKeyword :=
  if r.cond_start.contains text then some .ConditionStart
  else if r.then_.contains text then some .Then
  else if r.and.contains text then some .And
  else none

/-- `ClauseKeywordResolver::go`, clause_keyword.rs:32-51 -/
def ClauseKeywordResolver.go (r : ClauseKeywordResolver) (sel : LLSelection W) :
    R (List (LLCursorAssignment ClauseKeyword)) :=
  match sel.findBy X.tokenText with
  | .error e => .error e
  | .ok found =>
    .ok (found.filterMap (fun st =>
      (r.classify (W.toLowercase st.2)).map (fun kw => st.1.finishWithAttr kw)))

/-- `impl Resolver for ClauseKeywordResolver`, clause_keyword.rs:29-52 -/
def ClauseKeywordResolver.resolver (W : World) (r : ClauseKeywordResolver) : Resolver W :=
  { attr := Ty.clauseKeyword
    go := fun sel => match r.go sel with
      | .ok as => .ok (as, false)
      | .error e => .error e }

/-! ### ClauseResolver -/

/-- the matcher `any_of((attr::<ClauseKeyword>(), attr_eq(&TextTag::PUNC)))`, clauses.rs:23-26 -/
def clauseDelimiter (W : World) : XMatch W (AnyOf2 ClauseKeyword Unit) :=
  X.anyOf2 (X.attr Ty.clauseKeyword) (X.attrEq Ty.textTag TextTag.PUNC)

/-- the single-piece branch, clauses.rs:28-41 -/
def clauseSingle (clause_selection : LLSelection W) : R (List (LLCursorAssignment Clause)) :=
  match clause_selection.trim X.whitespace with
  | .error e => .error e
  | .ok none => .ok []
  | .ok (some trimmed) =>
    match clause_selection.matchFirstBackwards (X.attr (W := W) Ty.clauseKeyword) with
    | .error e => .error e
    | .ok (some (_, ClauseKeyword.ConditionStart)) => .ok [trimmed.finishWithAttr .Condition]
    | .ok _ => .ok [trimmed.finishWithAttr .Independent]

/-- the body of the `filter_map` closure, clauses.rs:45-73, with its mutable captured variable
`condition_clause_found` and the output so far as the state -/
def clauseStep (st : Bool × List (LLCursorAssignment Clause)) (clause_selection : LLSelection W) :
    R (Bool × List (LLCursorAssignment Clause)) :=
  match clause_selection.trim X.whitespace with
  | .error e => .error e
  | .ok none => .ok st
  | .ok (some trimmed) =>
    match clause_selection.matchFirstBackwards (X.attr (W := W) Ty.clauseKeyword) with
    | .error e => .error e
    | .ok (some (_, ClauseKeyword.ConditionStart)) =>
      .ok (true, st.2 ++ [trimmed.finishWithAttr .Condition])
    | .ok (some (_, ClauseKeyword.Then)) =>
      .ok (st.1, st.2 ++ [trimmed.finishWithAttr .TrailingEffect])
    | .ok (some (_, ClauseKeyword.And)) =>
      .ok (st.1, st.2 ++ [trimmed.finishWithAttr
        (if st.1 then Clause.TrailingEffect else Clause.LeadingEffect)])
    | .ok none =>
      if st.1 then .ok (st.1, st.2 ++ [trimmed.finishWithAttr .TrailingEffect])
      else .ok (st.1, st.2 ++ [trimmed.finishWithAttr .LeadingEffect])

/-- `ClauseResolver::go`, clauses.rs:20-76 -/
def clauseGo (selection : LLSelection W) : R (List (LLCursorAssignment Clause)) :=
  match selection.splitBy (clauseDelimiter W) with
  | .error e => .error e
  | .ok [c] => clauseSingle c
  | .ok clauses =>
    match foldR clauseStep (false, []) clauses with
    | .error e => .error e
    | .ok st => .ok st.2

/-- `impl Resolver for ClauseResolver`, clauses.rs:17-77 -/
def clauseResolver (W : World) : Resolver W :=
  { attr := Ty.clause
    go := fun sel => match clauseGo sel with
      | .ok as => .ok (as, false)
      | .error e => .error e }

/-! ### AmountResolver -/

/-- `AmountResolver`, layered-amount/src/amounts.rs:22-34 -/
structure AmountResolver where
  delimiters : List Char
  decimal : Char

/-- `AmountResolver::english`, amounts.rs:40-45 -/
def AmountResolver.english : AmountResolver := { delimiters := [',', '\''], decimal := '.' }

/-- `AmountResolver::french`, amounts.rs:51-56 -/
def AmountResolver.french : AmountResolver := { delimiters := [' ', '.', '\''], decimal := '.' }

/-- `x::all((x::attr_eq(&TextTag::NATN), x::token_text()))`, amounts.rs:66,83,104 -/
def natnText (W : World) : XMatch W (Unit × Str) :=
  X.all2 (X.attrEq Ty.textTag TextTag.NATN) X.tokenText

/-- The mutable variables of one iteration of the outer loop, amounts.rs:65,68,69. -/
structure AmountSt (W : World) where
  selection : LLSelection W
  number_string : Str
  last_valid_selection : Option (LLSelection W)

/-- the inner `loop`, amounts.rs:72-91, with fuel -/
def AmountResolver.delimiterLoop (r : AmountResolver) : Nat → AmountSt W → R (AmountSt W)
  | 0, _ => .error .stillRunning
  | fuel + 1, st =>
    match st.selection.matchFirstForwards (X.tokenHasAny (W := W) Ty.char r.delimiters) with
    | .error e => .error e
    | .ok none => .ok st
    | .ok (some (delimeter_sel, _)) =>
      let last_valid_selection := some st.selection
      let selection := delimeter_sel
      match selection.matchFirstForwards (natnText W) with
      | .error e => .error e
      | .ok (some (following_delimeter_sel, (_, text))) =>
        r.delimiterLoop fuel
          { selection := following_delimeter_sel
            number_string := st.number_string ++ text
            last_valid_selection := none }
      | .ok none => .ok { selection, number_string := st.number_string, last_valid_selection }

/-- the decimal part, amounts.rs:93-110 -/
def AmountResolver.decimalPart (r : AmountResolver) (st : AmountSt W) : R (AmountSt W) :=
  match st.last_valid_selection with
  | some _ => .ok st
  | none =>
    match st.selection.matchFirstForwards (X.tokenHasAny (W := W) Ty.char [r.decimal]) with
    | .error e => .error e
    | .ok dec =>
      let st : AmountSt W :=
        match dec with
        | some (with_decimal_sel, _) =>
          { selection := with_decimal_sel
            number_string := st.number_string ++ ['.']
            last_valid_selection := some st.selection }
        | none => st
      match st.selection.matchFirstForwards (natnText W) with
      | .error e => .error e
      | .ok (some (following_decimal_sel, (_, text))) =>
        .ok { selection := following_decimal_sel
              number_string := st.number_string ++ text
              last_valid_selection := none }
      | .ok none => .ok st

/-- the outer `while let` loop of `AmountResolver::go`, amounts.rs:65-123, with fuel (the inner loop
gets `inner` fuel) -/
def AmountResolver.outerLoop (r : AmountResolver) (inner : Nat) :
    Nat → LLSelection W → List (LLCursorAssignment W.Decimal) →
    R (List (LLCursorAssignment W.Decimal))
  | 0, _, _ => .error .stillRunning
  | fuel + 1, search_range_sel, attrs =>
    match search_range_sel.findFirstBy (natnText W) with
    | .error e => .error e
    | .ok none => .ok attrs
    | .ok (some (selection, (_, text))) =>
      match r.delimiterLoop inner
          { selection, number_string := text, last_valid_selection := none } with
      | .error e => .error e
      | .ok st =>
        match r.decimalPart st with
        | .error e => .error e
        | .ok st =>
          match W.parseDecimal st.number_string with
          | none => .error .decimal
          | some d =>
            let attrs := attrs ++ [(st.last_valid_selection.getD st.selection).finishWithAttr d]
            match search_range_sel.splitWith st.selection with
            | .error e => .error e
            | .ok (_, some right_sel) => r.outerLoop inner fuel right_sel attrs
            | .ok (_, none) => .ok attrs

/-- `AmountResolver::go`, amounts.rs:62-126.  The fuel is one more than the number of tokens of the
line for either loop; that this is enough on every reachable line is theorem C64. -/
def AmountResolver.go (r : AmountResolver) (search_range_sel : LLSelection W) :
    R (List (LLCursorAssignment W.Decimal)) :=
  let n := search_range_sel.ll_line.val.ll_tokens.length
  r.outerLoop (n + 1) (n + 1) search_range_sel []

/-- `impl Resolver for AmountResolver`, amounts.rs:59-127 -/
def AmountResolver.resolver (W : World) (r : AmountResolver) : Resolver W :=
  { attr := Ty.amount
    go := fun sel => match r.go sel with
      | .ok as => .ok (as, false)
      | .error e => .error e }

end LNlp
