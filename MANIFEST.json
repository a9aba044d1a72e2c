{
 "claims": [
  {
   "property": "C01",
   "status": "proved",
   "theorems": [
    "LNlp.C01_lossless",
    "LNlp.C01_exact_tokens"
   ],
   "note": "C01_lossless: the tokens are, input token by input token, its pieces: no character of a text is lost, added or moved, and a custom token is one token. C01_exact_tokens: sharper: the exact tokens, by the run specification of `Spec/History.lean`."
  },
  {
   "property": "C02",
   "status": "proved",
   "theorems": [
    "LNlp.C02_positions_tile",
    "LNlp.C02_own_size",
    "LNlp.C02_no_gaps"
   ],
   "note": "C02_positions_tile: token `i` has index `i`, starts at the total size of the tokens before it, and is as long as its size (`size text` for a text token, the given size for a custom one: that is `tokensOf`). C02_own_size: a text token is as long as the caller's function says of its text, and a custom one as long as some custom input. C02_no_gaps: as users see it: the first token starts at 0, and every token starts where the previous one ends."
  },
  {
   "property": "C03",
   "status": "proved",
   "theorems": [
    "LNlp.C03_byte_offsets"
   ],
   "note": "C03_byte_offsets: the positions of a line made from a string are the byte offsets of the token's text in the string."
  },
  {
   "property": "C04",
   "status": "proved",
   "theorems": [
    "LNlp.C04_no_empty_tokens"
   ],
   "note": "C04_no_empty_tokens: no text token is empty."
  },
  {
   "property": "C05",
   "status": "proved",
   "theorems": [
    "LNlp.C05_natn_iff_digits"
   ],
   "note": "C05_natn_iff_digits: a text token is tagged `NATN` exactly if its text is a non-empty string of ASCII digits."
  },
  {
   "property": "C06",
   "status": "proved",
   "theorems": [
    "LNlp.C06_tags_determined"
   ],
   "note": "C06_tags_determined: what the texts with each of the tags `SPACE`, `WORD` and `SYMB` look like; for `WORD` exactly."
  },
  {
   "property": "C07",
   "status": "partial",
   "theorems": [
    "LNlp.C07_punc_documented_false",
    "LNlp.C07_punc_partial"
   ],
   "note": "False as stated: C07_punc_documented_false ('_' inside a word that starts with a digit is tagged PUNC). C07_punc_partial gives the exact set of PUNC tokens."
  },
  {
   "property": "C08",
   "status": "proved",
   "theorems": [
    "LNlp.C08_runs_maximal_in_word",
    "LNlp.C08_no_adjacent_numbers"
   ],
   "note": "C08_runs_maximal_in_word: first half: inside a word that starts with a digit, digit runs and letter runs are maximal. C08_no_adjacent_numbers: second half: inside one Text input no two neighbouring tokens are both NATN."
  },
  {
   "property": "C09",
   "status": "proved",
   "theorems": [
    "LNlp.C09_creation_panics_iff",
    "LNlp.C09_nonempty_never_panics_false"
   ],
   "note": "Exact panic condition. The naive 'non-empty text never panics' is refuted by C09_nonempty_never_panics_false (\"1é\")."
  },
  {
   "property": "C10",
   "status": "proved",
   "theorems": [
    "LNlp.C10_checked_positions_exact",
    "LNlp.C10_release_wraps",
    "LNlp.C10_positions_mod"
   ],
   "note": "With overflow checks positions are exact or creation panics; in release mode C10_release_wraps shows wrapped, non-monotone positions and C10_positions_mod gives them modulo the word size."
  },
  {
   "property": "C11",
   "status": "proved",
   "theorems": [
    "LNlp.C11_builtin_attributes"
   ],
   "note": "C11_builtin_attributes: without custom attributes, `query` finds for each text token its tag on its own range, for each one-character token its character, and nothing else."
  },
  {
   "property": "C12",
   "status": "proved",
   "theorems": [
    "LNlp.C12_input_attributes",
    "LNlp.C12_add_attr",
    "LNlp.C12_values_on_ranges"
   ],
   "note": "C12_input_attributes: for every type other than the built-in two, the attributes of a fresh line are exactly the given ones: per input that has some, one entry on the whole range of that input's tokens, with the input's text and the values in the given order. C12_add_attr: `add_attr`: the new value comes after the values of its type given before; the values of other types, the text and the tokens stay as they are. C12_values_on_ranges: for all types: on each range the built-in values come first, then the given ones."
  },
  {
   "property": "C13",
   "status": "proved",
   "theorems": [
    "LNlp.C13_query_is_history",
    "LNlp.C13_query_panics_iff",
    "LNlp.C13_query_complete"
   ],
   "note": "Also pins exactly when query panics (inverted ranges, which only hand-written assignments can create)."
  },
  {
   "property": "C14",
   "status": "proved",
   "theorems": [
    "LNlp.C14_attr_forwards",
    "LNlp.C14_attr_forwards_exact"
   ],
   "note": "C14_attr_forwards: forwards at token `i`, `x::attr` yields `(v, j)` exactly when `v` was assigned on `(i, j)`. C14_attr_forwards_exact: with order and multiplicity: ranges in order of first assignment, and on each range the values in order of assignment."
  },
  {
   "property": "C15",
   "status": "proved",
   "theorems": [
    "LNlp.C15_attr_backwards",
    "LNlp.C15_attr_backwards_exact"
   ],
   "note": "C15_attr_backwards: backwards at token `j`, `x::attr` yields `(v, i)` exactly when `v` was assigned on `(i, j)`. C15_attr_backwards_exact: with order and multiplicity."
  },
  {
   "property": "C16",
   "status": "proved",
   "theorems": [
    "LNlp.C16_indexes_agree"
   ],
   "note": "C16_indexes_agree: the four indexes list the same ranges for each type, none of them twice; a range is listed exactly if it has a value of the type."
  },
  {
   "property": "C17",
   "status": "proved",
   "theorems": [
    "LNlp.C17_run_only_adds"
   ],
   "note": "C17_run_only_adds: a run only adds."
  },
  {
   "property": "C18",
   "status": "proved",
   "theorems": [
    "LNlp.C18_matchers_independent",
    "LNlp.C18_types_independent",
    "LNlp.C18_has_any_panics_interfere_false"
   ],
   "note": "Results never change; only the 'no attributes on this token' panic of token_has_any can disappear (C18_has_any_panics_interfere_false)."
  },
  {
   "property": "C19",
   "status": "proved",
   "theorems": [
    "LNlp.C19_values_accumulate",
    "LNlp.C19_value_count"
   ],
   "note": "C19_values_accumulate: on every range a run appends exactly the values it assigned there, duplicates included, while the range is listed once; and a query returns as many values as there were assignments. C19_value_count: number of values found by `query` = number of assignments of that type."
  },
  {
   "property": "C20",
   "status": "proved",
   "theorems": [
    "LNlp.C20_any_attribute_like_run"
   ],
   "note": "C20_any_attribute_like_run: giving a value as an `AnyAttribute` has the same effect (success, panic and resulting line) as a resolver that assigns it on the same range."
  },
  {
   "property": "C21",
   "status": "proved",
   "theorems": [
    "LNlp.C21_no_downcast_failure",
    "LNlp.C21_extract"
   ],
   "note": "C21_no_downcast_failure: on a reachable line no operation ever fails a downcast. C21_extract: `AnyAttribute::extract` succeeds exactly at the stored type, with the stored value, and otherwise gives the attribute back."
  },
  {
   "property": "C22",
   "status": "proved",
   "theorems": [
    "LNlp.C22_run_panics_iff"
   ],
   "note": "C22_run_panics_iff: exactly when a run panics."
  },
  {
   "property": "C23",
   "status": "proved",
   "theorems": [
    "LNlp.C23_honest_run_ok",
    "LNlp.C23_honest_line_ok"
   ],
   "note": "C23_honest_run_ok: a resolver all of whose assignments come from API selections never makes `run` panic, and the new line is again a line of that kind. C23_honest_line_ok: such lines are reachable (so all properties of reachable lines hold for them), all attributes lie in the line with start ≤ end, and matcher expressions stay in the line and go the right way."
  },
  {
   "property": "C24",
   "status": "proved",
   "theorems": [
    "LNlp.C24_empty_line"
   ],
   "note": "C24_empty_line: on a line without tokens nothing runs and nothing is found."
  },
  {
   "property": "C25",
   "status": "proved",
   "theorems": [
    "LNlp.C25_tokens_untouched"
   ],
   "note": "C25_tokens_untouched: a run never touches the tokens."
  },
  {
   "property": "C26",
   "status": "proved",
   "theorems": [
    "LNlp.C26_resolvers_commute"
   ],
   "note": "C26_resolvers_commute: two resolvers of different types whose answers do not depend on each other's run can be run in either order: the other order succeeds too, and gives the very same line."
  },
  {
   "property": "C27",
   "status": "proved",
   "theorems": [
    "LNlp.C27_attr_eq_forwards",
    "LNlp.C27_attr_eq_backwards",
    "LNlp.C27_same_value",
    "LNlp.C27_whitespace"
   ],
   "note": "C27_attr_eq_forwards: forwards: for every end `j`, one match per value equal to `v` assigned on `(i, j)`. C27_attr_eq_backwards: backwards: for every start `i`, one match per value equal to `v` assigned on `(i, j)`. C27_same_value: the values of the types that come with the crates and derive `PartialEq` are equal exactly if they are the same, so `attr_eq(&v)` finds exactly the places where `v` itself was assigned. C27_whitespace: on a line without assignments of `TextTag` other than the built-in ones, `x::whitespace()` matches exactly the tokens tagged SPACE, one token each, in both directions."
  },
  {
   "property": "C28",
   "status": "proved",
   "theorems": [
    "LNlp.C28_token_text"
   ],
   "note": "C28_token_text: `x::token_text()` yields exactly the text of a text token, in both directions, ends on that token, and yields nothing on a custom token."
  },
  {
   "property": "C29",
   "status": "partial",
   "theorems": [
    "LNlp.C29_never_panics_false",
    "LNlp.C29_partial"
   ],
   "note": "False as stated: C29_never_panics_false (custom token without attributes). C29_partial gives the exact panic condition and the exact results."
  },
  {
   "property": "C30",
   "status": "partial",
   "theorems": [
    "LNlp.C30_direction_independent_false",
    "LNlp.C30_partial"
   ],
   "note": "False as stated: C30_direction_independent_false. C30_partial gives the exact results of both directions and their agreement on one-token ranges."
  },
  {
   "property": "C31",
   "status": "proved",
   "theorems": [
    "LNlp.C31_all2",
    "LNlp.C31_all2_mem",
    "LNlp.C31_order_irrelevant",
    "LNlp.C31_all3_nested"
   ],
   "note": "C31_all2: `all((A, B))` yields `(x, y)` ending at `j` as often as `x` and `y` do independently (product of the multiplicities); it panics exactly if a part does. C31_all2_mem: as a set of results. C31_order_irrelevant: swapping the parts only permutes the results. C31_all3_nested: three parts give the results of nested pairs, in the same order; and panic exactly if a part panics."
  },
  {
   "property": "C32",
   "status": "proved",
   "theorems": [
    "LNlp.C32_any_of2",
    "LNlp.C32_any_of3_nested"
   ],
   "note": "C32_any_of2: the second part is consulted only when the first has no result. C32_any_of3_nested: three parts are nested pairs with the labels A, B, C; same results, same panics."
  },
  {
   "property": "C33",
   "status": "proved",
   "theorems": [
    "LNlp.C33_seq2",
    "LNlp.C33_seq2_exact",
    "LNlp.C33_seq2_panics_iff",
    "LNlp.C33_seq3_nested",
    "LNlp.C33_seq_assoc"
   ],
   "note": "C33_seq2: `seq((A, B))` yields exactly the chains: `A` matches here and ends at some `m`, and `B` matches from the next token in the direction of matching; nothing crosses the edges of the line. C33_seq2_exact: with order and multiplicity: the chains are listed by the first part's results, and for each of them by the second part's results from the next token. C33_seq2_panics_iff: when `seq((A, B))` panics. C33_seq3_nested: three parts are exactly nested pairs (results, order and panics). C33_seq_assoc: sequencing is associative up to re-association of the values, whenever no part panics."
  },
  {
   "property": "C34",
   "status": "proved",
   "theorems": [
    "LNlp.C34_results_inside",
    "LNlp.C34_results_in_line"
   ],
   "note": "The direction part assumes ranges that start at or before their end (Ordered), which C23 establishes for lines whose resolvers assign selections obtained through the API; the in-line part holds for every reachable line."
  },
  {
   "property": "C35",
   "status": "proved",
   "theorems": [
    "LNlp.C35_mirror"
   ],
   "note": "C35_mirror: `m` matches `(i, j)` forwards from `i` with value `x` exactly if the mirrored expression matches it backwards from `j` with the correspondingly reordered value."
  },
  {
   "property": "C36",
   "status": "proved",
   "theorems": [
    "LNlp.C36_panics",
    "LNlp.C36_text_only"
   ],
   "note": "C36_panics: the only panic of a matcher expression at a token of the line is the one of `token_has_any` matching forwards at a token that has no attribute; so there is none on lines of which every token has an attribute, none backwards, and none without `token_has_any`. C36_text_only: text-only lines never make a matcher expression panic."
  },
  {
   "property": "C37",
   "status": "proved",
   "theorems": [
    "LNlp.C37_from_line"
   ],
   "note": "C37_from_line: `from_line` is `None` exactly for a line without tokens; else it covers exactly all of them."
  },
  {
   "property": "C38",
   "status": "proved",
   "theorems": [
    "LNlp.C38_find_by",
    "LNlp.C38_find_by_mem"
   ],
   "note": "C38_find_by: `find_by` lists, for every token of the selection in order, exactly the matcher's forward results at that token in the matcher's order; it panics exactly if the matcher does at one of them. C38_find_by_mem: as a set."
  },
  {
   "property": "C39",
   "status": "partial",
   "theorems": [
    "LNlp.C39_inside_selection_false",
    "LNlp.C39_partial"
   ],
   "note": "False as stated: C39_inside_selection_false. C39_partial: results start in the selection and stay in the line."
  },
  {
   "property": "C40",
   "status": "proved",
   "theorems": [
    "LNlp.C40_find_first_by"
   ],
   "note": "C40_find_first_by: `find_first_by` is the matcher's first result at the leftmost token of the selection where it has one."
  },
  {
   "property": "C41",
   "status": "proved",
   "theorems": [
    "LNlp.C41_both_directions",
    "LNlp.C41_well_formed"
   ],
   "note": "C41_both_directions: per token, first the forward matches starting there, then the backward matches ending there. C41_well_formed: results have start ≤ end and lie in the line."
  },
  {
   "property": "C42",
   "status": "proved",
   "theorems": [
    "LNlp.C42_match_forwards",
    "LNlp.C42_strictly_larger"
   ],
   "note": "C42_match_forwards: nothing at the end of the line; otherwise the matcher's results right after the selection, in its order, each as the selection extended to the result's end. `match_first_forwards` is the first one. C42_strictly_larger: every result strictly contains the selection."
  },
  {
   "property": "C43",
   "status": "proved",
   "theorems": [
    "LNlp.C43_match_backwards",
    "LNlp.C43_strictly_larger"
   ],
   "note": "C43_match_backwards: `match_backwards` searches backwards from the token before the selection and extends the selection to what it finds, in order; at the start of the line there is nothing to find. C43_strictly_larger: every result strictly contains the selection."
  },
  {
   "property": "C44",
   "status": "partial",
   "theorems": [
    "LNlp.C44_after_false",
    "LNlp.C44_after_whole_line",
    "LNlp.C44_partial"
   ],
   "note": "False as stated: C44_after_false, C44_after_whole_line. C44_partial characterises exactly the selections on which after() is right."
  },
  {
   "property": "C45",
   "status": "proved",
   "theorems": [
    "LNlp.C45_split_with"
   ],
   "note": "C45_split_with: the two parts are exactly the tokens before `other` and after it; each token of `self` is in exactly one of the three."
  },
  {
   "property": "C46",
   "status": "proved",
   "theorems": [
    "LNlp.C46_split_with_panics_iff",
    "LNlp.C46_equality"
   ],
   "note": "C46_split_with_panics_iff: `split_with` panics exactly for selections of different lines. C46_equality: equality is equality of bounds and of lines (by address), an equivalence relation."
  },
  {
   "property": "C47",
   "status": "proved",
   "theorems": [
    "LNlp.C47_panics_iff",
    "LNlp.C47_split_by"
   ],
   "note": "C47_panics_iff: `split_by` panics exactly if the matcher panics at a token of the selection. C47_split_by: the pieces are non-empty parts of the selection, in order, separated by at least one token, and cover every token that belongs to no match; without matches the result is the selection itself."
  },
  {
   "property": "C48",
   "status": "partial",
   "theorems": [
    "LNlp.C48_pieces_unmatched_false",
    "LNlp.C48_partial",
    "LNlp.C48_exact_partial"
   ],
   "note": "False as stated: C48_pieces_unmatched_false, on a line built only through the API. C48_partial: true when later matches never end earlier; always true for first tokens of matches, and pieces are always bounded by matches or edges."
  },
  {
   "property": "C49",
   "status": "proved",
   "theorems": [
    "LNlp.C49_trim_start",
    "LNlp.C49_trim_end",
    "LNlp.C49_trim"
   ],
   "note": "C49_trim_start: trim_start: the tokens left are those of the selection after the end of the first match at its start (all of them if nothing matches there); `None` exactly if none are left. C49_trim_end: trim_end: the tokens left are those before the start of the first match at the end of the selection, except when that match starts at token 0 and so does the selection (see C50). C49_trim: trim: both at once, each match looked up on the original selection."
  },
  {
   "property": "C50",
   "status": "partial",
   "theorems": [
    "LNlp.C50_trim_end_whole_false",
    "LNlp.C50_partial"
   ],
   "note": "False as stated: C50_trim_end_whole_false. C50_partial gives the exact result in both cases."
  },
  {
   "property": "C51",
   "status": "proved",
   "theorems": [
    "LNlp.C51_api_selections",
    "LNlp.C51_builtin_selections",
    "LNlp.C51_after_escapes"
   ],
   "note": "For library matchers on lines of API-using resolvers, and for any user-written matcher that goes the right way and stays in the line. C51_after_escapes shows that after() must be excluded."
  },
  {
   "property": "C52",
   "status": "proved",
   "theorems": [
    "LNlp.C52_find",
    "LNlp.C52_find_panics_iff"
   ],
   "note": "C52_find: `find` gives the results of `find_by` on the whole line, in the same order, with the character positions of the first token's start and the last token's end. C52_find_panics_iff: on an empty line `find` finds nothing, and it panics exactly if `find_by` on the whole line does."
  },
  {
   "property": "C53",
   "status": "proved",
   "theorems": [
    "LNlp.C53_finish_with"
   ],
   "note": "C53_finish_with: one assignment for each selection, in order, on its range, with the mapped value."
  },
  {
   "property": "C54",
   "status": "proved",
   "theorems": [
    "LNlp.C54_header"
   ],
   "note": "C54_header: without attributes the display is the token texts joined by two spaces; with attributes it starts with that text."
  },
  {
   "property": "C55",
   "status": "proved",
   "theorems": [
    "LNlp.C55_display",
    "LNlp.C55_columns",
    "LNlp.C55_summed",
    "LNlp.C55_narrowing",
    "LNlp.C55_bracket"
   ],
   "note": "C55_display assumes WidthLaws (text behind two spaces makes nothing narrower), C55_columns that widths add up across two spaces (AdditiveWidth). C55_summed: this holds if widths are sums over the characters (unicode-width up to 0.1.12); C55_narrowing: it also holds of widths as in later versions, where appending may narrow a text."
  },
  {
   "property": "C56",
   "status": "proved",
   "theorems": [
    "LNlp.C56_include",
    "LNlp.C56_one_line_per_value"
   ],
   "note": "C56_include: including a type adds one item per value: ranges in order of first assignment, newest value of a range first; nothing else changes. It never panics. C56_one_line_per_value: every assigned value of an included type is shown, once."
  },
  {
   "property": "C57",
   "status": "proved",
   "theorems": [
    "LNlp.C57_never_panics",
    "LNlp.C57_panics_iff",
    "LNlp.C57_inverted_false",
    "LNlp.C57_width_needed"
   ],
   "note": "For lines of API-using resolvers (Honest), assuming that text behind two spaces makes nothing narrower (WidthLaws). C57_panics_iff is the exact condition for all reachable lines and all widths; C57_inverted_false shows the API hypothesis is needed, C57_width_needed that the width law is."
  },
  {
   "property": "C58",
   "status": "proved",
   "theorems": [
    "LNlp.C58_table",
    "LNlp.C58_run",
    "LNlp.C58_new",
    "LNlp.C58_new_case_insensitive",
    "LNlp.C58_new_case_insensitive_str_arr"
   ],
   "note": "C58_table: for every text token of the selection, in order, exactly the values of the table entry of its text (lowercased if case-insensitive) are assigned to that one token, and nothing else. C58_run: for `run`: running the resolver on a non-empty line succeeds and adds exactly these records. C58_new: for the case-sensitive constructor `new`: the values of a text token are those of its exact text. C58_new_case_insensitive: for `new_case_insensitive`: the values of a text token are those of the last entry whose key agrees with its text up to case. C58_new_case_insensitive_str_arr: for `new_case_insensitive_str_arr`: a text token gets the value of the last pair whose word agrees with its text up to case, and only that."
  },
  {
   "property": "C59",
   "status": "partial",
   "theorems": [
    "LNlp.C59_keeps_entries_false",
    "LNlp.C59_order_matters",
    "LNlp.C59_partial",
    "LNlp.C59_str_arr"
   ],
   "note": "False as stated: C59_keeps_entries_false and C59_order_matters (keys 'a' and 'A'). C59_partial: exact lookup table for every iteration order, and the claim when no two keys share a lowercase form."
  },
  {
   "property": "C60",
   "status": "proved",
   "theorems": [
    "LNlp.C60_keywords",
    "LNlp.C60_lowercase_only"
   ],
   "note": "C60_lowercase_only assumes that lowercasing is idempotent (LowerIdem), which holds for str::to_lowercase."
  },
  {
   "property": "C61",
   "status": "proved",
   "theorems": [
    "LNlp.C61_clause_ranges",
    "LNlp.C61_disjoint",
    "LNlp.C61_any_line"
   ],
   "note": "Exact ranges on lines whose tags and keywords sit on single tokens; C61_any_line drops that hypothesis (no panic, separated, inside the selection). Custom multi-token tags can break the exact form, see C48."
  },
  {
   "property": "C62",
   "status": "proved",
   "theorems": [
    "LNlp.C62_clause_kinds",
    "LNlp.C62_pipeline"
   ],
   "note": "C62_pipeline states it end to end: create, keyword resolver, clause resolver, query."
  },
  {
   "property": "C63",
   "status": "proved",
   "theorems": [
    "LNlp.C63_pos",
    "LNlp.C63_words",
    "LNlp.C63_run",
    "LNlp.C63_plain_tags"
   ],
   "note": "A token with several WORD tags (custom TextTag attributes) gets its tags once per WORD tag; C63_words is the plain claim for lines without custom tags."
  },
  {
   "property": "C64",
   "status": "proved",
   "theorems": [
    "LNlp.C64_terminates"
   ],
   "note": "C64_terminates: on every selection of a reachable line both loops end; the result does not depend on the fuel."
  },
  {
   "property": "C65",
   "status": "proved",
   "theorems": [
    "LNlp.C65_disjoint",
    "LNlp.C65_whole_line",
    "LNlp.C65_inside_selection_false"
   ],
   "note": "For every selection; C65_whole_line: inside the selection when it is the whole line; C65_inside_selection_false: an amount can reach behind a smaller selection."
  },
  {
   "property": "C66",
   "status": "partial",
   "theorems": [
    "LNlp.C66_every_number_false",
    "LNlp.C66_partial",
    "LNlp.C66_exact_partial",
    "LNlp.C66_plain"
   ],
   "note": "False as stated: C66_every_number_false (a digit configured as delimiter is skipped). C66_partial gives what holds on every line, C66_plain the full claim for lines without custom tags and configurations without digits."
  },
  {
   "property": "C67",
   "status": "proved",
   "theorems": [
    "LNlp.C67_amounts",
    "LNlp.C67_value",
    "LNlp.C67_grouped",
    "LNlp.C67_fraction",
    "LNlp.C67_after_fraction"
   ],
   "note": "C67_amounts: the resolver computes exactly the grammar Amounts; C67_value spells an amount out; C67_grouped/_fraction/_after_fraction are closed forms for every number of groups."
  },
  {
   "property": "C68",
   "status": "proved",
   "theorems": [
    "LNlp.C68_panics_iff",
    "LNlp.C68_only_unparseable",
    "LNlp.C68_unparseable_crashes",
    "LNlp.C68_bare_token_crashes",
    "LNlp.C68_run_panics"
   ],
   "note": "Exact panic condition on every line, the only-unparseable form for lines whose tokens carry attributes, both crashes with witnesses."
  },
  {
   "property": "C69",
   "status": "partial",
   "theorems": [
    "LNlp.C69_english_tokens",
    "LNlp.C69_english_doc",
    "LNlp.C69_english_doc_false",
    "LNlp.C69_partial"
   ],
   "note": "False as stated: C69_english_doc_false (1.00,00 gives 1.00 and 00). C69_english_doc proves the other documented forms for any number of groups, C69_partial what happens after a fraction."
  },
  {
   "property": "C70",
   "status": "partial",
   "theorems": [
    "LNlp.C70_french_doc_false",
    "LNlp.C70_no_fraction",
    "LNlp.C70_digits_only",
    "LNlp.C70_partial"
   ],
   "note": "False as stated: C70_french_doc_false. C70_no_fraction: no french amount ever has a fraction, on any line; C70_partial: groups without a fraction are read as documented."
  },
  {
   "property": "C71",
   "status": "proved",
   "theorems": [
    "LNlp.C71_amount_resolver",
    "LNlp.C71_amount_run_panics_iff",
    "LNlp.C71_builtin_resolvers"
   ],
   "note": "C71_builtin_resolvers covers the four resolvers that never panic, C71_amount_resolver and C71_amount_run_panics_iff the amount resolver."
  },
  {
   "property": "C72",
   "status": "proved",
   "theorems": [
    "LNlp.C72_find_by_seq"
   ],
   "note": "C72_find_by_seq: searching for \"`a` then `b`\" is searching for `a` and extending every find by `b` to the right: same selections, same values, same order, and one search panics iff the other does."
  },
  {
   "property": "C73",
   "status": "proved",
   "theorems": [
    "LNlp.C73_match_forwards_seq",
    "LNlp.C73_match_backwards_seq"
   ],
   "note": "C73_match_forwards_seq: extending by \"`a` then `b`\" is extending by `a` and then by `b`, to the right. C73_match_backwards_seq: to the left: \"`a` then `b`\" read from right to left."
  },
  {
   "property": "C74",
   "status": "proved",
   "theorems": [
    "LNlp.C74_find_by_all",
    "LNlp.C74_find_by_any_of"
   ],
   "note": "C74_find_by_all: searching for `all((a, b))` finds exactly the selections that both searches find, with the values of both. C74_find_by_any_of: searching for `any_of((a, b))` finds every selection `a` finds, and a selection that `b` finds exactly if nothing of `a` starts at the same token."
  },
  {
   "property": "C75",
   "status": "proved",
   "theorems": [
    "LNlp.C75_layering"
   ],
   "note": "C75_layering: searching both ways for \"an `S`, then an `A`\" never panics and yields exactly the neighbouring pairs of attributes assigned earlier: an `S` followed by an `A` when the pair starts in the selection, and an `A` followed by an `S` when it ends there; the value pair is always (the `S`, the `A`) and the range covers both."
  },
  {
   "property": "C76",
   "status": "partial",
   "theorems": [
    "LNlp.C76_reported_once_false",
    "LNlp.C76_partial"
   ],
   "note": "False as stated: C76_reported_once_false. C76_partial gives the exact number of reports of every value."
  },
  {
   "property": "C77",
   "status": "proved",
   "theorems": [
    "LNlp.C77_find_by_split_with"
   ],
   "note": "C77_find_by_split_with: splitting a selection splits the search: the matches of `self` are the matches of the part before `other`, then those of `other`, then those of the part after it; and the search of `self` panics iff one of the three does."
  },
  {
   "property": "C78",
   "status": "proved",
   "theorems": [
    "LNlp.C78_concat",
    "LNlp.C78_concat_ok"
   ],
   "note": "C78_concat: the line of `xs ++ ys` is the line of `xs` followed by the line of `ys`: its tokens are those of `xs` and then those of `ys`, moved behind them; and every attribute lookup at a token gives what the same lookup gives on the part the token comes from. C78_concat_ok: conversely, if both parts can be created and the sizes fit, so can the whole."
  },
  {
   "property": "C79",
   "status": "proved",
   "theorems": [
    "LNlp.C79_attrs_do_not_matter",
    "LNlp.C79_size_does_not_matter"
   ],
   "note": "C79_attrs_do_not_matter: attributes given with the input have no influence on tokens, tags and positions, nor on whether creation succeeds. C79_size_does_not_matter: the size function has no influence on the texts and tags of the tokens."
  },
  {
   "property": "C80",
   "status": "proved",
   "theorems": [
    "LNlp.C80_slice",
    "LNlp.C80_query_slice",
    "LNlp.C80_find_slice"
   ],
   "note": "C80_slice: on a line made of texts and sized by any additive measure, after any runs, tokens `i ..= j` are a slice of the source text, and the positions of `i` and `j` are the bounds of this slice. C80_query_slice: for `query`: the text of an entry is the slice of the source between the positions of its tokens. C80_find_slice: for `find`: the range of a find is the slice of the source covered by the match."
  },
  {
   "property": "C81",
   "status": "partial",
   "theorems": [
    "LNlp.C81_same_text_same_tag_false",
    "LNlp.C81_partial"
   ],
   "note": "False as stated: C81_same_text_same_tag_false. C81_partial: the tag is a function of the text apart from single ASCII symbols inside digit words."
  },
  {
   "property": "C82",
   "status": "proved",
   "theorems": [
    "LNlp.C82_blind"
   ],
   "note": "C82_blind: the table and keyword resolvers look at no attribute, the part-of-speech resolver at `TextTag`s only, the clause resolver at `TextTag`s and clause keywords only, the amount resolver at `TextTag`s and `char`s only. What such a resolver assigns is not changed by a resolver of another attribute type run before it."
  },
  {
   "property": "C83",
   "status": "proved",
   "theorems": [
    "LNlp.C83_independent_resolvers_commute",
    "LNlp.C83_builtin_commute",
    "LNlp.C83_order_matters"
   ],
   "note": "Proved for resolvers that do not look at each other's attributes, with C82 saying what each library resolver looks at; C83_order_matters refutes order independence in general (clauses before keywords)."
  },
  {
   "property": "C84",
   "status": "proved",
   "theorems": [
    "LNlp.C84_pipelines",
    "LNlp.C84_only_unparseable"
   ],
   "note": "C84_pipelines: any sequence of table, part-of-speech, keyword and clause resolvers, in any order and with repetitions, runs without panicking on a line of honest resolvers (in particular on a fresh line), keeps the tokens, and the result can be displayed with any attribute types. C84_only_unparseable: with amounts: on a line all of whose tokens are texts or carry attributes, the only panic of any sequence of the library's resolvers is a number the decimal parser rejects: the resolvers before an amount resolver in the sequence give a line where the grammar of that resolver finds an amount whose text is not accepted."
  },
  {
   "property": "C85",
   "status": "proved",
   "theorems": [
    "LNlp.C85_twice",
    "LNlp.C85_builtin_twice",
    "LNlp.C85_unchanged_iff",
    "LNlp.C85_not_idempotent"
   ],
   "note": "C85_twice: a resolver that does not look at its own attributes assigns the same again when run a second time. The second run keeps the ranges of the first and repeats the values it assigned; the attributes of other types do not change. C85_builtin_twice: for the library's resolvers: none of them looks at its own attributes. C85_unchanged_iff: whatever the resolver, a run gives back the very same line exactly if it assigned nothing. C85_not_idempotent: a second run of a resolver that does not look at its own attributes changes the line again, unless the first assigned nothing."
  },
  {
   "property": "C86",
   "status": "proved",
   "theorems": [
    "LNlp.C86_symbols",
    "LNlp.C86_plain",
    "LNlp.C86_panics_iff",
    "LNlp.C86_from_string"
   ],
   "note": "C86_symbols: the symbol resolver marks every `$` and every `€` among the `char`s of the selection, each on its token, with the value for that symbol, and nothing else. Its `unreachable!()` is not reached. C86_plain: on a line whose `char`s are the tokenizer's: the symbols are the tokens that read `$` or `€`. C86_panics_iff: the symbol resolver panics exactly if a token of the selection carries no attribute at all. C86_from_string: for a line made from any string: in any selection of it, the symbols are the tokens that read `$` or `€`."
  },
  {
   "property": "C87",
   "status": "proved",
   "theorems": [
    "LNlp.C87_money",
    "LNlp.C87_from_string"
   ],
   "note": "C87_from_string has no hypothesis on the line besides being created from a string and not empty; C87_money is the general form."
  },
  {
   "property": "C88",
   "status": "proved",
   "theorems": [
    "LNlp.C88_queries_determine_the_line",
    "LNlp.C88_order_within_types"
   ],
   "note": "C88_queries_determine_the_line: two lines with the same tokens that answer every `query` alike are the same line: no other read, no matcher, no display and no further run can tell them apart. C88_order_within_types: what is stored depends on the order of the assignments of each type only, not on how assignments of different types are interleaved."
  },
  {
   "property": "C89",
   "status": "proved",
   "theorems": [
    "LNlp.C89_type_bucket",
    "LNlp.C89_type_id_to_many"
   ],
   "note": "C89_type_bucket: after any sequence of insertions (typed or type-erased) and clearings no operation failed, and for every type the bucket holds exactly the values of that type inserted since the last `clear`, in order. C89_type_id_to_many: an index lists for every type the distinct values inserted for it, in the order of their first insertion."
  },
  {
   "property": "C90",
   "status": "partial",
   "theorems": [
    "LNlp.C90_any_of_false",
    "LNlp.C90_partial",
    "LNlp.C90_choice",
    "LNlp.C90_find_partial"
   ],
   "note": "False as stated: C90_any_of_false. C90_partial and C90_find_partial prove it for all matchers without any_of; C90_choice gives the exact condition for a choice of two."
  },
  {
   "property": "C91",
   "status": "proved",
   "theorems": [
    "LNlp.C91_seq",
    "LNlp.C91_backtracking_false"
   ],
   "note": "C91_seq is the property; C91_backtracking_false refutes what users of backtracking matchers would expect."
  },
  {
   "property": "C92",
   "status": "partial",
   "theorems": [
    "LNlp.C92_trim_leaves_space",
    "LNlp.C92_trim_partial",
    "LNlp.C92_single_spaces_partial"
   ],
   "note": "False as stated: C92_trim_leaves_space. C92_trim_partial says exactly what is removed; C92_single_spaces_partial proves the claim if no two whitespace tokens are neighbours."
  },
  {
   "property": "C93",
   "status": "proved",
   "theorems": [
    "LNlp.C93_split_again",
    "LNlp.C93_number_of_pieces",
    "LNlp.C93_split_with_self"
   ],
   "note": "C93_split_again: the matcher finds nothing in a piece of `split_by`, and splitting a piece again changes nothing. C93_number_of_pieces: there are at most as many pieces as matches plus one. C93_split_with_self: splitting a selection with itself leaves nothing."
  },
  {
   "property": "C94",
   "status": "proved",
   "theorems": [
    "LNlp.C94_clauses_of_input",
    "LNlp.C94_clauses_of_text",
    "LNlp.C94_plain_text"
   ],
   "note": "C94_clauses_of_input: create a line from any input without attributes of the types tag, keyword and clause, run the keyword resolver and the clause resolver and query the clauses: they are exactly the parts between keywords and punctuation, without a space at either end, each with its one kind, in order. C94_clauses_of_text: the same for a line made from a text. C94_plain_text: without keywords and punctuation the whole text is one independent clause."
  },
  {
   "property": "C95",
   "status": "proved",
   "theorems": [
    "LNlp.C95_table",
    "LNlp.C95_parts_of_speech",
    "LNlp.C95_keywords"
   ],
   "note": "C95_table: after a table resolver, querying its type yields exactly one entry per text token found in the table, in order, with all values of that text. C95_parts_of_speech: after POSTagResolver, querying the tags of a text yields exactly one entry per word, in order. C95_keywords: after ClauseKeywordResolver, querying the keywords of a text yields exactly one entry per keyword, in order, with one value."
  },
  {
   "property": "C96",
   "status": "proved",
   "theorems": [
    "LNlp.C96_amounts_of_text",
    "LNlp.C96_whenever_it_runs"
   ],
   "note": "C96_amounts_of_text: after AmountResolver, querying the amounts yields exactly those of C67, in order, with their text and one value each; the texts of different amounts are disjoint parts of the line. C96_whenever_it_runs: so whenever AmountResolver runs without panic, the amounts of the grammar all have values, and these are what the query yields."
  },
  {
   "property": "C97",
   "status": "partial",
   "theorems": [
    "LNlp.C97_any_number_false",
    "LNlp.C97_one_token_partial",
    "LNlp.C97_between_partial"
   ],
   "note": "False as documented: C97_any_number_false. C97_one_token_partial and C97_between_partial say what it matches."
  },
  {
   "property": "C98",
   "status": "partial",
   "theorems": [
    "LNlp.C98_documented_words_false",
    "LNlp.C98_no_dashed_words",
    "LNlp.C98_whole_partial"
   ],
   "note": "False as documented: C98_documented_words_false; C98_no_dashed_words (from the UAX #29 law DashBreak) shows dashed words never exist; C98_whole_partial is the part that holds."
  },
  {
   "property": "C99",
   "status": "partial",
   "theorems": [
    "LNlp.C99_any_of_false",
    "LNlp.C99_one_token_partial",
    "LNlp.C99_choice"
   ],
   "note": "False in general: C99_any_of_false. C99_one_token_partial for alternatives that match single tokens; C99_choice gives the exact condition."
  },
  {
   "property": "C100",
   "status": "proved",
   "theorems": [
    "LNlp.C100_table",
    "LNlp.C100_keywords",
    "LNlp.C100_pos"
   ],
   "note": "C100_table: on a line created from `xs ++ ys` the table resolver assigns what it assigns on the line of `xs`, followed by what it assigns on the line of `ys`, moved behind the tokens of `xs`. C100_keywords: for the clause keyword resolver. C100_pos: for the part-of-speech resolver (also if the input brings its own `TextTag`s)."
  },
  {
   "property": "C101",
   "status": "proved",
   "theorems": [
    "LNlp.C101_amounts_piecewise",
    "LNlp.C101_amounts_before",
    "LNlp.C101_condition_needed"
   ],
   "note": "C101_condition_needed shows the condition on the last token cannot be dropped."
  },
  {
   "property": "C102",
   "status": "partial",
   "theorems": [
    "LNlp.C102_readable_partial",
    "LNlp.C102_displays_determine_the_line_partial",
    "LNlp.C102_own_types",
    "LNlp.C102_ambiguous"
   ],
   "note": "False in general: C102_ambiguous. Proved for Debug texts without line breaks that do not begin with a bracket character; C102_own_types: the library's own types satisfy this."
  },
  {
   "property": "C103",
   "status": "proved",
   "theorems": [
    "LNlp.C103_both_sides",
    "LNlp.C103_orders_agree"
   ],
   "note": "C103_both_sides: matching backwards after matching forwards finds what matching backwards alone finds, and the other way round, so that both orders give the same two-sided extensions with the same outputs. C103_orders_agree: the same selections, with the same two outputs, are reached in both orders."
  },
  {
   "property": "C104",
   "status": "proved",
   "theorems": [
    "LNlp.C104_forwards",
    "LNlp.C104_backwards",
    "LNlp.C104_find_by",
    "LNlp.C104_parts"
   ],
   "note": "C104_forwards: matching forwards from a token depends only on the tokens from there on and on the attributes of ranges that start there or later. If two lines have the same tokens and the same such attributes from `n` in one and from `n'` in the other, every matcher gives the same results or the same panic on both, at corresponding indexes. C104_backwards: matching backwards from a token depends only on the tokens up to it and on the attributes of ranges that end there or earlier. C104_find_by: `find_by` over a selection depends only on the line from the start of the selection on. C104_parts: the line of `xs ++ ys` matches forwards in its second part like the line of `ys` alone, and backwards in its first part like the line of `xs` alone, for every matcher."
  },
  {
   "property": "C105",
   "status": "proved",
   "theorems": [
    "LNlp.C105_sentences",
    "LNlp.C105_crosses_sentences",
    "LNlp.C105_without_condition"
   ],
   "note": "C105_sentences: if the line of `xs` ends with punctuation, the clauses of the line of `xs ++ ys` are on the ranges and have the texts of the clauses of the two parts, and their kinds are: a `Condition` and a `TrailingEffect` stay; a `LeadingEffect` in `ys` becomes a `TrailingEffect` if there is a condition in `xs`; an `Independent` clause stays only if the other part has nothing but separators, and otherwise becomes a `TrailingEffect` if a then word is before it or a condition is in the part before it, else a `LeadingEffect`. C105_crosses_sentences: false — in `\"if a.b,c\"` the `b` is a `TrailingEffect` of the condition in the sentence before, in `\"b,c\"` alone it is a `LeadingEffect`. C105_without_condition: without a condition in the earlier sentence, the clauses of a later one that is no single clause are unchanged; and the clauses of an earlier sentence that is no single clause always are."
  },
  {
   "property": "C106",
   "status": "proved",
   "theorems": [
    "LNlp.C106_nesting",
    "LNlp.C106_rebracketing",
    "LNlp.C106_parts",
    "LNlp.C106_phrase"
   ],
   "note": "C106_nesting: an expression nested from `x::seq` in any way gives exactly the chains of adjacent matches of its parts, in the same order and as often, with the values from left to right. C106_rebracketing: so how a sequence is nested makes no difference. C106_parts: the library's matchers other than `token_has_any` can be parts, on any line. C106_phrase: phrases end to end: after a table of words has run, searching for a sequence of word values with whitespace between them — nested in any way — finds exactly the phrases: the places where the texts of the tokens have these values in the table and one whitespace token lies between two words. If the table gives no token more than one value, every phrase is found once, from left to right."
  },
  {
   "property": "C107",
   "status": "partial",
   "theorems": [
    "LNlp.C107_extending",
    "LNlp.C107_searching",
    "LNlp.C107_trimming",
    "LNlp.C107_after_partial",
    "LNlp.C107_after_false"
   ],
   "note": "False for after(): C107_after_false; C107_after_partial says exactly when that loop ends. Proved for the other loops."
  },
  {
   "property": "C108",
   "status": "partial",
   "theorems": [
    "LNlp.C108_sequence_partial",
    "LNlp.C108_all_partial",
    "LNlp.C108_interchange_partial",
    "LNlp.C108_sequence_exact",
    "LNlp.C108_all_exact",
    "LNlp.C108_interchange_exact",
    "LNlp.C108_sequence_false",
    "LNlp.C108_all_false",
    "LNlp.C108_interchange_false"
   ],
   "note": "All three laws are false of the code: C108_sequence_false, C108_all_false, C108_interchange_false. Proved: the direction that holds of each, and when they are equalities."
  },
  {
   "property": "C109",
   "status": "proved",
   "theorems": [
    "LNlp.C109_tokens",
    "LNlp.C109_table",
    "LNlp.C109_keywords",
    "LNlp.C109_parts_of_speech",
    "LNlp.C109_clauses",
    "LNlp.C109_text"
   ],
   "note": "C109_tokens: changing the case of letters changes nothing in a text's line but the case: creation succeeds for both or for none, and the tokens, their tags and positions are the same. C109_table: a case-insensitive table assigns the same values to the same tokens. C109_keywords: for clause keywords. C109_parts_of_speech: for parts of speech, if the lines have the tags of the tokenizer only. C109_clauses: for clauses: the same ranges get clauses of the same kinds. C109_text: from text to clauses and parts of speech: changing the case of letters of a text changes no clause and no part of speech."
  },
  {
   "property": "C110",
   "status": "proved",
   "theorems": [
    "LNlp.C110_one_run",
    "LNlp.C110_fuse",
    "LNlp.C110_order",
    "LNlp.C110_tables"
   ],
   "note": "C110_one_run: assigning in two runs is assigning in one: the same line, or the same panic. C110_fuse: any two resolvers of one type can be replaced by one that assigns what they assign. C110_order: the order of assignments matters to matchers only between assignments that start at the same token or end at the same token. Queries return the same entries, perhaps in another order. C110_tables: tables: running two tables of one type one after the other is, for matchers and queries, running the merged table."
  },
  {
   "property": "C111",
   "status": "proved",
   "theorems": [
    "LNlp.C111_names",
    "LNlp.C111_rendering_of_queries",
    "LNlp.C111_clauses",
    "LNlp.C111_parts_of_speech",
    "LNlp.C111_table"
   ],
   "note": "C111_names: clauses, keywords and text tags are shown by their names, and the names are different. C111_rendering_of_queries: a line rendered with some types shows the token texts and, type by type, a line for every value the queries of these types return, in the order of the queries. C111_clauses: a text's clauses are rendered one per line, from left to right, each under its tokens and with the name of its kind. C111_parts_of_speech: the parts of speech of a text are rendered one per line, from left to right, for every token that is a word, the last tag of a word first. C111_table: the values of a table are rendered one per line, from left to right, for every token whose text is in the table, the last value first."
  },
  {
   "property": "C112",
   "status": "proved",
   "theorems": [
    "LNlp.C112_again",
    "LNlp.C112_line",
    "LNlp.C112_phrases",
    "LNlp.C112_phrases_case_insensitive",
    "LNlp.C112_keywords"
   ],
   "note": "C112_again: the text of every text token, tokenised on its own, is this one token again, with the tag that goes with the text. C112_line: so a line made of the text of a token is a line of exactly this token, from 0 to its size. C112_phrases: two tables that agree on all texts of one token assign the same on every selection: an entry for a phrase of several tokens (or for the empty text) is never used. Case-insensitive tables look up lowercase texts, for them the line is without zero-width joiners. C112_phrases_case_insensitive: a table made case insensitively does not depend on entries for phrases either. C112_keywords: keywords of several tokens are never found."
  },
  {
   "property": "C113",
   "status": "proved",
   "theorems": [
    "LNlp.C113_parts",
    "LNlp.C113_cut",
    "LNlp.C113_words",
    "LNlp.C113_inside_words"
   ],
   "note": "C113_parts: among any other inputs, a text and the parts of this text, cut between words, give the same line: the same tokens, positions and attributes. C113_cut: so a text may be cut in two between words. C113_words: a text and its words, every word an input of its own, give the same line. C113_inside_words: the cut has to be between words: \"1a\" is a number and a word, as are \"1\" and \"a\"; but the one word \"ab\" is not \"a\" and \"b\"."
  },
  {
   "property": "C114",
   "status": "proved",
   "theorems": [
    "LNlp.C114_increasing",
    "LNlp.C114_find",
    "LNlp.C114_texts",
    "LNlp.C114_size_zero"
   ],
   "note": "C114_increasing: if every token has a size, later tokens start and end at later positions. C114_find: two finds with the same `range()` are on the same tokens, whatever was searched for. C114_texts: lines of texts measured in UTF-8 bytes take space. C114_size_zero: needs sizes: two custom tokens of size 0 are both at (0, 0)."
  },
  {
   "property": "C115",
   "status": "proved",
   "theorems": [
    "LNlp.C115_find_is_query",
    "LNlp.C115_find_perm_query"
   ],
   "note": "C115_find_is_query: `find(attr::<T>())` returns the values of `query::<T>()`, entry by entry ordered by the start of the entry (entries of the same start in the order of the query), with the positions of the entry. C115_find_perm_query: so the finds are a rearrangement of the values of the query."
  },
  {
   "property": "C116",
   "status": "proved",
   "theorems": [
    "LNlp.C116_selections",
    "LNlp.C116_finds",
    "LNlp.C116_assignments",
    "LNlp.C116_attributes",
    "LNlp.C116_names"
   ],
   "note": "C116_selections: selections of one line print the same exactly if they are equal. C116_finds: finds print the same exactly if they have the same `range()` and their values print the same. C116_assignments: assignments print the same exactly if they have the same range and their values print the same. C116_attributes: a prepared attribute does not print its value. C116_names: the tags, keywords and clauses that come with the crates print as their names in the source, so different ones print differently."
  },
  {
   "property": "C117",
   "status": "proved",
   "theorems": [
    "LNlp.C117_refines",
    "LNlp.C117_covers",
    "LNlp.C117_lists"
   ],
   "note": "C117_refines: with more keywords, in whatever lists, every clause lies in a clause found with fewer keywords, and its text in the text of that clause. C117_covers: what is no longer in a clause is a space or a separator: every other token is in a clause under any keywords. C117_lists: the ranges and texts of the clauses depend only on the set of all keywords, not on the lists they are in; the lists only decide the kinds."
  },
  {
   "property": "C118",
   "status": "proved",
   "theorems": [
    "LNlp.C118_same",
    "LNlp.C118_joins",
    "LNlp.C118_joins_text",
    "LNlp.C118_neighbours"
   ],
   "note": "C118_same: two configurations that agree on the characters of the line find the same amounts, or panic alike. So the order and repetitions of the delimiters do not matter. C118_joins: on lines whose tags and characters are those of the tokenizer and where no two numbers are neighbours, every amount lies in an amount found with more delimiters, and every amount found with more delimiters contains one found with fewer: more delimiters join amounts and never cut them. C118_joins_text: in particular on a line made from a string, if the word splitter does not cut between digits. C118_neighbours: where numbers of two inputs are neighbours a further delimiter can cut an amount: `1.2` `3.4` are two amounts, with `.` as a delimiter the amounts are `1.23` and `4`."
  },
  {
   "property": "C119",
   "status": "proved",
   "theorems": [
    "LNlp.C119_creation",
    "LNlp.C119_resolvers",
    "LNlp.C119_library",
    "LNlp.C119_pipelines",
    "LNlp.C119_observers",
    "LNlp.C119_end_to_end"
   ],
   "note": "C119_creation: creating a line from the same inputs with another size function, and with other sizes of the custom tokens, succeeds too unless the positions overflow, and gives the same tokens and attributes. C119_resolvers: every resolver written against the public API with the library's matchers assigns the same to both lines, or panics alike on both, wherever the lines are stored. C119_library: the library's own resolvers and those of the currency example are written against the public API. C119_pipelines: hence so does every sequence of such resolvers: both sequences panic alike, or end in lines that differ in positions only. C119_observers: on two lines that differ in positions only, queries, displays and the values found are the same. C119_end_to_end: end to end: from the same inputs measured differently, after the same resolvers, queries, displays and the values found are the same."
  },
  {
   "property": "C120",
   "status": "proved",
   "theorems": [
    "LNlp.C120_blind",
    "LNlp.C120_commute",
    "LNlp.C120_twice",
    "LNlp.C120_any_matcher_false"
   ],
   "note": "C120_blind: what a resolver assigns, written against the public API with matchers that mention only the attribute types in `T`, is not changed by running before it a resolver of an attribute type outside `T`. C120_commute: two such resolvers of different attribute types, neither mentioning the type of the other, give the very same line in either order. C120_twice: the second run of such a resolver that does not mention its own type repeats the first."
  },
  {
   "property": "C121",
   "status": "proved",
   "theorems": [
    "LNlp.C121_never_panics",
    "LNlp.C121_testable",
    "LNlp.C121_pipelines",
    "LNlp.C121_after_panics",
    "LNlp.C121_has_any_false"
   ],
   "note": "C121_never_panics: on a line whose attributes were assigned by well-behaved code, a program that uses only the selections it has, does not panic by itself, does not call `after`, and uses the library's matchers except `token_has_any`, never panics, and neither does running it as a resolver; the attributes of the new line are again assigned by well-behaved code. C121_testable: with `token_has_any` as well if every token of the line is a text or carries an attribute. C121_pipelines: any sequence of such programs runs through, displays as well, and leaves the tokens alone. C121_after_panics: needs the condition on `after`: behind a line of three tokens `after` gives a selection beyond the line, and a program that assigns something to it panics, although the line is made from a string and the program uses no matcher, no selection it does not have, and does not panic by itself. C121_has_any_false: `token_has_any` panics on a custom token without attributes."
  },
  {
   "property": "C122",
   "status": "proved",
   "theorems": [
    "LNlp.C122_results_inside",
    "LNlp.C122_panics",
    "LNlp.C122_never_panics",
    "LNlp.C122_find_by",
    "LNlp.C122_jump_false"
   ],
   "note": "C122_results_inside: whatever a user's matcher does with the matchers it asks, forwards from `i` its results end at `i ≤ j < len`, backwards from `i` at `j ≤ i`: on its own and in any expression it is a part of. C122_panics: it panics at a token of the line only if one of the matchers it asks does so there. C122_never_panics: so it does not panic if it does not use `token_has_any`. C122_find_by: every selection found with it lies in the line and starts in the searched selection. C122_jump_false: such a matcher may panic, since `XBackwards::after` does not check its index against the length of the line, and forwards it may find selections that end before they start."
  },
  {
   "property": "C123",
   "status": "proved",
   "theorems": [
    "LNlp.C123_keep",
    "LNlp.C123_change",
    "LNlp.C123_unless",
    "LNlp.C123_both"
   ],
   "note": "C123_keep: a matcher that filters the results of another finds exactly the other's finds that pass: all the searches commute with filtering. C123_change: a matcher that changes the values of another finds the same selections with the changed values; so do all searches, and `split_by` and `trim`, which look at no values, give the same as with the other. C123_unless: `a` unless `b`: finds what `a` finds at the tokens where `b` finds nothing. C123_both: a hand-written copy of `x::all((a, b))` is as good as the original, panics included."
  },
  {
   "property": "C124",
   "status": "proved",
   "theorems": [
    "LNlp.C124_boundaries",
    "LNlp.C124_split_laws",
    "LNlp.C124_no_digit_break",
    "LNlp.C124_dash_break",
    "LNlp.C124_split_stable",
    "LNlp.C124_recase",
    "LNlp.C124_lower",
    "LNlp.C124_lower_joiner_false",
    "LNlp.C124_phrase_joiner_false",
    "LNlp.C124_digit_word_panics",
    "LNlp.C124_again"
   ],
   "note": "C124_boundaries: the text is split exactly where the rules of the annex see a boundary. C124_split_laws: words are not empty and make up the text. C124_no_digit_break: there is no boundary between ASCII digits. C124_dash_break: there is a boundary before every hyphen and en dash. C124_split_stable: cutting a text between two words leaves the words; runs of ASCII letters and of ASCII digits are words. C124_recase: changing characters to characters of the same class changes no boundary. C124_lower: lowercasing keeps words without a zero-width joiner one word, keeps digits and makes none. C124_lower_joiner_false: that is false with a zero-width joiner: an emoji, a joiner and the pictograph Ⓜ are one word (rule WB3c), the lowercase ⓜ is no pictograph and a word of its own. C124_phrase_joiner_false: so the joiner condition of C112 is needed: this entry is found in its own text. C124_digit_word_panics: an ASCII digit at the start of the text or behind a space, a newline or a character of class Other, with a letter, a combining mark or a joiner that is not ASCII directly behind it makes creation panic: \"5м\", \"1\" with a keycap. C124_again: so with UAX #29 word boundaries, tokens are tokenised to themselves."
  },
  {
   "property": "C125",
   "status": "proved",
   "theorems": [
    "LNlp.C125_one_run",
    "LNlp.C125_sound",
    "LNlp.C125_layers",
    "LNlp.C125_query",
    "LNlp.C125_order",
    "LNlp.C125_steps",
    "LNlp.C125_passes",
    "LNlp.C125_enough_passes",
    "LNlp.C125_one_pass_false",
    "LNlp.C125_more",
    "LNlp.C125_stock_passes"
   ],
   "note": "C125_one_run: one run of a rule never panics and adds exactly what the rule concludes from the attributes so far. C125_sound: rules run in any order, any number of times, never panic, and every attribute follows by the rules. C125_layers: for rules in layers, one pass finds exactly what follows by the rules. C125_query: so `query` shows exactly what follows by the rules: every interpretation of every span, and nothing else. C125_order: any two orders in layers give the same attributes. C125_steps: what follows is what follows in finitely many steps. C125_passes: rules that use each other in circles can be run again and again: `n` passes over all rules, each in any order, find everything that follows in `n` steps, and nothing that does not follow. C125_enough_passes: if rules use what rules assign only as parts of sequences, as many passes as there are tokens find everything. C125_one_pass_false: one pass is not enough for a rule that uses what it assigns. C125_more: more rules and more attributes to start with never lose an interpretation. C125_stock_passes: if the rules assign values from a finite stock, as many passes as there are tokens times values in the stock find everything that follows, however the rules use each other."
  },
  {
   "property": "C126",
   "status": "proved",
   "theorems": [
    "LNlp.C126_calls",
    "LNlp.C126_tokens",
    "LNlp.C126_sizes",
    "LNlp.C126_panic",
    "LNlp.C126_ok",
    "LNlp.C126_pure",
    "LNlp.C126_line"
   ],
   "note": "C126_calls: whatever the callback does and however the creation ends, the callback is called with the texts that the inputs are cut into, in order; the calls stop early only when there is no line. C126_tokens: when there is a line, the calls were one for each of its text tokens, with that token's text, in order; none for custom tokens. C126_sizes: the size of a text token is what the callback answered for it, having been called with the texts of the tokens before it; the token's end is its start plus that answer. C126_panic: the creation ends with the callback's panic exactly if the callback did not answer the last call; it answered all calls before, and nothing else is called. C126_ok: there is a line exactly if no input is one the tokenizer cannot take (as for C09), the callback answers the texts in order, and the sizes do not overflow where overflows are checked. C126_pure: with a callback that is a function of the text, the creation is the one of the other theorems, panics included. C126_line: however the callback answers, the line differs in positions only from the one of a size function; so by C119 no resolver and no observer of attributes can tell them apart."
  },
  {
   "property": "C127",
   "status": "proved",
   "theorems": [
    "LNlp.C127_tokens",
    "LNlp.C127_whole",
    "LNlp.C127_fraction",
    "LNlp.C127_thousands",
    "LNlp.C127_cents",
    "LNlp.C127_different",
    "LNlp.C127_french_point",
    "LNlp.C127_side_by_side",
    "LNlp.C127_in_text",
    "LNlp.C127_number_in_text"
   ],
   "note": "C127_tokens: digit groups with commas, points, apostrophes or blanks between them are tokenised into the groups and the signs. C127_whole: a text of digit groups with delimiters between them is one amount over the whole text, whose value is the number with all these digits; where the delimiters stand makes no difference. C127_fraction: with the decimal sign and more digits at the end the value is the number with that many places. C127_thousands: every number below 10^28, written with a delimiter before every three digits, is read as that number. C127_cents: … and with the decimal sign and two places it is read as that number of hundredths. C127_different: so two numbers are never mixed up, even with different delimiters. C127_french_point: the french configuration takes the decimal point for a delimiter, so it reads n.xy as 100 n + xy. C127_side_by_side: if a text is cut between two words, and the character before or behind the cut cannot belong to a number, the amounts of the text are the amounts of the two parts. C127_in_text: a number in a text, with a blank, bracket, currency sign or other symbol before and behind it (or the end of the text), is read as it is read alone, and so is what is before and behind it. C127_number_in_text: so a number below 10^28, written with delimiters, is found in every text where such characters are around it: as one amount, with its text and its value, after the amounts before it and before the amounts behind it."
  },
  {
   "property": "C128",
   "status": "proved",
   "theorems": [
    "LNlp.C128_string",
    "LNlp.C128_sink",
    "LNlp.C128_ok",
    "LNlp.C128_prefix",
    "LNlp.C128_blame",
    "LNlp.C128_room",
    "LNlp.C128_panic"
   ],
   "note": "C128_string: `format!(\"{}\", d)` gives the rendering the other properties speak about, and panics where they say it does. C128_sink: every sink is given the same texts, in the same order: all of them, if it takes them all, and then rendering ends as it does into a String; otherwise up to the first one it does not take and nothing after that, and rendering returns `Err` if the sink refused and unwinds if it panicked. C128_ok: rendering succeeds exactly if the display has a rendering and the sink takes every piece; the sink has then been given the rendering. C128_prefix: whatever happens, what the sink was given is the beginning of the rendering. C128_blame: `Err` is returned only if the sink refused something, and a panic comes from the sink or is the panic of the rendering. C128_room: into a buffer of `n` bytes rendering succeeds exactly if the rendering is at most `n` bytes long. C128_panic: if rendering a line panics, then the sink was given the header, the rendering of the attributes before the one that cannot be drawn, and the beginning of that one: a line break, blanks up to its first column and the corner."
  },
  {
   "property": "C129",
   "status": "proved",
   "theorems": [
    "LNlp.C129_function",
    "LNlp.C129_follows",
    "LNlp.C129_results",
    "LNlp.C129_stops",
    "LNlp.C129_attr_eq",
    "LNlp.C129_has_any_backwards",
    "LNlp.C129_has_any_forwards",
    "LNlp.C129_find_by_order",
    "LNlp.C129_order",
    "LNlp.C129_ready",
    "LNlp.C129_search_order",
    "LNlp.C129_comparisons",
    "LNlp.C129_asked",
    "LNlp.C129_debug",
    "LNlp.C129_safe_matcher",
    "LNlp.C129_safe_search",
    "LNlp.C129_safe_find"
   ],
   "note": "C129_function: if the user's code is a function, the searches written as dialogs with it give exactly what the other properties speak about. C129_follows: code of the user that counts, logs or caches, and may panic at any time, but whose answers are those of a function: whatever asks it (`d`: a matcher, a search, a display) asks it the questions it would ask the function, in the same order, and ends the same way; or up to the first it panics on, and then nothing more is asked and that panic is all there is. C129_results: so no search has another result because the code it asks keeps a count or a cache. C129_stops: whatever the user's code answers: it is asked nothing after a panic; a search ends with the panic of the user's code exactly if there was one. C129_attr_eq: `x::attr_eq(&v)` with any `PartialEq`, in either direction: the values `x::attr` finds are compared with `v` once each, in their order, the value on the left of `==`, and those of the comparisons that said yes are found; or a comparison panicked, and nothing more was compared. C129_has_any_backwards: `x::token_has_any(&set)` backwards compares, for each value `x::attr` finds, the elements of the set with it, the element on the left of `==`, from the first up to the first that is equal. C129_has_any_forwards: forwards likewise, for the values on the token itself. C129_find_by_order: `find_by` runs the matcher at the positions of the selection from the left to the right, each once, also when only the first result is wanted (`find_first_by`). C129_order: if the user's code is a function, all the questions of an expression are these, in this order: `all` runs its matchers once each, the first of them last; `any_of` runs its matchers one after the other until one finds something; `seq` runs the first once and the next once for each result, on the token beyond it (if there is one). C129_ready: the matchers of the library, and those built from them and from good matchers of the user, are ready on every line without a bare `Value` token, whatever the function is. C129_search_order: the searches run their matcher once at each of these places, in this order, and ask nothing else. C129_comparisons: with any `PartialEq`, `find_by(x::attr_eq(&v))` makes exactly the comparisons of the values on ranges that start in the selection, position by position; over the whole line these are all values of the type, each compared once. C129_asked: so in a run with any `PartialEq` those are the questions, all of them or up to the first panic. C129_debug: `include::<T>()` calls `Debug` once for each value of the type, range by range in the order of the first assignment and on each range in the order of assignment (not that of the lines shown, which is the reverse), whatever `Debug` returns; and it adds one line per value, on the value's range. C129_safe_matcher: whatever is answered, matchers of the library stay inside the line on their side of the position, and their own code panics only on a `Value` token without an attribute of its own. C129_safe_search: and so do the searches: whatever is answered, what they give are selections of the line with the boundaries they promise. C129_safe_find: `LLLine::find` too: the positions it reports are those of tokens of the line, the first not after the last."
  },
  {
   "property": "C130",
   "status": "proved",
   "theorems": [
    "LNlp.C130_consistent",
    "LNlp.C130_unique",
    "LNlp.C130_order",
    "LNlp.C130_careful",
    "LNlp.C130_library",
    "LNlp.C130_circles_false"
   ],
   "note": "C130_consistent: resolvers run in layers give a line that is consistent: each of them, asked again about the finished line, answers just what it assigned. They may use choices, negations and computations of their own. C130_unique: there is only one consistent line. C130_order: hence two orders of the same resolvers, both in layers, give the very same line if both run through, wherever lines are stored. C130_careful: for careful programs (C121) without `token_has_any`: every order in layers runs through, and all give the same line. C130_library: for the library's resolvers: two orders of resolvers of different types, each after those whose types it looks at, give the very same line if both run through. C130_circles_false: needs layers: two resolvers, each marking what the other did not mark, have two consistent lines; the one that is run first marks everything."
  },
  {
   "property": "C131",
   "status": "proved",
   "theorems": [
    "LNlp.C131_create",
    "LNlp.C131_matchers",
    "LNlp.C131_find",
    "LNlp.C131_run",
    "LNlp.C131_pipeline",
    "LNlp.C131_library",
    "LNlp.C131_currency",
    "LNlp.C131_query",
    "LNlp.C131_display",
    "LNlp.C131_eq_needed",
    "LNlp.C131_debug_needed"
   ],
   "note": "C131_create: the same input with recoded attributes gives the same tokens with recoded attributes on the same ranges, or the same panic. Nothing is asked of the recoding: not even `PartialEq` has to agree. C131_matchers: a matcher expression finds the recoded values at the same places; `attr_eq` and `token_has_any` must compare with values that are equal to the same things. C131_find: so does a search of the line, at the same positions. C131_run: a resolver that treats recoded values alike assigns recoded values to the same ranges in the same order, or panics alike. C131_pipeline: for whole pipelines. C131_library: the library's resolvers treat recoded values alike; tables need related values for the same texts. C131_currency: the resolvers of the currency test too. C131_query: a query gives the same ranges and texts with the recoded values in the same order. C131_display: if recoded values print alike, the lines display alike. C131_eq_needed: the condition on `attr_eq` is needed. Values that stand for each other, but are equal to other things, are found at other places. C131_debug_needed: the condition on `Debug` is needed for the display."
  },
  {
   "property": "C132",
   "status": "proved",
   "theorems": [
    "LNlp.C132_tokens",
    "LNlp.C132_text",
    "LNlp.C132_one_line",
    "LNlp.C132_selections",
    "LNlp.C132_finds",
    "LNlp.C132_assignments",
    "LNlp.C132_any_of",
    "LNlp.C132_any_of3",
    "LNlp.C132_any_of_text",
    "LNlp.C132_any_of3_text",
    "LNlp.C132_plain",
    "LNlp.C132_line",
    "LNlp.C132_lines",
    "LNlp.C132_strings"
   ],
   "note": "C132_tokens: in either form, lines print the same tokens exactly if they have the same tokens: texts, tags, indexes and positions. C132_text: the printed tokens of a line made from a text tell the text. C132_one_line: the plain form is one line, whatever the texts are. C132_selections: in either form, selections of one line print the same exactly if they are equal. C132_finds: in either form, finds print the same exactly if they have the same `range()` and their values print the same in that form. C132_assignments: in either form, assignments print the same exactly if they have the same range and their values print the same in that form. C132_any_of: results of `any_of` print the same exactly if they come from the same alternative and print the same there, and they are equal exactly if they come from the same alternative and are equal there. C132_any_of3: the same for three alternatives. C132_any_of_text: the text of a result of `any_of` is the name of the alternative and what was found, in parentheses. C132_any_of3_text: the same for three alternatives. C132_plain: the plain form of C116 is the plain form here. C132_line: `{:?}` writes the tokens, with the names of their fields, between brackets and with commas between them. C132_lines: `{:#?}` writes the tokens of a line on lines of their own, with the names of their fields, each field on a line of its own; no tokens are written as two brackets. C132_strings: texts are written in quotes, with the usual escapes for the characters that have one, the other characters that are not printable by their number, and all other characters as they are."
  },
  {
   "property": "C133",
   "status": "proved",
   "theorems": [
    "LNlp.C133_order",
    "LNlp.C133_swap",
    "LNlp.C133_matchers",
    "LNlp.C133_exact",
    "LNlp.C133_pipelines",
    "LNlp.C133_queries",
    "LNlp.C133_queries_panic"
   ],
   "note": "C133_order: two lines with the same tokens look the same exactly if their histories agree up to what `SameOrder` leaves open. C133_swap: two assignments of different types, or to ranges with different starts and different ends, can be made in either order. C133_matchers: every matcher finds the same on lines that look the same. C133_exact: looking the same is exactly what resolvers written against the public API cannot tell apart: all of them return the same assignments, or panic alike, on both lines if and only if the lines look the same. C133_pipelines: nor can they after any further resolvers ran on both lines. C133_queries: queries on lines that look the same return the same entries, perhaps in another order. C133_queries_panic: and panic on one if and only if on the other."
  },
  {
   "property": "C134",
   "status": "proved",
   "theorems": [
    "LNlp.C134_ends",
    "LNlp.C134_equation",
    "LNlp.C134_unique",
    "LNlp.C134_builtin",
    "LNlp.C134_results_inside",
    "LNlp.C134_never_panics",
    "LNlp.C134_many",
    "LNlp.C134_find_many",
    "LNlp.C134_spaces_forwards",
    "LNlp.C134_spaces_backwards",
    "LNlp.C134_trim",
    "LNlp.C134_trim_all",
    "LNlp.C134_backwards_needed"
   ],
   "note": "C134_ends: on a line none of whose attributes runs backwards, a `go` that calls itself only behind a match ends: however deep it is unrolled, more levels than the line has tokens make no difference. C134_equation: so its results are those its code gives, where the calls of itself give these results …. C134_unique: … and no other results do that: every matcher that behaves as this code says has them. C134_builtin: it may be used like a matcher of the library: everything said about matcher expressions holds of it. C134_results_inside: for instance, its results lie in the line and go the right way. C134_never_panics: and it does not panic if it does not use `token_has_any`. (Where attributes run backwards, the code need not return, `C134_backwards_needed`; so nothing is said there.). C134_many: a matcher for \"`m`, once or more often\" finds exactly the rows of matches of `m`, each adjacent to the next, and how many they are; in both directions. C134_find_many: searching with it finds exactly the rows that start in the selection. C134_spaces_forwards: \"any number of consecutive spaces\", which `x::whitespace()` does not match (C97), is matched by repeating it: from the first of `c` whitespace tokens in a row, all of them, then all but the last, and so on. C134_spaces_backwards: … and backwards from the last of them. C134_trim: so trimming with it removes all whitespace, which `trim(whitespace())` does not (C92): if `a` and `b` are the first and the last token of the selection that are not whitespace, exactly `a ..= b` is left. C134_trim_all: … and nothing is left of a selection that is all whitespace. C134_backwards_needed: where an attribute runs backwards, a matcher that repeats it does not end: it comes back to where it was."
  },
  {
   "property": "C135",
   "status": "proved",
   "theorems": [
    "LNlp.C135_matchers",
    "LNlp.C135_calls",
    "LNlp.C135_programs",
    "LNlp.C135_session",
    "LNlp.C135_complete",
    "LNlp.C135_resolvers"
   ],
   "note": "C135_matchers: every matcher expression finds on a line what the reference finds, and panics where it says so. C135_calls: the same for one call of the selection API, on any line and any selections. C135_programs: the same for whole programs: what they assign. C135_session: whole sessions. Make a line from any inputs and run any programs on it: either both the library and the reference panic somewhere, or neither does, and tokens, queries, displays and searches give the same afterwards. C135_complete: nothing is missing from the reference: every matcher built from `x::*` and matchers of the user is the matcher of an expression, and every resolver that uses such matchers behaves as a script. C135_resolvers: the library's own resolvers, those of the currency example, and all others written against the API: there are scripts that do, on every input, what the resolvers do."
  },
  {
   "property": "C136",
   "status": "proved",
   "theorems": [
    "LNlp.C136_library",
    "LNlp.C136_library_all",
    "LNlp.C136_alike",
    "LNlp.C136_wrappers",
    "LNlp.C136_inside",
    "LNlp.C136_never_panics",
    "LNlp.C136_hide",
    "LNlp.C136_hide_layers",
    "LNlp.C136_skip_inside",
    "LNlp.C136_skip_seq",
    "LNlp.C136_skip_backwards_false"
   ],
   "note": "C136_library: for the two directions of the library the generic code of the matchers is the code that `Model/X.lean` writes down for them, matcher by matcher. C136_library_all: so every matcher expression of the other properties is generic code, used with a direction of the library. C136_alike: a matcher knows its direction only by what the five methods answer. Wherever two directions, of any types and on any two lines of the same length, answer alike, every matcher expression finds the same with both, with the same indexes, all of which are answers of the directions; and it panics only where they may. C136_wrappers: the directions of the user that the examples use are such: they know the one inside only by its methods. One that hides types may be asked about them without asking the one inside. C136_inside: with such directions around those of the library, in any nesting, every result stays in the line, and on a line with ordered attributes on the side of the direction that `find_by` etc. started with. C136_never_panics: and it does not panic at a token, if it does not use `token_has_any` or every token has an attribute of its own. C136_hide: a direction that hides types shows an expression the line without the attributes of these types: what it finds is what it finds with the library's direction on any line `l'` with the same tokens on which everything but the hidden types was assigned. C136_hide_layers: so it shows an expression the line as it was before the resolvers that assigned these types, however many ran. C136_skip_inside: with a direction whose `after` passes over spaces, forwards, every expression stays in the line and on its side, and panics no more than with the library's. C136_skip_seq: a sequence with it finds exactly the pairs of which the second starts at the next token behind the first that is not a space. C136_skip_backwards_false: backwards it panics, on two spaces: it makes up the index to go on from, which `XBackwards::after` does not check."
  },
  {
   "property": "C137",
   "status": "proved",
   "theorems": [
    "LNlp.C137_forwards",
    "LNlp.C137_backwards",
    "LNlp.C137_find_by",
    "LNlp.C137_fresh",
    "LNlp.C137_attained",
    "LNlp.C137_no_repetition",
    "LNlp.C137_trim_start",
    "LNlp.C137_trim_end"
   ],
   "note": "C137_forwards: if the attributes an expression looks at cover at most `k` tokens each, and it puts at most `n` of them next to each other, then what it finds from token `i` on ends before token `i + n * k`. C137_backwards: … and backwards as far to the left. C137_find_by: so the selections `find_by` returns cover at most `n * k` tokens. C137_fresh: on a line as it was created from texts without attributes, every attribute covers one token, so an expression with `n` matches next to each other finds at most `n` tokens. C137_attained: the bound is attained: `n + 1` times `whitespace()` in sequence finds `n + 1` whitespace tokens in a row. C137_no_repetition: so no expression of the library, nor one of matchers of the user that do not call themselves, finds whitespace of any length, as `whitespace()` is documented to do (C97): for every such expression there are texts all of whitespace that a matcher that calls itself (C134) finds as a whole, and of which the expression finds only a beginning. C137_trim_start: nor does `trim_start` with such an expression remove all whitespace: if more than `n` whitespace tokens stand at the start of the selection, whitespace is left there. C137_trim_end: … and `trim_end` leaves whitespace at the end."
  },
  {
   "property": "C138",
   "status": "proved",
   "theorems": [
    "LNlp.C138_results",
    "LNlp.C138_find_by",
    "LNlp.C138_unambiguous",
    "LNlp.C138_fresh",
    "LNlp.C138_attained"
   ],
   "note": "C138_results: where at most `c` values of one type start and end at any token, an expression of the library with `n` attribute matchers has at most `c ^ n` results at a position, forwards and backwards. C138_find_by: so the results of `find_by` grow with the selection only linearly: at most `c ^ n` per token of it. C138_unambiguous: on a line with at most one value of a type at each token, every expression of the library has at most one result at a position, …. C138_fresh: … as on every line made of texts without attributes. C138_attained: the bound is attained: where `c` values cover each of `n + 1` tokens in a row, `n + 1` times `attr()` in sequence has `c ^ (n + 1)` results."
  },
  {
   "property": "C139",
   "status": "partial",
   "theorems": [
    "LNlp.C139_false",
    "LNlp.C139_always_panic_partial",
    "LNlp.C139_longest_instead",
    "LNlp.C139_shortest_instead"
   ],
   "note": "False as stated: both calls are todo!() (C139_false, C139_always_panic_partial). C139_longest_instead and C139_shortest_instead show how to get the results with match_forwards and split_with."
  },
  {
   "property": "C140",
   "status": "proved",
   "theorems": [
    "LNlp.C140_test_line",
    "LNlp.C140_one_search",
    "LNlp.C140_one_line",
    "LNlp.C140_forwards",
    "LNlp.C140_backwards",
    "LNlp.C140_merge_false",
    "LNlp.C140_merge",
    "LNlp.C140_fresh_needed",
    "LNlp.C140_any_of_false"
   ],
   "note": "C140_test_line: Every expression without `token_text` has a test line; it has one token and one more for every `seq`, and a search of it for the expression reports the whole line. C140_one_search: Replacing is settled by one search: on every line, `find_by` reports for `b` all the ranges it reports for `a`, exactly if it reports for `b` the whole test line of `a`. C140_one_line: … and by one line: on every line exactly if on the test line. C140_forwards: Replacing is the same question for `find_by` and `match_forwards` …. C140_backwards: … and for `match_backwards`. C140_merge_false: For example, `all((seq((a, c)), seq((b, c))))` can not be replaced by `seq((all((a, b)), c))`: the test line has three tokens …. C140_merge: … the other way round it can: whatever the expressions, on every line. C140_fresh_needed: The values of the test line must be none that the replacement compares with: a test line with the value `\"x\"` can not tell `attr` from `attr_eq(&\"x\")`. C140_any_of_false: With `any_of` no test line would do: it can find all that `attr` finds on the test line and yet not everywhere, because attributes of its first alternative hide what the second would find."
  },
  {
   "property": "C141",
   "status": "proved",
   "theorems": [
    "LNlp.C141_sound",
    "LNlp.C141_recognises",
    "LNlp.C141_unit_free",
    "LNlp.C141_units_false",
    "LNlp.C141_text",
    "LNlp.C141_counting",
    "LNlp.C141_counting_found"
   ],
   "note": "C141_sound: the productions of a grammar, run as resolvers in any order and number, never panic and find only what the grammar derives. C141_recognises: as many passes over the productions as there are tokens times as there are productions, each in any order, find exactly what the grammar derives: `query` lists the ranges whose texts are in the language. C141_unit_free: if no production is just one symbol that has productions, as many passes as there are tokens are enough. C141_units_false: otherwise they are not: in the wrong order, one pass over `S → A` and `A → a` does not find that `a` is an `S`. C141_text: for a line made from a text, that is: `query` lists the ranges of the text's pieces that the grammar derives. C141_counting: with conjunctions, more than context-free languages: as many `a`s as `b`s as `c`s, in this order. C141_counting_found: so, on any line, as many passes as there are tokens find exactly the stretches of the form `aⁿbⁿcⁿ`."
  },
  {
   "property": "C142",
   "status": "proved",
   "theorems": [
    "LNlp.C142_matcher",
    "LNlp.C142_one_run",
    "LNlp.C142_layers",
    "LNlp.C142_query",
    "LNlp.C142_doubling"
   ],
   "note": "C142_matcher: a right-hand side, searched at a token, has each result once for each way to find it. C142_one_run: one run of a rule assigns each value once for each way to conclude it. C142_layers: for rules in layers, the line has at the end what it had at the start and each conclusion once for each way to conclude it from what the line has at the end; nothing else satisfies this, but for the order. C142_query: `query` lists them all: for a type that only one rule assigns, it lists the ranges on which there is a way to find the rule's right-hand side, and the values are those of all ways to find it there. C142_doubling: a rule that finds what it assigns doubles it with every run: after `n` runs, every value that was there once is there 2ⁿ times."
  },
  {
   "property": "C143",
   "status": "proved",
   "theorems": [
    "LNlp.C143_sound",
    "LNlp.C143_parses",
    "LNlp.C143_no_chains",
    "LNlp.C143_layers"
   ],
   "note": "C143_sound: the productions of a grammar over texts and attributes, run as resolvers in any order and number, never panic and assign only what the grammar finds. C143_parses: as many passes as there are tokens times productions, each in any order, parse the line: whatever resolvers ran before, `query` lists just what was there and what the grammar finds, and searches find what can be replaced by what was there. C143_no_chains: if no production is just one symbol of a type that has productions, as many passes as there are tokens do. C143_layers: and if the productions are in layers, one pass does."
  },
  {
   "property": "C144",
   "status": "proved",
   "theorems": [
    "LNlp.C144_one_run",
    "LNlp.C144_same_attributes",
    "LNlp.C144_query_once",
    "LNlp.C144_stops",
    "LNlp.C144_ends",
    "LNlp.C144_ends_growing",
    "LNlp.C144_order",
    "LNlp.C144_equality_needed",
    "LNlp.C144_size"
   ],
   "note": "C144_one_run: one run assigns just the conclusions that are not there yet, each once. C144_same_attributes: however rules that look first are run, they never panic and the attributes are those the same runs of the plain rules (C125) give; only the repetitions are missing. C144_query_once: so if `query` listed no value twice for a range before, it never does. C144_stops: a loop over the rules can stop when a pass leaves the number of values `query` lists as it was: then the line is the same as before the pass, and has exactly what follows by the rules. C144_ends: and such a loop ends: if the rules assign values from a finite stock, it does after as many passes as there are tokens times values in the stock; from then on no run changes anything. C144_ends_growing: or, if rules use what rules assign only as parts of sequences, after as many passes as there are tokens. C144_order: the end does not depend on the order: if two sequences of runs, in whatever order, lead to lines that a pass over all rules leaves as they are, `query` lists the same values for the same ranges on both, equally often. C144_equality_needed: the equality is needed: if no value is equal to itself (as `f64::NAN`), looking first makes no difference, and each run assigns everything again (C142). C144_size: on a line of `n` tokens, rules that look first and take their values for a type from a finite stock add at most `n (n + 1) / 2` values for each of them, however many runs there are."
  },
  {
   "property": "C145",
   "status": "proved",
   "theorems": [
    "LNlp.C145_matcher",
    "LNlp.C145_query",
    "LNlp.C145_looking",
    "LNlp.C145_parts",
    "LNlp.C145_expression",
    "LNlp.C145_finders",
    "LNlp.C145_panic_false",
    "LNlp.C145_any_of_false"
   ],
   "note": "C145_matcher: what a matcher made of `x::attr`, `x::attr_eq`, `x::token_text`, `x::seq` and `x::all` finds inside a stretch is the same, in the same order, on any two lines on which the tokens of the stretch and the attributes inside it are the same. C145_query: after any runs of any rules, in any order and however often, on two lines with the same stretch, `query` lists for the ranges inside the stretch the same ranges, texts and values in the same order on both. C145_looking: the same if some of the rules look before they assign (C144), whatever their `==`. C145_parts: in particular what rules find in a part of the input is what they find in that part alone: for the line of `xs ++ ys ++ zs`, `query` lists for the ranges inside the tokens of `ys`, counted from there, exactly what it lists for the line of `ys`, whatever is before and after. C145_expression: any expression without `x::any_of` (so also `x::token_has_any`, and `x::seq` and `x::all` of three), in either direction: what it finds inside a stretch is the same, in the same order, on any two lines with the same stretch, if it does not panic on either. C145_finders: and the same for queries after any runs of resolvers that search for such expressions, if the runs do not panic. C145_panic_false: `x::seq((x::token_text(), x::token_has_any(&[])))` panics if a custom token without attributes is put behind the text. C145_any_of_false: two texts, or else one: with `\" \"` after it, `\"a\"` by itself is not found."
  },
  {
   "property": "C146",
   "status": "proved",
   "theorems": [
    "LNlp.C146_one_run",
    "LNlp.C146_stable",
    "LNlp.C146_unique",
    "LNlp.C146_query",
    "LNlp.C146_order",
    "LNlp.C146_done",
    "LNlp.C146_circles_false"
   ],
   "note": "C146_one_run: one run of a rule with exceptions or choices never panics and adds exactly what the rule concludes from the attributes so far, with the exceptions judged by them. C146_stable: layers of such rules, each layer run with enough passes before the next, find a stable set of attributes: just what follows by all the rules if the exceptions are judged by the finished line. C146_unique: rules that can be put in layers have no more than one stable set. C146_query: `query` shows just that set. C146_order: the same rules in other layers, or in another order inside the layers, find the same attributes. C146_done: and then no run of any of the rules finds anything more. C146_circles_false: rules that make exceptions of each other cannot be put in layers; the one that is run first wins."
  },
  {
   "property": "C147",
   "status": "proved",
   "theorems": [
    "LNlp.C147_one_run",
    "LNlp.C147_same_attributes",
    "LNlp.C147_ends",
    "LNlp.C147_stable",
    "LNlp.C147_loop",
    "LNlp.C147_layer_ends",
    "LNlp.C147_done",
    "LNlp.C147_order",
    "LNlp.C147_early_false"
   ],
   "note": "C147_one_run: one run of such a rule adds exactly its conclusions that are not there yet, each once; if there are none, the line is left as it is. C147_same_attributes: in any order and number, the rules find the same attributes as without looking first, and each new one once. C147_ends: the loop ends: with enough passes over each layer, a pass leaves the numbers as they were. C147_stable: a loop over the layers that goes on to the next layer when a pass leaves the number of values `query` lists as it was ends with a stable set, each new value once. C147_loop: so `query` lists just what is in that set, and no value twice if it listed none twice before. C147_layer_ends: one layer, wherever it is begun: after enough passes, no run of its rules changes the line. C147_done: and when the loop has ended, no run of any rule of any layer changes the line. C147_order: loops over the same rules in other layers, or with other runs, end with the same attributes. C147_early_false: what a layer assigns too early stays, so the loop has to wait for each layer."
  },
  {
   "property": "C148",
   "status": "proved",
   "theorems": [
    "LNlp.C148_matchers",
    "LNlp.C148_lines",
    "LNlp.C148_order",
    "LNlp.C148_token_has_any_false",
    "LNlp.C148_back",
    "LNlp.C148_extend",
    "LNlp.C148_both_ways",
    "LNlp.C148_trim",
    "LNlp.C148_find_by",
    "LNlp.C148_rules",
    "LNlp.C148_query"
   ],
   "note": "C148_matchers: matching backwards is matching forwards on the line written from right to left, and the other way round: an expression without `x::token_has_any` finds the same things, in the same order, with their ends counted from the other end, and panics on neither line. C148_lines: a line created from inputs of one token each, and the line created from the same inputs in the opposite order, are each other written from right to left. C148_order: whether a line can be created does not depend on the order of the inputs. C148_token_has_any_false: `x::token_has_any` has to be left out: forwards it panics on a custom token without attributes, backwards it does not (C29, C30). C148_back: being each other written from right to left goes both ways. C148_extend: growing a selection to the right is growing it to the left on the line written from right to left, and the other way round. C148_both_ways: `find_by_forwards_and_backwards` finds the same on the line written from right to left. C148_trim: `trim_start` is `trim_end` on the line written from right to left, and the other way round, except where `trim_end` keeps the token it should trim (C50): when all tokens from the first of the line are to be trimmed. C148_find_by: `find_by` over the whole line finds the same as `find_by` of the mirrored expression (C35) over the line written from right to left. C148_rules: what follows by rules on a line, follows by the rules written from right to left on the line written from right to left, and nothing else. C148_query: so after a pass of rules in layers, and after a pass of the same rules written from right to left on the line written from right to left, `query` shows the same values on the same tokens."
  },
  {
   "property": "C149",
   "status": "proved",
   "theorems": [
    "LNlp.C149_priority",
    "LNlp.C149_again",
    "LNlp.C149_any_of",
    "LNlp.C149_any_of_false",
    "LNlp.C149_order",
    "LNlp.C149_stable",
    "LNlp.C149_overlap_false",
    "LNlp.C149_again_false"
   ],
   "note": "C149_priority: readings run once each, in order, never panic; at every token where no attribute of the type began before, there is in the end what the first reading that finds anything there assigns, and elsewhere nothing new. C149_again: running any of them again, in any order and number, leaves the line as it is. C149_any_of: all that is the same as one run of one reading with `x::any_of`, if all readings but the last assign a value wherever they find anything: searches forwards find the same in the same order, and queries list the same. C149_any_of_false: a reading that finds something but assigns no value hides the others in `x::any_of`, but not in order of priority. C149_order: two readings can be run in the other order exactly if, wherever both find something where nothing began before, they assign the same. C149_stable: such readings are not rules in layers (C146): there is a stable set only if they find nothing new. C149_overlap_false: only the first tokens are looked at, so what is assigned can overlap. C149_again_false: a reading that looks for what is assigned may find more when it is run again."
  },
  {
   "property": "C150",
   "status": "proved",
   "theorems": [
    "LNlp.C150_scan",
    "LNlp.C150_unique",
    "LNlp.C150_panics",
    "LNlp.C150_find_by",
    "LNlp.C150_split_by",
    "LNlp.C150_split_by_false",
    "LNlp.C150_cut",
    "LNlp.C150_cut_false",
    "LNlp.C150_most_false",
    "LNlp.C150_resolver"
   ],
   "note": "C150_scan: with at least as many rounds as the selection has tokens the loop ends, always with the same result: the leftmost choice of matches, and the pieces of the selection between them. C150_unique: no other choice of matches fulfils the conditions. C150_panics: the loop panics exactly if the matcher panics at some token of the selection, also at one inside a match. C150_find_by: what is kept are some of the results of `find_by`, in their order; and all of them exactly if no two overlap. C150_split_by: the pieces are those of `split_by`, if no two results of `find_by` overlap. C150_split_by_false: where matches overlap, `split_by` also removes the tokens of matches that begin inside a match kept. C150_cut: a selection can be scanned in two parts, if no match kept in the left part reaches into the right part. C150_cut_false: a match kept in the left part may end in the right part, where another is then kept. C150_most_false: a long match at the left can take the place of several later ones. C150_resolver: a resolver that scans never panics, and gives one value to each match of the leftmost choice; if there were no attributes of this type, a query lists just these, from left to right, and no two of them overlap."
  },
  {
   "property": "C151",
   "status": "proved",
   "theorems": [
    "LNlp.C151_selectable",
    "LNlp.C151_no_new_edges",
    "LNlp.C151_fresh",
    "LNlp.C151_never_apart",
    "LNlp.C151_apart",
    "LNlp.C151_text",
    "LNlp.C151_first_two",
    "LNlp.C151_only_edges_false"
   ],
   "note": "C151_selectable: a range of tokens can be selected exactly if it begins and ends at places that can be cut. C151_no_new_edges: honest resolvers make no new edges, however many are run; only the place behind token 0 may become one. C151_fresh: on a fresh line there is an edge between two neighbours exactly if one of the two has an attribute of its own: it is a piece of text, or a custom token with attributes. C151_never_apart: two neighbours (but the first two tokens) without attributes of their own are never told apart: whatever honest resolvers are run, each attribute and each selection has both or neither. C151_apart: all other neighbours can be told apart at once. C151_text: on a line of text every range of tokens can be selected. C151_first_two: the first two tokens of any line can be told apart after any attribute was put on the whole line. C151_only_edges_false: it is not so that selections begin and end only at edges."
  },
  {
   "property": "C152",
   "status": "proved",
   "theorems": [
    "LNlp.C152_entries",
    "LNlp.C152_no_panic",
    "LNlp.C152_wrong_type"
   ],
   "note": "C152_entries: whatever is done with the entries of a map that was empty at first, in any order, the caller sees what a shelf with one place per type would show, and the map is such a shelf at the end. In particular operations on one type do not disturb another, and the function given to `or_insert_with` is called only if there is no value. C152_no_panic: the `unwrap`s of the entry API are never reached with a wrong type: what a caller sees as a panic is the panic of a function it gave itself. C152_wrong_type: an entry made with a type other than that of the stored value panics whatever is done with it; `insert` has then replaced the value already, and `remove` has thrown it away."
  },
  {
   "property": "C153",
   "status": "proved",
   "theorems": [
    "LNlp.C153_parts",
    "LNlp.C153_edit",
    "LNlp.C153_replace",
    "LNlp.C153_anywhere_false",
    "LNlp.C153_table",
    "LNlp.C153_parts_of_speech",
    "LNlp.C153_keywords",
    "LNlp.C153_lines_ok",
    "LNlp.C153_lines",
    "LNlp.C153_lines_amounts",
    "LNlp.C153_clauses_in_lines_false"
   ],
   "note": "C153_parts: a text can be tokenized iff the two parts at a word boundary can; its tokens are those of the first part, followed by those of the second with their indexes and positions moved behind the first. C153_edit: replacing a part of a text between two word boundaries (before and after the replacement) leaves the tokens before it as they are, and those behind it up to the amount by which indexes and positions are moved. C153_replace: with the boundaries of UAX #29, that is so if there are blanks (or ends of the text) around what is replaced, and what is replaced and what replaces it have no blanks at their ends. C153_anywhere_false: in the middle of a word that is not so: `can` is a token of `can, not` but not of `can't, not`. C153_table: what a table resolver finds in a text is what it finds in the two parts at a word boundary. C153_parts_of_speech: the same for parts of speech. C153_keywords: the same for the keywords of clauses. C153_lines_ok: a text of several lines can be tokenized iff every line can that is not empty. C153_lines: its tokens are those of the lines, with one space token for every newline between them. C153_lines_amounts: the amounts of a text are those of its first line and those of the rest, if a newline is neither delimiter nor decimal point. C153_clauses_in_lines_false: clauses are not read line by line: in `\"if a\\nb\"` the condition is `\"a\\nb\"`."
  },
  {
   "property": "C154",
   "status": "proved",
   "theorems": [
    "LNlp.C154_one_by_one",
    "LNlp.C154_by_type",
    "LNlp.C154_given",
    "LNlp.C154_given_anyway_false"
   ],
   "note": "C154_one_by_one: the line of inputs with attributes is the line of the same inputs without attributes after one resolver for every attribute, in the order of the inputs and of each input's attributes, assigned it to the tokens of its input. C154_by_type: one resolver for every type does as well, the types in any order. C154_given: and the other way round: instead of running a resolver that assigns values to whole inputs, in the order of the inputs, the values can be given with the inputs, if no input was given with values of that type before. C154_given_anyway_false: it does not: what was given comes first in the queries."
  },
  {
   "property": "C155",
   "status": "proved",
   "theorems": [
    "LNlp.C155_parts",
    "LNlp.C155_created",
    "LNlp.C155_resolved",
    "LNlp.C155_single_tokens",
    "LNlp.C155_amounts",
    "LNlp.C155_own_tags_false"
   ],
   "note": "C155_parts: if a line has the tokens of two lines one after the other, and the attributes of the rendered types too, then its rendering is the renderings of the two lines side by side. C155_created: the line created from two lists of inputs is rendered as the two lines created from them side by side, for all types, except that the input must not bring its own characters and text tags if these are rendered. C155_resolved: the same after running, on each of the three lines, a resolver of a new type that assigns on the whole line what it assigns on the parts. C155_single_tokens: for the resolvers of the library that look at single tokens. C155_amounts: for amounts, if no amount can begin or go on across the cut. C155_own_tags_false: needs its condition: the tags that an input brings are listed after the tags that all the tokens get, so those of the first part do not come before all those of the second."
  },
  {
   "property": "C156",
   "status": "proved",
   "theorems": [
    "LNlp.C156_pipeline",
    "LNlp.C156_text",
    "LNlp.C156_same_type_false"
   ],
   "note": "C156_pipeline: a pipeline of resolvers that do not cross the cut between two parts runs on the whole exactly if it runs on both parts. Then the finished line has the tokens and attributes of the finished parts, those of the second moved behind the first, and its rendering is the two renderings side by side. C156_text: for a text with a word boundary between two parts. C156_same_type_false: needs different types: what a second table of the same type finds in the first part is listed behind what the first table found in the second part."
  },
  {
   "property": "C157",
   "status": "proved",
   "theorems": [
    "LNlp.C157_parts",
    "LNlp.C157_document"
   ],
   "note": "C157_parts: a pipeline runs on a text exactly if it runs on all the parts, and then the finished line has the tokens and attributes of the finished parts, one after the other. C157_document: analysing a document is analysing its lines (each with the newline that ends it), for resolvers that read no newline as part of a number."
  },
  {
   "property": "C158",
   "status": "proved",
   "theorems": [
    "LNlp.C158_wall",
    "LNlp.C158_derivable",
    "LNlp.C158_between",
    "LNlp.C158_exceptions",
    "LNlp.C158_exceptions_between",
    "LNlp.C158_clear_needed",
    "LNlp.C158_document",
    "LNlp.C158_stop_needed"
   ],
   "note": "C158_wall: if all rules stop at token `t` at the start, then whatever rules are run, in any order and however often, nothing is assigned over this token: what a query lists for ranges over it stays as it was. C158_derivable: and nothing over the token follows from the rules at all, in any number of steps. C158_between: between two such tokens the rules find what they find without the rest of the line: in the line of `xs ++ ys ++ zs`, if all rules stop at the last token of `xs` and at the first of `zs`, then nothing that a query lists reaches over an end of `ys`, and what it lists inside is, counted from there, what it lists for the line of `ys` alone. C158_exceptions: with exceptions and choices (C146): rules that all stop at a token assign nothing over it. C158_exceptions_between: between two tokens that they all stop at, rules with exceptions and choices find the same as on that part alone, if none of the exceptions goes over the second of these tokens. C158_clear_needed: exceptions over the token do make a difference: a word before a newline is not the word alone. C158_document: so rules that stop at a newline find on a line of a document what they find on that line alone: in the document of the lines `before`, `s` and `after`, nothing that a query lists reaches over an end of `s`, and what it lists inside is, counted from there, what it lists for `s`. C158_stop_needed: is false of rules that do not stop: with any white space between `New` and `York`, as in `Demo.state`, a state is found over the lines of `New⏎York`."
  },
  {
   "property": "C159",
   "status": "proved",
   "theorems": [
    "LNlp.C159_parts",
    "LNlp.C159_text",
    "LNlp.C159_document"
   ],
   "note": "C159_parts: if a line has the tokens of several lines one after the other, and the attributes of the rendered types too, then its rendering is the renderings of these lines side by side. C159_text: the rendering of an analysed text that is cut into parts is the renderings of the analysed parts side by side. C159_document: the rendering of an analysed document is the renderings of its analysed lines side by side."
  },
  {
   "property": "C160",
   "status": "proved",
   "theorems": [
    "LNlp.C160_inputs",
    "LNlp.C160_text"
   ],
   "note": "C160_inputs: if every list of inputs but the last ends a sentence, the clauses of the line of all the inputs are those of the lines of the lists, behind one another; a clause that is a condition or a trailing effect stays so, a leading effect becomes a trailing effect exactly if one of the lists before has a condition, and an independent clause stays so exactly if all the other lists have nothing but separators. C160_text: for a text that is cut into sentences at word boundaries."
  },
  {
   "property": "C161",
   "status": "proved",
   "theorems": [
    "LNlp.C161_parts",
    "LNlp.C161_document",
    "LNlp.C161_sentences"
   ],
   "note": "C161_parts: the parts `M` in the midst of a text are replaced by the parts `M'` (none of them, if parts are added; by none, if parts are deleted). If the pipeline ran on the text, it runs on the new text exactly if it runs on the new parts; and what queries return before the edited parts stays, what they return behind only moves. C161_document: for lines of a document (each with the newline that ends it), for resolvers that read no newline as part of a number. C161_sentences: some sentences of a text are replaced by others. Clauses before them stay, if there is something besides separators in the new sentences just if there was in the old; clauses behind them only move, if moreover there is a condition in the new sentences just if there was in the old."
  },
  {
   "property": "C162",
   "status": "proved",
   "theorems": [
    "LNlp.C162_pipeline",
    "LNlp.C162_text",
    "LNlp.C162_parts",
    "LNlp.C162_document"
   ],
   "note": "C162_pipeline: a pipeline of resolvers that do not cross the cut between two parts, of which several may assign the same type, also types of attributes of the inputs, runs on the whole exactly if it runs on both parts. Then the finished line has the tokens of the finished parts, and the attributes of the finished parts in some order, those of the second part moved behind the first. C162_text: for a text with a word boundary between two parts. C162_parts: for a text cut into many parts. C162_document: for the lines of a document."
  },
  {
   "property": "C163",
   "status": "proved",
   "theorems": [
    "LNlp.C163_pipeline",
    "LNlp.C163_no_stop_false",
    "LNlp.C163_exceptions_false",
    "LNlp.C163_text",
    "LNlp.C163_parts",
    "LNlp.C163_document"
   ],
   "note": "C163_pipeline: a pipeline in which resolvers of the library that do not cross the cut between two parts and rules, also with exceptions and choices, that stop at the last token of the first part, or at the first token of the second, and have no exception there, follow each other in any order, also if several of them assign the same type, runs on the whole exactly if it runs on both parts. Then the finished line has the tokens of the finished parts, and the attributes of the finished parts in some order, those of the second part moved behind the first. C163_no_stop_false: The two words of `pay now` are found in the whole, but neither in `pay` nor in ` now`. C163_exceptions_false: A rule for words that are not before a newline finds nothing in `pay⏎`, but `pay` in `pay`. C163_text: for a text with a word boundary between two parts. C163_parts: for a text cut into many parts. C163_document: for the lines of a document: it is enough that no resolver of the library goes over a newline and that, when the pipeline runs on a text that is just a newline, each rule stops at it when its turn comes and has no exception over it."
  },
  {
   "property": "C164",
   "status": "proved",
   "theorems": [
    "LNlp.C164_parts",
    "LNlp.C164_document"
   ],
   "note": "C164_parts: the parts `M` in the midst of a text are replaced by the parts `M'` (none of them, if parts are added; by none, if parts are deleted). If the pipeline ran on the text, it runs on the new text exactly if it runs on the new parts; and what queries return before the edited parts stays, what they return behind only moves. C164_document: for lines of a document (each with the newline that ends it): it is enough that no resolver of the library goes over a newline and that, when the pipeline runs on a text that is just a newline, each rule stops at it when its turn comes."
  },
  {
   "property": "C165",
   "status": "proved",
   "theorems": [
    "LNlp.C165_together",
    "LNlp.C165_text",
    "LNlp.C165_document"
   ],
   "note": "C165_together: if a line has the tokens of several lines one after the other, and queries of the rendered types list the entries of these lines in some order, then its rendering has the texts side by side and, type by type, the lines of their renderings, moved to stand under their texts; those under the same tokens stay together and in their order. C165_text: for a text cut into parts, after resolvers of the library and rules ran on it. C165_document: for the lines of a document."
  },
  {
   "property": "C166",
   "status": "proved",
   "theorems": [
    "LNlp.C166_stop",
    "LNlp.C166_document",
    "LNlp.C166_rules_false"
   ],
   "note": "C166_stop: if each step by itself does nothing with a text that is just a newline, then all of them, one after the other, do nothing with it, and each rule stops at it when its turn comes. C166_document: so no simulation is needed for C163: it is enough to check the steps one by one. C166_rules_false: A table that says something about newlines lets a rule find something over them: in `a⏎a` two pairs are found, but in `a⏎` and `a` only one."
  },
  {
   "property": "C167",
   "status": "proved",
   "theorems": [
    "LNlp.C167_parts",
    "LNlp.C167_document"
   ],
   "note": "C167_parts: a text is cut in two ways. A pipeline runs on all the parts of the first cut exactly if it runs on all those of the second, and then both give the same tokens and the same entries, counted over the whole text, for every type. C167_document: for documents: the parts may be lines or any numbers of lines each."
  },
  {
   "property": "C168",
   "status": "proved",
   "theorems": [
    "LNlp.C168_left_out",
    "LNlp.C168_both_run",
    "LNlp.C168_bare_false",
    "LNlp.C168_clauses",
    "LNlp.C168_amounts",
    "LNlp.C168_sentences"
   ],
   "note": "C168_left_out: whatever resolvers a pipeline has, of the types `T` it finds what is found without the resolvers of other types, if those of the types `T` look at the types `T` only: without the others the pipeline still runs through, and the queries for these types, and all matchers of these types, give the same. (Matchers may use `token_has_any` if all tokens have attributes, as those of texts do.). C168_both_run: on any line, if both run through, the queries for these types are the same, and so are the answers of matchers that answer on both. C168_bare_false: needs attributes on all tokens for `token_has_any` (x.rs:135-147): a resolver of another type can give a bare token its first attribute. C168_clauses: for clauses: in any pipeline in which the keyword resolver and later the clause resolver are the only ones that assign tags, keywords and clauses, the clauses are those of C94, whatever runs before, between and after. C168_amounts: for amounts: in any pipeline in which AmountResolver is the only one that assigns tags, chars and amounts, the amounts of a text are those of the grammar (C67, C96), whatever runs before and after. C168_sentences: with C160: in any such pipeline the clauses of a text of many sentences are those of its sentences."
  },
  {
   "property": "C169",
   "status": "proved",
   "theorems": [
    "LNlp.C169_steps_are_programs",
    "LNlp.C169_parts",
    "LNlp.C169_parts_run",
    "LNlp.C169_document",
    "LNlp.C169_all_types_false"
   ],
   "note": "C169_steps_are_programs: the resolvers of the library and rules, also those that look before they assign and those with exceptions, are programs of the public API, whose matchers are built for the types they look at. C169_parts: a pipeline may have any resolvers besides the steps `ss`, if these are all that assign the types `T` and look at these types only. A text cut into parts where `ss` allow it (C163), and analysed by such pipelines as a whole and part by part: the tokens are those of the parts, and of the types `T` the whole has just what the parts have. The other resolvers need not be the same for the whole and for each part, and may look over the cuts. C169_parts_run: if a pipeline runs through on the whole text, then its steps for `T` run through on each part. C169_document: documents, line by line. C169_all_types_false: says nothing about other types: a resolver that is not among the steps can see that the text was cut."
  },
  {
   "property": "C170",
   "status": "proved",
   "theorems": [
    "LNlp.C170_parts",
    "LNlp.C170_document"
   ],
   "note": "C170_parts: the parts `M` in the midst of a text are replaced by the parts `M'`. The pipelines that ran on the old text and on the new one may have any resolvers besides the steps `ss`, if these are all that assign the types `T` and look at these types only. Of these types, what queries return before the edited parts stays, what they return behind only moves, and what they return in the edited parts is what the steps find in these parts alone. C170_document: lines in the midst of a document are replaced by other lines."
  }
 ]
}