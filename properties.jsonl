{"id": "C01", "title": "Tokenization is lossless", "statement": "Whenever create_line_from_input_tokens returns, the token list splits into one non-empty consecutive group per input token, in order: the texts of the group of a Text input concatenate to exactly that input's text, and the group of a Custom input is exactly one text-less value token.", "quantifier": "every list of Text/Custom input tokens, every text, every size function", "why_tests_cant": "The input space is infinite; tests sample a handful of inputs.", "anchors": ["src/create_tokens.rs:create_line_from_input_tokens", "src/create_tokens.rs:create_tokens_for_string"]}
{"id": "C02", "title": "Token positions tile the line", "statement": "Whenever the total size fits in usize, the i-th token of a created line has index i, starts at the sum of the sizes of the tokens before it and ends at that plus its own size (text size by the caller's function, custom size as given); so positions start at 0 and have no gaps and no overlaps.", "quantifier": "every input list and every size function whose total fits usize", "why_tests_cant": "The input space is infinite; tests sample a handful of inputs.", "anchors": ["src/create_tokens.rs:create_line_from_input_tokens", "src/ll_line.rs:LLToken"]}
{"id": "C03", "title": "create_line_from_string positions are UTF-8 byte offsets", "statement": "For create_line_from_string(s), every token's (start,end) position is exactly the UTF-8 byte range of its text inside s: s is a prefix whose byte length is start, then the token's text whose byte length is end-start, then a rest.", "quantifier": "every string, including multi-byte text", "why_tests_cant": "The input space is infinite; tests sample a handful of inputs.", "anchors": ["src/lib.rs:create_line_from_string", "src/create_tokens.rs:create_line_from_input_tokens"]}
{"id": "C04", "title": "No empty text tokens", "statement": "No text token of a created line has an empty text.", "quantifier": "every input list", "why_tests_cant": "The input space is infinite; tests sample a handful of inputs.", "anchors": ["src/create_tokens.rs:create_tokens_for_string"]}
{"id": "C05", "title": "NATN means exactly a run of ASCII digits", "statement": "A text token of a created line is tagged NATN if and only if its text is a non-empty string of ASCII digits.", "quantifier": "every token of every created line", "why_tests_cant": "The input space is infinite; tests sample a handful of inputs.", "anchors": ["src/create_tokens.rs:create_tokens_for_string", "src/create_tokens/get_word_tag.rs:get_unicode_word_tag"]}
{"id": "C06", "title": "WORD, SPACE and SYMB tags are determined by the text", "statement": "A created text token tagged SPACE consists only of whitespace; one tagged WORD starts with an alphabetic character and otherwise contains only alphabetic characters, apostrophes, hyphens and en dashes; conversely every token with such a WORD text is tagged WORD; one tagged SYMB is neither all-whitespace, nor listed punctuation, nor a WORD text, nor digits only.", "quantifier": "every token of every created line", "why_tests_cant": "The input space is infinite; tests sample a handful of inputs.", "anchors": ["src/create_tokens.rs:create_tokens_for_string", "src/create_tokens/get_word_tag.rs:get_unicode_word_tag", "src/create_tokens/get_word_tag.rs:is_word", "src/create_tokens/get_word_tag.rs:is_spaces"]}
{"id": "C07", "title": "PUNC is only the documented punctuation", "statement": "A token tagged PUNC is one of the eight documented characters , . ! ; : ? ' \" (TextTag docs).", "quantifier": "every token of every created line", "why_tests_cant": "The exception needs an unusual word shape (digits with an underscore) that no test contains.", "anchors": ["src/ll_line.rs:TextTag", "src/create_tokens/get_word_tag.rs:PUNCTUATION", "src/create_tokens.rs:create_tokens_for_string"]}
{"id": "C08", "title": "Digit and letter runs are maximal", "statement": "Inside a word that starts with a digit, no two neighbouring tokens are both NATN and no two are both WORD; and inside one Text input no two neighbouring tokens are both NATN, provided the word splitter never cuts between two ASCII digits (UAX #29 WB8).", "quantifier": "every Text input", "why_tests_cant": "The input space is infinite; tests sample a handful of inputs.", "anchors": ["src/create_tokens.rs:create_tokens_for_string"]}
{"id": "C09", "title": "Line creation fails exactly on empty text, non-ASCII digit words or position overflow", "statement": "create_line_from_input_tokens panics if and only if some Text input is empty, or some word that starts with an ASCII digit contains a non-ASCII character, or (with overflow checks) the total size overflows usize. In particular users rely on non-empty text never panicking, which is false for e.g. \"1é\".", "quantifier": "every input list and size function", "why_tests_cant": "Needs a mixed ASCII digit / non-ASCII letter word; no test has one.", "anchors": ["src/create_tokens.rs:create_line_from_input_tokens", "src/create_tokens.rs:create_tokens_for_string"]}
{"id": "C10", "title": "Position arithmetic overflow", "statement": "With overflow checks an overflowing position total panics instead of producing wrong positions; without them (release) positions wrap and are no longer monotone.", "quantifier": "every list of custom sizes", "why_tests_cant": "Requires sizes near usize::MAX.", "anchors": ["src/create_tokens.rs:create_line_from_input_tokens"]}
{"id": "C11", "title": "Built-in attributes of a fresh line", "statement": "On a line created without custom attributes every text token carries exactly one TextTag (its own tag) on exactly its own one-token range, a char attribute if and only if its text is one character long, and custom tokens carry nothing; no other attribute of any type exists.", "quantifier": "every created line, token and attribute type", "why_tests_cant": "The input space is infinite; tests sample a handful of inputs.", "anchors": ["src/ll_line.rs:LLLine::new"]}
{"id": "C12", "title": "Input attributes span exactly their input token", "statement": "A custom attribute given with an input token is stored on the range from the first to the last token of that input's group, in the order given; attributes of an empty attrs list add nothing.", "quantifier": "every input list and attribute list", "why_tests_cant": "The input space is infinite; tests sample a handful of inputs.", "anchors": ["src/create_tokens.rs:create_line_from_input_tokens", "src/ll_line.rs:add_any_attrs"]}
{"id": "C13", "title": "query returns the full history, grouped by range", "statement": "After any history of creation and runs, query::<T>() returns one entry per distinct range on which a T was ever assigned, in order of first assignment, with exactly the T values assigned on that range in assignment order and the concatenated text of the covered tokens. It panics exactly if a T range ends more than one token before its start (only hand-written code can assign such a range).", "quantifier": "every history of runs, every type, every range", "why_tests_cant": "Quantifies over unbounded histories of assignments.", "anchors": ["src/ll_line.rs:query", "src/ll_line.rs:insert", "src/type_bucket.rs:TypeBucket", "src/type_id_to_many.rs:TypeIdToMany"]}
{"id": "C14", "title": "Forward attribute matching sees exactly the attributes starting here", "statement": "x::attr::<T>() matched forwards at token i yields (v, j) exactly when a T value v was assigned on range (i, j) at some time in the history.", "quantifier": "every history, type and token index", "why_tests_cant": "Quantifies over unbounded histories.", "anchors": ["src/ll_line/x.rs:XForwards::attr", "src/ll_line.rs:LLLineAttrs"]}
{"id": "C15", "title": "Backward attribute matching sees exactly the attributes ending here", "statement": "x::attr::<T>() matched backwards at token j yields (v, i) exactly when a T value v was assigned on range (i, j) at some time in the history.", "quantifier": "every history, type and token index", "why_tests_cant": "Quantifies over unbounded histories.", "anchors": ["src/ll_line/x.rs:XBackwards::attr", "src/ll_line.rs:LLLineAttrs"]}
{"id": "C16", "title": "The three attribute indexes agree", "statement": "At every point of every history, the per-start index, the per-end index, the per-type range list and the value table describe the same set of (type, range) pairs: a range is listed at its start iff it is listed at its end iff it is queryable iff it holds at least one value of that type; and no index lists a range twice.", "quantifier": "every reachable line state", "why_tests_cant": "An invariant over all reachable states.", "anchors": ["src/ll_line.rs:LLLineAttrs", "src/ll_line.rs:insert", "src/ll_line.rs:add_any_attrs"]}
{"id": "C17", "title": "Running a resolver only adds", "statement": "run never removes, changes or reorders earlier attributes: the earlier query::<T>() ranges are a prefix of the later ones and each range's earlier values are a prefix of its later values.", "quantifier": "every line, resolver and type", "why_tests_cant": "Quantifies over all resolvers and histories.", "anchors": ["src/ll_line.rs:run", "src/ll_line.rs:insert"]}
{"id": "C18", "title": "Types do not interfere", "statement": "Running a resolver that assigns type A leaves query::<B>() and every B match result unchanged for B different from A.", "quantifier": "every line, resolver, pair of types", "why_tests_cant": "The input space is infinite; tests sample a handful of inputs.", "anchors": ["src/ll_line.rs:run", "src/type_bucket.rs:TypeBucket", "src/type_id_to_many.rs:TypeIdToMany"]}
{"id": "C19", "title": "Values accumulate, they are never deduplicated", "statement": "Assigning the same value on the same range twice yields it twice, while its range is still listed once; number of stored values equals number of assignments.", "quantifier": "every history", "why_tests_cant": "Quantifies over histories.", "anchors": ["src/type_bucket.rs:insert", "src/type_id_to_many.rs:insert_distinct"]}
{"id": "C20", "title": "Type-erased and typed insertion are equivalent", "statement": "An attribute supplied as AnyAttribute has the same observable effect as the same value assigned by a resolver on the same range.", "quantifier": "every line, range, value", "why_tests_cant": "The input space is infinite; tests sample a handful of inputs.", "anchors": ["src/ll_line.rs:add_any_attrs", "src/ll_line.rs:insert", "src/type_bucket.rs:insert_any_attribute"]}
{"id": "C21", "title": "Type-erased storage never mismatches types", "statement": "No reachable history makes a TypeBucket downcast fail: values are always read back at the type they were stored with, and AnyAttribute::extract::<T> succeeds exactly when T is the stored type, returning the stored value, and otherwise gives the attribute back unchanged.", "quantifier": "every history and type", "why_tests_cant": "Invariant over all histories of a type-erased container.", "anchors": ["src/type_bucket.rs:TypeBucket", "src/type_bucket.rs:AnyAttribute::extract", "src/type_bucket.rs:Bucket"]}
{"id": "C22", "title": "run fails exactly on foreign assignments or leaked selections", "statement": "run panics if and only if the resolver panics, keeps a selection alive, or returns an assignment whose start or end is outside the line.", "quantifier": "every line and resolver", "why_tests_cant": "Quantifies over arbitrary user resolvers.", "anchors": ["src/ll_line.rs:run", "src/ll_line.rs:insert"]}
{"id": "C23", "title": "Resolvers that use their own line never corrupt it", "statement": "If every assignment comes from a selection obtained from the given selection through the API (other than after()), run does not panic and the new line again satisfies all line invariants.", "quantifier": "every resolver of that kind, every line", "why_tests_cant": "Quantifies over arbitrary user resolvers.", "anchors": ["src/ll_line.rs:run", "src/ll_line/ll_selection.rs:LLSelection"]}
{"id": "C24", "title": "Empty lines run nothing", "statement": "On a line with no tokens run returns the line unchanged without calling the resolver, from_line is None, query and find are empty, and display is the empty string.", "quantifier": "every resolver (even one that panics)", "why_tests_cant": "The input space is infinite; tests sample a handful of inputs.", "anchors": ["src/ll_line.rs:run", "src/ll_line/ll_selection.rs:from_line"]}
{"id": "C25", "title": "run leaves tokens untouched", "statement": "run never changes the token list, texts, tags or positions.", "quantifier": "every line and resolver", "why_tests_cant": "The input space is infinite; tests sample a handful of inputs.", "anchors": ["src/ll_line.rs:run"]}
{"id": "C26", "title": "Independent resolvers commute", "statement": "If two resolvers assign different types and neither's output depends on the other's run, running them in either order gives the very same line: tokens, query::<T>() for every T, forward and backward matches.", "quantifier": "every pair of resolvers and every line", "why_tests_cant": "Quantifies over schedules of arbitrary resolvers.", "anchors": ["src/ll_line.rs:run"]}
{"id": "C27", "title": "attr_eq matches exactly the equal values", "statement": "x::attr_eq(&v) matches a range exactly when a value equal to v (by its PartialEq) is assigned there, once per such value, in both directions; x::whitespace() is attr_eq of SPACE.", "quantifier": "every line, value and index", "why_tests_cant": "The input space is infinite; tests sample a handful of inputs.", "anchors": ["src/ll_line/x.rs:attr_eq", "src/ll_line/x/attr_eq.rs", "src/ll_line/x/functions.rs"]}
{"id": "C28", "title": "token_text matches every text token and nothing else", "statement": "x::token_text() yields exactly the text of the token at the position and ends on the same token, in both directions; it yields nothing on custom tokens.", "quantifier": "every line and in-range index", "why_tests_cant": "The input space is infinite; tests sample a handful of inputs.", "anchors": ["src/ll_line/x.rs:text_token", "src/ll_line/x/token_text.rs"]}
{"id": "C29", "title": "token_has_any never panics", "statement": "Matching x::token_has_any at any token of a line does not panic and yields exactly the one-token attributes of that token contained in the set. (False forwards on a custom token with no attribute: it panics.)", "quantifier": "every line, set and index", "why_tests_cant": "Needs an attribute-less custom token.", "anchors": ["src/ll_line/x.rs:token_attr_one_of", "src/ll_line/x/token_has_any.rs"]}
{"id": "C30", "title": "token_has_any is direction independent", "statement": "x::token_has_any matches the same ranges forwards and backwards. (False: backwards also matches attributes on multi-token ranges.)", "quantifier": "every line", "why_tests_cant": "Needs a multi-token attribute of the searched type.", "anchors": ["src/ll_line/x.rs:token_attr_one_of"]}
{"id": "C31", "title": "all() is conjunction on one range", "statement": "x::all((A,B)) / x::all((A,B,C)) yields exactly the combinations of results of its parts that end on the same index, each combination once per pair; the order of the parts only permutes the results.", "quantifier": "all matchers, lines, positions", "why_tests_cant": "The input space is infinite; tests sample a handful of inputs.", "anchors": ["src/ll_line/x/all.rs"]}
{"id": "C32", "title": "any_of() is ordered choice", "statement": "x::any_of((A,B)) / ((A,B,C)) yields exactly the results of the first part that has any result, and nothing when none has.", "quantifier": "all matchers, lines, positions", "why_tests_cant": "The input space is infinite; tests sample a handful of inputs.", "anchors": ["src/ll_line/x/any_of.rs"]}
{"id": "C33", "title": "seq() is adjacency", "statement": "x::seq((A,B)) / ((A,B,C)) yields exactly the chains in which each part matches starting at the token directly after the end of the previous one (directly before it when matching backwards), and nothing crosses the line's edges; three-part seq, all and any_of equal nested two-part ones up to re-association.", "quantifier": "all matchers, lines, positions", "why_tests_cant": "The input space is infinite; tests sample a handful of inputs.", "anchors": ["src/ll_line/x/seq.rs", "src/ll_line/x.rs:after"]}
{"id": "C34", "title": "Match results stay inside the line and go the right way", "statement": "Every result of a matcher built from x::* on a reachable line, forwards from i, ends at j with i <= j < len; backwards from j it ends at i with i <= j.", "quantifier": "every matcher expression, reachable line and index", "why_tests_cant": "Quantifies over all matcher expressions (unbounded nesting).", "anchors": ["src/ll_line/x.rs", "src/ll_line/x/"]}
{"id": "C35", "title": "Forwards and backwards matching are mirror images", "statement": "For matchers built from attr, attr_eq, token_text, all and seq: A followed by B spans (i,j) matching forwards from i iff it spans (i,j) matching the mirrored expression backwards from j, with the same values.", "quantifier": "every such matcher expression and reachable line", "why_tests_cant": "Quantifies over all matcher expressions and lines.", "anchors": ["src/ll_line/x.rs", "src/ll_line/x/seq.rs", "src/ll_line/x/all.rs"]}
{"id": "C36", "title": "Matching never panics", "statement": "A matcher built from x::* at an in-range index of a reachable line panics only through token_has_any forwards on a token without attributes; on lines made of text only it never panics.", "quantifier": "every matcher expression, reachable line, index", "why_tests_cant": "Quantifies over all matcher expressions.", "anchors": ["src/ll_line/x.rs", "src/ll_line/x/"]}
{"id": "C37", "title": "from_line selects the whole line", "statement": "LLSelection::from_line is None iff the line has no tokens and otherwise covers exactly all tokens.", "quantifier": "every line", "why_tests_cant": "The input space is infinite; tests sample a handful of inputs.", "anchors": ["src/ll_line/ll_selection.rs:from_line"]}
{"id": "C38", "title": "find_by returns exactly the matches that start in the selection", "statement": "find_by yields exactly one result per match starting at a token of the selection, ordered by start token, keeping the matcher's order at one token.", "quantifier": "every selection and matcher", "why_tests_cant": "The input space is infinite; tests sample a handful of inputs.", "anchors": ["src/ll_line/ll_selection.rs:find_by"]}
{"id": "C39", "title": "find_by results lie inside the selection", "statement": "Every selection returned by find_by is contained in the searched selection. (False: a match may run past the end.)", "quantifier": "every selection and matcher", "why_tests_cant": "Needs a multi-token match that straddles the selection end.", "anchors": ["src/ll_line/ll_selection.rs:find_by"]}
{"id": "C40", "title": "find_first_by is the leftmost match", "statement": "find_first_by returns the first result of find_by: no match starts earlier inside the selection; None iff nothing in the selection matches.", "quantifier": "every selection and matcher", "why_tests_cant": "The input space is infinite; tests sample a handful of inputs.", "anchors": ["src/ll_line/ll_selection.rs:find_first_by"]}
{"id": "C41", "title": "find_by_forwards_and_backwards unions both directions", "statement": "It yields exactly the forward matches starting at, and the backward matches ending at, each token of the selection, as ranges with start <= end.", "quantifier": "every selection and matcher", "why_tests_cant": "The input space is infinite; tests sample a handful of inputs.", "anchors": ["src/ll_line/ll_selection.rs:find_by_forwards_and_backwards"]}
{"id": "C42", "title": "match_forwards extends to the right only, adjacently", "statement": "match_forwards yields exactly the selections with the same start whose added part is a match beginning right after the selection; it is empty at the end of the line; every result strictly contains the selection. match_first_forwards is its first result.", "quantifier": "every selection and matcher", "why_tests_cant": "The input space is infinite; tests sample a handful of inputs.", "anchors": ["src/ll_line/ll_selection.rs:match_forwards", "src/ll_line/ll_selection.rs:match_first_forwards"]}
{"id": "C43", "title": "match_backwards extends to the left only, adjacently", "statement": "match_backwards yields exactly the selections with the same end whose added part is a match ending right before the selection; empty at the start of the line; every result strictly contains the selection. match_first_backwards is its first result.", "quantifier": "every selection and matcher", "why_tests_cant": "The input space is infinite; tests sample a handful of inputs.", "anchors": ["src/ll_line/ll_selection.rs:match_backwards", "src/ll_line/ll_selection.rs:match_first_backwards"]}
{"id": "C44", "title": "after() is the rest of the line", "statement": "after() returns the selection of all tokens after this one, and None iff there are none. (False: the guard tests start_idx.)", "quantifier": "every selection", "why_tests_cant": "No test calls after().", "anchors": ["src/ll_line/ll_selection.rs:after"]}
{"id": "C45", "title": "split_with partitions", "statement": "split_with(other) returns exactly the tokens of self before other's start and exactly those after other's end; with the common part they partition self.", "quantifier": "every pair of selections on one line", "why_tests_cant": "The code comment itself asks for thorough tests; the claim is over all pairs.", "anchors": ["src/ll_line/ll_selection.rs:split_with", "src/ll_line/ll_selection.rs:selection_from"]}
{"id": "C46", "title": "split_with rejects other lines", "statement": "split_with panics iff the two selections belong to different lines; selection equality is an equivalence relation and holds exactly for equal bounds on the same line.", "quantifier": "every pair/triple of selections", "why_tests_cant": "The input space is infinite; tests sample a handful of inputs.", "anchors": ["src/ll_line/ll_selection.rs:split_with", "src/ll_line.rs:assert_ll_lines_equals", "src/ll_line/ll_selection.rs:PartialEq"]}
{"id": "C47", "title": "split_by covers everything unmatched, in order, without overlap", "statement": "The pieces returned by split_by are non-empty sub-selections of self, strictly ordered and disjoint, and every token of self that belongs to no match is in exactly one piece; with no match the result is [self].", "quantifier": "every selection and matcher (overlapping matches included)", "why_tests_cant": "Quantifies over all match layouts.", "anchors": ["src/ll_line/ll_selection.rs:split_by"]}
{"id": "C48", "title": "split_by pieces contain no matched token", "statement": "No piece returned by split_by contains a token of a match, and each piece is a maximal run of unmatched tokens. (False when a long match is followed by shorter matches inside it.)", "quantifier": "every selection and matcher", "why_tests_cant": "Needs nested/overlapping matches.", "anchors": ["src/ll_line/ll_selection.rs:split_by"]}
{"id": "C49", "title": "trim returns a sub-selection", "statement": "trim, trim_start, trim_end return a non-empty sub-selection of self, equal to self when nothing matches at the trimmed edges; trim_start removes exactly the first match at the start, trim_end exactly the first match at the end (for trim_end and trim except when that match and the selection both start at token 0, see C50).", "quantifier": "every selection and matcher", "why_tests_cant": "The input space is infinite; tests sample a handful of inputs.", "anchors": ["src/ll_line/ll_selection.rs:trim_selection"]}
{"id": "C50", "title": "trim_end removes a match that reaches the start of the line", "statement": "If a match at the end covers the whole selection, trim_end returns None. (False for selections that start at token 0: token 0 is kept.)", "quantifier": "every selection and matcher", "why_tests_cant": "Only fails at index 0.", "anchors": ["src/ll_line/ll_selection.rs:trim_selection"]}
{"id": "C51", "title": "Selections are never empty and never leave the line", "statement": "Every selection obtained from from_line (or handed to a resolver) by any sequence of API operations other than after() satisfies start <= end < number of tokens; after() breaks this.", "quantifier": "every sequence of operations and matcher expressions", "why_tests_cant": "Quantifies over all operation sequences.", "anchors": ["src/ll_line/ll_selection.rs"]}
{"id": "C52", "title": "LLLine::find agrees with find_by", "statement": "line.find(m) returns the matches of the whole-line selection in the same order, with range() being the position of the first token's start and the last token's end.", "quantifier": "every reachable line and matcher", "why_tests_cant": "The input space is infinite; tests sample a handful of inputs.", "anchors": ["src/ll_line.rs:find", "src/ll_line.rs:LLLineFind", "src/ll_line/ll_selection.rs:find_by"]}
{"id": "C53", "title": "finish_with keeps ranges and order", "statement": "finish_with / finish_with_attr produce one assignment per selection, in order, on exactly that selection's range with the mapped value.", "quantifier": "every list of results and mapping function", "why_tests_cant": "The input space is infinite; tests sample a handful of inputs.", "anchors": ["src/ll_line/finish_with.rs", "src/ll_line/ll_selection.rs:finish_with_attr"]}
{"id": "C54", "title": "Display header", "statement": "The first line of the display is the token texts (or <> for custom tokens) in order joined by exactly two spaces.", "quantifier": "every line", "why_tests_cant": "The input space is infinite; tests sample a handful of inputs.", "anchors": ["src/ll_line/display.rs:fmt"]}
{"id": "C55", "title": "Display brackets line up with the text", "statement": "The bracket line of an attribute starts in the display column where its first token starts and, for spans at least one column wide, ends in the last column of its last token, followed by the value's Debug text; one line per included value.", "quantifier": "every reachable line and included types", "why_tests_cant": "The input space is infinite; tests sample a handful of inputs.", "anchors": ["src/ll_line/display.rs:fmt"]}
{"id": "C56", "title": "Display includes every value", "statement": "include::<T>() adds one line per T value: ranges in first-assignment order, and within a range newest first.", "quantifier": "every reachable line", "why_tests_cant": "The input space is infinite; tests sample a handful of inputs.", "anchors": ["src/ll_line/display.rs:include", "src/type_bucket.rs:get_debug"]}
{"id": "C57", "title": "Display never panics", "statement": "Rendering a line with any included types does not panic (display column arithmetic does not underflow), if every resolver run on it assigned selections obtained through the API from the selection it was given; for arbitrary assignments it panics exactly on an included attribute whose end column lies before its start column.", "quantifier": "every reachable line and list of types", "why_tests_cant": "The input space is infinite; tests sample a handful of inputs.", "anchors": ["src/ll_line/display.rs:fmt"]}
{"id": "C58", "title": "TextMatchAssignResolver assigns exactly the table", "statement": "For every text token, in order, exactly the values of the table entry for its text (lowercased when case-insensitive) are assigned on that one token; nothing else.", "quantifier": "every table and line", "why_tests_cant": "The input space is infinite; tests sample a handful of inputs.", "anchors": ["src/resolvers/text_match.rs:go"]}
{"id": "C59", "title": "Case-insensitive table construction is deterministic", "statement": "new_case_insensitive keeps every entry, whatever the HashMap iteration order. (False when two keys differ only in case: one entry is lost and which one depends on iteration order.)", "quantifier": "every table and iteration order", "why_tests_cant": "Depends on randomized hash order.", "anchors": ["src/resolvers/text_match.rs:new_case_insensitive", "src/resolvers/text_match.rs:new_case_insensitive_str_arr"]}
{"id": "C60", "title": "Clause keywords are classified by priority, ignoring case", "statement": "Each text token whose lowercase form is in the condition-start, then, or and list gets exactly one ClauseKeyword, with that priority; other tokens get none; configured words that are not lowercase never match.", "quantifier": "every keyword configuration and line", "why_tests_cant": "The input space is infinite; tests sample a handful of inputs.", "anchors": ["layered-clauses/src/clause_keyword.rs:go"]}
{"id": "C61", "title": "Clauses are disjoint, ordered and contain no delimiter", "statement": "On lines whose ClauseKeyword and TextTag attributes sit on single tokens, the clauses assigned are the maximal runs of non-delimiter tokens, with one leading and one trailing whitespace token removed, in order.", "quantifier": "every such line", "why_tests_cant": "The input space is infinite; tests sample a handful of inputs.", "anchors": ["layered-clauses/src/clauses.rs:go"]}
{"id": "C62", "title": "Clause classification", "statement": "With more than one piece, a clause right after a condition keyword is Condition, right after then is TrailingEffect, otherwise TrailingEffect iff an earlier non-blank piece was a Condition and LeadingEffect else; with exactly one piece it is Condition after a condition keyword and Independent otherwise.", "quantifier": "every line whose ClauseKeyword and TextTag attributes sit on single tokens, in particular every line made by the tokenizer and the keyword resolver", "why_tests_cant": "The input space is infinite; tests sample a handful of inputs.", "anchors": ["layered-clauses/src/clauses.rs:go"]}
{"id": "C63", "title": "Part-of-speech tags", "statement": "Each WORD text token gets exactly the dictionary tags of its lowercase form, or exactly Noun if unknown; other tokens get none.", "quantifier": "every line and dictionary", "why_tests_cant": "The input space is infinite; tests sample a handful of inputs.", "anchors": ["layered-part-of-speech/src/lib.rs:go"]}
{"id": "C64", "title": "AmountResolver terminates", "statement": "AmountResolver::go terminates on every reachable line and selection.", "quantifier": "every configuration and line", "why_tests_cant": "A test cannot show termination for all inputs.", "anchors": ["layered-amount/src/amounts.rs:go"]}
{"id": "C65", "title": "Amounts are disjoint and left to right", "statement": "The assigned amount ranges are pairwise disjoint and strictly increasing.", "quantifier": "every configuration and line", "why_tests_cant": "The input space is infinite; tests sample a handful of inputs.", "anchors": ["layered-amount/src/amounts.rs:go"]}
{"id": "C66", "title": "Every number belongs to exactly one amount", "statement": "Every NATN text token of the searched range lies in exactly one assigned amount, and every amount starts and ends with a NATN token.", "quantifier": "every configuration and line", "why_tests_cant": "The input space is infinite; tests sample a handful of inputs.", "anchors": ["layered-amount/src/amounts.rs:go"]}
{"id": "C67", "title": "Amount value", "statement": "The value is the parse of the digit groups joined without delimiters, with a '.' where the decimal character was consumed; groups are separated by exactly one delimiter token, a decimal point is followed by at most one group.", "quantifier": "every configuration and line", "why_tests_cant": "The input space is infinite; tests sample a handful of inputs.", "anchors": ["layered-amount/src/amounts.rs:go"]}
{"id": "C68", "title": "AmountResolver panics only on unparseable numbers", "statement": "On lines whose tokens all carry attributes, go panics iff the decimal parser rejects a collected number; such an unparseable number does crash the run, and so does an attribute-less custom token right after a number.", "quantifier": "every configuration and line", "why_tests_cant": "Needs very long digit strings or custom tokens.", "anchors": ["layered-amount/src/amounts.rs:go"]}
{"id": "C69", "title": "english() documentation", "statement": "english(): delimiters are comma and apostrophe, '.' is the decimal point; documented examples 1'000'240.00, 1,000,000, 1,00,00 and 1.00,00 = 1.0000 (the last is false: two amounts 1.00 and 00).", "quantifier": "documented examples and all lines", "why_tests_cant": "Doc examples are not tested.", "anchors": ["layered-amount/src/amounts.rs:english"]}
{"id": "C70", "title": "french() documentation", "statement": "french(): documented decimal comma, 1,00 = 1.00 (false: the decimal is '.', which is also a delimiter, so no french amount ever has a fraction).", "quantifier": "all lines", "why_tests_cant": "No test uses french().", "anchors": ["layered-amount/src/amounts.rs:french"]}
{"id": "C71", "title": "The built-in resolvers keep lines well-formed", "statement": "Running TextMatchAssignResolver, POSTagResolver, ClauseKeywordResolver or ClauseResolver on a line all of whose resolvers used the selection API never panics, and the new line is again such a line; AmountResolver likewise whenever it returns.", "quantifier": "every line, table and configuration", "why_tests_cant": "Quantifies over all resolver pipelines.", "anchors": ["src/resolvers/text_match.rs", "layered-part-of-speech/src/lib.rs", "layered-clauses/src/clause_keyword.rs", "layered-clauses/src/clauses.rs", "layered-amount/src/amounts.rs", "src/ll_line.rs:run"]}
{"id": "C72", "title": "Searching for a sequence is searching and extending", "statement": "find_by(seq(a,b)) returns exactly find_by(a) with every find extended by match_forwards(b), in the same order and with the paired values, and panics iff one of these steps does.", "quantifier": "every selection and pair of matchers whose finds stay in the line", "why_tests_cant": "The input space is infinite; tests sample a handful of inputs.", "anchors": ["src/ll_line/ll_selection.rs:find_by", "src/ll_line/ll_selection.rs:match_forwards", "src/ll_line/x/seq.rs"]}
{"id": "C73", "title": "Extending by a sequence is extending twice", "statement": "match_forwards(seq(a,b)) is match_forwards(a) followed by match_forwards(b), and match_backwards(seq(a,b)) is match_backwards(a) followed by match_backwards(b).", "quantifier": "every selection and pair of matchers (forwards: the first of which stays in the line)", "why_tests_cant": "The input space is infinite; tests sample a handful of inputs.", "anchors": ["src/ll_line/ll_selection.rs:match_forwards", "src/ll_line/ll_selection.rs:match_backwards", "src/ll_line/x/seq.rs"]}
{"id": "C74", "title": "find_by of all and any_of", "statement": "find_by(all(a,b)) yields exactly the selections found by both, with the pair of values; find_by(any_of(a,b)) yields at each start token the finds of a, or if there are none those of b.", "quantifier": "every selection and pair of matchers", "why_tests_cant": "The input space is infinite; tests sample a handful of inputs.", "anchors": ["src/ll_line/ll_selection.rs:find_by", "src/ll_line/x/all.rs", "src/ll_line/x/any_of.rs"]}
{"id": "C75", "title": "Layering: a symbol next to an amount", "statement": "find_by_forwards_and_backwards(seq(attr S, attr A)), the README's way of building Money from '$' and a number, never panics and yields exactly the neighbouring pairs S A starting in the selection and A S ending in it, always as (the S value, the A value) on the joint range.", "quantifier": "every reachable line, selection and pair of types", "why_tests_cant": "The input space is infinite; tests sample a handful of inputs.", "anchors": ["src/ll_line/ll_selection.rs:find_by_forwards_and_backwards", "README.md"]}
{"id": "C76", "title": "Searching both ways reports a match once", "statement": "find_by_forwards_and_backwards reports each attribute once. (False: an attribute with both ends in the selection is reported twice.)", "quantifier": "every reachable line, selection and type", "why_tests_cant": "Tests use matchers that only fit one way round.", "anchors": ["src/ll_line/ll_selection.rs:find_by_forwards_and_backwards"]}
{"id": "C77", "title": "Splitting a selection splits the search", "statement": "If other is a part of self and split_with(other) = (before, after), then self.find_by(m) is before.find_by(m), other.find_by(m), after.find_by(m) one after the other, and panics iff one of them does.", "quantifier": "every selection, part and matcher", "why_tests_cant": "The input space is infinite; tests sample a handful of inputs.", "anchors": ["src/ll_line/ll_selection.rs:split_with", "src/ll_line/ll_selection.rs:find_by"]}
{"id": "C78", "title": "Concatenated inputs give concatenated lines", "statement": "The line of xs ++ ys has the tokens of the line of xs followed by those of the line of ys (indexes and positions moved), every attribute lookup at a token gives what it gives on the part, and if the sizes fit, the whole can be created iff both parts can.", "quantifier": "every pair of inputs", "why_tests_cant": "The input space is infinite; tests sample a handful of inputs.", "anchors": ["src/create_tokens.rs:create_line_from_input_tokens"]}
{"id": "C79", "title": "What tokens depend on", "statement": "Attributes given with the input influence neither tokens, tags, positions nor success of creation; the size function does not influence texts and tags.", "quantifier": "every input, attribute lists and size functions", "why_tests_cant": "The input space is infinite; tests sample a handful of inputs.", "anchors": ["src/create_tokens.rs:create_line_from_input_tokens"]}
{"id": "C80", "title": "Positions are slices of the source", "statement": "On lines made of texts and sized by any additive measure (bytes, UTF-16 units, characters), after any number of runs: the text of a query entry, and the range of a find, are the slice of the source text between the start position of the first and the end position of the last covered token.", "quantifier": "every text input, additive size function, sequence of runs, type and matcher", "why_tests_cant": "The input space is infinite; tests sample a handful of inputs.", "anchors": ["src/ll_line.rs:query", "src/ll_line.rs:find", "src/create_tokens.rs:create_line_from_input_tokens"]}
{"id": "C81", "title": "Same text, same tag", "statement": "Two tokens with the same text have the same tag. (False: the underscore is PUNC in 1_0 and SYMB alone; these single ASCII characters are the only exceptions.)", "quantifier": "every pair of created lines", "why_tests_cant": "Depends on the surrounding word.", "anchors": ["src/create_tokens.rs:create_tokens_for_string", "src/create_tokens/get_word_tag.rs"]}
{"id": "C82", "title": "What the library's resolvers look at", "statement": "The table and keyword resolvers look at no attributes, POSTagResolver at TextTags only, ClauseResolver at TextTags and ClauseKeywords only, AmountResolver at TextTags and chars only: what they assign is the same after any resolver of another attribute type ran.", "quantifier": "every reachable line, configuration and earlier resolver", "why_tests_cant": "Quantifies over all earlier resolvers.", "anchors": ["src/resolvers/text_match.rs:go", "layered-part-of-speech/src/lib.rs:go", "layered-clauses/src/clause_keyword.rs:go", "layered-clauses/src/clauses.rs:go", "layered-amount/src/amounts.rs:go"]}
{"id": "C83", "title": "Independent resolvers commute", "statement": "Two resolvers of different types, neither of which looks at the other's attributes, give the very same line in either order. (Without independence false: clauses resolved before keywords differ.)", "quantifier": "every reachable line and pair of resolvers", "why_tests_cant": "Quantifies over all pairs of resolvers and lines.", "anchors": ["src/ll_line.rs:run"]}
{"id": "C84", "title": "Pipelines never panic", "statement": "Any sequence of table, part-of-speech, keyword and clause resolvers runs without panic on any line of honest resolvers, and the result can be displayed; with amounts, if all tokens are texts or carry attributes, the only possible panic is an amount, in the line the earlier resolvers gave, that the decimal parser rejects.", "quantifier": "every line, sequence of resolvers and displayed types", "why_tests_cant": "Quantifies over all pipelines.", "anchors": ["src/ll_line.rs:run", "src/ll_line/display.rs:fmt"]}
{"id": "C85", "title": "Running a resolver twice", "statement": "Running one of the library's resolvers a second time keeps the ranges and repeats the values the first run assigned on each; attributes of other types do not change. Runs are not idempotent: a run of any resolver gives back the same line exactly if it assigned nothing, and a second run changes the line if the first did.", "quantifier": "every reachable line and library resolver", "why_tests_cant": "The input space is infinite; tests sample a handful of inputs.", "anchors": ["src/ll_line.rs:run", "src/ll_line.rs:query"]}
{"id": "C86", "title": "Currency symbols", "statement": "The example CurrencySymbolResolver marks exactly the $ and EUR-sign tokens with their value; its unreachable!() is never reached; it panics iff a token carries no attribute at all.", "quantifier": "every reachable line and selection", "why_tests_cant": "The input space is infinite; tests sample a handful of inputs.", "anchors": ["src/tests/currency_amount.rs:CurrencySymbolResolver::go"]}
{"id": "C87", "title": "Amounts of money, end to end", "statement": "After the symbol, amount and money resolvers ran on a line made from any string, querying money yields exactly the amounts with a symbol token directly before or directly after them, each range once, over the tokens of both, with the value made from that symbol and that amount.", "quantifier": "every string, amount configuration and constructor", "why_tests_cant": "The input space is infinite; tests sample a handful of inputs.", "anchors": ["src/tests/currency_amount.rs:CurrencyAmountResolver::go", "layered-amount/src/amounts.rs:go", "src/ll_line.rs:query"]}
{"id": "C88", "title": "Queries determine the line", "statement": "Two reachable lines with the same tokens and the same query::<T>() for every T are the same line, so nothing a caller can do tells them apart; only the order of attributes within one type matters, not how runs of different types interleave.", "quantifier": "every pair of reachable lines", "why_tests_cant": "Quantifies over all lines and all later uses of them.", "anchors": ["src/ll_line.rs:query", "src/ll_line.rs:run"]}
{"id": "C89", "title": "The attribute containers are lists per type", "statement": "After any sequence of insert, insert_any_attribute and clear operations, none of which fails, TypeBucket holds for every type exactly the values put in since the last clear, in order, independently of other types; TypeIdToMany holds for every type exactly the distinct values first inserted, in insertion order.", "quantifier": "every sequence of operations", "why_tests_cant": "Sequences of operations are unbounded.", "anchors": ["src/type_bucket.rs:TypeBucket", "src/type_id_to_many.rs:TypeIdToMany"]}
{"id": "C90", "title": "Running resolvers only adds matches", "statement": "Whatever a matcher finds before a run it still finds after it. (False for any_of: a new attribute can make an earlier alternative match and hide the later one; true for matchers without any_of; a choice of two such matchers keeps its results unless all were of the second and the run brought the first one of the first.)", "quantifier": "every reachable line, run and matcher", "why_tests_cant": "Quantifies over all matchers and runs.", "anchors": ["src/ll_line/x.rs:any_of", "src/ll_line.rs:run", "src/ll_line/ll_selection.rs:find_by"]}
{"id": "C91", "title": "any_of commits to its first match", "statement": "In seq(any_of(a, b), c), if a matches, the whole finds exactly what seq(a, c) finds, otherwise exactly what seq(b, c) finds: there is no backtracking into b. (So a sequence after a choice can find nothing although seq(b, c) matches.)", "quantifier": "every line, direction and matchers", "why_tests_cant": "Needs a line where the first alternative matches but the rest does not follow it.", "anchors": ["src/ll_line/x.rs:any_of", "src/ll_line/x.rs:seq"]}
{"id": "C92", "title": "Trimming whitespace", "statement": "After trim(whitespace()) no whitespace token is left at either end. (False: one token is removed per end, and a tab followed by a space are two tokens. It never panics, removes exactly one SPACE token from each end that has one, and leaves none if no two whitespace tokens are neighbours.)", "quantifier": "every text and selection", "why_tests_cant": "Needs two neighbouring whitespace tokens.", "anchors": ["src/ll_line/ll_selection.rs:trim", "src/ll_line/x.rs:whitespace"]}
{"id": "C93", "title": "Splitting again", "statement": "The matcher finds nothing in a piece of split_by, so splitting a piece again returns just the piece; there are at most as many pieces as matches plus one; split_with itself leaves nothing.", "quantifier": "every selection and matcher that goes forwards", "why_tests_cant": "The input space is infinite; tests sample a handful of inputs.", "anchors": ["src/ll_line/ll_selection.rs:split_by", "src/ll_line/ll_selection.rs:split_with"]}
{"id": "C94", "title": "Clauses of a text, end to end", "statement": "After the keyword and clause resolvers ran on a line made from any string, querying Clause yields exactly the parts between keywords and punctuation, without one space token at either end, in order, with one kind each: Condition after a condition word; otherwise Independent if it is the only part; otherwise TrailingEffect after a then word or after an earlier condition, else LeadingEffect.", "quantifier": "every string and keyword configuration", "why_tests_cant": "The input space is infinite; tests sample a handful of inputs.", "anchors": ["layered-clauses/src/clauses.rs:go", "layered-clauses/src/clause_keyword.rs:go", "src/ll_line.rs:query"]}
{"id": "C95", "title": "Queries of single-token resolvers, end to end", "statement": "After a table, keyword or part-of-speech resolver ran, querying its type yields exactly one entry per token that gets values, in order, with the token's text and all its values in table order.", "quantifier": "every line or string, table, dictionary and keyword configuration", "why_tests_cant": "The input space is infinite; tests sample a handful of inputs.", "anchors": ["src/resolvers/text_match.rs:go", "layered-clauses/src/clause_keyword.rs:go", "layered-part-of-speech/src/lib.rs:go", "src/ll_line.rs:query"]}
{"id": "C96", "title": "Amounts of a text, end to end", "statement": "After AmountResolver ran on a line made from any string, querying the amounts yields exactly the amounts of the grammar, in order, each with its text and one value, on disjoint ranges.", "quantifier": "every string and configuration", "why_tests_cant": "The input space is infinite; tests sample a handful of inputs.", "anchors": ["layered-amount/src/amounts.rs:go", "src/ll_line.rs:query"]}
{"id": "C97", "title": "x::whitespace() matches any number of spaces", "statement": "As documented, x::whitespace() matches any number of consecutive whitespace tokens. (False: it matches exactly one token, in both directions; a tab and a space are two, so seq((a, whitespace(), b)) requires exactly one whitespace token between a and b.)", "quantifier": "every line made from a string", "why_tests_cant": "Needs neighbouring whitespace tokens, which no test has.", "anchors": ["src/ll_line/x/functions.rs:whitespace"]}
{"id": "C98", "title": "Documented words", "statement": "As documented, don't, peoples' and baseball-card are words: a letter followed by letters, apostrophes and dashes is one WORD token. (False: the Unicode splitter cuts before every dash, so no WORD token of any line contains a dash; a text the splitter leaves whole is one WORD token iff it has the documented form.)", "quantifier": "every string", "why_tests_cant": "The comment describes is_word, which never sees such words.", "anchors": ["src/create_tokens/get_word_tag.rs:is_word", "src/create_tokens.rs:create_tokens_for_string"]}
{"id": "C99", "title": "any_of in both directions", "statement": "any_of matches the same ranges with the same values forwards from their start and backwards from their end. (False: backwards a longer earlier alternative can hide a match that forwards is found; true for alternatives that match single tokens; in general true of a range exactly if the second alternative does not match there or the first matches something from both its ends or from neither.)", "quantifier": "every reachable line and matchers", "why_tests_cant": "Needs attributes of different lengths ending on one token.", "anchors": ["src/ll_line/x/any_of.rs"]}
{"id": "C100", "title": "Table, keyword and part-of-speech resolvers work piecewise", "statement": "On the line of xs ++ ys these resolvers assign what they assign on the line of xs followed by what they assign on the line of ys, moved behind the tokens of xs.", "quantifier": "every pair of inputs, table, configuration and dictionary", "why_tests_cant": "The input space is infinite; tests sample a handful of inputs.", "anchors": ["src/resolvers/text_match.rs:go", "layered-clauses/src/clause_keyword.rs:go", "layered-part-of-speech/src/lib.rs:go", "src/create_tokens.rs:create_line_from_input_tokens"]}
{"id": "C101", "title": "Amounts are found piecewise", "statement": "If the last token of the line of xs is no number, delimiter or decimal point, AmountResolver assigns on the line of xs ++ ys what it assigns on both parts, and panics exactly if it panics on a part. Without the condition amounts can join.", "quantifier": "every pair of inputs and configuration", "why_tests_cant": "The input space is infinite; tests sample a handful of inputs.", "anchors": ["layered-amount/src/amounts.rs:go", "src/create_tokens.rs:create_line_from_input_tokens"]}
{"id": "C102", "title": "A rendered line can be read back", "statement": "Two lines with the same tokens and the same rendering show the same values on the same ranges. (False if a Debug text begins like the rest of a bracket; true if no shown Debug text contains a line break or begins with a bracket character. If Debug also tells values apart, the renderings of the single types determine the line.)", "quantifier": "every pair of reachable lines, list of types, additive width with double space at least 2 columns", "why_tests_cant": "Quantifies over pairs of lines.", "anchors": ["src/ll_line/display.rs:fmt", "src/ll_line/display.rs:include"]}
{"id": "C103", "title": "Extending on both sides commutes", "statement": "match_forwards(a) then match_backwards(b) reaches the same selections with the same outputs as match_backwards(b) then match_forwards(a).", "quantifier": "every selection and pair of matchers", "why_tests_cant": "The input space is infinite; tests sample a handful of inputs.", "anchors": ["src/ll_line/ll_selection.rs:match_forwards", "src/ll_line/ll_selection.rs:match_backwards"]}
{"id": "C104", "title": "Matching is local", "statement": "Forwards from a token every matcher's results (or panic) depend only on the tokens from there on and the attributes of ranges starting there or later; backwards only on the tokens up to it and the ranges ending there or earlier. So find_by over a selection does not look before its start, and on the line of xs ++ ys matching forwards in the second part, and backwards in the first, is matching on the part alone.", "quantifier": "every pair of reachable lines that agree on the part, every matcher and position", "why_tests_cant": "Quantifies over pairs of lines and all matchers.", "anchors": ["src/ll_line/x.rs:XForwards", "src/ll_line/x.rs:XBackwards", "src/ll_line/ll_selection.rs:find_by"]}
{"id": "C105", "title": "Clauses of several sentences", "statement": "If the line of xs ends with punctuation, the clauses of the line of xs ++ ys are those of both parts on the same ranges with the same texts, and their kinds change in exactly this way: an effect before any condition becomes a TrailingEffect if a condition is in the sentence before (conditions carry across sentences), and an Independent clause becomes an effect unless the other part consists of separators.", "quantifier": "every pair of inputs that bring no tags, keywords or clauses of their own, and keyword configuration", "why_tests_cant": "No test has two sentences.", "anchors": ["layered-clauses/src/clauses.rs:go", "layered-clauses/src/clause_keyword.rs:go"]}
{"id": "C106", "title": "Sequences of any length, and phrases", "statement": "An expression nested from x::seq in any way gives exactly the chains of adjacent matches of its parts, in the same order and as often, so the nesting makes no difference. After a table of words ran, searching for word values with whitespace between them finds exactly the phrases: places where the token texts have these values in the table with one whitespace token between two words; each once, from left to right, if the table gives no token more than one value.", "quantifier": "every nesting of any size, every reachable line whose tags go with its texts, table and phrase of any length", "why_tests_cant": "Nestings and phrases are unbounded.", "anchors": ["src/ll_line/x/seq.rs", "src/ll_line/x.rs:seq", "src/resolvers/text_match.rs:go", "src/ll_line/ll_selection.rs:find_by"]}
{"id": "C107", "title": "Loops over selections end", "statement": "Extending a selection by match_forwards/match_backwards, searching what is left or right of the first (extended) match, trimming as long as something changes, and going on with after() all end, after at most as many rounds as there are tokens. (False for after(): behind the last token it returns the same empty selection for ever; the loop ends iff the selection starts at the last-but-one token or exactly two tokens follow it.)", "quantifier": "every selection, sequence of well-behaved matchers and number of rounds", "why_tests_cant": "Non-termination and unbounded rounds.", "anchors": ["src/ll_line/ll_selection.rs:match_forwards", "src/ll_line/ll_selection.rs:match_backwards", "src/ll_line/ll_selection.rs:find_first_by", "src/ll_line/ll_selection.rs:split_with", "src/ll_line/ll_selection.rs:trim", "src/ll_line/ll_selection.rs:after"]}
{"id": "C108", "title": "Distributive laws of the combinators", "statement": "seq(a, any_of(b, c)) finds what any_of(seq(a, b), seq(a, c)) finds; all(a, any_of(b, c)) what any_of(all(a, b), all(a, c)) finds; all(seq(a, b), seq(c, d)) what seq(all(a, c), all(b, d)) finds. (All three are false; each holds in one direction: the sequence with the choice finds at least as much, and the same if a b is not found; the all with the choice at most as much, and the same for the first alternative; the pair of sequences at least as much, and the same if the first parts end on the same token. At a given place the first holds exactly if a b is not found or no a has c but not b behind it; the second fails exactly if b is found, not together with a, and c together with a; the third holds exactly if any two sequences found on one range have a common token where their first parts end.)", "quantifier": "every line, position, direction and matchers", "why_tests_cant": "The input space is infinite; tests sample a handful of inputs.", "anchors": ["src/ll_line/x.rs:seq", "src/ll_line/x.rs:all", "src/ll_line/x.rs:any_of"]}
{"id": "C109", "title": "Letter case does not matter", "statement": "A text and the text with the case of letters changed have the same tokens up to case, with the same tags and positions; case-insensitive tables, the clause keyword resolver and the part-of-speech resolver assign the same on both, and both have the same clauses on the same ranges.", "quantifier": "every text and change of case that keeps letters, byte lengths, lowercase and word boundaries", "why_tests_cant": "Relates two runs on different texts.", "anchors": ["src/resolvers/text_match.rs:go", "layered-clauses/src/clause_keyword.rs:go", "layered-part-of-speech/src/lib.rs:go", "layered-clauses/src/clauses.rs:go", "src/create_tokens.rs:create_line_from_string"]}
{"id": "C110", "title": "Assigning in one run or in several", "statement": "Running two resolvers of one attribute type after the other gives the line a single run with all their assignments gives. The order of assignments matters only between those that share a start or an end token: otherwise every matcher finds the same and every query returns the same entries in another order. So one table with the values of two tables works like running the two tables.", "quantifier": "every line, lists of assignments, pair of reachable lines, pair of tables, matcher and query", "why_tests_cant": "Quantifies over pairs of lines and all matchers.", "anchors": ["src/ll_line.rs:run", "src/ll_line.rs:LLLineAttrs", "src/resolvers/text_match.rs:go"]}
{"id": "C111", "title": "The rendering shows what queries return", "statement": "A line rendered with some types shows the token texts and, type by type, one line for every value the queries of these types return, in that order, the newest value of a range first. So clauses are rendered one per line from left to right, under their tokens, with the name of their kind; parts of speech and table values token by token.", "quantifier": "every line of the library's resolvers, list of types, text, configuration and table", "why_tests_cant": "The input space is infinite; tests sample a handful of inputs.", "anchors": ["src/ll_line/display.rs:fmt", "src/ll_line/display.rs:include", "src/ll_line.rs:query", "layered-clauses/src/clauses.rs:Clause", "layered-clauses/src/clause_keyword.rs:ClauseKeyword"]}
{"id": "C112", "title": "Tokens are tokenised to themselves", "statement": "The text of every text token, tokenised on its own, is exactly this token again, with the tag that goes with the text, from 0 to its size. So table entries and clause keywords that are not one token (phrases of several words, the empty text) are never found: tables and keyword lists that agree on texts of one token assign the same (case-insensitive tables and keywords: on lines without zero-width joiners, see C124).", "quantifier": "every reachable line, token, size function, pair of tables and pair of keyword configurations", "why_tests_cant": "Quantifies over all texts and all tables.", "anchors": ["src/create_tokens.rs:create_tokens_for_string", "src/resolvers/text_match.rs:go", "layered-clauses/src/clause_keyword.rs:go"]}
{"id": "C113", "title": "A text may be given in several inputs", "statement": "A text, and the same text cut between words into several inputs without attributes, among any other inputs, give the same line: tokens, positions and attributes; also one input per word. Cutting inside a word gives another line.", "quantifier": "every text, cut between words, surrounding inputs and size function", "why_tests_cant": "Quantifies over all cuts of all texts.", "anchors": ["src/create_tokens.rs:create_line_from_input_tokens"]}
{"id": "C114", "title": "Positions identify tokens", "statement": "If no token has size 0, later tokens start and end at later positions, before and after any runs, so two finds with the same range() are on the same tokens, whatever was searched for. (With custom tokens of size 0 different tokens share positions.)", "quantifier": "every input without zero sizes, line after any runs, pair of built-in matchers and finds", "why_tests_cant": "The input space is infinite; tests sample a handful of inputs.", "anchors": ["src/create_tokens.rs:create_line_from_input_tokens", "src/ll_line.rs:find", "src/ll_line.rs:LLLineFind"]}
{"id": "C115", "title": "find(attr) and query list the same", "statement": "find(&attr::<T>()) returns exactly the values query::<T>() returns, each as often, ordered by the start of the range and within one start as in the query, with the positions of the range.", "quantifier": "every reachable line and type whose query does not panic", "why_tests_cant": "The input space is infinite; tests sample a handful of inputs.", "anchors": ["src/ll_line.rs:find", "src/ll_line.rs:query", "src/ll_line/x.rs:attr"]}
{"id": "C116", "title": "What Debug output tells", "statement": "Two selections of one line have the same Debug text exactly if they are equal; two finds (two assignments) exactly if their ranges are the same and their values print the same; a prepared attribute prints the same for every value. Tags, keywords and clauses print as their names, so different ones print differently.", "quantifier": "every selection, find, assignment and attribute", "why_tests_cant": "Injectivity over all numbers.", "anchors": ["src/ll_line/ll_selection.rs:Debug for LLSelection", "src/ll_line.rs:Debug for LLLineFind", "src/ll_line.rs:LLCursorAssignment", "src/type_bucket.rs:Debug for AnyAttribute"]}
{"id": "C117", "title": "More keywords give finer clauses", "statement": "If a keyword resolver's words (all three lists together) include another's, every clause found with it lies inside a clause found with the other, its text being a contiguous part of that clause's text; every token that is no space, no punctuation and no keyword lies in some clause; and which list a word is in changes neither the ranges nor the texts of the clauses.", "quantifier": "every input line, every two keyword configurations", "why_tests_cant": "The input space is infinite; tests sample a handful of inputs.", "anchors": ["layered-clauses/src/clause_keyword.rs:ClauseKeywordResolver", "layered-clauses/src/clauses.rs:ClauseResolver"]}
{"id": "C118", "title": "Configurations of the amount resolver compared", "statement": "Two configurations that agree on the characters in the line give the same amounts (or the same panic), so order and repetition of delimiters are irrelevant; on plain lines where no two NATN tokens are neighbours, adding delimiters only joins amounts: each amount lies inside one found with more delimiters and each of those contains one. Where two numbers are neighbours this last claim is false (witness).", "quantifier": "every line, every two configurations", "why_tests_cant": "The input space is infinite; tests sample a handful of inputs.", "anchors": ["layered-amount/src/amounts.rs:AmountResolver"]}
{"id": "C119", "title": "Positions influence nothing but positions", "statement": "From the same inputs, measured with another size function and other sizes of the custom tokens, creation gives the same tokens and attributes (unless positions overflow). On two lines that differ in positions only, wherever they are stored, every resolver written against the public API with the library's matchers, and matchers of its own that ask these, assigns the same or panics alike, in any sequence, and queries, displays and the values found are the same; this includes the library's own resolvers and those of the currency example.", "quantifier": "every input, size functions, resolver programs of any length, sequence of runs, query, display and built-in matcher", "why_tests_cant": "Quantifies over all resolvers a user can write.", "anchors": ["src/create_tokens.rs:create_line_from_input_tokens", "src/ll_line/ll_selection.rs", "src/ll_line.rs:run", "src/ll_line.rs:query", "src/ll_line/display.rs:fmt"]}
{"id": "C120", "title": "Resolvers do not see the types they do not mention", "statement": "What a resolver written against the public API assigns is not changed by running before it a resolver of a type its matchers do not mention. So two such resolvers of different types that do not mention each other's type give the same line in either order, and one that does not mention its own type repeats itself when run again. (This includes matchers of the user that ask matchers and compare what they return; a matcher that reads the line itself can look at everything.)", "quantifier": "every resolver program, reachable line and type", "why_tests_cant": "Quantifies over all resolvers a user can write.", "anchors": ["src/ll_line/ll_selection.rs", "src/ll_line/x.rs", "src/ll_line.rs:run"]}
{"id": "C121", "title": "Careful resolvers never panic", "statement": "A resolver that only uses the public API and the selections it got, does not call after() and uses the library's matchers except token_has_any, or matchers of its own that ask these, never panics, neither itself nor when its assignments are entered, in any sequence of such resolvers, and the result can be displayed. token_has_any is safe too if every token is a text or carries an attribute. (With after(), or with token_has_any on a bare custom token, it is false: both panic.)", "quantifier": "every resolver program of any length, line made by such code, sequence of runs", "why_tests_cant": "Quantifies over all resolvers a user can write.", "anchors": ["src/ll_line/ll_selection.rs", "src/ll_line/x.rs", "src/ll_line.rs:run", "src/ll_line/display.rs:fmt"]}
{"id": "C122", "title": "Matchers of the user are as good as the library's", "statement": "An implementation of XMatch that asks other matchers (or the direction) at its position, computes with the values and compares the ToIdxs it gets, and answers with ToIdxs it got, panics only if a matcher it asks does; its results stay in the line and on its side of the position, and so do the selections found with it, alone or as a part of an expression. (A matcher that jumps with XDirection::after to an index of its own making can panic and can find selections that end before they start.)", "quantifier": "every such implementation, however long, over all matchers, every reachable line and position", "why_tests_cant": "Quantifies over all matchers a user can write.", "anchors": ["src/ll_line/x.rs:XMatch", "src/ll_line/x.rs:ToIdx", "src/ll_line/x.rs:XDirection", "src/ll_line/ll_selection.rs:find_by"]}
{"id": "C123", "title": "What filtering, mapping and negating matchers find", "statement": "A matcher that filters another's results finds exactly the other's finds whose values pass, one that changes values exactly the other's finds with changed values (in all four searches, panics included; trimming is the same), one that answers unless another matches finds exactly the finds at tokens where the other finds nothing, and a copy of all((a, b)) written by the user is the same as the library's.", "quantifier": "every selection, matcher, predicate and function", "why_tests_cant": "The input space is infinite; tests sample a handful of inputs.", "anchors": ["src/ll_line/x.rs:XMatch", "src/ll_line/x.rs:all", "src/ll_line/ll_selection.rs:find_by", "src/ll_line/ll_selection.rs:find_by_forwards_and_backwards", "src/ll_line/ll_selection.rs:match_forwards", "src/ll_line/ll_selection.rs:match_backwards", "src/ll_line/ll_selection.rs:trim"]}
{"id": "C124", "title": "The laws of word splitting hold of UAX #29", "statement": "With the word boundaries of Unicode Standard Annex #29, for any table of character classes that has ASCII letters, digits and the two dashes where Unicode has them: words are not empty and make up the text, no boundary lies between digits, one lies before every dash, cutting between words keeps the words, runs of ASCII letters or digits are words, changing case changes no boundary, and lowercasing keeps words without a zero-width joiner whole (with a joiner it does not, and then a case-insensitive table finds an entry that is no single token). So the other properties hold of the real splitter. A digit at the start of a word with a non-ASCII letter or combining mark behind it makes creation panic.", "quantifier": "every text and table of classes", "why_tests_cant": "Quantifies over all texts; the rules look at unboundedly many characters in both directions.", "anchors": ["src/create_tokens.rs:create_tokens_for_string", "src/create_tokens.rs:create_line_from_string"]}
{"id": "C125", "title": "Layers of rules compute a grammar", "statement": "Rules such as the README's Location = 'New' + 'York' + 'City' (find attributes and texts, in sequence or at the same place; assign values where they are found), run as resolvers on a line, never panic in any order and number, and every attribute follows from the rules. If every rule comes after the rules for the types it mentions, one pass finds exactly what follows, every interpretation of every span, whichever such order is taken; query shows just that. Rules that use each other in circles need more passes: n passes find all that follows in n steps, and as many passes as there are tokens find everything if rules use what is assigned only as parts of sequences (if not, but the values come from a finite stock, as many as tokens times values); one pass is not enough.", "quantifier": "every set of rules of any size, line, number and order of runs", "why_tests_cant": "Quantifies over all grammars; derivations are unbounded.", "anchors": ["README.md:Layering", "src/ll_line/ll_selection.rs:find_by", "src/ll_line.rs:run", "src/ll_line.rs:query", "src/ll_line/x/seq.rs", "src/ll_line/x/all.rs"]}
{"id": "C126", "title": "The size callback is called once per text token, in order", "statement": "get_text_size may count, remember or panic. Whatever it does, it is called with the texts the inputs are cut into, in order, and never after it panicked; when there is a line, once for each text token and never for custom tokens. Each token's size is what the callback answered for it, given the calls for the tokens before. There is a line exactly if the inputs are good, the callback answers all calls and checked sizes do not overflow; it differs from the line of any size function in positions only, and a callback that is a function gives just what the other properties say.", "quantifier": "every callback (any answer or panic depending on all calls before), every list of inputs", "why_tests_cant": "Quantifies over all stateful callbacks.", "anchors": ["src/create_tokens.rs:create_line_from_input_tokens", "src/create_tokens.rs:create_tokens_for_string"]}
{"id": "C127", "title": "Numbers are read with the value people write", "statement": "A text of digit groups with commas, points, apostrophes or blanks between them is tokenised into the groups and signs. With delimiters between the groups it is one amount over the whole text with the value of all its digits, with a decimal sign and k more digits the value with k places; so every number below 10^28 written with a delimiter before every three digits is read as that number, and two numbers are never mixed up. In a text with a blank, bracket, currency sign or other symbol before and behind it the number is read just so, between the amounts before and behind it. (The french configuration also has the point as a delimiter: it reads 12.50 as 1250.)", "quantifier": "every number of up to 28 digits, grouping, configuration and surrounding text", "why_tests_cant": "All numbers; goes through word boundaries, tokens, the resolver and parsing.", "anchors": ["layered-amount/src/amounts.rs:go", "src/create_tokens.rs:create_line_from_string", "src/ll_line.rs:query"]}
{"id": "C128", "title": "Rendering into a sink that refuses or panics", "statement": "What is written when a line is rendered does not depend on the sink: every sink is given the same texts in the same order, up to the first one it refuses (rendering returns Err) or panics on, and nothing after that; so it holds a beginning of the rendering, and all of it exactly if rendering returns Ok. Err comes from the sink only; into a buffer of n bytes rendering succeeds exactly if the rendering has at most n bytes. If the rendering itself panics (see C57) the header, the attributes before the one that cannot be drawn and the beginning of that one have been written.", "quantifier": "every display, sink (any reply depending on all texts before)", "why_tests_cant": "Quantifies over all stateful sinks.", "anchors": ["src/ll_line/display.rs:fmt"]}
{"id": "C129", "title": "Code of the user that counts, remembers, changes its mind or panics", "statement": "PartialEq and Debug of attribute types and XMatch implementations may count, remember, answer now so and now so, and panic. If their answers are those of a function, every search and display asks what it would ask the function, in the same order, and gives the same result, or stops at the first panic with nothing asked after it. With any PartialEq, attr_eq compares each value attr finds once, in order, the value on the left, and finds those whose comparison said yes; find_by(attr_eq) over a line compares every value of the type exactly once; token_has_any compares the elements of the set from the first up to the first equal one. include calls Debug once per value, in the order of assignment. all runs its matchers once each at a place, the first of them last; any_of runs them one after another until one finds something; seq runs the next once for each result of the one before; every search runs its matcher once at each of its places, in order. Whatever is answered, results stay inside the line and searches return selections with the promised boundaries; the library's own code panics only in token_has_any on a custom token without attributes.", "quantifier": "every PartialEq, Debug and matcher whose behaviour depends on everything asked before, every expression, reachable line, selection and type", "why_tests_cant": "Quantifies over all stateful implementations of the user's traits.", "anchors": ["src/ll_line/x.rs:attr_eq", "src/ll_line/x.rs:token_attr_one_of", "src/ll_line/x.rs:XMatch", "src/ll_line/ll_selection.rs:find_by", "src/ll_line/ll_selection.rs:find_first_by", "src/ll_line/ll_selection.rs:split_by", "src/ll_line/ll_selection.rs:match_forwards", "src/ll_line/ll_selection.rs:match_backwards", "src/ll_line/ll_selection.rs:trim_selection", "src/ll_line.rs:find", "src/ll_line/display.rs:include", "src/type_bucket.rs:get_debug"]}
{"id": "C130", "title": "Resolvers in layers give one consistent line", "statement": "If no resolver looks at the type it assigns or a later one assigns, and all assign different types, the finished line is consistent: each resolver, asked again about the finished line, answers just what it assigned. This determines the line, so every order in layers gives the very same line; careful resolvers (C121, without token_has_any) also run through in every such order. Resolvers may use choices, negations and computations of their own; the library's resolvers are included. (Without layers it is false: of two resolvers that each mark what the other did not mark, the one that is run first marks everything.)", "quantifier": "every set of resolver programs of any size, order in layers, reachable line", "why_tests_cant": "Quantifies over all resolvers a user can write and all orders of running them.", "anchors": ["README.md:Layering", "src/ll_line.rs:run", "src/ll_line/ll_selection.rs", "src/ll_line/x.rs"]}
{"id": "C131", "title": "Attribute values matter only where they are compared or printed", "statement": "Two programs that represent the values of their attribute types differently (strings or interned numbers, say), and otherwise do the same, get the same tokens, find, assign and query corresponding values on the same ranges in the same order, and panic alike. Nothing is asked of the representation except where attr_eq and token_has_any compare (corresponding values must be equal to corresponding things) and where the display prints (corresponding values must print the same); both conditions are needed. So values that are only looked up with attr never influence which ranges are found. The library's own resolvers are such programs.", "quantifier": "every pair of worlds of attribute types, every relation between their values, every input, matcher expression, resolver program, pipeline, query and display", "why_tests_cant": "Relates two programs with different types; quantifies over all types and all relations between their values.", "anchors": ["src/ll_line/x.rs:attr", "src/ll_line/x.rs:attr_eq", "src/ll_line/x.rs:token_has_any", "src/ll_line.rs:run", "src/ll_line.rs:query", "src/ll_line.rs:find", "src/type_bucket.rs", "src/create_tokens.rs:create_line_from_input_tokens", "src/ll_line/display.rs:include"]}
{"id": "C132", "title": "Printed tokens can be read back", "statement": "The Debug output of line.ll_tokens(), in the plain form {:?} and in the pretty form {:#?}, tells the tokens: two lines print the same exactly if they have the same tokens, with texts, tags, indexes and positions, whatever quotes, backslashes, line breaks or unprintable characters the texts contain. For lines made with create_line_from_string it tells the text. The plain form is always one line. Both are written out: which field names, brackets, commas, lines and indentations stand where. In both forms selections of one line, finds and assignments print the same exactly if they have the same range and their values print the same; results of any_of print the same, and are equal, exactly if they come from the same alternative and do so there.", "quantifier": "every line, text, form and Debug of values", "why_tests_cant": "Quantifies over all pairs of token lists and all texts; snapshot tests rely on it.", "anchors": ["src/ll_line.rs:LToken", "src/ll_line.rs:LLToken", "src/ll_line.rs:ll_tokens", "src/ll_line.rs:LLLineFind", "src/ll_line/ll_selection.rs:fmt", "src/ll_line/x/any_of.rs:AnyOf2", "src/ll_line/x/any_of.rs:AnyOf3", "src/tests/tokenizing.rs:split_input"]}
{"id": "C133", "title": "What resolvers can tell apart", "statement": "Two lines look the same if they have the same tokens and every attribute matcher returns the same at every place in both directions. That is exactly what resolvers can see: every resolver written against the public API with the matchers of the library returns the same assignments (or panics alike) on both lines if and only if the lines look the same, and it stays so after any further resolvers. In terms of assignments: lines with the same tokens look the same exactly if, for each type, ranges with the same start came in the same order, ranges with the same end came in the same order, and each range has the same values in the same order; so assignments of different types, or to ranges sharing neither start nor end, can be made in either order. Queries on such lines return the same entries, perhaps in another order, and panic alike.", "quantifier": "every two reachable lines, every matcher expression, resolver program, pipeline and query", "why_tests_cant": "Quantifies over all resolver programs; no test can show that no program tells two lines apart.", "anchors": ["src/ll_line/x.rs:attr", "src/ll_line.rs:run", "src/ll_line.rs:query", "src/ll_line/ll_selection.rs:find_by", "src/ll_line/ll_selection.rs:find_by_forwards_and_backwards"]}
{"id": "C134", "title": "Matchers that call themselves", "statement": "A matcher of the user may call itself behind a match (\"a word, then perhaps more of me\"), as trim and find need for \"one or more\", which the library does not offer. On lines whose attributes do not run backwards such code always returns, after at most as many nested calls as there are tokens behind; its results are the only ones the code admits; they lie in the line and on the right side, it panics only if a matcher it asks does, and everything said of matcher expressions holds of it. One or more of m finds exactly the rows of adjacent matches of m, with their number, in both directions; trim with one or more whitespace removes exactly the whitespace at both ends (None if it is all whitespace), which trim with whitespace() does not (C92). (On a line with an attribute that runs backwards the repetition of it never ends.)", "quantifier": "every such matcher, over all matchers and computations, every line, position and direction", "why_tests_cant": "Termination and uniqueness for all recursive matchers a user can write.", "anchors": ["src/ll_line/x.rs:XMatch", "src/ll_line/x.rs:XDirection", "src/ll_line/x/seq.rs", "src/ll_line/ll_selection.rs:find_by", "src/ll_line/ll_selection.rs:trim"]}
{"id": "C135", "title": "The library does what a plain reference implementation does", "statement": "A reference implementation without indexes, buckets and shared pointers (a line is its tokens and the list of assignments, oldest first; matchers, selection calls, resolvers, queries, displays and searches are short list programs) behaves like the library: for every input and every sequence of resolvers written against the public API, either both panic somewhere or neither does, and then tokens, queries of all types, displays with all lists of types and searches with all matcher expressions give the same, in the same order. Each matcher expression, each call of the selection API and each resolver program agrees at every step. The reference leaves nothing out: every matcher built from x::* and matchers of the user, and every resolver using such matchers, the library's own included, has its counterpart.", "quantifier": "every input, size function, sequence of resolver programs of any length, matcher expression, query, display and search", "why_tests_cant": "Refinement for all programs and inputs; tests compare single runs.", "anchors": ["src/create_tokens.rs:create_line_from_input_tokens", "src/ll_line.rs:run", "src/ll_line.rs:query", "src/ll_line.rs:find", "src/ll_line/x.rs", "src/ll_line/ll_selection.rs", "src/ll_line/display.rs:fmt", "src/type_bucket.rs"]}
{"id": "C136", "title": "Directions of the user", "statement": "XDirection is public, so a matcher of the user may hand the matchers it asks a direction of its own, around the one it got. Matchers know a direction only by what its five methods answer: wherever two directions answer alike, every matcher expression finds the same with both, and its results are indexes the directions answered; for the library's two directions the generic code is the one the other properties speak of. With directions of the user that pass on the indexes they are given, in any nesting, results stay in the line and on the right side, and nothing panics without token_has_any. A direction that hides types shows an expression the line as it was before the resolvers that assigned them. A direction whose after passes over spaces makes sequences find exactly the pairs with nothing but spaces between, forwards; backwards it panics, as it makes up the indexes it goes on from.", "quantifier": "every type that implements XDirection, every matcher expression over it, every reachable line and position", "why_tests_cant": "Quantifies over all implementations of a public trait and all expressions.", "anchors": ["src/ll_line/x.rs:XDirection", "src/ll_line/x.rs:XMatch", "src/ll_line/x/seq.rs", "src/ll_line/x/all.rs", "src/ll_line/x/any_of.rs"]}
{"id": "C137", "title": "A match is no longer than its expression; only recursion repeats", "statement": "If the attributes an expression looks at cover at most k tokens each and the expression puts at most n matches next to each other, it finds at most n*k tokens, in both directions, and find_by selects no more. The bound is attained. So no expression of the library, nor one with matchers of the user that do not call themselves, finds whitespace (or anything else) of any length, as whitespace() is documented to do: for each there are texts of whitespace that a matcher that calls itself finds as a whole and it does not, and trim_start and trim_end with it leave whitespace where more than n whitespace tokens stand at the end.", "quantifier": "every matcher expression without recursion, every line, position and direction", "why_tests_cant": "A test has one expression and one text; the claim is that no expression at all does it.", "anchors": ["src/ll_line/x/seq.rs:Seq2", "src/ll_line/x/functions.rs:whitespace", "src/ll_line/ll_selection.rs:trim_selection", "src/ll_line/ll_selection.rs:find_by"]}
{"id": "C138", "title": "How many results a search has", "statement": "Where at most c values of one type start and end at any token, an expression of the library with n attribute matchers (of the alternatives of any_of only the heaviest counts) has at most c^n results at a position, in both directions, and find_by at most c^n per token of the selection, so it grows linearly with the text. The bound is attained. On a line with at most one value of each type at a token, as every line made of texts without attributes, every expression has at most one result at a position.", "quantifier": "every expression of the library, every line, position and direction", "why_tests_cant": "Counts on sample lines say nothing about the growth on others.", "anchors": ["src/ll_line/x.rs:attr", "src/ll_line/x/seq.rs:Seq2", "src/ll_line/x/all.rs:All2", "src/ll_line/x/any_of.rs:AnyOf2Matcher", "src/ll_line/ll_selection.rs:find_by"]}
{"id": "C139", "title": "The longest and the shortest match", "statement": "match_forwards_longest returns the first longest and match_forwards_shortest the first shortest of the results of match_forwards. (False: their bodies are todo!(), so they panic on every selection with every matcher, found or not. Both can be had by folding the results of match_forwards with split_with: one result is longer than another exactly if split_with leaves a part behind it.)", "quantifier": "every selection and matcher", "why_tests_cant": "No test calls them.", "anchors": ["src/ll_line/ll_selection.rs:match_forwards_longest", "src/ll_line/ll_selection.rs:match_forwards_shortest", "src/ll_line/ll_selection.rs:match_forwards", "src/ll_line/ll_selection.rs:split_with"]}
{"id": "C140", "title": "One line settles whether an expression can be replaced", "statement": "Replacing an expression of attr, attr_eq, seq and all by another is safe if on every line, wherever a search reports a range for the first, it reports that range for the second. Each expression has a test line, with one token and one more for every seq, such that for every second expression (which may also use token_text) one search settles it: it is safe on all lines exactly if find_by reports the whole test line for the second. It is the same question for find_by, match_forwards and match_backwards. The types that are compared must have a sensible PartialEq and the test line values the second does not compare with; that is needed. With any_of no test line would do. So seq((all((a, b)), c)) can be replaced by all((seq((a, c)), seq((b, c)))), but not the other way round.", "quantifier": "every two expressions of any size, every line made by API calls, every selection", "why_tests_cant": "One expression has infinitely many lines; the claim is that one of them is enough.", "anchors": ["src/ll_line/x/seq.rs:Seq2", "src/ll_line/x/all.rs:All2", "src/ll_line/x.rs:attr", "src/ll_line/x.rs:attr_eq", "src/ll_line/ll_selection.rs:find_by", "src/ll_line/ll_selection.rs:match_forwards", "src/ll_line/ll_selection.rs:match_backwards"]}
{"id": "C141", "title": "A grammar written as resolvers is recognised", "statement": "A context-free grammar over token texts can be written as resolvers: one per production, which finds the symbols of its right-hand side with seq, token_text and attr and assigns the left-hand side there (several right-hand sides at once with all: a conjunctive grammar). Run in any order and number these never panic and assign only to ranges whose texts the grammar derives. As many passes over all of them as there are tokens times productions, each pass in any order, find every such range, so query lists exactly the parts of the text that are in the language; if no production consists of a single other symbol, as many passes as tokens do (else they do not). With all this goes beyond context-free languages: nine productions find exactly the stretches with as many a as b as c.", "quantifier": "every grammar of any size, text or line without attributes of the grammar's types, number and order of runs", "why_tests_cant": "Quantifies over all grammars and texts; languages are infinite.", "anchors": ["README.md:Layering", "src/ll_line/x/seq.rs:Seq2", "src/ll_line/x/all.rs:All2", "src/ll_line/x.rs:attr", "src/ll_line/x.rs:token_text", "src/ll_line/ll_selection.rs:find_by", "src/ll_line.rs:run", "src/ll_line.rs:query"]}
{"id": "C142", "title": "Values are listed once for each way to find them", "statement": "A rule (C125) assigns a value once for each way to find its right-hand side, no more and no less: a result of a matcher is listed as often as there are choices of its parts, with repetitions of the same value counted. If the rules are in layers, the finished line has each conclusion once for each way to conclude it from the finished line, and this determines the line but for the order; for a type that one rule assigns, query lists just the values of all ways. So ambiguous readings show as repeated values and are never merged; a rule that finds the type it assigns doubles every value with each run, 2^n times after n runs.", "quantifier": "every set of rules in layers of any size, line, and number of runs", "why_tests_cant": "Tests compare small samples where each value has one derivation; the count is unbounded.", "anchors": ["README.md:Layering", "src/ll_line/ll_selection.rs:find_by", "src/ll_line/x.rs:attr", "src/ll_line/x/seq.rs:Seq2", "src/ll_line/x/all.rs:All2", "src/ll_line.rs:run", "src/ll_line.rs:query"]}
{"id": "C143", "title": "A grammar over attributes is parsed", "statement": "A context-free grammar whose terminals are token texts, attributes and attributes with a value (parts of speech, amounts, anything earlier resolvers assigned, over any number of tokens) can be written as one resolver per production. Run in any order and number these never panic and assign only what the grammar finds. As many passes as there are tokens times productions parse the line (as many as tokens if no production is a single symbol that has productions, one if the productions are in layers): query lists just the attributes that were there before and, for each production, the ranges where its right-hand side can be rewritten, in the textbook's sense, into symbols that were there before, one behind the other; and a search for any sequence of symbols finds just the ranges where that sequence can be so rewritten. Attributes of the types that productions assign may be there before; they count as terminals too.", "quantifier": "every grammar of any size, line, resolvers before it, number and order of runs, sequence searched for", "why_tests_cant": "Quantifies over all grammars and lines; derivations are unbounded.", "anchors": ["README.md:Layering", "src/ll_line/ll_selection.rs:find_by", "src/ll_line/x.rs:attr", "src/ll_line/x.rs:attr_eq", "src/ll_line/x/seq.rs:Seq2", "src/ll_line/x.rs:token_text", "src/ll_line.rs:run", "src/ll_line.rs:query"]}
{"id": "C144", "title": "Resolvers that look before they assign reach an end", "statement": "A resolver may look first: search with attr_eq for the value it is about to assign, compare the selections with ==, and assign only what is not there. Rules (C125) written so, run in any order and number, never panic and give the same attributes as the plain rules, but no value twice on a range; if query listed none twice before, it never does. A loop over such rules may stop as soon as a pass leaves the number of listed values as it was: then the line is unchanged and has exactly what follows by the rules. It gets there after as many passes as there are tokens times values in the stock the rules assign from, or as many as tokens if rules use what rules assign only in sequences, and from then on no run changes anything. The end does not depend on the order of the runs. However many runs there are, on a line of n tokens they add for a type at most n (n + 1) / 2 values for each value of that type in the stock. (The PartialEq must tell values apart exactly: where no value equals itself, as with NaN, looking makes no difference.)", "quantifier": "every set of rules, order and number of runs, line made by API calls", "why_tests_cant": "Termination and confluence for all sets of rules and all orders.", "anchors": ["README.md:Layering", "src/ll_line.rs:run", "src/ll_line.rs:query", "src/ll_line/x.rs:attr_eq", "src/ll_line/ll_selection.rs:find_by", "src/ll_line/ll_selection.rs:eq"]}
{"id": "C145", "title": "What rules find on a stretch depends on that stretch only", "statement": "If a stretch of tokens occurs on two lines with the same texts and tags and the same attributes inside it (assigned in the same order), then after any runs of any rules (C125), looking first (C144) or not, in any order and number, query lists for the ranges inside the stretch the same ranges, texts and values in the same order on both lines, wherever the stretch stands and whatever is around it. So for the line of xs ++ ys ++ zs it lists inside ys exactly what it lists for the line of ys alone, and editing one part of a text changes nothing that was found inside the others. It also holds of every expression without any_of in both directions (attr, attr_eq, token_text, token_has_any, seq, all), and after any runs of resolvers that search for such expressions and assign values made of what they find, provided nothing panics: with token_has_any a token behind the stretch can make a search in it panic (C29). With any_of it is false: an alternative that is found across the end of the stretch hides one that is found inside it.", "quantifier": "every set of rules, order and number of runs, pair of lines made by API calls, place and length of the stretch", "why_tests_cant": "Relates runs on two lines; quantifies over all surroundings and all rules.", "anchors": ["README.md:Layering", "src/ll_line/ll_selection.rs:find_by", "src/ll_line/x.rs:attr", "src/ll_line/x.rs:attr_eq", "src/ll_line/x/seq.rs:Seq2", "src/ll_line/x/all.rs:All2", "src/ll_line/x/any_of.rs:AnyOf2Matcher", "src/ll_line.rs:run", "src/ll_line.rs:query"]}
{"id": "C146", "title": "Rules with exceptions and choices, in layers, have one result", "statement": "A rule may make exceptions (find this unless that is found at the same place, a matcher of the user) and choices (any_of). If exceptions and hidden alternatives are only about what is assigned in earlier layers, and nothing is about what is assigned in later layers (inside a layer rules may use each other, in circles too), then running the layers one after the other never panics and gives a stable set of attributes: just what follows by all the rules when the exceptions are judged by the finished line. There is no other stable set, so query lists the same attributes for every way to put the rules in layers and every order inside of them, and no further run of any of the rules finds more. A layer needs one pass if its rules do not use each other, as many as tokens if they do so only in sequences, and that times the number of values otherwise. (Without layers it is false: of two rules that make exceptions of each other the first wins.)", "quantifier": "every set of rules of any size and depth, way to put them in layers, order and number of passes, line made by API calls", "why_tests_cant": "Quantifies over all rules, layers and lines; says what is absent, for all orders.", "anchors": ["README.md:Layering", "src/ll_line/ll_selection.rs:find_by", "src/ll_line/x/any_of.rs:AnyOf2Matcher", "src/ll_line/x.rs:XMatch", "src/ll_line/x.rs:attr", "src/ll_line.rs:run", "src/ll_line.rs:query"]}
{"id": "C147", "title": "Layered rules that look before they assign, run until nothing is new", "statement": "A rule with exceptions and choices may look whether a value is there already before it assigns it. One run then adds exactly its conclusions that are not there yet, each once, and leaves the line as it is if there are none; in any order and number such rules find the same attributes as rules that do not look. A loop over layers of them that goes on to the next layer when a pass leaves the number of values query lists as it was ends with the stable set of all the rules: query lists just that, no value twice if it listed none twice before, the same for every such loop over the same rules, and no further run of any rule changes the line. The loop does end, after as many passes over a layer as it needs without looking. (It has to wait for each layer: what a layer assigns too early stays, also if everything is run again.)", "quantifier": "every set of rules with exceptions that can be put in layers, every order and number of runs and passes, every line made by API calls, attributes whose == is equality", "why_tests_cant": "Quantifies over all rules, layers, loops and lines.", "anchors": ["README.md:Layering", "src/ll_line/ll_selection.rs:find_by", "src/ll_line/ll_selection.rs:finish_with_attr", "src/ll_line/x/any_of.rs:AnyOf2Matcher", "src/ll_line/x.rs:XMatch", "src/ll_line/x.rs:attr_eq", "src/ll_line.rs:run", "src/ll_line.rs:query"]}
{"id": "C148", "title": "Backwards is forwards on the line written from right to left", "statement": "Take a line and the same line written from right to left (for inputs of one token each: the inputs in the opposite order). Every expression without token_has_any finds backwards on one what it finds forwards on the other, the same values in the same order with the positions counted from the other end, and panics on neither; so match_forwards and match_backwards swap, find_by_forwards_and_backwards and (with the expression mirrored) find_by find the same, and rules (C125) with their right-hand sides written from right to left conclude the same; such a line can be made from inputs in one order exactly if it can in any other; trim_start and trim_end swap except exactly where trim_end keeps a token it should trim (C50). With token_has_any it is false.", "quantifier": "every reachable line, expression, direction, selection and set of rules", "why_tests_cant": "The input space is infinite; tests sample a handful of inputs.", "anchors": ["src/ll_line/x.rs:XDirection", "src/ll_line/x/seq.rs", "src/ll_line/ll_selection.rs:match_backwards", "src/ll_line/ll_selection.rs:trim_selection"]}
{"id": "C149", "title": "Resolvers in order of priority: the first that finds something wins", "statement": "A reading looks for a pattern (attr, attr_eq, token_text, seq, all, any_of, exceptions) and assigns values of a type there, but only at tokens where no attribute of this type begins yet. Readings that do not themselves look for that type, run once each in order, never panic; in the end each token where nothing began before has what the first reading that finds something there assigns, and nothing else is new. Running any of them again, in any order and number, leaves the line as it is. It is the same as one reading with any_of: searches forwards find the same in the same order, and queries list the same entries, if all readings but the last assign a value wherever they find something (else a silent reading hides the others in any_of only). Two readings can change places exactly if they assign the same wherever both find something at a free token. There is no set that is stable in the sense of C146 unless nothing is new. False: that what is assigned never overlaps (only first tokens are looked at), and, for readings that look for the type, that another run finds nothing.", "quantifier": "every list of readings of any length, every line made by API calls", "why_tests_cant": "The input space is infinite; tests sample a handful of inputs.", "anchors": ["README.md:Layering", "src/ll_line/ll_selection.rs:find_by", "src/ll_line/ll_selection.rs:finish_with_attr", "src/ll_line/x/any_of.rs:AnyOf2Matcher", "src/ll_line/x.rs:XMatch", "src/ll_line.rs:run", "src/ll_line.rs:query"]}
{"id": "C150", "title": "Scanning for matches that do not overlap", "statement": "The loop \"find_first_by, keep the match, go on with what split_with leaves behind it\" ends within as many rounds as the selection has tokens, for every matcher whose results go in the direction of matching, and panics exactly if the matcher panics at a token of the selection. What it keeps is determined by four conditions: each match kept begins in the selection and is the first result at its token, they are in order, no two overlap, and every token of the selection where a match begins lies in a match kept. They are some of the results of find_by in their order, and all of them exactly if no two of those overlap; the parts that split_with leaves before, between and behind them are exactly the longest parts of the selection without tokens of the matches kept (unlike split_by, C48), and are those of split_by if no two results overlap. A selection can be scanned in two parts if no match kept in the left part reaches into the right part. A resolver that scans never panics and assigns ranges of which no two overlap; a query lists just these from left to right. False: that it keeps as many as possible, that it can be cut anywhere, that the pieces are always those of split_by.", "quantifier": "every selection in a line and every matcher that goes in the direction of matching; for resolvers every line made by resolvers that use the API and every expression without token_has_any", "why_tests_cant": "The input space is infinite; tests sample a handful of inputs.", "anchors": ["src/ll_line/ll_selection.rs:find_first_by", "src/ll_line/ll_selection.rs:split_with", "src/ll_line/ll_selection.rs:split_by", "src/ll_line/ll_selection.rs:find_by"]}
{"id": "C151", "title": "What resolvers can select, and which tokens they can tell apart", "statement": "Resolvers that use the API (without after), with any expression of matchers, can select a range of tokens exactly if it begins and ends at an edge: an end of the line, or a place where an attribute on the line begins or ends; one more place, behind token 0, if an attribute begins at token 0 (the fault of trim_end, C50). No number of such resolvers makes new edges, but possibly at that place. On a fresh line there is an edge between two neighbours exactly if one of them is a piece of text or a custom token with attributes. So two neighbouring custom tokens without attributes (but the first two tokens) are never told apart: every attribute ever assigned, and every selection, has both or neither. All others can be told apart at once, and on a line of text every range can be selected. The first two tokens can be told apart after any attribute was put on the whole line. False: that selections begin and end only at edges.", "quantifier": "every line made by resolvers that use the API, every further sequence of such resolvers, every token, every sequence of calls with every expression of matchers", "why_tests_cant": "The input space is infinite; tests sample a handful of inputs.", "anchors": ["src/ll_line/ll_selection.rs:find_by", "src/ll_line/ll_selection.rs:split_with", "src/ll_line/ll_selection.rs:split_by", "src/ll_line/ll_selection.rs:trim_selection", "src/ll_line/ll_selection.rs:match_forwards", "src/create_tokens.rs:create_line_from_input_tokens", "src/ll_line.rs:run"]}
{"id": "C152", "title": "Entries of a map with one value per type", "statement": "The entry API of type_bucket.rs (or_insert, or_insert_with, get, get_mut, insert, remove), on the map its commented-out constructor was written for, behaves as one place per type: every operation shows the value of its type and changes no other, whatever is written through the references it hands out, and the function given to or_insert_with is called only if there is no value; its unwraps never fail. An entry made with a type other than the stored value's panics whatever is done with it, but insert has then already replaced the value and remove thrown it away.", "quantifier": "every sequence of operations on entries of any types, starting with an empty map", "why_tests_cant": "Sequences of operations are unbounded, and nothing in the crate calls this code.", "anchors": ["src/type_bucket.rs:Entry", "src/type_bucket.rs:OccupiedEntry", "src/type_bucket.rs:VacantEntry"]}
{"id": "C153", "title": "Edits are local, and lines of a text are read on their own", "statement": "If there is a word boundary between two parts of a text (as string, created by create_line_from_string, the size fitting into usize), the text can be tokenized exactly if both non-empty parts can, and its tokens are those of the first part followed by those of the second with indexes and byte positions moved. So replacing a part between two word boundaries changes no token outside it except by that move; with the boundaries of UAX #29 this holds for replacing something between blanks. What table, part-of-speech and clause keyword resolvers find is the same in the parts and in the text. A text of several lines without carriage returns before the newlines has the tokens of its lines with a space token for every newline; amounts are those of the lines if a newline is no delimiter or decimal point. Neither is true without conditions: an edit inside a word changes the token before it, and clauses can go over the end of a line.", "quantifier": "all texts and parts with a word boundary, all replacements, all lists of lines, all tables, keyword lists and amount configurations", "why_tests_cant": "tests compare a few fixed texts; that no edit anywhere has an effect elsewhere is a statement about all pairs of texts", "anchors": ["src/create_tokens.rs:create_line_from_string", "src/create_tokens.rs:create_line_from_input_tokens", "src/resolvers/text_match.rs:go", "layered-part-of-speech/src/lib.rs:go", "layered-clauses/src/clause_keyword.rs:go", "layered-amount/src/amounts.rs:go", "layered-clauses/src/clauses.rs:go"]}
{"id": "C154", "title": "Attributes given with the input are attributes assigned right after", "statement": "The line created from inputs with attributes is exactly (field by field) the line created from the same inputs without attributes, after resolvers assigned those attributes to the tokens of their inputs: one resolver for every attribute in the order of the inputs, or one resolver for every type in any order of the types. The other way round, a resolver that assigns values to whole inputs in their order can be replaced by giving the values with the inputs, if no input was given with values of that type; otherwise the queries can list the ranges in another order.", "quantifier": "all lists of inputs with attributes of any types, all size functions, all values", "why_tests_cant": "tests create a line with one or two attributes; that no later query, matcher or resolver can tell the two ways apart needs equality of the whole line for all inputs", "anchors": ["src/create_tokens.rs:create_line_from_input_tokens", "src/ll_line.rs:run", "src/type_bucket.rs:insert_any_attribute"]}
{"id": "C155", "title": "The rendering of a line put together from two is the two renderings side by side", "statement": "If a line has the tokens of two lines one after the other, and the query of every rendered type lists the attributes of the first and then those of the second moved behind it, then its rendering is that of the two lines side by side: the two texts two spaces apart; then, type by type, the lines of the first rendering as they were and the lines of the second with only more spaces in front, as many as the first text and the two spaces are wide. This holds for lines created from two lists of inputs (for characters and text tags only if the inputs bring none of their own: else the order of the lines differs) and after runs of the table, keyword and part-of-speech resolvers, and of the amount resolver if no amount can cross the cut.", "quantifier": "all inputs, tables, keywords and amount configurations, all lists of rendered types, all display widths that add up across two spaces", "why_tests_cant": "snapshot tests show a few fixed renderings; that a rendering is composed of those of its parts is about all pairs of lines", "anchors": ["src/ll_line/display.rs:fmt", "src/ll_line/display.rs:include", "src/create_tokens.rs:create_line_from_input_tokens", "src/resolvers/text_match.rs:go", "layered-part-of-speech/src/lib.rs:go", "layered-clauses/src/clause_keyword.rs:go", "layered-amount/src/amounts.rs:go"]}
{"id": "C156", "title": "A pipeline on a whole is the pipeline on its parts", "statement": "For lines created from two lists of inputs, or from a text with a word boundary between its two parts, a pipeline of table, keyword and part-of-speech resolvers and amount resolvers for which no amount can cross the cut, all assigning different new types, runs on the whole exactly if it runs on both parts. The finished line then has the tokens of the finished parts; every query lists the attributes of the first part and then those of the second, moved behind the first (for characters and text tags only if the inputs bring none of their own); and the rendering is the two renderings side by side. With two resolvers of the same type the order of the attributes differs.", "quantifier": "all inputs, all texts with a word boundary, all pipelines of any length over these resolvers, all types, all lists of rendered types", "why_tests_cant": "tests run one pipeline on one text; that documents can be cut and analysed in parts is about all texts, cuts and pipelines", "anchors": ["src/ll_line.rs:run", "src/ll_line.rs:query", "src/ll_line/display.rs:fmt", "src/create_tokens.rs:create_line_from_input_tokens", "src/create_tokens.rs:create_line_from_string", "src/resolvers/text_match.rs:go", "layered-part-of-speech/src/lib.rs:go", "layered-clauses/src/clause_keyword.rs:go", "layered-amount/src/amounts.rs:go"]}
{"id": "C157", "title": "A document is analysed line by line", "statement": "A text is cut into any number of non-empty parts with a word boundary between each two of them, the character before each boundary being one that no amount goes over. A pipeline of table, keyword, part-of-speech and amount resolvers that assign different new types runs on the text exactly if it runs on every part, and then the tokens and the results of every query are those of the parts one after the other, each moved behind the parts before it. With the word boundaries of UAX #29 this is so for the lines of a document, each with the newline that ends it, if no amount resolver has the newline as its delimiter or decimal sign. (Not for the clause resolver: its clauses go over the ends of lines, C153.)", "quantifier": "all texts of any number of parts and lines, all pipelines of any length over these resolvers, all types", "why_tests_cant": "tests analyse a text of one line; that lines can be analysed one by one and put together is about all documents", "anchors": ["src/create_tokens.rs:create_line_from_string", "src/ll_line.rs:run", "src/ll_line.rs:query", "src/resolvers/text_match.rs:go", "layered-part-of-speech/src/lib.rs:go", "layered-clauses/src/clause_keyword.rs:go", "layered-amount/src/amounts.rs:go"]}
{"id": "C158", "title": "Rules find nothing across a token they all stop at", "statement": "Rules (C125) may all stop at a token: what is there at the start makes each of them assign nothing over it (no part of a sequence it looks for is there, or it assigns no value for what it finds). Then no runs of the rules, in any order and number, assign anything over that token, and nothing over it follows from the rules in any number of steps; although what the rules look for changes with every run, it is enough to look at the start. So between two such tokens the rules find exactly what they find on that part alone: no range reaches over its ends, and query lists inside what it lists for the part as a line of its own. The same is true of rules with exceptions and choices (C146), for which it is not true of any stretch (C145), provided that no exception or hiding alternative is over the second of the tokens (otherwise false). With the word boundaries of UAX #29, rules that stop at a text of just a newline find on every line of a document what they find on that line alone. (False of rules that take any white space between words: they find things across ends of lines.)", "quantifier": "all sets of rules, orders and numbers of runs, lines made by API calls, tokens; all documents of any number of lines", "why_tests_cant": "that nothing is ever found across is about all continuations of a line and all runs", "anchors": ["README.md:Layering", "src/ll_line/ll_selection.rs:find_by", "src/ll_line/x.rs:attr", "src/ll_line/x.rs:attr_eq", "src/ll_line/x.rs:token_text", "src/ll_line/x/seq.rs:Seq2", "src/ll_line/x/all.rs:All2", "src/ll_line.rs:run", "src/ll_line.rs:query", "src/create_tokens.rs:create_line_from_string"]}
{"id": "C159", "title": "The rendering of a text is the renderings of its parts side by side", "statement": "A text is cut into any number of parts as in C157, and the terminal widths of two texts and of the two spaces between them add up (as in C155). After a pipeline of table, keyword, part-of-speech and amount resolvers that assign different new types, the rendering of the whole line, for any list of types to include, is: one header that is the headers of the parts one after another, and for every included type in order the attribute lines of the first part, of the second part, and so on, each moved right by the widths of the headers before it. With the word boundaries of UAX #29 this is so for the lines of a document, each with its newline.", "quantifier": "all texts of any number of parts and lines, all pipelines of any length over these resolvers, all lists of included types", "why_tests_cant": "tests render single lines; how the picture of a long text is made of those of its parts is about all texts", "anchors": ["src/ll_line/display.rs:fmt", "src/ll_line/display.rs:include", "src/create_tokens.rs:create_line_from_string", "src/ll_line.rs:run", "src/ll_line.rs:query"]}
{"id": "C160", "title": "Clauses of a text of many sentences", "statement": "A line is made of any number of parts, each but the last ending with punctuation that is not a keyword. The clauses of the line are those of the parts, each moved behind the parts before it, with the same text. Conditions and trailing effects keep their kind; a leading effect becomes a trailing effect exactly if one of the parts before has a condition; an independent clause keeps its kind exactly if all the other parts have nothing but separators, and otherwise becomes a trailing effect if a then word is before it in its part or one of the parts before has a condition, else a leading effect. So of all the other sentences only two facts matter, and their order does not. The same is true of a text cut into sentences at word boundaries.", "quantifier": "all numbers of sentences, all texts and inputs, all sets of keywords, all clauses", "why_tests_cant": "tests have one or two sentences; how many sentences influence each other is about all texts", "anchors": ["layered-clauses/src/clauses.rs:go", "layered-clauses/src/clause_keyword.rs:go", "src/create_tokens.rs:create_line_from_input_tokens", "src/create_tokens.rs:create_line_from_string", "src/ll_line.rs:query"]}
{"id": "C161", "title": "Editing lines or sentences changes nothing else", "statement": "In a text cut into parts as in C157 some neighbouring parts are replaced by others, or parts are inserted or deleted. If a pipeline of table, keyword, part-of-speech and amount resolvers ran on the text, it runs on the edited text exactly if it runs on the new parts; every query returns the same before the edited parts, and behind them the same moved by the difference of the numbers of tokens. With the word boundaries of UAX #29 this is so for edits of whole lines of a document. Clauses of a text of sentences (C160): before the edited sentences they stay, with their kinds, if the new sentences have anything besides separators just if the old ones had; behind they only move, with their kinds, if moreover the new sentences have a condition just if the old ones had.", "quantifier": "all texts and edits of any number of parts, all pipelines of any length over these resolvers, all types, all sets of keywords", "why_tests_cant": "an editor relies on this to re-analyse only what was edited; it is about all texts and edits", "anchors": ["src/create_tokens.rs:create_line_from_string", "src/ll_line.rs:run", "src/ll_line.rs:query", "src/resolvers/text_match.rs:go", "layered-part-of-speech/src/lib.rs:go", "layered-clauses/src/clause_keyword.rs:go", "layered-clauses/src/clauses.rs:go", "layered-amount/src/amounts.rs:go"]}
{"id": "C162", "title": "Stages that assign the same type find the same in parts as in the whole", "statement": "A pipeline of table, keyword, part-of-speech and amount resolvers, of which several may assign the same type (for example two tables), also types that the inputs bring with them, runs on a line put together from two parts that nothing goes across exactly if it runs on both parts. Then every query on the whole lists exactly the entries of the parts, those of the second part moved behind the first, each once and each with its values in the same order; only the order of the entries may differ (C156 shows that it can). So it is for texts cut into many parts, and with the word boundaries of UAX #29 for the lines of a document.", "quantifier": "all inputs or texts, any number of parts, all pipelines of any length over these resolvers that do not assign the types char and TextTag, all types", "why_tests_cant": "several dictionaries of one type are usual; that nothing is lost, doubled or reordered within a token is about all texts and pipelines", "anchors": ["src/create_tokens.rs:create_line_from_string", "src/ll_line.rs:run", "src/ll_line.rs:query", "src/resolvers/text_match.rs:go", "layered-part-of-speech/src/lib.rs:go", "layered-clauses/src/clause_keyword.rs:go", "layered-amount/src/amounts.rs:go"]}
{"id": "C163", "title": "Pipelines of library resolvers and rules find the same in parts as in the whole", "statement": "A pipeline in which table, keyword, part-of-speech and amount resolvers, rules (C125) and rules with exceptions and choices (C146), which look first or not, follow each other in any order, so that rules see what the resolvers found and what earlier rules concluded, runs on a line put together from two parts exactly if it runs on both parts, provided the resolvers do not go across the cut and every rule, when its turn comes, stops at the last token of the first part or at the first token of the second and has no exception there (C158). Then every query on the whole lists exactly the entries of the parts, those of the second part moved behind the first. So it is for texts cut into many parts. For the lines of a document, none of which ends in a carriage return before its newline, it is enough that no resolver goes over a newline and that the rules stop in the pipeline on a text that is just a newline and have no exception over it. Without stops it is false: a rule for two words finds `pay now`, but nothing in `pay` and ` now`; and so with an exception over the cut: a rule for words that are not before a newline finds nothing in `pay⏎`, but `pay` in `pay`.", "quantifier": "all inputs or texts, any number of parts, all pipelines of any length over these resolvers and rules that do not assign the types char and TextTag, all types", "why_tests_cant": "real pipelines mix dictionaries and hand-written rules; that they can be run line by line is about all texts, pipelines and rules", "anchors": ["src/create_tokens.rs:create_line_from_string", "src/ll_line.rs:run", "src/ll_line.rs:query", "src/ll_line/ll_selection.rs:find_by", "src/ll_line/ll_selection.rs:finish_with_attr", "src/resolvers/text_match.rs:go", "layered-part-of-speech/src/lib.rs:go", "layered-clauses/src/clause_keyword.rs:go", "layered-amount/src/amounts.rs:go"]}
{"id": "C164", "title": "Editing lines changes nothing else for pipelines of library resolvers and rules", "statement": "Let a pipeline of library resolvers and rules in any order (C163) have run on a text cut into parts as in C163, and let some consecutive parts be replaced by any number of other parts, none of them or by none, so that the new text is again cut this way. Then the pipeline runs on the new text exactly if it runs on each of the new parts, and the answer to every query consists, in both texts, of the same entries before the edited parts, the entries of the edited parts, and the same entries behind, moved by the difference in the number of tokens. For whole lines of a document it is enough that no resolver goes over a newline, that the rules stop in the pipeline on a text that is just a newline and have no exception over it, and that no line ends with a carriage return.", "quantifier": "all texts and edits, all pipelines of any length over these resolvers and rules that do not assign the types char and TextTag, all types", "why_tests_cant": "an editor that keeps the results for lines that did not change relies on this for every document, edit and pipeline", "anchors": ["src/create_tokens.rs:create_line_from_string", "src/ll_line.rs:run", "src/ll_line.rs:query", "src/ll_line/ll_selection.rs:find_by", "src/ll_line/ll_selection.rs:finish_with_attr", "src/resolvers/text_match.rs:go", "layered-part-of-speech/src/lib.rs:go", "layered-clauses/src/clause_keyword.rs:go", "layered-amount/src/amounts.rs:go"]}
{"id": "C165", "title": "The rendering after library resolvers and rules has the lines of the renderings of the parts", "statement": "Let a pipeline of library resolvers and rules in any order (C163) have run on a text cut into parts as in C163 and on each part, and let terminal widths add up (C155). Then the rendering of the text with any types has the texts of the parts side by side, two spaces apart, and below, type by type, exactly the attribute lines of the renderings of the parts, each moved right to stand under the text of its part. Lines under the same tokens stay together, the newest first as in the part; only the order of these groups within a type may differ. So it is for the lines of a document under the conditions of C163.", "quantifier": "all texts, any number of parts, all pipelines of any length over these resolvers and rules that do not assign the types char and TextTag, all lists of types to include", "why_tests_cant": "snapshot tests that render whole documents and tools that render line by line must agree for every text and pipeline", "anchors": ["src/ll_line/display.rs:include", "src/create_tokens.rs:create_line_from_string", "src/ll_line.rs:run", "src/ll_line/ll_selection.rs:find_by", "src/ll_line/ll_selection.rs:finish_with_attr", "src/resolvers/text_match.rs:go", "layered-part-of-speech/src/lib.rs:go", "layered-clauses/src/clause_keyword.rs:go", "layered-amount/src/amounts.rs:go"]}
{"id": "C166", "title": "Steps of a pipeline can be checked one by one on a newline", "statement": "If no table of a pipeline (C163) lists the newline, it is no keyword and no word, and each rule, taken by itself on a fresh text that is just a newline, stops at it and has no exception over it, then the whole pipeline does nothing with such a text and every rule stops at it when its turn comes. So, if also no amount can have a newline in it, documents are analysed line by line as in C163, without running the pipeline on anything. To check the rules alone is not enough: with a table that lists the newline, a rule for two listed texts finds two pairs in `a⏎a`, but only one in `a⏎` and `a`.", "quantifier": "all documents, all pipelines of any length over library resolvers (but the clause resolver) and rules, with exceptions and choices or not, that do not assign the types char and TextTag", "why_tests_cant": "whether a pipeline can be run line by line is decided here by looking at each step once, for all documents", "anchors": ["src/create_tokens.rs:create_line_from_string", "src/ll_line.rs:run", "src/ll_line.rs:query", "src/ll_line/ll_selection.rs:find_by", "src/ll_line/ll_selection.rs:finish_with_attr", "src/resolvers/text_match.rs:go", "layered-part-of-speech/src/lib.rs:go", "layered-clauses/src/clause_keyword.rs:go", "layered-amount/src/amounts.rs:go"]}
{"id": "C167", "title": "It does not matter how a text is cut into parts", "statement": "Let a text be cut into parts in two ways, each as in C163; for instance a document once into lines and once into chunks of some lines each. Then a pipeline of library resolvers and rules runs on all parts of the first cut exactly if it runs on all parts of the second, and the parts of both together have the same tokens in the same order and, counted over the whole text, the same entries for every type.", "quantifier": "all texts and pairs of cuts, all pipelines of any length over these resolvers and rules that do not assign the types char and TextTag, all types", "why_tests_cant": "work is handed out in chunks of any size; that the size does not change the result is about all texts and cuts", "anchors": ["src/create_tokens.rs:create_line_from_string", "src/ll_line.rs:run", "src/ll_line.rs:query", "src/ll_line/ll_selection.rs:find_by", "src/ll_line/ll_selection.rs:finish_with_attr", "src/resolvers/text_match.rs:go", "layered-part-of-speech/src/lib.rs:go", "layered-clauses/src/clause_keyword.rs:go", "layered-amount/src/amounts.rs:go"]}
{"id": "C168", "title": "What has nothing to do with a type can be left out of a pipeline", "statement": "Given a pipeline and some types such that the resolvers that assign these types look at these types only. Leave out all other resolvers, whatever they do: what is left still runs through, and queries for these types and matchers of these types give the same. If matchers use token_has_any, all tokens need an attribute, as those of texts have (otherwise leaving out a resolver can make a panic; still the queries are the same if both run). So the clauses and the amounts found in a pipeline with any other resolvers before, between and after are those of C94, C96 and C160.", "quantifier": "all pipelines of any length over any resolvers, all sets of types, all reachable lines", "why_tests_cant": "to know what a pipeline finds one reads only the resolvers that matter; that the others cannot matter is about all resolvers", "anchors": ["src/ll_line.rs:run", "src/ll_line.rs:query", "src/ll_line/ll_selection.rs:find_by", "src/ll_line/ll_selection.rs:finish_with_attr", "src/ll_line/x.rs:attr", "src/ll_line/x.rs:token_has_any", "layered-clauses/src/clauses.rs:go", "layered-clauses/src/clause_keyword.rs:go", "layered-amount/src/amounts.rs:go"]}
{"id": "C169", "title": "Part by part, whatever else is in the pipeline", "statement": "Given a pipeline in which the resolvers that assign some types are library resolvers or rules (also rules that look before they assign, or have exceptions) that look at these types only. All other resolvers may do anything, also look over the ends of the parts, and may differ between the whole and each part. A text or a document cut where the former allow it (C163): tokens are those of the parts, and queries for these types give for the whole what they give for the parts, moved. If the pipeline runs through on the whole, then the former run through on each part. For the types of the other resolvers this is false.", "quantifier": "all pipelines of any length over any resolvers, all sets of types, all texts and documents with any number of parts", "why_tests_cant": "users add resolvers to a pipeline that already works line by line; that it still does is about all resolvers and all texts", "anchors": ["src/ll_line.rs:run", "src/ll_line.rs:query", "src/ll_line/ll_selection.rs:find_by", "src/ll_line/ll_selection.rs:finish_with_attr", "src/ll_line/x.rs:attr", "src/ll_line/x.rs:attr_eq"]}
{"id": "C170", "title": "Edits are local, whatever else is in the pipeline", "statement": "Given pipelines as in C169, with any other resolvers, which may differ before and after the edit. If parts of a text, or lines of a document, are replaced, put in or deleted, then for the types of the steps what queries return before the edited parts stays, what they return behind only moves by the difference in tokens, and what they return in the edited parts is what the steps find in these parts alone.", "quantifier": "all pipelines of any length over any resolvers, all sets of types, all texts and documents with any number of parts, all edits of whole parts", "why_tests_cant": "an editor that keeps results of unchanged lines relies on it for all texts, edits and all resolvers that others add", "anchors": ["src/ll_line.rs:run", "src/ll_line.rs:query", "src/ll_line/ll_selection.rs:find_by", "src/ll_line/ll_selection.rs:finish_with_attr"]}
