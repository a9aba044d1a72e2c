# Formal model of layered-nlp in Lean 4

## Layout

| path | contents |
|---|---|
| `lean/Verif/Model/*.lean` | executable model of the Rust code, function by function; every definition cites file and lines |
| `lean/Verif/Spec/*.lean` | small specification: assignment histories, tokenization by maximal runs, amount grammar, … No model helper is used |
| `lean/Verif/Lemmas/*.lean` | helper lemmas |
| `lean/Verif/Props/*.lean` | the property theorems, one file per area, named `Cxx_…`; refutations are named `Cxx_…_false` or `Cxx_…_refuted`, partial results end in `_partial` |
| `lean/Verif/Demo/World.lean` | a concrete `World` (ASCII/Latin UAX #29 splitter) for examples and refutations |
| `lean/Verif/Demo/{Laws,Examples}.lean` | the demo world satisfies the assumed laws; concrete lines used by the non-vacuity examples |
| `lean/Verif/Demo/Replay.lean` | TESTS: /repo's own snapshot tests replayed on the model with `#guard` |
| `lean/Verif/Axioms.lean` | `#print axioms` of every property theorem |
| `properties.jsonl`, `MANIFEST.json`, `seeded/LOG.jsonl` | property list, claim status, mutation log |

In `seeded/LOG.jsonl`, `proofs_failed_directly` are the declarations the compiler rejects after the edit, and
`theorems_failed` the property theorems that are rejected or rest on a rejected one. The entries `A…` were made by a script
that applies small edits (a changed comparison, a dropped `+ 1`, swapped operands, …) to the definitions of the model; edits that did
not compile are left out.

## Trusted base

* Lean 4.33.0's kernel. Axioms: at most `propext`, `Classical.choice`, `Quot.sound`. No own axioms, no `sorry`,
  no `native_decide`, no `bv_decide`.
* The reading of the Rust source (the model is hand-written; the replayed snapshot tests are evidence, not proof).
* The following outside functions are *parameters* (`structure World`), so every theorem holds for every behaviour
  they may have, except for the laws a theorem names as hypotheses:
  `split_word_bounds` (unicode-segmentation), `UnicodeWidthStr::width`, `char::is_alphabetic`,
  `char::is_whitespace`, `str::to_lowercase`, `rust_decimal` parsing, the part-of-speech dictionary, `usize` width,
  overflow checks on/off, and all user-defined attribute types with their `PartialEq`/`Debug`.
* Laws used as hypotheses: `SplitLaws` (words concatenate to the input; no word is empty),
  `AsciiLaws` (ASCII digits are not alphabetic; alphabetic characters are not whitespace; the eight punctuation
  characters are neither alphabetic nor whitespace), `NoDigitBreak` (UAX #29 WB8), `DashBreak` (UAX #29: a boundary before every dash), `LowerIdem`
  (lowercasing twice is lowercasing once), `SplitStable` (cutting a text between two of its words keeps the words; runs of
  ASCII letters and of digits are one word), `LowerStable` (lowercasing keeps single words without a zero-width joiner, and digits), `DecLaws` (`Decimal::from_str` reads up to 28 digits exactly and keeps the scale), and `WidthLaws`/`AdditiveWidth` (display widths do not shrink, or add up, across the two spaces between tokens; this holds of every unicode-width 0.1, whose sequences with a width of their own contain no space). The demo world provably
  satisfies the laws used. C124 derives `SplitLaws`, `NoDigitBreak`, `DashBreak`, `SplitStable`, the boundary law of
  `Recase` and `LowerStable` from the rules of UAX #29 and facts about its table of character classes (`Uax29`,
  `LowerTable` in `Spec/Uax29.lean`, `NumTable` in `Spec/Written.lean`), so what is trusted is that unicode-segmentation implements the annex, and those facts.
* Hypotheses on lines, all defined in `Spec/`: `Reachable` (any creation and any resolvers), `Honest` (resolvers only
  assign selections obtained through the API), `Ordered` (no inverted ranges), `PlainTags`/`PlainChars` (no custom
  attributes of the types `TextTag`/`char`), `OneToken` (tags and clause keywords sit on single tokens). Each theorem
  is followed by an example that satisfies its hypotheses.

## What is modelled

All non-test, non-archived code of the four crates:

* `src/create_tokens.rs`, `src/create_tokens/get_word_tag.rs`, `src/lib.rs` — tokenization, positions (with `usize`
  overflow), input attributes.
* `src/type_bucket.rs`, `src/type_id_to_many.rs` — type-erased storage with explicit downcasts that can fail.
* `src/ll_line.rs` — attribute store (four indexes), `run` with the `Rc` uniqueness check, `find`, `query`.
* `src/ll_line/x.rs`, `src/ll_line/x/*.rs` — both directions, all matchers and combinators. `XMatch` is open: selection
  theorems hold for user-written matchers too; `Builtin` is the closure of the library's own combinators and of user
  matchers that ask matchers at their own position and answer with `ToIdx`s they got (`UserTree`), also such that call
  themselves behind a match (`Calls`, C134; on lines with attributes that run backwards they need not return, and theorems
  about `Builtin` matchers say nothing of them there). Not in `Builtin`: user
  matchers that read the line themselves (`ll_tokens()`, `query`, `find`), call `XDirection::after` or panic on purpose.
  `XDirection` is public too: `Model/Direction.lean` has the matchers as code over any direction, and C136 speaks of
  directions of the user; all other properties speak of the library's two.
* `src/ll_line/ll_selection.rs`, `finish_with.rs` — all selection operations.
* `src/ll_line/display.rs` — the whole rendering.
* `src/tests/currency_amount.rs` — the two resolvers the crate's layering example adds on top of `AmountResolver`.
* `src/resolvers/text_match.rs`, `layered-part-of-speech`, `layered-clauses`, `layered-amount` — all resolvers.

Panics are an explicit error value (`Panic`, one constructor per panic site); evaluation order is kept so the first
panic wins. Loops of `AmountResolver::go` carry fuel and a theorem shows the fuel never runs out.

## What is not modelled

* `src/_archive/**` (not compiled), `Debug` of `TypeBucket` (not public) and `Debug` with width or hexadecimal flags (`{:5?}`, `{:x?}`).
* Memory, allocation failure, `Send`/`Sync`, performance, `HashMap` internals (a map is a lookup function; the one place
  where iteration order is observable takes the order as an argument).
* State inside code of the user is modelled where that code is asked: in the size callback (C126), in `PartialEq`, `Debug`
  and matchers (C129) and in the sink of a rendering (C128). In all other properties they are functions (C126 and C129 say
  why that is enough), except that user resolvers and matchers may panic. `Clone` and `Drop` of attribute values are taken
  to do nothing but copy and disappear; a resolver that keeps state of its own is one `Resolver` per run.
* `TagSet::of(&[Tag::Noun]).tags()` is taken to be `[Noun]`.

## Method per property

Histories: `Reachable l h` says that line `l` is the result of a creation followed by any number of `run`s of arbitrary
resolvers, and `h` is the list of all assignments so far. One representation lemma (`Reachable.rep`) relates the four
indexes to `h`; the store and matcher properties are read off it.

| id | method |
|---|---|
| C01–C08 | exact tokenization theorem: the digit-branch state machine equals the maximal-run specification (invariant over the character fold); properties by induction on the specification |
| C09, C10 | case analysis of every panic site in creation; C10 and the "non-empty text never panics" part of C09 are refuted by witnesses |
| C11, C12 | representation lemma applied to the creation history |
| C13–C20 | refinement of the four-index store to the history list, by induction over runs and assignments |
| C21 | invariant: bucket under key `k` always holds `Vec<k>` |
| C22–C25 | case analysis of `run`; C23 through the selection closure of C51 |
| C26 | histories of the two orders agree per type; a line is determined by its tokens, ranges and values (`rep_ext`) |
| C27–C33 | per-combinator characterisation of the result list |
| C34, C36 | induction over `Builtin` matcher expressions |
| C35 | induction over pairs of mirrored matcher expressions |
| C29, C30 | refuted by witnesses, exact conditions proved as `_partial` |
| C37–C43, C45, C46, C49, C53 | case analysis, exact characterisations |
| C39, C44, C48, C50 | refuted by witnesses, exact conditions proved as `_partial` |
| C47 | induction over the sorted match list |
| C51 | induction over the closure of API operations |
| C52 | list calculation |
| C54–C57 | fold invariants for the header; arithmetic for brackets |
| C58, C60, C63 | list calculation on `find_by` results |
| C59 | permutation invariance under distinct lowercase keys; refuted otherwise |
| C61, C62 | `split_by` characterisation for one-token delimiters; fold invariant for the classification |
| C64–C68 | the resolver computes the inductive grammar `Amounts`/`AmountsFail` of `Spec/Amount.lean` (loop invariants by induction on the fuel; the grammar is deterministic); C66 refuted in general, proved on plain lines |
| C69, C70 | consequences of C67, for any number of groups; refuted where the documentation is wrong |
| C71 | every assigned selection is reached by API operations (`ApiSel`), then C23 |
| C72–C74, C77 | list calculation relating combinators to selection operations |
| C75 | C14, C15 and C33 applied to both directions |
| C76 | counting over the duplicate-free range list; refuted as stated |
| C78 | the creation history of a concatenation is an interleaving of the two histories, one shifted; lookups are local |
| C79 | the token list does not mention attributes or sizes |
| C80 | C02 with an additive size, for the token list that runs leave untouched |
| C81 | C05–C07 combined; refuted as stated |
| C82 | each resolver's result is a function of the tokens and the attributes it looks at |
| C83 | C26 with C82; refuted without independence |
| C84, C85 | induction over the pipeline with C71, C57; C82 for the second run |
| C86 | characterisation of `find_by(token_has_any)`, exact panic condition |
| C87 | C86, C65, C66 and C82 composed over the three runs; the found ranges are pairwise distinct, then the query theorem |
| C88 | extensionality of the store representation (`rep_ext`) |
| C89 | simulation of the containers by lists, induction over operations |
| C90 | induction over matchers without `any_of`; refuted with `any_of` |
| C91 | case split on the first alternative; refuted with a concrete line for backtracking |
| C92 | exact result of `trim` on lines whose tags are the tokenizer's; refuted with a tab and a space |
| C93 | C48: no piece contains the first token of a match |
| C94 | C62 over the three runs, then `clausesOf` characterised by a relation on tokens (`ClauseAt`) |
| C95, C96 | exact histories of C58, C60, C63, C67, then the query theorem |
| C97 | refuted with a tab and a space; exact result on lines whose tags are the tokenizer's |
| C98 | refuted with `a-b`; invariant of the word loop that no `WORD` text has a dash (from `DashBreak`) |
| C99 | refuted with two attributes of different length; proved for alternatives matching single tokens |
| C100 | attributes and texts of a concatenated line (C78), resolver by resolver |
| C101 | the amount grammar does not look past a separator token; both directions of the grammar |
| C102 | injectivity of columns, brackets and attribute lines; refuted for `Debug` texts that continue a bracket |
| C103 | both calls look at fixed ends of the selection |
| C104 | lookups read only records that start (end) at the position; induction over matchers with a relation between directions of the two lines |
| C105 | C94 on the three lines; the parts between separators of the whole line are those of the two lines |
| C106 | induction over the nesting: `chains` of a concatenation of parts; a phrase's chains read off the table's values and the tags |
| C107 | each round strictly changes the number of selected tokens; `after` refuted: `(n, n-1)` follows itself |
| C108 | membership in the results of the combinators; refuted on a line where one token begins two ranges |
| C109 | the tokens of the changed text are the changed tokens (boundaries, classes and sizes agree); the resolvers read texts through lowercase; C94 on both lines |
| C110 | the store after assignments is a fold; lookups at a start or end token read only the records there |
| C111 | C55 and C13 over the same history; C94/C95 for the resolvers' entries |
| C112 | pieces of words are single words (`SplitStable`), by cases of the tag of a run; tables and keywords read token texts only |
| C113 | creation is a fold over the tokens of all inputs; spans without attributes add nothing |
| C114 | prefix sums of positive sizes are strictly increasing |
| C115 | both list the ranges of the history; grouping by start is a permutation |
| C116 | decimal digits are injective and end before the next field |
| C117 | clauses are stripped maximal runs between separators (C44 and its spec); more separators cut runs into sub-runs |
| C118 | the loops read the configuration only through membership of the line's characters; amounts are characterised by `Groups`/`AmountEnd`, and a longer configuration extends each maximal group; negation by a two-input line |
| C119 | a resolver written against the API is a decision tree of calls (`Api`, `Spec/Program.lean`); two lines are simulated call by call (induction on the tree); the library's resolvers are shown to be such trees |
| C120 | the same simulation, between the line before and after a run of a type the matchers do not mention, for answers that are no panics |
| C121 | induction on the tree with the invariant that every selection comes from the whole line by the API without `after`; negations by two concrete programs |
| C122, C123 | induction over the questions of a user's matcher; `flatMapR` laws for the searches |
| C124 | UAX #29 as a specification (`Spec/Uax29.lean`, rules WB3–WB999 as one predicate on the characters before and after a place); a boundary is shown to screen off the other side (rules with three classes come in pairs, Regional_Indicators are counted modulo 2), then induction over the words; negations in a world with a small table |
| C125 | rules and their least closed set of facts as a specification (`Spec/Grammar.lean`; right-hand sides with `attr`, `attr_eq`, `token_text`, `seq`, `all`; `any_of` is left out because it is not monotone: new attributes can hide old finds); one run adds exactly the conclusions (structural induction over right-hand sides), then induction over the runs; the bound on passes by the length of ranges |
| C126 | creation once more with a callback whose answers depend on the calls before (`Model/Callback.lean`, a state-and-panic computation line by line like `Model/CreateTokens.lean`); which texts are asked for by a predicate closed under sequencing and loops; sizes by an invariant of the loops; refinement to the pure model for callbacks that are functions |
| C127 | words of written numbers by the rules of C124 (a sign is joined to the next digit only if it is joined to the one before); cutting into runs is unique; values by induction over decimal notation; numbers in a text by C113 (cut between words) and C101, also for a second part that begins with a separator (`C101_amounts_before`). Assumed of rust_decimal: `DecLaws` (digits up to 28 are read exactly, scale kept); of the Unicode tables: `NumTable` |
| C128 | `Model/Sink.lean` writes piece by piece in a monad that stops at the first refusal or panic; it is shown to be the run of a fixed list of texts (`fmtTo_script`), whose concatenation is the rendering of C54–C57 (`fmt_texts`). `write_char` is taken to be `write_str` of one character |
| C129 | `Model/Stateful.lean` writes the code that asks the user's code again as dialogs (questions, answers, then a result or panic), in Rust's order of evaluation; for code that is a function the dialogs evaluate to the functions of the other properties (`twin_eval` by induction over expressions); runs against an arbitrary oracle by induction over the dialog, safety by induction over expressions |
| C130 | `Spec/Layers.lean` says what a consistent line is without mentioning an order; running keeps it consistent because later runs are invisible to earlier programs (C120's simulation); uniqueness by induction over the layers, comparing both lines with a common larger one; the circular case by two explicit consistent lines |
| C131 | relational parametricity: `Spec/Represent.lean` relates two worlds that differ in the user's types (`World.retype`), values by an arbitrary relation, and expressions and programs that differ in related values only; induction over expressions, user computations, API programs and creation shows that related things stay related; the library's resolvers are related to themselves through the programs of C119–C121 |
| C132 | unique readability of numbers, escapes, names and indented lines (each can be told from what follows), by induction over texts and token lists; the escaping of `str` and the indentation of `{:#?}` are modelled after the standard library, with the set of characters written by number a parameter; `C132_line` and `C132_lines` write both forms out, independently of the model's formatter |
| C133 | reading assignment orders back from matcher results (keys of blocks are their first occurrences); resolvers that see the same by induction over programs; lines that differ are told apart by three concrete programs (`find_by` and `find_by_forwards_and_backwards` with one matcher, compared with a constant) |
| C134 | code that calls itself as a function from matchers to matchers that calls its argument only behind a match; its levels agree where they have tokens left, by induction over the code and over the tokens left; rows of matches as an inductive relation |
| C135 | refinement: `Spec/Reference.lean` is a second implementation over token lists and assignment lists, in `Option`; equality of results (panics as `none`) by induction over matcher expressions, user computations, programs and runs, using the representation invariant of the indexes (`Rep`); completeness by induction over the derivations of `Builtin` and over API programs |
| C136 | `Model/Direction.lean` is the generic code of the matchers over any implementor of `XDirection`; induction over matcher expressions with a relation between the states of two directions whose answers agree (a relational parametricity theorem, with the user's own wrappers assumed parametric, and proved so for two of them); hiding: the relation is equality of positions on two lines; skipping spaces: induction over the spaces |
| C137 | `Spans` counts the matches an expression puts next to each other; induction over the expression bounds how far its results reach; texts of n + 1 whitespace tokens show that no expression repeats (the matcher that does is the one of C134) |
| C138 | `Weighs` counts the attribute matchers of an expression; induction over the expression, with the values on distinct ranges being different assignments; nested sequences of `attr` attain the bound |
| C139 | unfolding for the panic; induction over the results for the fold with `split_with` |
| C140 | the test line is drawn from the expression (series-parallel order laid out on a line); induction over the expression shows that it is mapped into every line where the expression is found, and over the second expression that finds are carried along such maps; backwards through the line read from its end; the line is realised by a creation with marks and honest runs |
| C141 | the language is the least solution of the grammar's equations, what follows from rules the least closed set of facts; each least solution is turned into a closed one of the other kind; the number of passes by induction on the length of ranges, counting for each range the productions that apply |
| C142 | lists up to permutation: induction over the right-hand side for one search, over the rules for a pass; the line at the end is the only solution of its equation because a type's values are settled by earlier layers |
| C143 | a rewriting step read backwards keeps the symbols that stand on the line, in every set of facts closed under the rules; the facts that can be rewritten into what was there are closed; the number of passes by induction on the length of ranges, the new facts on one range being as many as there are values |
| C144 | the loop of the resolver by induction over its candidates; two runs side by side with histories that have the same members; the values `query` lists are counted range by range, so an unchanged count means an empty run, and an empty pass a closed set of facts; repetition-free lists with the same members are permutations; a repetition-free list inside the grid of ordered ranges and stock values is no longer than the grid |
| C145 | what a right-hand side finds inside a stretch is written as a function of the tokens and assignments of the stretch alone, by induction over it (results only move away from the place searched from, so a sequence that ends inside never leaves); the assignments of a run inside a stretch are then such a function too, and by induction over the runs both lines keep the same stretch; for expressions with `token_has_any` and for both directions two lines are compared directly, by induction over the expression, given that neither search panics (counterexamples show that `any_of` and panics break the claim); the loop of rules that look first is computed exactly, and keeping what is new commutes with restricting to a stretch |
| C146 | the matchers' results by induction over the right-hand side, exceptions judged by a second set of facts that only has to agree on the types they are about; passes over a layer as in C125; a layer leaves the types of its exceptions alone, so the layers add up to one stable set; uniqueness by induction over the layers, with the least set of one candidate restricted to the types settled so far |
| C147 | one run as in C144, with the matchers' results of C146; a layer as in C146, with the records that are new kept apart; a pass that leaves the numbers as they were adds no record, so what is there is closed under the rules of the layer and just what follows; layers by induction over the loop; that the loop ends from the same attributes as without looking |
| C148 | counting from the other end is an involution of the indexes; by induction over the expression both searches give the same list with ends counted from the other end (attributes through the order of assignments at an end of a range, sequences because results stay in the line); selections call by call; `find_by` through C35; rules: a closed set for one line is one for the other, restricted to ranges in the line; fresh lines of one-token inputs by listing the values of each token |
| C149 | one run of a guarded reading, token by token: nothing where the type begins, else what the reading assigns there; a run for the type does not change what later readings find, as they do not look for it; priority by induction over the list; `any_of` for two readings token by token, for more by replacing the last two again and again; stable sets: one has nothing that begins at a free token (its exception would hold) and must have it (as the exception does not hold) |
| C150 | induction over the rounds: what `split_with` leaves behind the first match is smaller, and its choice and pieces, with the first match and the piece before it, meet the conditions for the whole; one choice only, by induction over the start: a match of one choice lies in a match of the other, and cannot begin inside it; pieces are determined by their tokens; scanning in two parts by joining the choices |
| C151 | every match begins and ends where attributes do, by induction over the expression (forwards and backwards swapped); selections by induction over the calls; the converse cuts the line in two at each edge with `find_by` and `split_with`, and behind token 0 with `trim_end` and a matcher that picks one result; later edges by induction over the runs; edges of a fresh line by induction over the inputs |
| C152 | the map and a function with one optional value per type go together, case by case over the operations, then induction over the sequence |
| C153 | the words of a text at a boundary are those of the parts (C124 for UAX #29), hence its pieces and their layout; three parts by comparing the two cuts; resolvers of single tokens through C95, amounts through C127; lines by induction over the list |
| C154 | both lines have histories that agree type by type, by induction over the inputs and the resolvers; C88 makes them equal |
| C155 | columns of a joined header are those of the parts plus the width of the first (widths add up across two spaces); histories side by side give queries side by side; C111 turns queries into renderings; C100/C101 give the histories of the resolvers |
| C156 | an invariant "the line consists of the two parts" (token by token, and type by type in the order of the records) holds after creation and is kept by every run whose assignments are those of the parts joined; C100/C101 for any lines with the invariant; induction over the stages; a text with a word boundary makes the same line as its two parts as inputs |
| C157 | induction over the parts with C156 for the first part and the rest; that no resolver of the repository can tell which `Rc` holds the line (the runs on the parts may use other addresses than the run on the whole); the boundary after a newline is rule WB3a of UAX #29 |
| C158 | "whatever a right-hand side finds over the token has a property" is defined along the expression and kept when facts that are not over the token are added; induction over the runs; the least closed set for derivability; with C145 the part alone; documents become lists of inputs (C113), the newline as an input of its own is the wall |
| C159 | induction over the parts on queried columns (C157 gives the queries, C111 the renderings); moving right twice is moving right by the sum; widths of headers add up |
| C160 | induction over the parts with the two-part law of C105, on lines whose tokens are those of the parts; the change of a clause's kind composes: being next to two parts is being next to one of them |
| C161 | C157 before and after the edit, the parts not edited having the same analysed lines; for clauses C160 before and after, a clause's part being before, among or behind the edited ones by the number of tokens |
| C162 | as C156, with the invariant that on every range the values are those of the first part followed by the moved ones of the second; the ranges with values are then the same, listed in another order |
| C163 | invariant: the history of the whole, restricted to either part, is the history of that part, and nothing in it crosses the cut; a library resolver keeps it as in C162, a rule because what it assigns in a stretch is a function of the stretch (C145), also with exceptions if none of them reaches over the cut, and it assigns nothing over a token it stops at (C158) |
| C164 | C163 for the old and for the new list of parts, whose parts before and behind the edit are the same texts and so give the same lines |
| C165 | C163 gives the entries up to order; C111 draws each entry by itself, and an entry of a later part is drawn as in the part, further to the right |
| C166 | by induction over the pipeline the line stays as it was created: a resolver of the library assigns nothing to this one token, and what a rule assigned would lie over the token it stops at |
| C167 | C163 for both cuts of the same text |
| C168 | by induction over the pipeline both lines have the same tokens and the same assignments of the given types, on which the answers of the resolvers that stay depend (C120) |
| C169 | rules are written as programs of the API, those that look first with a loop over the handles of what was found; so C168 reduces the pipelines to their steps, for which C163 holds |
| C170 | both runs are reduced to their steps as in C169; then C164 |
