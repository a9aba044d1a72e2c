/-
Model of the pieces of Rust's runtime that /repo relies on: strings, panics, `Rc`,
`HashMap`, eager iteration with panics, and the outside world (Unicode tables, user
attribute types, third-party crates), which is a parameter.
-/
namespace LNlp

/-- Rust `str`/`String`: a sequence of Unicode scalar values (Lean's `Char` is exactly a
Unicode scalar value).  Simplification: the UTF-8 encoding itself is not stored; byte lengths
are computed by `utf8Len`. -/
abbrev Str := List Char

/-- `str::len` (UTF-8 byte length), used by /repo/src/lib.rs:25 (`|s| s.len()`) and
/repo/src/create_tokens/get_word_tag.rs:9 (`word.len() == 1`). -/
def utf8Len (s : Str) : Nat := (s.map Char.utf8Size).sum

/-- One constructor per panic site of /repo that the model can reach.  `stillRunning` is not a
Rust panic: it is the answer of a fuelled loop that has not finished within its fuel. -/
inductive Panic
  /-- `chars().next().unwrap()` on an empty word, src/create_tokens.rs:105 -/
  | emptyWord
  /-- `assert!(unicode_word.is_ascii())`, src/create_tokens.rs:107-111 -/
  | nonAsciiDigitWord
  /-- `assert!(!ltokens.is_empty())`, src/create_tokens.rs:62-65 -/
  | emptyText
  /-- `current_size + size` with overflow checks, src/create_tokens.rs:69 -/
  | overflow
  /-- `.expect("has initial starts_at value in bounds")`, src/ll_line.rs:191,276 -/
  | startsAtOob
  /-- `.expect("has initial ends_at value in bounds")`, src/ll_line.rs:196,280 -/
  | endsAtOob
  /-- failed downcast in a bucket, src/type_bucket.rs:169,203,219,230 -/
  | bucketType
  /-- `values.get(range).unwrap()` / `values[range]`, src/ll_line/x.rs:100,127,206,236,264,
  src/ll_line.rs:265 -/
  | missingValues
  /-- `.expect("Huh... match_forwards was at the end")` etc., src/ll_line/x.rs:92,119,198,228,256 -/
  | dirOob
  /-- `.expect("Huh... match_forwards was at the end")` in token_attr_one_of, src/ll_line/x.rs:146 -/
  | noTokenAttrs
  /-- `.expect("Huh... XForwards::text_token was out of LLLine")`, src/ll_line/x.rs:165 -/
  | textOob
  /-- `.expect("pos_end_at in bounds")` / `.expect("pos_start_at in bounds")`, src/ll_line.rs:236,243 -/
  | posOob
  /-- slice index panic of `ll_tokens[range.0..=range.1]`, src/ll_line.rs:255 -/
  | sliceOob
  /-- `Rc::try_unwrap(..).expect("there is no other Rc currently")`, src/ll_line.rs:163-165 -/
  | rcShared
  /-- `panic!("Two different lines used")`, src/ll_line.rs:288-292 -/
  | differentLines
  /-- `number_string.parse::<Decimal>().unwrap()`, layered-amount/src/amounts.rs:115 -/
  | decimal
  /-- index panic in the display column tables, src/ll_line/display.rs:72,79 -/
  | displayOob
  /-- `end_char_idx - start_char_idx` underflow, src/ll_line/display.rs:80 -/
  | displayUnderflow
  /-- `todo!()`, src/ll_line/ll_selection.rs:215,222 -/
  | notImplemented
  /-- a panic raised by user code (a user resolver or matcher) -/
  | user
  /-- not a panic: the fuelled model of a Rust loop ran out of fuel -/
  | stillRunning
deriving DecidableEq, Repr

/-- A computation that may panic.  Rust panics abort the whole call, so `Except` (first panic
wins, in evaluation order) is the right monad. -/
abbrev R := Except Panic

/-- `std::rc::Rc<T>`: an address and a value.  `Rc::ptr_eq` compares addresses only; cloning keeps
the address.  Reference counts are not stored: `Resolver.go` reports whether a clone outlives it. -/
structure Rc (α : Type) where
  ptr : Nat
  val : α

/-- `std::collections::HashMap`, up to lookup: iteration order is not part of this model (the one
place where /repo observes it, src/resolvers/text_match.rs:25-28, takes the order as an explicit
list). -/
def HMap (K V : Type) := K → Option V

namespace HMap
variable {K V : Type}
/-- `HashMap::default()` (the maps of type_bucket.rs:131, type_id_to_many.rs:5, ll_line.rs:76, text_match.rs:12) -/
def empty : HMap K V := fun _ => none
/-- `HashMap::get` -/
def get? (m : HMap K V) (k : K) : Option V := m k
/-- `HashMap::insert` (also: writing through `entry`) -/
def set [DecidableEq K] (m : HMap K V) (k : K) (v : V) : HMap K V :=
  fun k' => if k' = k then some v else m k'
end HMap

/-- `iter.flat_map(f).collect()` / `iter.map(f).flatten().collect()` where `f` may panic:
elements are visited in order and the first panic wins. -/
def flatMapR {α β : Type} (f : α → R (List β)) : List α → R (List β)
  | [] => .ok []
  | x :: xs =>
    match f x with
    | .error e => .error e
    | .ok ys =>
      match flatMapR f xs with
      | .error e => .error e
      | .ok zs => .ok (ys ++ zs)

/-- `iter.map(f).collect()` where `f` may panic (e.g. ll_line.rs:248-267). -/
def mapR {α β : Type} (f : α → R β) : List α → R (List β)
  | [] => .ok []
  | x :: xs =>
    match f x with
    | .error e => .error e
    | .ok y =>
      match mapR f xs with
      | .error e => .error e
      | .ok ys => .ok (y :: ys)

/-- A `for x in xs { st = f(st, x) }` loop whose body may panic. -/
def foldR {σ α : Type} (f : σ → α → R σ) : σ → List α → R σ
  | s, [] => .ok s
  | s, x :: xs =>
    match f s x with
    | .error e => .error e
    | .ok s' => foldR f s' xs

/-- `Option::expect`/`unwrap`: `none` panics. -/
def expect {α : Type} (o : Option α) (p : Panic) : R α :=
  match o with
  | some a => .ok a
  | none => .error p

/-- The inclusive range `a..=b` as a list (empty when `a > b`). -/
def rangeIncl (a b : Nat) : List Nat := List.range' a (b + 1 - a)

/-- Everything /repo takes from outside: the user's attribute types, third-party crates and
Unicode tables.  All theorems quantify over every `World`; a law about one of these functions is
an explicit hypothesis of the theorem that needs it. -/
structure World where
  /-- identities of the attribute types defined by users of the library (their `TypeId`s) -/
  Key : Type
  decKey : DecidableEq Key
  /-- the values of a user type -/
  UserVal : Key → Type
  /-- `PartialEq` of a user type (any function: it need not be reflexive) -/
  userEq : (k : Key) → UserVal k → UserVal k → Bool
  /-- `Debug` of a user type -/
  userDbg : (k : Key) → UserVal k → Str
  /-- `Debug` of `char` -/
  charDbg : Char → Str
  /-- `rust_decimal::Decimal` -/
  Decimal : Type
  /-- `Debug` of `Amount` -/
  amountDbg : Decimal → Str
  /-- `Amount` has no `PartialEq`; `attr_eq` at `Amount` does not type-check in Rust.  The model is
  total and lets this be any function. -/
  amountEq : Decimal → Decimal → Bool
  /-- `str::parse::<Decimal>()`, `none` for `Err` -/
  parseDecimal : Str → Option Decimal
  /-- `wiktionary_part_of_speech_extract::Tag` -/
  Tag : Type
  tagDbg : Tag → Str
  tagEq : Tag → Tag → Bool
  /-- `ENGLISH_TAG_LOOKUP.get(word)` followed by `.tags()` -/
  tagLookup : Str → Option (List Tag)
  /-- `Tag::Noun`; `TagSet::of(&[Tag::Noun]).tags()` is taken to be `[Tag::Noun]` -/
  nounTag : Tag
  /-- `char::is_alphabetic` -/
  isAlphabetic : Char → Bool
  /-- `char::is_whitespace` -/
  isWhitespace : Char → Bool
  /-- `str::to_lowercase` -/
  toLowercase : Str → Str
  /-- `UnicodeWidthStr::width` -/
  strWidth : Str → Nat
  /-- `UnicodeSegmentation::split_word_bounds` -/
  splitWordBounds : Str → List Str
  /-- one more than `usize::MAX` -/
  usizeBound : Nat
  /-- is the crate compiled with overflow checks (debug profile)? -/
  overflowChecks : Bool

instance (W : World) : DecidableEq W.Key := W.decKey

/-- `usize` addition (`current_size + size`, create_tokens.rs:69): panics with overflow checks, wraps without. -/
def World.addUsize (W : World) (a b : Nat) : R Nat :=
  if a + b < W.usizeBound then .ok (a + b)
  else if W.overflowChecks then .error .overflow
  else .ok ((a + b) % W.usizeBound)

/-- src/ll_line.rs:21-36 -/
inductive TextTag
  | NATN | PUNC | SYMB | SPACE | WORD
deriving DecidableEq, Repr

/-- layered-clauses/src/clause_keyword.rs:3-11 -/
inductive ClauseKeyword
  | ConditionStart | Then | And
deriving DecidableEq, Repr

/-- layered-clauses/src/clauses.rs:4-10 -/
inductive Clause
  | LeadingEffect | TrailingEffect | Condition | Independent
deriving DecidableEq, Repr

/-- The Rust types used as attribute types (`TypeId`): `char`, `TextTag`, those of the plugin
crates, and any user type. -/
inductive Ty (W : World)
  | char
  | textTag
  | amount
  | clauseKeyword
  | clause
  | tag
  | user (k : W.Key)
deriving DecidableEq

/-- The values of an attribute type. -/
def Val {W : World} : Ty W → Type
  | .char => Char
  | .textTag => TextTag
  | .amount => W.Decimal
  | .clauseKeyword => ClauseKeyword
  | .clause => Clause
  | .tag => W.Tag
  | .user k => W.UserVal k

/-- `PartialEq` of an attribute type. -/
def valEq {W : World} : (k : Ty W) → Val k → Val k → Bool
  | .char => fun (a b : Char) => a == b
  | .textTag => fun (a b : TextTag) => a == b
  | .amount => W.amountEq
  | .clauseKeyword => fun (a b : ClauseKeyword) => a == b
  | .clause => fun (a b : Clause) => a == b
  | .tag => W.tagEq
  | .user k => W.userEq k

/-- `#[derive(Debug)]` of `TextTag`, src/ll_line.rs:21 -/
def TextTag.dbg : TextTag → Str
  | .NATN => ['N','A','T','N']
  | .PUNC => ['P','U','N','C']
  | .SYMB => ['S','Y','M','B']
  | .SPACE => ['S','P','A','C','E']
  | .WORD => ['W','O','R','D']

/-- `#[derive(Debug)]` of `ClauseKeyword`, layered-clauses/src/clause_keyword.rs:3 -/
def ClauseKeyword.dbg : ClauseKeyword → Str
  | .ConditionStart => ['C','o','n','d','i','t','i','o','n','S','t','a','r','t']
  | .Then => ['T','h','e','n']
  | .And => ['A','n','d']

/-- `#[derive(Debug)]` of `Clause`, layered-clauses/src/clauses.rs:4 -/
def Clause.dbg : Clause → Str
  | .LeadingEffect => ['L','e','a','d','i','n','g','E','f','f','e','c','t']
  | .TrailingEffect => ['T','r','a','i','l','i','n','g','E','f','f','e','c','t']
  | .Condition => ['C','o','n','d','i','t','i','o','n']
  | .Independent => ['I','n','d','e','p','e','n','d','e','n','t']

/-- `format!("{:?}", v)` of an attribute value, src/type_bucket.rs:232 -/
def valDbg {W : World} : (k : Ty W) → Val k → Str
  | .char => W.charDbg
  | .textTag => TextTag.dbg
  | .amount => W.amountDbg
  | .clauseKeyword => ClauseKeyword.dbg
  | .clause => Clause.dbg
  | .tag => W.tagDbg
  | .user k => W.userDbg k

end LNlp
