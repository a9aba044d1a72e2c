import Verif.Model.CreateTokens
import Verif.Model.Resolvers
import Verif.Model.Display
/-
A concrete `World`, used only for non-vacuity examples, refutations and the replay of /repo's own
tests.  Its word splitter is UAX #29 word segmentation restricted to the classes of ASCII and
Latin-1/Latin Extended letters; theorems never depend on it.
-/
namespace LNlp.Demo

/-- UAX #29 word-break classes (the ones ASCII and Latin letters need) -/
inductive WB
  | CR | LF | Newline | ALetter | Numeric | SingleQuote | DoubleQuote | MidLetter | MidNumLet | MidNum
  | ExtendNumLet | WSegSpace | Other
deriving DecidableEq

def isLatinLetter (c : Char) : Bool :=
  (decide (65 ≤ c.toNat) && decide (c.toNat ≤ 90)) || (decide (97 ≤ c.toNat) && decide (c.toNat ≤ 122))
  || (decide (192 ≤ c.toNat) && decide (c.toNat ≤ 591) && decide (c.toNat ≠ 215) && decide (c.toNat ≠ 247))

def isSpaceChar (c : Char) : Bool :=
  decide (c.toNat = 32) || (decide (9 ≤ c.toNat) && decide (c.toNat ≤ 13)) || decide (c.toNat = 160)

def wbClass (c : Char) : WB :=
  if c.toNat = 13 then .CR
  else if c.toNat = 10 then .LF
  else if c.toNat = 11 ∨ c.toNat = 12 then .Newline
  else if isLatinLetter c then .ALetter
  else if isAsciiDigit c then .Numeric
  else if c = '\'' then .SingleQuote
  else if c = '"' then .DoubleQuote
  else if c = ':' then .MidLetter
  else if c = '.' then .MidNumLet
  else if c = ',' ∨ c = ';' then .MidNum
  else if c = '_' then .ExtendNumLet
  else if c = ' ' then .WSegSpace
  else .Other

def isMidNumLetQ : WB → Bool
  | .MidNumLet => true | .SingleQuote => true | _ => false

/-- is there NO word boundary between `p` and `c`? (`p2` before `p`, `n` after `c`) -/
def joins (p2 : Option Char) (p c : Char) (n : Option Char) : Bool :=
  let P2 := p2.map wbClass
  let P := wbClass p
  let C := wbClass c
  let N := n.map wbClass
  match P, C with
  | .CR, .LF => true                                            -- WB3
  | .WSegSpace, .WSegSpace => true                              -- WB3d
  | .ALetter, .ALetter => true                                  -- WB5
  | .Numeric, .Numeric => true                                  -- WB8
  | .ALetter, .Numeric => true                                  -- WB9
  | .Numeric, .ALetter => true                                  -- WB10
  | .ALetter, .ExtendNumLet => true                             -- WB13a
  | .Numeric, .ExtendNumLet => true
  | .ExtendNumLet, .ExtendNumLet => true
  | .ExtendNumLet, .ALetter => true                             -- WB13b
  | .ExtendNumLet, .Numeric => true
  | .ALetter, m => (isMidNumLetQ m || m == .MidLetter) && N == some .ALetter   -- WB6
  | m, .ALetter => (isMidNumLetQ m || m == .MidLetter) && P2 == some .ALetter  -- WB7
  | .Numeric, m => (isMidNumLetQ m || m == .MidNum) && N == some .Numeric      -- WB12
  | m, .Numeric => (isMidNumLetQ m || m == .MidNum) && P2 == some .Numeric     -- WB11
  | _, _ => false

def splitGo : Option Char → Char → Str → Str → List Str
  | _, _, cur, [] => [cur]
  | p2, p, cur, c :: rest =>
    if joins p2 p c rest.head? then splitGo (some p) c (cur ++ [c]) rest
    else cur :: splitGo (some p) c [c] rest

def splitWords : Str → List Str
  | [] => []
  | c :: rest => splitGo none c [c] rest

def lowerChar (c : Char) : Char :=
  if decide (65 ≤ c.toNat) && decide (c.toNat ≤ 90) then Char.ofNat (c.toNat + 32) else c

def demoParse (s : Str) : Option Str :=
  let digits := s.filter isAsciiDigit
  if digits.length > 28 ∨ digits.length = 0 then none
  else if s.getLast? = some '.' then some s.dropLast else some s

/-- The demo world: user types are numbered, their values are strings. -/
def W : World where
  Key := Nat
  decKey := inferInstance
  UserVal := fun _ => Str
  userEq := fun _ a b => a == b
  userDbg := fun _ s => ['"'] ++ s ++ ['"']
  charDbg := fun c => ['\'', c, '\'']
  Decimal := Str
  amountDbg := fun d => "Amount(".toList ++ d ++ [')']
  amountEq := fun a b => a == b
  parseDecimal := demoParse
  Tag := Str
  tagDbg := id
  tagEq := fun a b => a == b
  tagLookup := fun s =>
    if s = ['r', 'u', 'n'] then some [['V', 'e', 'r', 'b'], ['N', 'o', 'u', 'n']] else none
  nounTag := ['N', 'o', 'u', 'n']
  isAlphabetic := isLatinLetter
  isWhitespace := isSpaceChar
  toLowercase := fun s => s.map lowerChar
  strWidth := List.length
  splitWordBounds := splitWords
  usizeBound := 2 ^ 64
  overflowChecks := true

instance (n : Nat) : OfNat W.Key n := ⟨(n : Nat)⟩

end LNlp.Demo
