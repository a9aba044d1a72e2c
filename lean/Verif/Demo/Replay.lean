import Verif.Demo.World
import Verif.Model.Currency
/-
TESTS, not proofs: /repo's own snapshot tests replayed on the model in the demo world (`#guard`
evaluates the model).  They are evidence that the model was read off the code correctly.
-/
namespace LNlp.Demo
open LNlp

def line (s : String) : R (LLLine W) :=
  createLineFromInputTokens W [InputToken.Text s.toList []] (fun t => t.length)

def runs (l : R (LLLine W)) (rs : List (Resolver W)) : R (LLLine W) :=
  rs.foldl (fun l r => match l with | .ok l => l.run 0 r | .error e => .error e) l

def shows {W : World} (l : R (LLLine W)) (ks : List (Ty W)) : String :=
  match l with
  | .error e => "PANIC " ++ reprStr e
  | .ok l =>
    match ks.foldl (fun d k => match d with | .ok d => d.include k | .error e => .error e)
      (.ok (LLLineDisplay.new l) : R (LLLineDisplay W)) with
    | .error e => "PANIC " ++ reprStr e
    | .ok d => match d.fmt with
      | .ok s => String.ofList s
      | .error e => "PANIC " ++ reprStr e

def testResolver (s : String) (f : LLSelection W → R (List (LLSelection W))) : String :=
  let r : Resolver W := { attr := Ty.user 0, go := fun sel => match f sel with
    | .error e => .error e
    | .ok ss => .ok (ss.map (fun s => s.finishWithAttr (['h','e','r','e'] : Str)), false) }
  shows (runs (line s) [r]) [Ty.user 0]

def firsts {α β : Type} (r : R (List (α × β))) : R (List α) :=
  match r with | .ok l => .ok (l.map (·.1)) | .error e => .error e

-- src/tests/tokenizing.rs
#guard match line ". 1 000.23. € .5" with
  | .ok l => decide (l.ll_tokens.map (fun t => (t.token_idx, t.pos_starts_at, t.pos_ends_at, t.token)) =
    [(0,0,1,.Text ['.'] .PUNC),(1,1,2,.Text [' '] .SPACE),(2,2,3,.Text ['1'] .NATN),
     (3,3,4,.Text [' '] .SPACE),(4,4,7,.Text ['0','0','0'] .NATN),(5,7,8,.Text ['.'] .PUNC),
     (6,8,10,.Text ['2','3'] .NATN),(7,10,11,.Text ['.'] .PUNC),(8,11,12,.Text [' '] .SPACE),
     (9,12,13,.Text ['€'] .SYMB),(10,13,14,.Text [' '] .SPACE),(11,14,15,.Text ['.'] .PUNC),
     (12,15,16,.Text ['5'] .NATN)])
  | .error _ => false

-- src/create_tokens.rs test_create_tokens / test_create_tokens_email
#guard shows (createLineFromInputTokens W
    [.Text "Hello, ".toList [], .Text "World".toList [AnyAttribute.new (Ty.user 0) "Bold".toList,
      AnyAttribute.new (Ty.user 0) "Italic".toList], .Text "!".toList []] utf8Len) [Ty.user 0]
  = "Hello  ,     World  !\n             ╰───╯\"Italic\"\n             ╰───╯\"Bold\""
#guard shows (createLineFromInputTokens W
    [.Text "name@example.com".toList [AnyAttribute.new (Ty.user 0) "Italic".toList,
      AnyAttribute.new (Ty.user 1) "Link".toList]] utf8Len) [Ty.user 0, Ty.user 1]
  = "name  @  example.com\n╰──────────────────╯\"Italic\"\n╰──────────────────╯\"Link\""

-- src/tests/ll_selection.rs find_by
#guard testResolver "0000aa0000...000aa000..0000aa0000" (fun s => firsts (s.findBy (X.attr (W := W) Ty.char)))
  = "0000  aa  0000  .  .  .  000  aa  000  .  .  0000  aa  0000\n                ╰\"here\"\n                   ╰\"here\"\n                      ╰\"here\"\n                                       ╰\"here\"\n                                          ╰\"here\""
#guard testResolver ".00." (fun s => firsts (s.findBy (X.attr (W := W) Ty.char)))
  = ".  00  .\n╰\"here\"\n       ╰\"here\""
-- split_by
#guard testResolver "0000aa0000...000aa000..0000aa0000" (fun s => s.splitBy (X.attr (W := W) Ty.char))
  = "0000  aa  0000  .  .  .  000  aa  000  .  .  0000  aa  0000\n╰────────────╯\"here\"\n                         ╰──────────╯\"here\"\n                                             ╰────────────╯\"here\""
#guard testResolver ".0000aa0000.000aa000.0000aa0000." (fun s => s.splitBy (X.attr (W := W) Ty.char))
  = ".  0000  aa  0000  .  000  aa  000  .  0000  aa  0000  .\n   ╰────────────╯\"here\"\n                      ╰──────────╯\"here\"\n                                       ╰────────────╯\"here\""
#guard testResolver ".00." (fun s => s.splitBy (X.attr (W := W) Ty.char)) = ".  00  .\n   ╰╯\"here\""
#guard testResolver "." (fun s => s.splitBy (X.attr (W := W) Ty.char)) = "."
-- find_by_seq
#guard testResolver "0000aa0000...000aa000..0000aa0000"
    (fun s => firsts (s.findBy (X.seq2 (X.attr (W := W) Ty.char) (X.attrEq Ty.textTag TextTag.NATN))))
  = "0000  aa  0000  .  .  .  000  aa  000  .  .  0000  aa  0000\n                      ╰────╯\"here\"\n                                          ╰─────╯\"here\""
-- match_seq_forwards / match_seq_backwards
def each (s : LLSelection W) (f : LLSelection W → R (List (LLSelection W))) : R (List (LLSelection W)) :=
  match s.findBy (X.attr (W := W) Ty.textTag) with
  | .error e => .error e
  | .ok l => flatMapR (fun p => f p.1) l
def natnWord : XMatch W (Unit × Unit) :=
  X.seq2 (X.attrEq Ty.textTag TextTag.NATN) (X.attrEq Ty.textTag TextTag.WORD)
#guard testResolver "0000aa0000.000aa000.0000aa0000" (fun s => each s (fun s => firsts (s.matchForwards natnWord)))
  = "0000  aa  0000  .  000  aa  000  .  0000  aa  0000\n                ╰────────╯\"here\"\n                                 ╰─────────╯\"here\""
#guard testResolver "0000aa0000.000aa000.0000aa0000" (fun s => each s (fun s => firsts (s.matchBackwards natnWord)))
  = "0000  aa  0000  .  000  aa  000  .  0000  aa  0000\n      ╰─────────╯\"here\"\n                        ╰────────╯\"here\""
-- one_of / one_of_backwards / one_of_seq / one_of_seq_backwards
def eachNatn (s : LLSelection W) (f : LLSelection W → R (Option (LLSelection W × α))) : R (List (LLSelection W)) :=
  match s.findBy (X.attrEq (W := W) Ty.textTag TextTag.NATN) with
  | .error e => .error e
  | .ok l => flatMapR (fun p => match f p.1 with
    | .ok (some q) => .ok [q.1] | .ok none => .ok [] | .error e => .error e) l
def parenDot : XMatch W Char := X.tokenHasAny Ty.char (['(', '.'] : List Char)
#guard testResolver "0000aa0000.000aa000.0000aa0000" (fun s => eachNatn s (·.matchFirstForwards parenDot))
  = "0000  aa  0000  .  000  aa  000  .  0000  aa  0000\n          ╰─────╯\"here\"\n                            ╰────╯\"here\""
#guard testResolver "0000aa0000.000aa000.0000aa0000" (fun s => eachNatn s (·.matchFirstBackwards parenDot))
  = "0000  aa  0000  .  000  aa  000  .  0000  aa  0000\n                ╰────╯\"here\"\n                                 ╰─────╯\"here\""
#guard testResolver "0000aa0000...000aa000..0000aa0000"
    (fun s => eachNatn s (·.matchFirstForwards (X.seq2 parenDot (X.attrEq Ty.textTag TextTag.PUNC))))
  = "0000  aa  0000  .  .  .  000  aa  000  .  .  0000  aa  0000\n          ╰────────╯\"here\"\n                                  ╰───────╯\"here\""
#guard testResolver "0000aa0000...000aa000..0000aa0000"
    (fun s => eachNatn s (·.matchFirstBackwards (X.seq2 parenDot (X.attrEq Ty.textTag TextTag.PUNC))))
  = "0000  aa  0000  .  .  .  000  aa  000  .  .  0000  aa  0000\n                   ╰───────╯\"here\"\n                                       ╰────────╯\"here\""
-- trim_start / trim_end / trim
def optL {α : Type} (r : R (Option α)) : R (List α) :=
  match r with | .ok o => .ok o.toList | .error e => .error e
def natn : XMatch W Unit := X.attrEq Ty.textTag TextTag.NATN
#guard testResolver "0000aa0000.000aa000.0000aa0000" (fun s => optL (s.trimStart natn))
  = "0000  aa  0000  .  000  aa  000  .  0000  aa  0000\n      ╰──────────────────────────────────────────╯\"here\""
#guard testResolver "0000aa0000.000aa000.0000aa0000" (fun s => optL (s.trimEnd natn))
  = "0000  aa  0000  .  000  aa  000  .  0000  aa  0000\n╰──────────────────────────────────────────╯\"here\""
#guard testResolver "0000aa0000.000aa000.0000aa0000" (fun s => optL (s.trim natn))
  = "0000  aa  0000  .  000  aa  000  .  0000  aa  0000\n      ╰────────────────────────────────────╯\"here\""
#guard testResolver "." (fun s => optL (s.trim natn)) = ".\n╰\"here\""

-- src/tests/currency_amount.rs
def currencySymbol : Resolver W := currencySymbolResolver (k := Ty.user (1 : Nat)) "USDDollars".toList "Euro".toList
def currencyAmount : Resolver W :=
  currencyAmountResolver (kSym := Ty.user (1 : Nat)) (kAmt := Ty.amount) (k := Ty.user (2 : Nat))
    (fun (s a : Str) => s ++ [' '] ++ a)
#guard shows (runs (line "$1,000.25") [currencySymbol, AmountResolver.resolver W ⟨[','], '.'⟩, currencyAmount])
    [Ty.user 1, Ty.amount, Ty.user 2]
  = "$  1  ,  000  .  25\n╰\"USDDollars\"\n   ╰──────────────╯Amount(1000.25)\n╰─────────────────╯\"USDDollars 1000.25\""
#guard shows (runs (line ". 1 000,25€") [currencySymbol, AmountResolver.resolver W ⟨[' '], ','⟩, currencyAmount])
    [Ty.user 1, Ty.amount, Ty.user 2]
  = ".     1     000  ,  25  €\n                        ╰\"Euro\"\n      ╰──────────────╯Amount(1000.25)\n      ╰─────────────────╯\"Euro 1000.25\""
#guard shows (runs (line "100,.") [AmountResolver.resolver W ⟨[','], '.'⟩]) [Ty.amount]
  = "100  ,  .\n╰─╯Amount(100)"

-- layered-amount/src/tests/amounts.rs
#guard shows (runs (line "So I says to him, \"You owes me 50 bucks, prepare y'self to die.\"")
    [AmountResolver.resolver W ⟨[' ', '\''], ','⟩]) [Ty.amount]
  = "So     I     says     to     him  ,     \"  You     owes     me     50     bucks  ,     prepare     y'self     to     die  .  \"\n                                                                   ╰╯Amount(50)"
#guard shows (runs (line "First, Paul owed me $1.25, then he owed me $1.35, then he owed me $45,000.24!")
    [AmountResolver.resolver W ⟨[',', '_'], '.'⟩]) [Ty.amount]
  = "First  ,     Paul     owed     me     $  1  .  25  ,     then     he     owed     me     $  1  .  35  ,     then     he     owed     me     $  45  ,  000  .  24  !\n                                         ╰──────╯Amount(1.25)\n                                                                                            ╰──────╯Amount(1.35)\n                                                                                                                                               ╰───────────────╯Amount(45000.24)"
#guard shows (runs (line "1, 2, 3, 4. 500,000, 600,000, 1 million.")
    [AmountResolver.resolver W ⟨[',', '_'], '.'⟩]) [Ty.amount]
  = "1  ,     2  ,     3  ,     4  .     500  ,  000  ,     600  ,  000  ,     1     million  .\n╰Amount(1)\n         ╰Amount(2)\n                  ╰Amount(3)\n                           ╰Amount(4)\n                                    ╰─────────╯Amount(500000)\n                                                       ╰─────────╯Amount(600000)\n                                                                          ╰Amount(1)"

-- layered-clauses/src/tests/clauses.rs
def kw : ClauseKeywordResolver :=
  { cond_start := ["if".toList, "when".toList], and := ["and".toList], then_ := ["then".toList] }
def kwFr : ClauseKeywordResolver :=
  { cond_start := ["si".toList], and := ["et".toList], then_ := ["alors".toList] }
def clauses (s : String) (k : ClauseKeywordResolver := kw) : String :=
  shows (runs (line s) [k.resolver W, clauseResolver W]) [Ty.clauseKeyword, Ty.clause]
#guard clauses "When it rains, then it pours."
  = "When     it     rains  ,     then     it     pours  .\n╰──╯ConditionStart\n                             ╰──╯Then\n         ╰──────────╯Condition\n                                      ╰──────────╯TrailingEffect"
#guard clauses "When it rains, run!"
  = "When     it     rains  ,     run  !\n╰──╯ConditionStart\n         ╰──────────╯Condition\n                             ╰─╯TrailingEffect"
#guard clauses "Si tu es fatigué, va te coucher." kwFr
  = "Si     tu     es     fatigué  ,     va     te     coucher  .\n╰╯ConditionStart\n       ╰───────────────────╯Condition\n                                    ╰───────────────────╯TrailingEffect"
#guard clauses "Va te coucher si tu es fatigué." kwFr
  = "Va     te     coucher     si     tu     es     fatigué  .\n                          ╰╯ConditionStart\n╰───────────────────╯LeadingEffect\n                                 ╰───────────────────╯Condition"
#guard clauses "Open the umbrella and close the garage and the door if it is raining."
  = "Open     the     umbrella     and     close     the     garage     and     the     door     if     it     is     raining  .\n                              ╰─╯And\n                                                                   ╰─╯And\n                                                                                            ╰╯ConditionStart\n╰───────────────────────╯LeadingEffect\n                                      ╰──────────────────────╯LeadingEffect\n                                                                           ╰──────────╯LeadingEffect\n                                                                                                   ╰───────────────────╯Condition"
#guard clauses "If it is raining then open the umbrella and close the garage and the door."
  = "If     it     is     raining     then     open     the     umbrella     and     close     the     garage     and     the     door  .\n╰╯ConditionStart\n                                 ╰──╯Then\n                                                                        ╰─╯And\n                                                                                                             ╰─╯And\n       ╰───────────────────╯Condition\n                                          ╰───────────────────────╯TrailingEffect\n                                                                                ╰──────────────────────╯TrailingEffect\n                                                                                                                     ╰──────────╯TrailingEffect"
#guard clauses "Open the umbrella if it is raining and not too windy."
  = "Open     the     umbrella     if     it     is     raining     and     not     too     windy  .\n                              ╰╯ConditionStart\n                                                               ╰─╯And\n╰───────────────────────╯LeadingEffect\n                                     ╰───────────────────╯Condition\n                                                                       ╰───────────────────╯TrailingEffect"
#guard clauses "Open the umbrella." = "Open     the     umbrella  .\n╰───────────────────────╯Independent"

-- src/resolvers/text_match.rs
#guard shows (runs (createLineFromInputTokens W
      [.Text "when Slack hears a message in #general".toList [],
       .Text "Algolia search query: message, table".toList []] (fun t => t.length))
    [(TextMatchAssignResolver.newCaseInsensitive (W := W) (Ty.user 0)
      [("Slack".toList, ["Slack".toList]), ("Algolia".toList, ["Algolia".toList])]).resolver]) [Ty.user 0]
  = "when     Slack     hears     a     message     in     #  general  Algolia     search     query  :     message  ,     table\n         ╰───╯\"Slack\"\n                                                                  ╰─────╯\"Algolia\""

-- examples/examples/position_of_speech.rs; the dictionary entries are read off the snapshot
def posTags : List (String × List String) :=
  [("don't", ["Interjection", "Noun", "Verb"]), ("step", ["Noun", "Verb"]),
   ("on", ["Adjective", "Adverb", "Noun", "Preposition", "Verb"]), ("the", ["Adverb", "Preposition"]),
   ("broken", ["Adjective", "Verb"]), ("glass", ["Noun", "Verb"]), ("and", ["Conjunction", "Noun", "Verb"]),
   ("in", ["Adjective", "Adverb", "Noun", "Preposition", "Verb"])]
def WPos : World := { W with
  tagLookup := fun s => (posTags.find? (fun p => p.1.toList = s)).map (fun p => p.2.map String.toList) }
def posExpected : String := "Don't     step     on     the     broken     glass     and     the     tablesaw     in     Paris  .
╰───╯Verb
╰───╯Noun
╰───╯Interjection
          ╰──╯Verb
          ╰──╯Noun
                   ╰╯Verb
                   ╰╯Preposition
                   ╰╯Noun
                   ╰╯Adverb
                   ╰╯Adjective
                          ╰─╯Preposition
                          ╰─╯Adverb
                                  ╰────╯Verb
                                  ╰────╯Adjective
                                             ╰───╯Verb
                                             ╰───╯Noun
                                                       ╰─╯Verb
                                                       ╰─╯Noun
                                                       ╰─╯Conjunction
                                                               ╰─╯Preposition
                                                               ╰─╯Adverb
                                                                       ╰──────╯Noun
                                                                                    ╰╯Verb
                                                                                    ╰╯Preposition
                                                                                    ╰╯Noun
                                                                                    ╰╯Adverb
                                                                                    ╰╯Adjective
                                                                                           ╰───╯Noun"
#guard (match createLineFromInputTokens WPos
      [.Text "Don't step on the broken glass and the tablesaw in Paris.".toList []] (fun t => t.length) with
    | .ok l => shows (l.run 0 (posTagResolver WPos)) [Ty.tag]
    | .error _ => "PANIC") = posExpected

end LNlp.Demo
