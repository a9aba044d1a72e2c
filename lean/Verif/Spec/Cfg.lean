import Verif.Spec.Grammar
/- Context-free grammars over the texts of tokens (with conjunctions: conjunctive grammars), what they derive, and the
rules they are written as. -/
namespace LNlp
variable {W : World}

/-- a symbol on the right-hand side of a production: the text of a token, or what other productions find -/
inductive Symbol (W : World)
  | text (s : Str)
  | attr (k : Ty W)

/-- A production `lhs → c & c' & …`: the conjuncts are sequences of symbols (a first one and the others), all of which
must derive the same texts.  One conjunct is an ordinary context-free production. -/
structure Production (W : World) where
  lhs : Ty W
  value : Val lhs
  first : Symbol W × List (Symbol W)
  more : List (Symbol W × List (Symbol W))

/-- one text after another, each in the language of its symbol -/
def Concatenated (L : Symbol W → List Str → Prop) : List (Symbol W) → List Str → Prop
  | [], ws => ws = []
  | x :: xs, ws => ∃ u v, ws = u ++ v ∧ L x u ∧ Concatenated L xs v

/-- languages for the symbols that have everything the productions ask for -/
def Solves (G : List (Production W)) (L : Symbol W → List Str → Prop) : Prop :=
  (∀ s, L (.text s) [s]) ∧
  ∀ p ∈ G, ∀ ws, (∀ c ∈ p.first :: p.more, Concatenated L (c.1 :: c.2) ws) → L (.attr p.lhs) ws

/-- the language of a symbol: the textbook's least solution of the grammar's equations -/
def Derives (G : List (Production W)) (x : Symbol W) (ws : List Str) : Prop :=
  ∀ L : Symbol W → List Str → Prop, Solves G L → L x ws

/-- the tokens `i ..= j` are the texts `ws` -/
def Spells (l : LLLine W) (i j : Nat) (ws : List Str) : Prop :=
  i + ws.length = j + 1 ∧ ∀ n w, ws[n]? = some w → textAt l (i + n) = some w

/-- a matcher expression, and which of its finds are wanted -/
structure Recogniser (W : World) where
  Out : Type
  pat : Pat W Out
  ok : Out → Bool

/-- a symbol: `token_text` with the right text, or `attr` -/
def Symbol.recogniser : Symbol W → Recogniser W
  | .text s => ⟨Str, .text, fun t => t == s⟩
  | .attr k => ⟨Val k, .attr k, fun _ => true⟩

/-- a sequence: `seq((x, seq((x', …))))` -/
def sequenceOf : Symbol W → List (Symbol W) → Recogniser W
  | x, [] => x.recogniser
  | x, y :: ys => ⟨_, .seq x.recogniser.pat (sequenceOf y ys).pat,
      fun f => x.recogniser.ok f.1 && (sequenceOf y ys).ok f.2⟩

/-- a conjunction: `all((c, all((c', …))))` -/
def conjunctionOf : Symbol W × List (Symbol W) → List (Symbol W × List (Symbol W)) → Recogniser W
  | c, [] => sequenceOf c.1 c.2
  | c, d :: ds => ⟨_, .both (sequenceOf c.1 c.2).pat (conjunctionOf d ds).pat,
      fun f => (sequenceOf c.1 c.2).ok f.1 && (conjunctionOf d ds).ok f.2⟩

/-- a production as a rule: find its right-hand side and assign the value there -/
def Production.rule (p : Production W) : Rule W :=
  { attr := p.lhs
    Found := (conjunctionOf p.first p.more).Out
    pat := (conjunctionOf p.first p.more).pat
    values := fun f => if (conjunctionOf p.first p.more).ok f then [p.value] else [] }

/-- no conjunct is just one symbol that has productions -/
def UnitFree (G : List (Production W)) : Prop :=
  ∀ p ∈ G, ∀ c ∈ p.first :: p.more, c.2 = [] → ∀ q ∈ G, c.1 ≠ .attr q.lhs

/-- the grammar mentions the type -/
def MentionsType (G : List (Production W)) (k : Ty W) : Prop :=
  ∃ p ∈ G, p.lhs = k ∨ ∃ c ∈ p.first :: p.more, Symbol.attr k ∈ c.1 :: c.2

end LNlp
