import Verif.Spec.Cfg
/- Phrase structure: context-free grammars whose words are the attributes the layers below have assigned (README.md,
"Layering": `Address = Person + Verb('live') + Predicate('in') + Location`). -/
namespace LNlp
variable {W : World}

/-- a symbol of a grammar: the text of a token, an attribute of a type, or one with a certain value -/
inductive Category (W : World)
  | text (s : Str)
  | attr (k : Ty W)
  | attrEq (k : Ty W) (v : Val k)

/-- a production `lhs(value) → first more…` -/
structure Expansion (W : World) where
  lhs : Ty W
  value : Val lhs
  first : Category W
  more : List (Category W)

/-- its right-hand side -/
def Expansion.rhs (p : Expansion W) : List (Category W) := p.first :: p.more

/-- the symbol stands for attributes of this type with this value -/
def Category.Fits : Category W → (k : Ty W) → Val k → Prop
  | .text _, _, _ => False
  | .attr k, k', _ => k' = k
  | .attrEq k v, k', v' => ∃ e : k' = k, valEq k (e ▸ v') v = true

/-- the textbook's ⇒*: symbols are replaced by right-hand sides of productions for them, any number of times -/
inductive Rewrites (G : List (Expansion W)) : List (Category W) → List (Category W) → Prop
  | refl (us : List (Category W)) : Rewrites G us us
  | step {us before after : List (Category W)} {x : Category W} {p : Expansion W} :
      Rewrites G us (before ++ x :: after) → p ∈ G → x.Fits p.lhs p.value → Rewrites G us (before ++ p.rhs ++ after)

/-- the symbol is there, on the tokens `i ..= j`, given the facts `F` -/
def Category.There (l : LLLine W) (F : Rec W → Prop) (i j : Nat) : Category W → Prop
  | .text s => i = j ∧ textAt l i = some s
  | .attr k => ∃ v, F ⟨k, (i, j), v⟩
  | .attrEq k v => ∃ w, valEq k w v = true ∧ F ⟨k, (i, j), w⟩

/-- the symbols are there one behind the other, from token `i` up to token `e`, exclusively -/
def SymbolsAt (l : LLLine W) (F : Rec W → Prop) : Nat → List (Category W) → Nat → Prop
  | i, [], e => i = e
  | i, x :: xs, e => ∃ j, x.There l F i j ∧ SymbolsAt l F (j + 1) xs e

/-- a symbol as a matcher: `token_text` with the right text, `attr` or `attr_eq` -/
def Category.recogniser : Category W → Recogniser W
  | .text s => ⟨Str, .text, fun t => t == s⟩
  | .attr k => ⟨Val k, .attr k, fun _ => true⟩
  | .attrEq k v => ⟨Unit, .attrEq k v, fun _ => true⟩

/-- a sequence: `seq((x, seq((x', …))))` -/
def phraseOf : Category W → List (Category W) → Recogniser W
  | x, [] => x.recogniser
  | x, y :: ys => ⟨_, .seq x.recogniser.pat (phraseOf y ys).pat, fun f => x.recogniser.ok f.1 && (phraseOf y ys).ok f.2⟩

/-- a production as a rule: find its right-hand side and assign the value there -/
def Expansion.rule (p : Expansion W) : Rule W :=
  { attr := p.lhs
    Found := (phraseOf p.first p.more).Out
    pat := (phraseOf p.first p.more).pat
    values := fun f => if (phraseOf p.first p.more).ok f then [p.value] else [] }

/-- no right-hand side is just one symbol of a type that has productions -/
def NoChains (G : List (Expansion W)) : Prop :=
  ∀ p ∈ G, p.more = [] → ∀ q ∈ G, p.first ≠ .attr q.lhs ∧ ∀ v, p.first ≠ .attrEq q.lhs v

/-- what the grammar finds on the line: what was there, and each left-hand side where its right-hand side can be replaced
by symbols that were there -/
def Parsed (l : LLLine W) (h : History W) (G : List (Expansion W)) (x : Rec W) : Prop :=
  x ∈ h ∨ ∃ p ∈ G, ∃ i j, x = ⟨p.lhs, (i, j), p.value⟩ ∧ ∃ ws, Rewrites G p.rhs ws ∧ SymbolsAt l (· ∈ h) i ws (j + 1)

/-- On the line `l'`, `query` lists just what the grammar finds on `l`, and searching for any sequence of symbols finds
just the ranges where it can be replaced by symbols that are on `l`. -/
def FullyParsed (l : LLLine W) (h : History W) (G : List (Expansion W)) (l' : LLLine W) : Prop :=
  (∀ k, ∃ q, l'.query k = .ok q ∧
    ∀ i j v, (∃ text vs, ((i, j), text, vs) ∈ q ∧ v ∈ vs) ↔ Parsed l h G ⟨k, (i, j), v⟩) ∧
  ∀ ptr x xs, ∃ found, (wholeLine l' ptr).findBy (phraseOf x xs).pat.matcher = .ok found ∧
    ∀ i j, (∃ f, (⟨⟨ptr, l'⟩, i, j⟩, f) ∈ found ∧ (phraseOf x xs).ok f = true) ↔
      ∃ ws, Rewrites G (x :: xs) ws ∧ SymbolsAt l (· ∈ h) i ws (j + 1)

end LNlp
