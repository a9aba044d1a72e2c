import Verif.Demo.Again
import Verif.Demo.Laws
import Verif.Lemmas.Uax29
/- Two worlds that split words as UAX #29 says: `Demo.W`, and `Demo.U` with a larger table. -/
namespace LNlp.Demo

/-- the classes of `Demo.W` -/
def wbOf : WB → LNlp.WB
  | .CR => .cr | .LF => .lf | .Newline => .newline | .ALetter => .aletter | .Numeric => .numeric
  | .SingleQuote => .singleQuote | .DoubleQuote => .doubleQuote | .MidLetter => .midLetter | .MidNumLet => .midNumLet
  | .MidNum => .midNum | .ExtendNumLet => .extendNumLet | .WSegSpace => .wSegSpace | .Other => .other

def demoCls (c : Char) : WBChar := ⟨wbOf (wbClass c), false⟩

theorem wbOf_not_ignored (c : WB) : (wbOf c).ignored = false := by cases c <;> rfl

theorem bases_demo (s : Str) : bases (s.map demoCls) = s.map (fun c => wbOf (wbClass c)) := by
  induction s with
  | nil => rfl
  | cons c s ih =>
    rw [List.map_cons, bases_cons, ih]
    simp only [demoCls, wbOf_not_ignored, Bool.false_eq_true, if_false, List.map_cons]

theorem countRI_demo (s : Str) : countRI (s.map (fun c => wbOf (wbClass c))) = 0 := by
  cases s with
  | nil => rfl
  | cons c s =>
    rw [List.map_cons]
    cases wbClass c <;> rfl

/-- the rules of `Demo.W` on classes -/
theorem rules_demo (P2 : Option WB) (P C : WB) (N : Option WB) :
    joinsC P2 P C N = (wbPre ⟨wbOf P, false⟩ ⟨wbOf C, false⟩).getD
      (wbRules (some (wbOf P)) (P2.map wbOf) (some (wbOf C)) (N.map wbOf) false) := by
  have any : ∀ (o : Option WB) (x : WB), (o == some x) = (o.map wbOf == some (wbOf x)) := by
    intro o x
    cases o with
    | none => cases x <;> rfl
    | some y => cases y <;> cases x <;> rfl
  have letter : ∀ o : Option WB, (o.map wbOf).any LNlp.WB.ahLetter = (o.map wbOf == some .aletter) := by
    intro o
    cases o with
    | none => rfl
    | some y => cases y <;> rfl
  have l := any P2 .ALetter
  have l' := any N .ALetter
  have n := any P2 .Numeric
  have n' := any N .Numeric
  have h : ∀ o : Option WB, (o.map wbOf == some LNlp.WB.hebrew) = false := by
    intro o
    cases o with
    | none => rfl
    | some y => cases y <;> rfl
  have hP := h P2
  have hN := h N
  have ctor : ∀ a b : LNlp.WB, (a == b) = decide (a = b) := fun a b => rfl
  cases P <;> cases C <;>
    simp [ctor, joinsC, wbPre, rules_eq, wbNear, wbTriple, wbOf, LNlp.WB.isNewline, LNlp.WB.ignored, LNlp.WB.ahLetter, LNlp.WB.midL,
      LNlp.WB.midN, LNlp.WB.wordy, isMidNumLetQ, letter, any, hP, hN]

theorem joins_demo (p2 : Option Char) (p c : Char) (bef rest : Str) (hb : bef.head? = p2) :
    LNlp.joins ((p :: bef).map demoCls) ((c :: rest).map demoCls) = joins p2 p c rest.head? := by
  rw [joins_eq, rules_demo, List.map_cons, List.map_cons, LNlp.joins_eq, ← List.map_cons, bases_demo, bases_demo, countRI_demo]
  have e1 : (List.map (fun c => wbOf (wbClass c)) (p :: bef))[1]? = (p2.map wbClass).map wbOf := by
    subst hb
    cases bef <;> simp
  have e2 : (List.map (fun c => wbOf (wbClass c)) rest)[0]? = (rest.head?.map wbClass).map wbOf := by
    cases rest <;> simp
  rw [e1, e2]
  rfl

theorem splitGo_uax : ∀ (rest : Str) (p2 : Option Char) (p : Char) (bef cur : Str), bef.head? = p2 →
    splitGo p2 p cur rest = wordsGo demoCls (p :: bef) cur rest
  | [], _, _, _, _, _ => rfl
  | c :: rest, p2, p, bef, cur, hb => by
    rw [splitGo, wordsGo, joins_demo p2 p c bef rest hb, splitGo_uax rest (some p) c (p :: bef) (cur ++ [c]) rfl,
      splitGo_uax rest (some p) c (p :: bef) [c] rfl]

theorem splitWords_uax (s : Str) : splitWords s = uaxWords demoCls s := by
  cases s with
  | nil => rfl
  | cons c rest => exact splitGo_uax rest none c [] [c] rfl

theorem demoUax : Uax29 W demoCls where
  split := splitWords_uax
  letter := by
    intro c _ h
    show wbOf (wbClass c) = .aletter
    rw [wbClass_letter h]; rfl
  digit := by
    intro c h
    show wbOf (wbClass c) = .numeric
    rw [wbClass_digit h]; rfl
  hyphen := rfl
  enDash := rfl

/-! ### a larger table -/

def inRange (a b : Nat) (c : Char) : Bool := decide (a ≤ c.toNat) && decide (c.toNat ≤ b)

/-- a table with some characters of every class -/
def ucls (c : Char) : WBChar :=
  if c = '\u200d' then ⟨.zwj, false⟩
  else if c = 'Ⓜ' then ⟨.aletter, true⟩
  else if inRange 0x24B6 0x24E9 c then ⟨.aletter, false⟩          -- circled letters
  else if inRange 0x300 0x36F c then ⟨.extend, false⟩             -- combining marks
  else if c = '\u00ad' then ⟨.format, false⟩                      -- soft hyphen
  else if inRange 0x1F600 0x1F64F c then ⟨.other, true⟩           -- emoticons
  else if inRange 0x5D0 0x5EA c then ⟨.hebrew, false⟩
  else if inRange 0x30A1 0x30FA c then ⟨.katakana, false⟩
  else if inRange 0x1F1E6 0x1F1FF c then ⟨.regional, false⟩
  else demoCls c

/-- lowercasing: ASCII letters, the circled M, and the İ that becomes two characters -/
def ulower (c : Char) : Str :=
  if c = 'Ⓜ' then ['ⓜ'] else if c = 'İ' then ['i', '\u0307'] else [lowerChar c]

/-- the world with this table -/
def U : World := { W with splitWordBounds := uaxWords ucls, toLowercase := fun s => s.flatMap ulower }

theorem ucls_demo {c : Char} (h : c.toNat < 0x300) (h' : c.toNat ≠ 0xad) : ucls c = demoCls c := by
  have ne : ∀ d : Char, d.toNat ≠ c.toNat → c ≠ d := by rintro d hd rfl; exact hd rfl
  have r : ∀ a b, 0x300 ≤ a → inRange a b c = false := by
    intro a b hab
    simp only [inRange, Bool.and_eq_false_iff, decide_eq_false_iff_not]
    omega
  have e1 : ('\u200d').toNat = 0x200d := rfl
  have e2 : ('Ⓜ').toNat = 0x24C2 := rfl
  have e3 : ('\u00ad').toNat = 0xad := rfl
  simp only [ucls, ne '\u200d' (by omega), ne 'Ⓜ' (by omega), ne '\u00ad' (by omega), r _ _ (show 0x300 ≤ 0x24B6 by decide),
    r _ _ (show 0x300 ≤ 0x300 by decide), r _ _ (show 0x300 ≤ 0x1F600 by decide), r _ _ (show 0x300 ≤ 0x5D0 by decide),
    r _ _ (show 0x300 ≤ 0x30A1 by decide), r _ _ (show 0x300 ≤ 0x1F1E6 by decide), if_false, Bool.false_eq_true]

theorem uUax : Uax29 U ucls where
  split := fun _ => rfl
  letter := by
    intro c hc h
    rw [ucls_demo (by omega) (by omega)]
    exact demoUax.letter c hc h
  digit := by
    intro c h
    have := digit_toNat.1 h
    rw [ucls_demo (by omega) (by omega)]
    exact demoUax.digit c h
  hyphen := by decide
  enDash := by decide

/-! Rows of WordBreakTest.txt and examples of section 4 of the annex, with characters that the table has. -/

def str (ns : List Nat) : Str := ns.map Char.ofNat

def uwords (ns : List Nat) : List (List Nat) := (uaxWords ucls (str ns)).map (·.map Char.toNat)

#guard uwords [0x0D, 0x0A] = [[0x0D, 0x0A]]
#guard uwords [0x0A, 0x308] = [[0x0A], [0x308]]
#guard uwords [0x20, 0x20] = [[0x20, 0x20]]
#guard uwords [0x20, 0x308, 0x20] = [[0x20, 0x308], [0x20]]
#guard uwords [0x41, 0x308, 0x42] = [[0x41, 0x308, 0x42]]
#guard uwords [0x61, 0x27, 0x62] = [[0x61, 0x27, 0x62]]
#guard uwords [0x61, 0x27, 0x27, 0x62] = [[0x61], [0x27], [0x27], [0x62]]
#guard uwords [0x61, 0x3A, 0x308, 0x62] = [[0x61, 0x3A, 0x308, 0x62]]
#guard uwords [0x61, 0x3A, 0x31] = [[0x61], [0x3A], [0x31]]
#guard uwords [0x31, 0x2C, 0x31] = [[0x31, 0x2C, 0x31]]
#guard uwords [0x31, 0x2E, 0x2C, 0x31] = [[0x31], [0x2E], [0x2C], [0x31]]
#guard uwords [0x31, 0x5F, 0x61] = [[0x31, 0x5F, 0x61]]
#guard uwords [0x5D0, 0x27] = [[0x5D0, 0x27]]
#guard uwords [0x5D0, 0x22, 0x5D0] = [[0x5D0, 0x22, 0x5D0]]
#guard uwords [0x5D0, 0x22] = [[0x5D0], [0x22]]
#guard uwords [0x30A2, 0x30A2, 0x5F] = [[0x30A2, 0x30A2, 0x5F]]
#guard uwords [0x61, 0x1F1E6, 0x1F1E7, 0x1F1E8, 0x62] = [[0x61], [0x1F1E6, 0x1F1E7], [0x1F1E8], [0x62]]
#guard uwords [0x1F1E6, 0x200D, 0x1F1E7, 0x1F1E8] = [[0x1F1E6, 0x200D, 0x1F1E7], [0x1F1E8]]
#guard uwords [0x1F600, 0x200D, 0x1F601] = [[0x1F600, 0x200D, 0x1F601]]
#guard uwords [0x61, 0xAD, 0x62] = [[0x61, 0xAD, 0x62]]
#guard (uaxWords ucls "can't 3.2, e.g. 1,234.5–6".toList).map String.ofList =
  ["can't", " ", "3.2", ",", " ", "e.g", ".", " ", "1,234.5", "–", "6"]

theorem ucls_letter {c : Char} (h : isLatinLetter c = true) (h' : c.toNat < 0x300) : (ucls c).cls = .aletter := by
  rw [ucls_demo h' (by rintro e; simp [isLatinLetter, e] at h)]
  show wbOf (wbClass c) = .aletter
  rw [wbClass_letter h]; rfl

theorem ulower_step (c : Char) : ∃ d ext, ulower c = d :: ext ∧ (ucls d).cls = (ucls c).cls ∧
    (∀ e ∈ ext, (ucls e).cls = .extend) ∧ (ext ≠ [] → (ucls c).cls = .aletter) ∧ (IsDigit c ∨ IsDigit d → d = c ∧ ext = []) := by
  have nd : ∀ d : Char, 57 < d.toNat → ¬ IsDigit d := by
    intro d hd h
    have := digit_toNat.1 h
    omega
  unfold ulower
  split
  · next h =>
    subst h
    refine ⟨_, _, rfl, rfl, by simp, by simp, ?_⟩
    rintro (h | h)
    · exact absurd h (nd _ (by decide))
    · exact absurd h (nd _ (by decide))
  split
  · next h =>
    subst h
    refine ⟨_, _, rfl, rfl, ?_, fun _ => rfl, ?_⟩
    · intro e he
      rw [List.mem_singleton] at he
      subst he; rfl
    rintro (h | h)
    · exact absurd h (nd _ (by decide))
    · exact absurd h (nd _ (by decide))
  · refine ⟨_, _, rfl, ?_, by simp, by simp, ?_⟩
    · unfold lowerChar
      split
      · next h =>
        simp only [Bool.and_eq_true, decide_eq_true_eq] at h
        have hn := toNat_lower h.2
        rw [ucls_letter (c := c) (by simp [isLatinLetter]; omega) (by omega),
          ucls_letter (c := Char.ofNat (c.toNat + 32)) (by simp only [isLatinLetter, hn]; simp; omega) (by omega)]
      · rfl
    · intro hd
      refine ⟨?_, rfl⟩
      unfold lowerChar at hd ⊢
      split
      · next h =>
        rw [if_pos h] at hd
        simp only [Bool.and_eq_true, decide_eq_true_eq] at h
        have hn := toNat_lower h.2
        rcases hd with hd | hd
        · exact absurd hd (nd _ (by omega))
        · exact absurd hd (nd _ (by omega))
      · rfl

theorem uLower : LowerTable U ucls where
  lowers := by
    intro s
    show Lowers ucls s (s.flatMap ulower)
    induction s with
    | nil => exact .nil
    | cons c s ih =>
      obtain ⟨d, ext, e, h1, h2, h3, h4⟩ := ulower_step c
      rw [List.flatMap_cons, e]
      exact .cons c d ext h1 h2 h3 h4 ih
  zwj := by
    intro c h
    by_cases hc : c = '\u200d'
    · exact hc
    · exfalso
      unfold ucls at h
      rw [if_neg hc] at h
      repeat' split at h
      all_goals first
        | cases h
        | (simp only [demoCls] at h; revert h; cases wbClass c <;> simp [wbOf])

end LNlp.Demo
