import Verif.Spec.Uax29
import Verif.Spec.Again
import Verif.Spec.Docs
import Verif.Spec.Case
/- Word boundaries do not change when a text is cut at one of them. -/
namespace LNlp

/-! ### the rules -/

/-- rules WB3 to WB4 -/
def wbPre (l r : WBChar) : Option Bool :=
  if l.cls = .cr ∧ r.cls = .lf then some true
  else if l.cls.isNewline then some false
  else if r.cls.isNewline then some false
  else if l.cls = .zwj ∧ r.pict = true then some true
  else if l.cls = .wSegSpace ∧ r.cls = .wSegSpace then some true
  else if r.cls.ignored then some true
  else none

theorem joins_eq (l r : WBChar) (b a : List WBChar) :
    joins (l :: b) (r :: a) = (wbPre l r).getD (wbRules (bases (l :: b))[0]? (bases (l :: b))[1]? (some r.cls) (bases a)[0]?
      (decide (countRI (bases (l :: b)) % 2 = 1))) := by
  simp only [joins, wbPre]
  repeat' split
  all_goals rfl

theorem newline_not_ignored {c : WB} (h : c.isNewline = true) : c.ignored = false := by
  cases c <;> simp_all [WB.isNewline, WB.ignored]

theorem wbPre_false {l r : WBChar} (h : wbPre l r = some false) : l.cls.isNewline = true ∨ r.cls.isNewline = true := by
  simp only [wbPre] at h
  repeat' split at h
  all_goals simp_all

theorem wbPre_none {l r : WBChar} (h : wbPre l r = none) :
    l.cls.isNewline = false ∧ r.cls.isNewline = false ∧ r.cls.ignored = false := by
  simp only [wbPre] at h
  repeat' split at h
  all_goals simp_all

/-- the rules that look at three classes -/
def wbTriple (a b c : Option WB) : Bool :=
  (a.any WB.ahLetter && b.any WB.midL && c.any WB.ahLetter)
  || (a == some .hebrew && b == some .doubleQuote && c == some .hebrew)
  || (a == some .numeric && b.any WB.midN && c == some .numeric)

/-- the rules that look at two classes -/
def wbNear (l1 r1 : Option WB) (oddRI : Bool) : Bool :=
  (l1.any WB.ahLetter && r1.any WB.ahLetter)
  || (l1 == some .hebrew && r1 == some .singleQuote)
  || (l1 == some .numeric && r1 == some .numeric)
  || (l1.any WB.ahLetter && r1 == some .numeric)
  || (l1 == some .numeric && r1.any WB.ahLetter)
  || (l1 == some .katakana && r1 == some .katakana)
  || ((l1.any WB.wordy || l1 == some .extendNumLet) && r1 == some .extendNumLet)
  || (l1 == some .extendNumLet && r1.any WB.wordy)
  || (oddRI && r1 == some .regional)

theorem rules_eq (l1 l2 r1 r2 : Option WB) (o : Bool) :
    wbRules l1 l2 r1 r2 o = (wbNear l1 r1 o || (wbTriple l1 r1 r2 || wbTriple l2 l1 r1)) := by
  simp only [wbRules, wbNear, wbTriple]
  ac_rfl

theorem triple_none_left (b c : Option WB) : wbTriple none b c = false := by simp [wbTriple]
theorem triple_none_right (a b : Option WB) : wbTriple a b none = false := by simp [wbTriple]
theorem triple_newline_left {a : WB} (h : a.isNewline = true) (b c : Option WB) : wbTriple (some a) b c = false := by
  cases a <;> first | (exfalso; revert h; decide) | rfl
theorem triple_newline_mid {b : WB} (h : b.isNewline = true) (a c : Option WB) : wbTriple a (some b) c = false := by
  cases b <;> first | (exfalso; revert h; decide) | simp [wbTriple, WB.midL, WB.midN]
theorem near_newline {c : WB} (h : c.isNewline = true) (r : Option WB) : wbNear (some c) r false = false := by
  cases c <;> first | (exfalso; revert h; decide) | simp [wbNear, WB.ahLetter, WB.wordy]
theorem near_none (r : Option WB) : wbNear none r false = false := by simp [wbNear]
theorem near_odd (l : Option WB) : wbNear l (some .regional) true = true := by simp [wbNear]

theorem bases_append (a b : List WBChar) : bases (a ++ b) = bases a ++ bases b := by
  simp [bases]

theorem bases_cons (a : WBChar) (b : List WBChar) :
    bases (a :: b) = if a.cls.ignored then bases b else a.cls :: bases b := by
  simp only [bases, List.map_cons, List.filter_cons]
  cases a.cls.ignored <;> rfl

theorem bases_reverse (a : List WBChar) : bases a.reverse = (bases a).reverse := by
  simp [bases]

theorem countRI_append (A B : List WB) :
    countRI (A ++ B) = if ∀ c ∈ A, c = WB.regional then A.length + countRI B else countRI A := by
  induction A with
  | nil => simp
  | cons c A ih =>
    by_cases hc : c = WB.regional
    · subst hc
      simp only [List.cons_append, countRI, ih, List.length_cons]
      by_cases h : ∀ c ∈ A, c = WB.regional
      · rw [if_pos h, if_pos (by intro c hc; rcases List.mem_cons.1 hc with h' | h'; exact h'; exact h c h')]; omega
      · rw [if_neg h, if_neg (fun h' => h (fun c hc => h' c (List.mem_cons_of_mem _ hc)))]
    · rw [if_neg (fun h => hc (h c (by simp)))]
      cases c <;> first | exact absurd rfl hc | rfl

theorem countRI_all {A : List WB} (h : ∀ c ∈ A, c = WB.regional) : countRI A = A.length := by
  have := countRI_append A []
  rw [if_pos h] at this
  simpa [countRI] using this

/-- what lies further back makes no difference -/
theorem rules_append {A B : List WB} {r : WB} {r2 : Option WB}
    (h0 : A = [] → ∃ c, B[0]? = some c ∧ c.isNewline = true)
    (h1 : ∀ m, A = [m] → wbTriple B[0]? (some m) (some r) = false)
    (h2 : (∀ c ∈ A, c = WB.regional) → countRI B % 2 = 0) :
    wbRules (A ++ B)[0]? (A ++ B)[1]? (some r) r2 (decide (countRI (A ++ B) % 2 = 1)) =
      wbRules A[0]? A[1]? (some r) r2 (decide (countRI A % 2 = 1)) := by
  have odd : decide (countRI (A ++ B) % 2 = 1) = decide (countRI A % 2 = 1) := by
    rw [countRI_append]
    split
    · rename_i h
      rw [countRI_all h]
      have := h2 h
      rw [decide_eq_decide]
      omega
    · rfl
  rw [odd]
  match A, h0, h1 with
  | [], h0, _ =>
    obtain ⟨c, hc, hn⟩ := h0 rfl
    rw [show decide (countRI [] % 2 = 1) = false from rfl]
    simp only [List.nil_append, hc, rules_eq, List.getElem?_nil, triple_newline_left hn, triple_none_left,
      near_newline hn, near_none, triple_newline_mid hn, Bool.false_or]
  | [m], _, h1 =>
    have := h1 m rfl
    simp only [List.cons_append, List.nil_append, List.getElem?_cons_zero, List.getElem?_cons_succ, List.getElem?_nil,
      rules_eq, this, triple_none_left]
  | m1 :: m2 :: A', _, _ => rfl

theorem joins_false {l r : WBChar} {b a : List WBChar} (h : joins (l :: b) (r :: a) = false) :
    l.cls.isNewline = true ∨ r.cls.isNewline = true ∨ (l.cls.isNewline = false ∧ r.cls.ignored = false ∧
      wbRules (bases (l :: b))[0]? (bases (l :: b))[1]? (some r.cls) (bases a)[0]?
        (decide (countRI (bases (l :: b)) % 2 = 1)) = false) := by
  rw [joins_eq] at h
  cases hp : wbPre l r with
  | none =>
    rw [hp] at h
    exact .inr (.inr ⟨(wbPre_none hp).1, (wbPre_none hp).2.2, h⟩)
  | some v =>
    rw [hp] at h
    simp only [Option.getD_some] at h
    subst h
    rcases wbPre_false hp with h | h
    · exact .inl h
    · exact .inr (.inl h)

theorem newline_regional {c : WB} (h : c.isNewline = true) : c ≠ WB.regional := by
  rintro rfl; revert h; decide

theorem countRI_newline {c : WB} {A : List WB} (h : c.isNewline = true) : countRI (c :: A) = 0 := by
  cases c <;> first | (exfalso; revert h; decide) | rfl

/-- behind a boundary, boundaries do not depend on what is before it -/
theorem joins_behind {x f r : WBChar} {X p q : List WBChar} (h : joins (x :: X) (f :: (p ++ r :: q)) = false) :
    joins ((f :: p).reverse ++ x :: X) (r :: q) = joins (f :: p).reverse (r :: q) := by
  cases hl : (f :: p).reverse with
  | nil => simp at hl
  | cons l b =>
    rw [List.cons_append, joins_eq, joins_eq]
    cases hp : wbPre l r with
    | some v => rfl
    | none =>
      obtain ⟨hln, hrn, hri⟩ := wbPre_none hp
      simp only [Option.getD_none]
      rw [← List.cons_append, bases_append, ← hl, bases_reverse]
      have nl : x.cls.isNewline = true → bases (x :: X) = x.cls :: bases X := by
        intro h
        rw [bases_cons, newline_not_ignored h]; rfl
      have alt := joins_false h
      refine rules_append ?_ ?_ ?_
      · intro he
        have hf : f.cls.ignored = true := by
          cases hf : f.cls.ignored with
          | true => rfl
          | false => rw [bases_cons, hf] at he; simp at he
        rcases alt with h | h | ⟨_, h, _⟩
        · exact ⟨_, by rw [nl h]; rfl, h⟩
        · rw [newline_not_ignored h] at hf; cases hf
        · rw [h] at hf; cases hf
      · intro m he
        rcases alt with h | h | ⟨h1, h2, h3⟩
        · rw [nl h]; exact triple_newline_left h _ _
        · have : f.cls = m := by
            rw [bases_cons, newline_not_ignored h] at he
            simp only [Bool.false_eq_true, if_false, List.reverse_cons] at he
            have := congrArg List.length he
            simp at this
            rw [this] at he
            simpa using he
          rw [← this]
          exact triple_newline_mid h _ _
        · rw [bases_cons, h2] at he
          simp only [Bool.false_eq_true, if_false, List.reverse_cons] at he
          have hb : bases p = [] := by
            have := congrArg List.length he
            simpa using this
          rw [hb] at he
          simp only [List.reverse_nil, List.nil_append, List.cons.injEq, and_true] at he
          rw [bases_append, hb, bases_cons r, hri] at h3
          simp only [Bool.false_eq_true, if_false, List.nil_append, List.getElem?_cons_zero, rules_eq,
            Bool.or_eq_false_iff] at h3
          rw [← he]
          exact h3.2.1
      · intro hall
        rcases alt with h | h | ⟨h1, h2, h3⟩
        · rw [nl h, countRI_newline h]
        · exact absurd (hall f.cls (by rw [bases_cons, newline_not_ignored h]; simp)) (newline_regional h)
        · have := hall f.cls (by rw [bases_cons, h2]; simp)
          rw [this] at h3
          cases ho : decide (countRI (bases (x :: X)) % 2 = 1) with
          | true => rw [ho, rules_eq, near_odd] at h3; simp at h3
          | false =>
            have := of_decide_eq_false ho
            omega

/-- before a boundary, boundaries do not depend on what is behind it -/
theorem joins_before {x f r : WBChar} {X p q : List WBChar} (h : joins ((f :: p).reverse ++ x :: X) (r :: q) = false) :
    joins (x :: X) (f :: (p ++ r :: q)) = joins (x :: X) (f :: p) := by
  rw [joins_eq, joins_eq]
  cases hp : wbPre x f with
  | some v => rfl
  | none =>
    obtain ⟨hxn, hfn, hfi⟩ := wbPre_none hp
    simp only [Option.getD_none, bases_append, rules_eq]
    cases hb : bases p with
    | cons c cs => simp
    | nil =>
      have : wbTriple (bases (x :: X))[0]? (some f.cls) (bases (r :: q))[0]? = false := by
        cases hl : (f :: p).reverse with
        | nil => simp at hl
        | cons l b =>
          have hbl : bases (l :: b) = [f.cls] := by
            rw [← hl, bases_reverse, bases_cons, hfi, hb]; rfl
          rw [hl, List.cons_append] at h
          rcases joins_false h with h | h | ⟨h1, h2, h3⟩
          · rw [bases_cons, newline_not_ignored h] at hbl
            simp only [Bool.false_eq_true, if_false, List.cons.injEq] at hbl
            rw [hbl.1, hfn] at h; cases h
          · rw [bases_cons r, newline_not_ignored h]
            have key : ∀ c : WB, c.isNewline = true → ∀ a b, wbTriple a b (some c) = false := by
              intro c hc a b
              cases c <;> first | (exfalso; revert hc; decide) | simp [wbTriple, WB.ahLetter]
            exact key _ h _ _
          · rw [← List.cons_append, bases_append, hbl, rules_eq] at h3
            rw [bases_cons r, h2]
            simp only [Bool.or_eq_false_iff] at h3
            simpa using h3.2.2
      simp only [List.nil_append, this, List.getElem?_nil, triple_none_right]

/-! ### the words -/

variable (cls : Char → WBChar)

/-- `joins` on characters -/
def cjoins (bef aft : Str) : Bool := joins (bef.map cls) (aft.map cls)

variable {cls}

theorem cjoins_behind {X p q : Str} (hX : X ≠ []) (hp : p ≠ []) (hq : q ≠ []) (h : cjoins cls X (p ++ q) = false) :
    cjoins cls (p.reverse ++ X) q = cjoins cls p.reverse q := by
  obtain ⟨x, X, rfl⟩ := List.exists_cons_of_ne_nil hX
  obtain ⟨f, p, rfl⟩ := List.exists_cons_of_ne_nil hp
  obtain ⟨r, q, rfl⟩ := List.exists_cons_of_ne_nil hq
  have := joins_behind (x := cls x) (f := cls f) (r := cls r) (X := X.map cls) (p := p.map cls) (q := q.map cls)
    (by simpa [cjoins] using h)
  simpa [cjoins] using this

theorem cjoins_before {X p q : Str} (hX : X ≠ []) (hp : p ≠ []) (hq : q ≠ []) (h : cjoins cls (p.reverse ++ X) q = false) :
    cjoins cls X (p ++ q) = cjoins cls X p := by
  obtain ⟨x, X, rfl⟩ := List.exists_cons_of_ne_nil hX
  obtain ⟨f, p, rfl⟩ := List.exists_cons_of_ne_nil hp
  obtain ⟨r, q, rfl⟩ := List.exists_cons_of_ne_nil hq
  have := joins_before (x := cls x) (f := cls f) (r := cls r) (X := X.map cls) (p := p.map cls) (q := q.map cls)
    (by simpa [cjoins] using h)
  simpa [cjoins] using this

variable (cls)

/-- `ws` are the words of a text after `bef` (nearest first) -/
def GoodWords : Str → List Str → Prop
  | _, [] => True
  | bef, w :: ws => w ≠ [] ∧
    (∀ p q, w = p ++ q → p ≠ [] → q ≠ [] → cjoins cls (p.reverse ++ bef) (q ++ ws.flatten) = true) ∧
    (bef ≠ [] → cjoins cls bef (w ++ ws.flatten) = false) ∧ GoodWords (w.reverse ++ bef) ws

theorem wordsGo_flatten : ∀ (rest bef cur : Str), (wordsGo cls bef cur rest).flatten = cur ++ rest
  | [], bef, cur => by simp [wordsGo]
  | c :: rest, bef, cur => by
    simp only [wordsGo]
    split
    · rw [wordsGo_flatten rest]; simp
    · simp [wordsGo_flatten rest]

theorem wordsGo_good : ∀ (rest b0 cur : Str), cur ≠ [] →
    (∀ p q, cur = p ++ q → p ≠ [] → q ≠ [] → cjoins cls (p.reverse ++ b0) (q ++ rest) = true) →
    (b0 ≠ [] → cjoins cls b0 (cur ++ rest) = false) → GoodWords cls b0 (wordsGo cls (cur.reverse ++ b0) cur rest)
  | [], b0, cur, hc, hj, hb => by
    simp only [wordsGo, GoodWords, List.flatten_nil, and_true]
    exact ⟨hc, hj, hb⟩
  | c :: rest, b0, cur, hc, hj, hb => by
    simp only [wordsGo]
    split
    · rename_i h
      have := wordsGo_good rest b0 (cur ++ [c]) (by simp) (fun p q e hp hq => ?_) (fun h0 => by simpa using hb h0)
      · simpa using this
      · rcases List.append_eq_append_iff.1 e with ⟨a', h1, h2⟩ | ⟨c', h1, h2⟩
        · -- p = cur ++ a', [c] = a' ++ q
          have ha : a' = [] := by
            have := congrArg List.length h2
            simp at this
            have hq' := List.length_pos_iff.2 hq
            exact List.length_eq_zero_iff.1 (by omega)
          subst ha
          simp only [List.append_nil] at h1
          simp only [List.nil_append] at h2
          rw [h1, ← h2]
          exact h
        · -- cur = p ++ c', q = c' ++ [c]
          by_cases hc' : c' = []
          · subst hc'
            simp only [List.append_nil] at h1
            simp only [List.nil_append] at h2
            rw [← h1, h2]
            exact h
          · rw [h2]
            simpa using hj p c' h1 hp hc'
    · rename_i h
      have h' : cjoins cls (cur.reverse ++ b0) (c :: rest) = false := by
        simpa [cjoins] using h
      have fl : (wordsGo cls (c :: (cur.reverse ++ b0)) [c] rest).flatten = c :: rest := by
        rw [wordsGo_flatten]; rfl
      refine ⟨hc, ?_, ?_, ?_⟩
      · rw [fl]; exact hj
      · rw [fl]; exact hb
      · have := wordsGo_good rest (cur.reverse ++ b0) [c] (by simp) (fun p q e hp hq => ?_) (fun _ => h')
        · simpa using this
        · exfalso
          have := congrArg List.length e
          have hp' := List.length_pos_iff.2 hp
          have hq' := List.length_pos_iff.2 hq
          simp at this
          omega

theorem uaxWords_flatten (s : Str) : (uaxWords cls s).flatten = s := by
  cases s with
  | nil => rfl
  | cons c rest => rw [uaxWords, wordsGo_flatten]; rfl

theorem uaxWords_good (s : Str) : GoodWords cls [] (uaxWords cls s) := by
  cases s with
  | nil => trivial
  | cons c rest =>
    refine wordsGo_good cls rest [] [c] (by simp) (fun p q e hp hq => ?_) (fun h => absurd rfl h)
    exfalso
    have := congrArg List.length e
    have hp' := List.length_pos_iff.2 hp
    have hq' := List.length_pos_iff.2 hq
    simp at this
    omega

theorem good_wordsGo : ∀ (ws : List Str) (q b0 cur : Str), cur ≠ [] → GoodWords cls b0 ((cur ++ q) :: ws) →
    wordsGo cls (cur.reverse ++ b0) cur (q ++ ws.flatten) = (cur ++ q) :: ws := by
  intro ws
  induction ws with
  | nil =>
    intro q
    induction q with
    | nil => intro b0 cur hc hg; simp [wordsGo]
    | cons c q ih =>
      intro b0 cur hc hg
      have hj := hg.2.1 cur (c :: q) rfl hc (by simp)
      simp only [List.flatten_nil, List.append_nil] at hj ⊢
      rw [wordsGo, if_pos (show joins _ _ = true from hj)]
      have := ih b0 (cur ++ [c]) (by simp) (by simpa using hg)
      simpa using this
  | cons w2 ws2 ihw =>
    intro q
    induction q with
    | nil =>
      intro b0 cur hc hg
      simp only [List.append_nil] at hg
      obtain ⟨h1, h2, h3, h4⟩ := hg
      obtain ⟨c, q2, rfl⟩ := List.exists_cons_of_ne_nil h4.1
      have hb := h4.2.2.1 (by simp [hc])
      simp only [List.flatten_cons, List.nil_append, List.cons_append, List.append_nil]
      rw [wordsGo, if_neg (by simpa [cjoins] using hb)]
      have := ihw q2 (cur.reverse ++ b0) [c] (by simp) (by simpa using h4)
      congr 1
    | cons c q ih =>
      intro b0 cur hc hg
      have hj := hg.2.1 cur (c :: q) rfl hc (by simp)
      simp only [List.cons_append] at hj ⊢
      rw [wordsGo, if_pos (show joins _ _ = true from hj)]
      have := ih b0 (cur ++ [c]) (by simp) (by simpa using hg)
      simpa using this

theorem good_uaxWords {ws : List Str} (h : GoodWords cls [] ws) : uaxWords cls ws.flatten = ws := by
  cases ws with
  | nil => rfl
  | cons w ws =>
    obtain ⟨c, q, rfl⟩ := List.exists_cons_of_ne_nil h.1
    have := good_wordsGo cls ws q [] [c] (by simp) (by simpa using h)
    simpa [uaxWords] using this

theorem good_left : ∀ (a : List Str) (bef : Str) (b : List Str), b.flatten ≠ [] →
    cjoins cls (a.flatten.reverse ++ bef) b.flatten = false → GoodWords cls bef (a ++ b) → GoodWords cls bef a
  | [], _, _, _, _, _ => trivial
  | w :: a, bef, b, hb, hk, hg => by
    rw [List.cons_append] at hg
    obtain ⟨h1, h2, h3, h4⟩ := hg
    refine ⟨h1, ?_, ?_, good_left a (w.reverse ++ bef) b hb (by simpa using hk) h4⟩
    · intro p q e hp hq
      have := h2 p q e hp hq
      rw [List.flatten_append, ← List.append_assoc] at this
      rw [cjoins_before (by simp [hp]) (by simp [hq]) hb] at this
      · exact this
      · rw [e] at hk
        simpa using hk
    · intro h0
      have := h3 h0
      rw [List.flatten_append, ← List.append_assoc] at this
      rwa [cjoins_before h0 (by simp [h1]) hb (by simpa using hk)] at this

theorem good_right : ∀ (b : List Str) (d bef : Str), bef ≠ [] → (b ≠ [] → cjoins cls bef (d.reverse ++ b.flatten) = false) →
    GoodWords cls (d ++ bef) b → GoodWords cls d b
  | [], _, _, _, _, _ => trivial
  | w :: b, d, bef, h0, hk, hg => by
    obtain ⟨h1, h2, h3, h4⟩ := hg
    have hk := hk (by simp)
    refine ⟨h1, ?_, ?_, good_right b (w.reverse ++ d) bef h0 (fun _ => by simpa using hk) (by simpa using h4)⟩
    · intro p q e hp hq
      have := h2 p q e hp hq
      have key := cjoins_behind (cls := cls) (X := bef) (p := d.reverse ++ p) (q := q ++ b.flatten) h0 (by simp [hp]) (by simp [hq])
        (by rw [e] at hk; simpa using hk)
      simp only [List.reverse_append, List.reverse_reverse, List.append_assoc] at key
      rw [← key]
      exact this
    · intro hd
      have := h3 (by simp [hd])
      have key := cjoins_behind (cls := cls) (X := bef) (p := d.reverse) (q := w ++ b.flatten) h0 (by simp [hd]) (by simp [h1])
        (by simpa using hk)
      simp only [List.reverse_reverse] at key
      rw [← key]
      exact this

theorem good_mid : ∀ (a : List Str) (bef : Str) (b : List Str), GoodWords cls bef (a ++ b) →
    GoodWords cls (a.flatten.reverse ++ bef) b
  | [], _, _, h => h
  | w :: a, bef, b, h => by
    have := good_mid a (w.reverse ++ bef) b h.2.2.2
    simpa using this

theorem good_nonempty : ∀ (a : List Str) (bef : Str), GoodWords cls bef a → ∀ w ∈ a, w ≠ []
  | w :: a, bef, h, x, hx => by
    rcases List.mem_cons.1 hx with rfl | hx
    · exact h.1
    · exact good_nonempty a _ h.2.2.2 x hx

theorem flatten_ne_nil {a : List Str} (h : ∀ w ∈ a, w ≠ []) (ha : a ≠ []) : a.flatten ≠ [] := by
  cases a with
  | nil => exact absurd rfl ha
  | cons w a => simp [h w (by simp)]

/-- cutting a text at a boundary does not change the words -/
theorem uaxWords_cut (s : Str) (a b : List Str) (h : uaxWords cls s = a ++ b) :
    uaxWords cls a.flatten = a ∧ uaxWords cls b.flatten = b := by
  have hg := uaxWords_good cls s
  rw [h] at hg
  by_cases ha : a = []
  · subst ha
    exact ⟨rfl, good_uaxWords cls (by simpa using hg)⟩
  by_cases hb : b = []
  · subst hb
    exact ⟨good_uaxWords cls (by simpa using hg), rfl⟩
  have hne := good_nonempty cls _ _ hg
  have fa : a.flatten ≠ [] := flatten_ne_nil (fun w hw => hne w (by simp [hw])) ha
  have fb : b.flatten ≠ [] := flatten_ne_nil (fun w hw => hne w (by simp [hw])) hb
  have hm := good_mid cls a [] b hg
  simp only [List.append_nil] at hm
  have hk : cjoins cls a.flatten.reverse b.flatten = false := by
    cases b with
    | nil => exact absurd rfl hb
    | cons w b => simpa using hm.2.2.1 (by simp [fa])
  exact ⟨good_uaxWords cls (good_left cls a [] b fb (by simpa using hk) hg),
    good_uaxWords cls (good_right cls b [] a.flatten.reverse (by simp [fa]) (fun _ => by simpa using hk) (by simpa using hm))⟩

/-! ### single rules -/

variable {cls}

theorem cjoins_letters {c d : Char} (hc : (cls c).cls = .aletter) (hd : (cls d).cls = .aletter) (b a : Str) :
    cjoins cls (c :: b) (d :: a) = true := by
  simp only [cjoins, List.map_cons, joins_eq, bases_cons, hc, rules_eq]
  cases h : wbPre (cls c) (cls d) with
  | none => simp [WB.ignored, wbNear, hd, WB.ahLetter]
  | some v =>
    cases v with
    | true => rfl
    | false => rcases wbPre_false h with h | h <;> simp [hc, hd, WB.isNewline] at h

theorem cjoins_digits {c d : Char} (hc : (cls c).cls = .numeric) (hd : (cls d).cls = .numeric) (b a : Str) :
    cjoins cls (c :: b) (d :: a) = true := by
  simp only [cjoins, List.map_cons, joins_eq, bases_cons, hc, rules_eq]
  cases h : wbPre (cls c) (cls d) with
  | none => simp [WB.ignored, wbNear, hd]
  | some v =>
    cases v with
    | true => rfl
    | false => rcases wbPre_false h with h | h <;> simp [hc, hd, WB.isNewline] at h

theorem cjoins_other {d : Char} (hd : cls d = ⟨.other, false⟩) (b a : Str) : cjoins cls b (d :: a) = false := by
  cases b with
  | nil => rfl
  | cons c b =>
    simp only [cjoins, List.map_cons, joins_eq, hd, rules_eq]
    have : wbPre (cls c) ⟨.other, false⟩ ≠ some true := by
      simp only [wbPre]
      repeat' split
      all_goals simp_all [WB.ignored]
    cases h : wbPre (cls c) ⟨.other, false⟩ with
    | none => simp [wbNear, wbTriple, WB.ahLetter, WB.wordy, WB.midL, WB.midN]
    | some v =>
      cases v with
      | true => exact absurd h this
      | false => rfl

theorem uaxWords_run {w : Str} (hw : w ≠ []) (h : ∀ c ∈ w, ∀ d ∈ w, ∀ b a, cjoins cls (c :: b) (d :: a) = true) :
    uaxWords cls w = [w] := by
  have := good_uaxWords cls (ws := [w]) ⟨hw, fun p q e hp hq => ?_, fun h => absurd rfl h, trivial⟩
  · simpa using this
  · obtain ⟨d, q, rfl⟩ := List.exists_cons_of_ne_nil hq
    cases hr : p.reverse with
    | nil => simp at hr; exact absurd hr hp
    | cons c p' =>
      have hc : c ∈ p := by rw [← List.mem_reverse, hr]; simp
      exact h c (by rw [e]; simp [hc]) d (by rw [e]; simp) _ _

theorem wordsGo_map (f : Char → Char) (hf : ∀ c, cls (f c) = cls c) : ∀ (rest bef cur : Str),
    wordsGo cls (bef.map f) (cur.map f) (rest.map f) = (wordsGo cls bef cur rest).map (List.map f)
  | [], bef, cur => rfl
  | c :: rest, bef, cur => by
    have e : ∀ s : Str, (s.map f).map cls = s.map cls := by
      intro s; rw [List.map_map]; congr 1; funext c; exact hf c
    simp only [List.map_cons, wordsGo]
    have e1 : joins ((bef.map f).map cls) (cls (f c) :: (rest.map f).map cls) =
        joins (bef.map cls) (cls c :: rest.map cls) := by rw [e, e, hf]
    rw [e1]
    split
    · have := wordsGo_map f hf rest (c :: bef) (cur ++ [c])
      simpa using this
    · have := wordsGo_map f hf rest (c :: bef) [c]
      simpa using this

theorem uaxWords_map (f : Char → Char) (hf : ∀ c, cls (f c) = cls c) (s : Str) :
    uaxWords cls (s.map f) = (uaxWords cls s).map (List.map f) := by
  cases s with
  | nil => rfl
  | cons c rest => exact wordsGo_map f hf rest [c] [c]

/-! ### where the boundaries are -/

theorem good_boundary : ∀ (ws : List Str) (bef a b : Str), GoodWords cls bef ws → ws.flatten = a ++ b → a ≠ [] → b ≠ [] →
    cjoins cls (a.reverse ++ bef) b = false → ∃ u v, ws = u ++ v ∧ u.flatten = a
  | [], _, a, b, _, e, ha, _, _ => absurd (List.append_eq_nil_iff.1 e.symm).1 ha
  | w :: ws, bef, a, b, h, e, ha, hb, hj => by
    rw [List.flatten_cons] at e
    rcases List.append_eq_append_iff.1 e with ⟨a', h1, h2⟩ | ⟨c', h1, h2⟩
    · by_cases hn : a' = []
      · subst hn
        exact ⟨[w], ws, rfl, by simpa using h1.symm⟩
      · obtain ⟨u, v, e1, e2⟩ := good_boundary ws (w.reverse ++ bef) a' b h.2.2.2 h2 hn hb (by rw [h1] at hj; simpa using hj)
        exact ⟨w :: u, v, by rw [e1]; rfl, by rw [List.flatten_cons, e2, h1]⟩
    · by_cases hn : c' = []
      · subst hn
        exact ⟨[w], ws, rfl, by simpa using h1⟩
      · have := h.2.1 a c' h1 ha hn
        rw [← h2, hj] at this
        cases this

theorem uaxWords_boundary (a b : Str) (ha : a ≠ []) (hb : b ≠ []) :
    cjoins cls a.reverse b = false ↔ ∃ u v, uaxWords cls (a ++ b) = u ++ v ∧ u.flatten = a := by
  constructor
  · intro h
    exact good_boundary _ [] a b (uaxWords_good cls _) (uaxWords_flatten cls _) ha hb (by simpa using h)
  · rintro ⟨u, v, e, hu⟩
    have hg := uaxWords_good cls (a ++ b)
    have hf := uaxWords_flatten cls (a ++ b)
    rw [e] at hg hf
    rw [List.flatten_append, hu] at hf
    have hv := List.append_cancel_left hf
    have hm := good_mid cls u [] v hg
    rw [hu, List.append_nil] at hm
    cases v with
    | nil => exact absurd hv.symm hb
    | cons w v =>
      have := hm.2.2.1 (by simp [ha])
      rw [← List.flatten_cons, hv] at this
      exact this

/-- the word that begins at a boundary and goes on -/
theorem uaxWords_begins (pre : Str) (d x : Char) (post : Str) (hb : pre = [] ∨ cjoins cls pre.reverse (d :: x :: post) = false)
    (hj : cjoins cls (d :: pre.reverse) (x :: post) = true) :
    ∃ w ∈ uaxWords cls (pre ++ d :: x :: post), w.head? = some d ∧ x ∈ w := by
  have key : ∃ u v, uaxWords cls (pre ++ d :: x :: post) = u ++ v ∧ u.flatten = pre := by
    by_cases hp : pre = []
    · exact ⟨[], _, rfl, by simp [hp]⟩
    · rcases hb with hb | hb
      · exact absurd hb hp
      · exact (uaxWords_boundary pre _ hp (by simp)).1 hb
  obtain ⟨u, v, e, hu⟩ := key
  have hf := uaxWords_flatten cls (pre ++ d :: x :: post)
  rw [e, List.flatten_append, hu] at hf
  have hv := List.append_cancel_left hf
  have hne := good_nonempty cls _ [] (uaxWords_good cls (pre ++ d :: x :: post))
  cases v with
  | nil => simp at hv
  | cons w v =>
    refine ⟨w, by rw [e]; simp, ?_⟩
    obtain ⟨d', w', rfl⟩ := List.exists_cons_of_ne_nil (hne w (by rw [e]; simp))
    simp only [List.flatten_cons, List.cons_append, List.cons.injEq] at hv
    obtain ⟨rfl, hv⟩ := hv
    refine ⟨rfl, ?_⟩
    cases w' with
    | cons y w' =>
      simp only [List.cons_append, List.cons.injEq] at hv
      simp [hv.1]
    | nil =>
      exfalso
      have := (uaxWords_boundary (cls := cls) (pre ++ [d']) (x :: post) (by simp) (by simp)).2
        ⟨u ++ [[d']], v, by simpa using e, by simp [hu]⟩
      rw [List.reverse_append] at this
      rw [show ([d'].reverse ++ pre.reverse) = d' :: pre.reverse from rfl, hj] at this
      cases this

/-! ### lowercasing -/

theorem wbPre_same {l r l' r' : WBChar} (hr : r'.cls = r.cls) (hz : l.cls ≠ .zwj)
    (hl : l'.cls = l.cls ∨ (l'.cls = .extend ∧ l.cls = .aletter)) : wbPre l' r' = wbPre l r := by
  rcases hl with hl | ⟨h1, h2⟩
  · simp only [wbPre, hl, hr, hz, false_and, if_false]
  · simp only [wbPre, h1, h2, hr, WB.isNewline, reduceCtorEq, false_and, if_false, Bool.false_eq_true]

theorem Lowers.ne_nil {s t : Str} (h : Lowers cls s t) (hs : s ≠ []) : t ≠ [] := by
  cases h with
  | nil => exact absurd rfl hs
  | cons => simp

theorem bases_marks {ext : Str} (h : ∀ e ∈ ext, (cls e).cls = .extend) : bases (ext.map cls) = [] := by
  simp only [bases, List.filter_eq_nil_iff, List.mem_map]
  rintro c ⟨x, ⟨e, he, rfl⟩, rfl⟩
  simp [h e he, WB.ignored]

theorem Lowers.bases {s t : Str} (h : Lowers cls s t) : bases (t.map cls) = bases (s.map cls) := by
  induction h with
  | nil => rfl
  | cons c d ext same marks _ _ _ ih =>
    rw [List.map_cons, List.map_cons, List.map_append, bases_cons, bases_cons, bases_append, bases_marks marks,
      List.nil_append, ih, same]

theorem Lowers.append {a b a' b' : Str} (h1 : Lowers cls a a') (h2 : Lowers cls b b') : Lowers cls (a ++ b) (a' ++ b') := by
  induction h1 with
  | nil => exact h2
  | cons c d ext h1 h2 h3 h4 _ ih => simpa using Lowers.cons c d ext h1 h2 h3 h4 ih

/-- the last character -/
theorem Lowers.last {s t : Str} (h : Lowers cls s t) (hs : s ≠ []) : ∃ c ∈ s, ∃ d, s.reverse.head? = some c ∧ t.reverse.head? = some d ∧
    ((cls d).cls = (cls c).cls ∨ ((cls d).cls = .extend ∧ (cls c).cls = .aletter)) := by
  induction h with
  | nil => exact absurd rfl hs
  | @cons c d ext s t same marks letter _ rest ih =>
    by_cases h : s = []
    · subst h
      cases rest
      refine ⟨c, by simp, ?_⟩
      by_cases he : ext = []
      · subst he
        exact ⟨d, by simp, by simp, .inl same⟩
      · refine ⟨ext.getLast he, by simp, ?_, .inr ⟨marks _ (List.getLast_mem he), letter he⟩⟩
        simp [List.getLast?_eq_some_getLast he]
    · obtain ⟨c', hc', d', h1, h2, h3⟩ := ih h
      have ht := rest.ne_nil h
      refine ⟨c', by simp [hc'], d', ?_, ?_, h3⟩
      · simp only [List.reverse_cons, List.head?_append, h1]; rfl
      · simp only [List.reverse_cons, List.reverse_append, List.head?_append, h2]; rfl

theorem Lowers.cjoins {a b a' b' : Str} (h1 : Lowers cls a a') (h2 : Lowers cls b b') (ha : a ≠ []) (hb : b ≠ [])
    (hz : ∀ c ∈ a, (cls c).cls ≠ .zwj) : cjoins cls a'.reverse b' = cjoins cls a.reverse b := by
  obtain ⟨c, hc, d, e1, e2, e3⟩ := h1.last ha
  have hbs : LNlp.bases (a'.reverse.map cls) = LNlp.bases (a.reverse.map cls) := by
    rw [List.map_reverse, List.map_reverse, bases_reverse, bases_reverse, h1.bases]
  obtain ⟨x, xs, ex⟩ : ∃ x xs, a.reverse = x :: xs := List.exists_cons_of_ne_nil (by simp [ha])
  obtain ⟨y, ys, ey⟩ : ∃ y ys, a'.reverse = y :: ys := List.exists_cons_of_ne_nil (by simp [h1.ne_nil ha])
  rw [ex] at e1 hbs
  rw [ey] at e2 hbs
  simp only [List.head?_cons, Option.some.injEq] at e1 e2
  subst e1 e2
  cases h2 with
  | nil => exact absurd rfl hb
  | @cons c d ext s t same marks letter _ rest =>
    rw [ex, ey]
    simp only [LNlp.cjoins, List.map_cons, joins_eq] at hbs ⊢
    rw [wbPre_same same (hz _ hc) e3, hbs, same, List.map_append, bases_append, bases_marks marks, List.nil_append, rest.bases]

/-- where the text is cut -/
theorem Lowers.split {s t : Str} (h : Lowers cls s t) : ∀ p q, t = p ++ q → p ≠ [] → q ≠ [] →
    (∃ a b, s = a ++ b ∧ a ≠ [] ∧ b ≠ [] ∧ Lowers cls a p ∧ Lowers cls b q) ∨
    (∃ l r p' q', p.reverse = l :: p' ∧ q = r :: q' ∧ (cls r).cls = .extend ∧ ((cls l).cls = .aletter ∨ (cls l).cls = .extend)) := by
  induction h with
  | nil => intro p q e hp _; exact absurd (List.append_eq_nil_iff.1 e.symm).1 hp
  | @cons c d ext s t same marks letter dig rest ih =>
    intro p q e hp hq
    obtain ⟨d', p, rfl⟩ := List.exists_cons_of_ne_nil hp
    simp only [List.cons_append, List.cons.injEq] at e
    obtain ⟨rfl, e⟩ := e
    rcases List.append_eq_append_iff.1 e with ⟨a', h1, h2⟩ | ⟨c', h1, h2⟩
    · -- p = ext ++ a', t = a' ++ q
      by_cases ha : a' = []
      · subst ha
        simp only [List.append_nil] at h1
        simp only [List.nil_append] at h2
        subst h1 h2
        refine .inl ⟨[c], s, rfl, by simp, ?_, ?_, rest⟩
        · rintro rfl; cases rest; exact hq rfl
        · have := Lowers.cons c d p same marks letter dig (.nil (cls := cls))
          simpa using this
      · rcases ih a' q h2 ha hq with ⟨a, b, e1, e2, e3, e4, e5⟩ | ⟨l, r, p', q', e1, e2, e3⟩
        · refine .inl ⟨c :: a, b, by rw [e1]; rfl, by simp, e3, ?_, e5⟩
          rw [h1]
          exact .cons c d ext same marks letter dig e4
        · refine .inr ⟨l, r, p' ++ (d :: ext).reverse, q', ?_, e2, e3⟩
          rw [h1, List.reverse_cons, List.reverse_append, e1]
          simp
    · -- ext = p ++ c', q = c' ++ t
      by_cases hc : c' = []
      · subst hc
        simp only [List.append_nil] at h1
        simp only [List.nil_append] at h2
        subst h1 h2
        refine .inl ⟨[c], s, rfl, by simp, ?_, ?_, rest⟩
        · rintro rfl; cases rest; exact hq rfl
        · have := Lowers.cons c d ext same marks letter dig (.nil (cls := cls))
          simpa using this
      · obtain ⟨r, c', rfl⟩ := List.exists_cons_of_ne_nil hc
        have hr : (cls r).cls = .extend := marks r (by rw [h1]; simp)
        have hl : (cls c).cls = .aletter := letter (by rw [h1]; simp)
        cases hp' : p.reverse with
        | nil =>
          refine .inr ⟨d, r, [], c' ++ t, by simp at hp'; simp [hp'], by rw [h2]; rfl, hr, .inl (by rw [same, hl])⟩
        | cons l p' =>
          refine .inr ⟨l, r, p' ++ [d], c' ++ t, by simp [hp'], by rw [h2]; rfl, hr, .inr ?_⟩
          apply marks
          rw [h1]
          have : l ∈ p := by rw [← List.mem_reverse, hp']; simp
          simp [this]

theorem Lowers.single {s t : Str} (h : Lowers cls s t) (hz : ∀ c ∈ s, (cls c).cls ≠ .zwj) (hs : uaxWords cls s = [s]) :
    uaxWords cls t = [t] := by
  have hne : s ≠ [] := by rintro rfl; simp [uaxWords] at hs
  have hg := uaxWords_good cls s
  rw [hs] at hg
  have := good_uaxWords cls (ws := [t]) ⟨h.ne_nil hne, fun p q e hp hq => ?_, fun h => absurd rfl h, trivial⟩
  · simpa using this
  · simp only [List.append_nil, List.flatten_nil]
    rcases h.split p q e hp hq with ⟨a, b, e1, e2, e3, e4, e5⟩ | ⟨l, r, p', q', e1, e2, e3, e4⟩
    · rw [e4.cjoins e5 e2 e3 (fun c hc => hz c (by rw [e1]; simp [hc]))]
      have := hg.2.1 a b e1 e2 e3
      simpa using this
    · rw [e1, e2]
      simp only [LNlp.cjoins, List.map_cons, joins_eq]
      have : wbPre (cls l) (cls r) = some true := by
        rcases e4 with e4 | e4 <;> simp [wbPre, e3, e4, WB.isNewline, WB.ignored]
      rw [this]; rfl

end LNlp
