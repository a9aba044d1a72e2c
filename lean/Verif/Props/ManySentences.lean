import Verif.Lemmas.ManySentences
import Verif.Props.Sentences
import Verif.Props.Document
/- C160: clauses of texts of many sentences. -/
namespace LNlp
variable {W : World}

/-- the clauses that a query lists are those of the line -/
def ClausesAre (r : ClauseKeywordResolver) (l : LLLine W) (q : List (LRange × Str × List Clause)) : Prop :=
  ∀ i j text k, ((i, j), text, [k]) ∈ q ↔ text = coveredText l.ll_tokens (i, j) ∧ ClauseAt r l i j k

theorem clauses_are {size : Str → Nat} {input : List (InputToken W)} {l : LLLine W} {q : List (LRange × Str × List Clause)}
    (wf : ∀ t ∈ input, t.WF) (ok : createLineFromInputTokens W input size = .ok l) (n1 : NoCustom .textTag input)
    (n2 : NoCustom .clauseKeyword input) (n3 : NoCustom .clause input) (ne : l.ll_tokens ≠ []) {r : ClauseKeywordResolver}
    (hq : ClauseQuery r l q) : ClausesAre r l q := by
  obtain ⟨p1, p2, l1, l2, e1, e2, e3⟩ := hq
  obtain ⟨l1', l2', q2, f1, f2, f3, _, f4⟩ := C94_clauses_of_input wf ok n1 n2 n3 ne r p1 p2
  rw [e1] at f1; cases f1
  rw [e2] at f2; cases f2
  rw [e3] at f3; cases f3
  intro i j text k
  refine (f4 i j text [k]).trans ?_
  constructor
  · rintro ⟨h, k', e, hc⟩; cases e; exact ⟨h, hc⟩
  · exact fun ⟨h, hc⟩ => ⟨h, k, rfl, hc⟩

theorem from_parts {r : ClauseKeywordResolver} {l : LLLine W} {q : List (LRange × Str × List Clause)} (hq : ClausesAre r l q)
    {ps : List (WithClauses W)} (ne : ps ≠ []) (ends : SentencesEnd r (ps.map (·.1))) (hps : ∀ p ∈ ps, ClausesAre r p.1 p.2)
    (ht : l.ll_tokens.map (·.token) = (ps.map (·.1)).flatMap (fun x => x.ll_tokens.map (·.token))) (i j : Nat) (text : Str)
    (kind : Clause) : ((i, j), text, [kind]) ∈ q ↔ FromPart r ps i j text kind := by
  obtain ⟨_, _, hX, hC⟩ := clauseAt_all r (ps.map (·.1)) (by simpa using ne) ends l ht
  have cond : ∀ o ∈ ps, ((∃ a b, ClauseAt r o.1 a b .Condition) ↔ HasCondition o) := by
    intro o ho
    constructor
    · rintro ⟨a, b, h⟩
      exact ⟨((a, b), _, [.Condition]), (hps o ho ..).2 ⟨rfl, h⟩, rfl⟩
    · rintro ⟨⟨⟨a, b⟩, t, vs⟩, hm, he⟩
      simp only at he
      subst he
      exact ⟨a, b, ((hps o ho ..).1 hm).2⟩
  have kinds : ∀ {before behind : List (WithClauses W)} {p : WithClauses W} {i' : Nat} {k : Clause}, ps = before ++ p :: behind →
      kindWithin (∃ o ∈ before.map (·.1) ++ behind.map (·.1), HasPart r o)
        (∃ o ∈ before.map (·.1), ∃ a b, ClauseAt r o a b .Condition) (AfterThen r p.1 i') k =
      kindWithin (∃ o ∈ before ++ behind, HasPart r o.1) (∃ o ∈ before, HasCondition o) (AfterThen r p.1 i') k := by
    intro before behind p i' k h
    congr 1
    · refine propext ⟨?_, ?_⟩
      · rintro ⟨o, ho, hp⟩
        rw [← List.map_append] at ho
        obtain ⟨o', ho', rfl⟩ := List.mem_map.1 ho
        exact ⟨o', ho', hp⟩
      · rintro ⟨o, ho, hp⟩
        exact ⟨o.1, by rw [← List.map_append]; exact List.mem_map.2 ⟨o, ho, rfl⟩, hp⟩
    · refine propext ⟨?_, ?_⟩
      · rintro ⟨o, ho, hp⟩
        obtain ⟨o', ho', rfl⟩ := List.mem_map.1 ho
        exact ⟨o', ho', (cond o' (by rw [h]; simp [ho'])).1 hp⟩
      · rintro ⟨o, ho, hp⟩
        exact ⟨o.1, List.mem_map.2 ⟨o, ho, rfl⟩, (cond o (by rw [h]; simp [ho])).2 hp⟩
  rw [hq, hC]
  constructor
  · rintro ⟨rfl, before, p, behind, i', j', k, h, rfl, rfl, hc, rfl⟩
    obtain ⟨B, P', hB, hb, hp'⟩ := List.map_eq_append_iff.1 h
    obtain ⟨P, C, hP, rfl, hC'⟩ := List.map_eq_cons_iff.1 hp'
    subst hb hC' hP
    have hlt := clauseAt_lt hc
    refine ⟨B, P, C, i', j', k, hB, rfl, rfl, (hps P (by rw [hB]; simp) ..).2 ⟨?_, hc⟩, kinds hB⟩
    exact hX _ _ _ h i' j' hlt.1 hlt.2
  · rintro ⟨B, P, C, i', j', k, h, rfl, rfl, hm, rfl⟩
    obtain ⟨ht', hc⟩ := (hps P (by rw [h]; simp) ..).1 hm
    have hlt := clauseAt_lt hc
    have hsp : ps.map (·.1) = B.map (·.1) ++ P.1 :: C.map (·.1) := by rw [h]; simp
    refine ⟨?_, B.map (·.1), P.1, C.map (·.1), i', j', k, hsp, rfl, rfl, hc, (kinds h).symm⟩
    rw [ht', hX _ _ _ hsp i' j' hlt.1 hlt.2]

theorem claused_mem {α : Type} {make : α → R (LLLine W)} {r : ClauseKeywordResolver} : ∀ {xs : List α} {ps : List (WithClauses W)},
    ClausedAll make r xs ps → ∀ p ∈ ps, ∃ x ∈ xs, make x = .ok p.1 ∧ p.1.ll_tokens ≠ [] ∧ ClauseQuery r p.1 p.2
  | [], [], _ => by intro p hp; cases hp
  | [], _ :: _, h => h.elim
  | _ :: _, [], h => h.elim
  | x :: xs, p :: ps, h => by
    intro o ho
    rcases List.mem_cons.1 ho with rfl | ho
    · exact ⟨x, by simp, h.1, h.2.1, h.2.2.1⟩
    · obtain ⟨y, hy, hh⟩ := claused_mem h.2.2.2 o ho
      exact ⟨y, by simp [hy], hh⟩

theorem claused_tokens {size : Str → Nat} {r : ClauseKeywordResolver} : ∀ {xss : List (List (InputToken W))} {ps : List (WithClauses W)},
    (∀ xs ∈ xss, ∀ t ∈ xs, t.WF) → ClausedAll (fun xs => createLineFromInputTokens W xs size) r xss ps →
    (ps.map (·.1)).flatMap (fun x => x.ll_tokens.map (·.token)) = xss.flatten.flatMap (fun t => (tokensOf W size t).map (·.1))
  | [], [], _, _ => rfl
  | [], _ :: _, _, h => h.elim
  | _ :: _, [], _, h => h.elim
  | xs :: xss, p :: ps, wf, h => by
    obtain ⟨_, htx, _⟩ := create_inv (wf xs (by simp)) h.1
    rw [List.map_cons, List.flatMap_cons, claused_tokens (fun ys hy => wf ys (by simp [hy])) h.2.2.2, List.flatten_cons, List.flatMap_append,
      htx, layoutM_tokens, List.map_flatMap]

/-- C160: if every list of inputs but the last ends a sentence, the clauses of the line of all the inputs are those of the lines
of the lists, behind one another; a clause that is a condition or a trailing effect stays so, a leading effect becomes a
trailing effect exactly if one of the lists before has a condition, and an independent clause stays so exactly if all the
other lists have nothing but separators. -/
theorem C160_inputs {size : Str → Nat} {xss : List (List (InputToken W))} {l : LLLine W} (ne : xss ≠ [])
    (wf : ∀ xs ∈ xss, ∀ t ∈ xs, t.WF) (ok : createLineFromInputTokens W xss.flatten size = .ok l)
    (n1 : NoCustom .textTag xss.flatten) (n2 : NoCustom .clauseKeyword xss.flatten) (n3 : NoCustom .clause xss.flatten)
    {r : ClauseKeywordResolver} {ps : List (WithClauses W)}
    (parts : ClausedAll (fun xs => createLineFromInputTokens W xs size) r xss ps) (ends : SentencesEnd r (ps.map (·.1)))
    {q : List (LRange × Str × List Clause)} (hq : ClauseQuery r l q) (i j : Nat) (text : Str) (kind : Clause) :
    ((i, j), text, [kind]) ∈ q ↔ FromPart r ps i j text kind := by
  have wf' : ∀ t ∈ xss.flatten, t.WF := by
    intro t ht
    obtain ⟨xs, h1, h2⟩ := List.mem_flatten.1 ht
    exact wf xs h1 t h2
  have mono : ∀ {k : Ty W}, NoCustom k xss.flatten → ∀ xs ∈ xss, NoCustom k xs :=
    fun h xs hx t ht => h t (List.mem_flatten.2 ⟨xs, hx, ht⟩)
  have nps : ps ≠ [] := by
    rintro rfl
    cases xss with
    | nil => exact ne rfl
    | cons _ _ => exact parts.elim
  obtain ⟨_, ht, _⟩ := create_inv wf' ok
  have htok : l.ll_tokens.map (·.token) = (ps.map (·.1)).flatMap (fun x => x.ll_tokens.map (·.token)) := by
    rw [claused_tokens wf parts, ht, layoutM_tokens, List.map_flatMap]
  have nel : l.ll_tokens ≠ [] := by
    intro h0
    obtain ⟨p, hp⟩ := List.exists_mem_of_ne_nil ps nps
    obtain ⟨x, _, _, hne, _⟩ := claused_mem parts p hp
    rw [h0] at htok
    have := (List.flatMap_eq_nil_iff.1 htok.symm) p.1 (List.mem_map.2 ⟨p, hp, rfl⟩)
    simp [hne] at this
  refine from_parts (clauses_are wf' ok n1 n2 n3 nel hq) nps ends (fun p hp => ?_) htok i j text kind
  obtain ⟨xs, hx, okx, hne, hqx⟩ := claused_mem parts p hp
  exact clauses_are (wf xs hx) okx (mono n1 xs hx) (mono n2 xs hx) (mono n3 xs hx) hne hqx

def Demo.sentences : List Str := ["if a.".toList, "if a.".toList, "b,c".toList]
def Demo.ofText (s : Str) : LLLine Demo.W := Demo.getOk Demo.emptyLine (createLineFromString Demo.W s)
def Demo.sentenceParts : List (WithClauses Demo.W) := Demo.sentences.map (fun s => (Demo.ofText s, Demo.clauseQ (Demo.ofText s)))
theorem Demo.sentences_end : SentencesEnd Demo.kws (Demo.sentenceParts.map (·.1)) := ⟨Demo.ifA_ends, Demo.ifA_ends, trivial⟩
theorem Demo.sentences_claused : ClausedAll (fun t => createLineFromString Demo.W t) Demo.kws Demo.sentences Demo.sentenceParts :=
  ⟨rfl, (by intro h; cases h), ⟨0, 0, _, _, rfl, rfl, rfl⟩, rfl, (by intro h; cases h), ⟨0, 0, _, _, rfl, rfl, rfl⟩, rfl,
    (by intro h; cases h), ⟨0, 0, _, _, rfl, rfl, rfl⟩, trivial⟩
def Demo.manyLine : LLLine Demo.W :=
  Demo.getOk Demo.emptyLine (createLineFromInputTokens Demo.W [Demo.ifA, Demo.ifA, Demo.bC].flatten utf8Len)
theorem Demo.manyLine_q : ClauseQuery Demo.kws Demo.manyLine (Demo.clauseQ Demo.manyLine) := ⟨0, 0, _, _, rfl, rfl, rfl⟩

example := C160_inputs (W := Demo.W) (size := utf8Len) (xss := [Demo.ifA, Demo.ifA, Demo.bC]) (by intro h; cases h)
  (by
    intro xs hx t ht a ha
    simp only [List.mem_cons, List.not_mem_nil, or_false] at hx
    rcases hx with rfl | rfl | rfl <;> (simp only [Demo.ifA, Demo.bC, List.mem_singleton] at ht; subst ht; cases ha))
  (l := Demo.manyLine) rfl
  (by intro t ht a ha; simp [Demo.ifA, Demo.bC] at ht; rcases ht with rfl | rfl <;> cases ha)
  (by intro t ht a ha; simp [Demo.ifA, Demo.bC] at ht; rcases ht with rfl | rfl <;> cases ha)
  (by intro t ht a ha; simp [Demo.ifA, Demo.bC] at ht; rcases ht with rfl | rfl <;> cases ha)
  (ps := Demo.sentenceParts) Demo.sentences_claused Demo.sentences_end (r := Demo.kws)
  (q := Demo.clauseQ Demo.manyLine) Demo.manyLine_q 8 8 ['b'] .TrailingEffect

theorem string_plain (k : Ty W) (s : Str) : NoCustom k [InputToken.Text (W := W) s []] := by
  intro t ht x hx
  rw [List.mem_singleton] at ht
  subst ht
  cases hx

theorem claused_analysed {r : ClauseKeywordResolver} : ∀ {ts : List Str} {ps : List (WithClauses W)},
    ClausedAll (fun t => createLineFromString W t) r ts ps → AnalysedAll id [] ts (ps.map (·.1))
  | [], [], _ => trivial
  | [], _ :: _, h => h.elim
  | _ :: _, [], h => h.elim
  | _ :: _, p :: _, h => ⟨⟨p.1, h.1, rfl⟩, claused_analysed h.2.2.2⟩

/-- C160 for a text that is cut into sentences at word boundaries. -/
theorem C160_text (L : SplitLaws W) (S : SplitStable W) {ts : List Str} (ne : ts ≠ []) (cut : CutInto W ([] : List (Stage W)) ts)
    (fits : utf8Len ts.flatten < W.usizeBound) {l : LLLine W} (ok : createLineFromString W ts.flatten = .ok l)
    {r : ClauseKeywordResolver} {ps : List (WithClauses W)} (parts : ClausedAll (fun t => createLineFromString W t) r ts ps)
    (ends : SentencesEnd r (ps.map (·.1))) {q : List (LRange × Str × List Clause)} (hq : ClauseQuery r l q) (i j : Nat)
    (text : Str) (kind : Clause) : ((i, j), text, [kind]) ∈ q ↔ FromPart r ps i j text kind := by
  have nps : ps ≠ [] := by
    rintro rfl
    cases ts with
    | nil => exact ne rfl
    | cons _ _ => exact parts.elim
  have htok := ((C157_parts L S (ss := []) ⟨List.Pairwise.nil, fun s hs => by cases hs⟩ ts ne cut fits id id).2 l (ps.map (·.1))
    ⟨l, ok, rfl⟩ (claused_analysed parts)).1
  refine from_parts (clauses_are (string_wf _) ok (string_plain _ _) (string_plain _ _) (string_plain _ _)
    (create_ne (string_wf _) ok (by simp)) hq) nps ends (fun p hp => ?_) htok i j text kind
  obtain ⟨t, _, okt, hne, hqt⟩ := claused_mem parts p hp
  exact clauses_are (string_wf _) okt (string_plain _ _) (string_plain _ _) (string_plain _ _) hne hqt

def Demo.sents : List Str := ["if a.".toList, " b,c.".toList, " d".toList]
def Demo.sentsParts : List (WithClauses Demo.W) := Demo.sents.map (fun s => (Demo.ofText s, Demo.clauseQ (Demo.ofText s)))
theorem Demo.ends_dot {l : LLLine Demo.W} (ne : 0 < l.ll_tokens.length) (h1 : tagAt l (l.ll_tokens.length - 1) = some .PUNC)
    (h2 : textAt l (l.ll_tokens.length - 1) = some ['.']) : EndsSentence Demo.kws l := by
  refine ⟨ne, h1, ?_⟩
  rintro kw ⟨t, ht, hk⟩
  rw [h2] at ht; cases ht
  cases kw <;> revert hk <;> simp only [IsKeyword] <;> decide
theorem Demo.sents_end : SentencesEnd Demo.kws (Demo.sentsParts.map (·.1)) :=
  ⟨Demo.ends_dot (by decide) rfl rfl, Demo.ends_dot (by decide) rfl rfl, trivial⟩
theorem Demo.sents_claused : ClausedAll (fun t => createLineFromString Demo.W t) Demo.kws Demo.sents Demo.sentsParts :=
  ⟨rfl, (by intro h; cases h), ⟨0, 0, _, _, rfl, rfl, rfl⟩, rfl, (by intro h; cases h), ⟨0, 0, _, _, rfl, rfl, rfl⟩, rfl,
    (by intro h; cases h), ⟨0, 0, _, _, rfl, rfl, rfl⟩, trivial⟩
def Demo.sentsLine : LLLine Demo.W := Demo.ofText Demo.sents.flatten
theorem Demo.sentsLine_q : ClauseQuery Demo.kws Demo.sentsLine (Demo.clauseQ Demo.sentsLine) := ⟨0, 0, _, _, rfl, rfl, rfl⟩

/-- the text `if a. b,c. d` -/
example := C160_text Demo.splitLaws Demo.splitStable (ts := Demo.sents) (by intro h; cases h)
  ⟨by decide, .inr (.inr ⟨["if".toList, " ".toList, "a".toList, ".".toList],
      [" ".toList, "b".toList, ",".toList, "c".toList, ".".toList, " ".toList, "d".toList], by decide, by decide⟩),
    ⟨'.', by decide, by intro s hs; cases hs⟩, by decide,
    .inr (.inr ⟨[" ".toList, "b".toList, ",".toList, "c".toList, ".".toList], [" ".toList, "d".toList], by decide, by decide⟩),
    ⟨'.', by decide, by intro s hs; cases hs⟩, by intro h; cases h⟩
  (by decide) (l := Demo.sentsLine) rfl Demo.sents_claused Demo.sents_end
  (q := Demo.clauseQ Demo.sentsLine) Demo.sentsLine_q 5 5 ['b'] .TrailingEffect

end LNlp
