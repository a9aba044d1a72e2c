import Verif.Lemmas.Priority
import Verif.Demo.Priority
/- C149: resolvers in order of priority. -/
namespace LNlp
variable {W : World} {k : Ty W}

/-! ### C149 -/

/-- C149: readings run once each, in order, never panic; at every token where no attribute of the type began before, there is
in the end what the first reading that finds anything there assigns, and elsewhere nothing new. -/
theorem C149_priority {l : LLLine W} {h : History W} (hh : Honest l h) (ne : l.ll_tokens ≠ []) (prog : List (Nat × Reading W k))
    (hb : ∀ p ∈ prog, p.2.Blind) :
    ∃ l' new, runAll l (priorityRuns prog) = .ok l' ∧ Honest l' (h ++ new) ∧
      ∀ x, x ∈ new ↔ FreeAt k h x.range.1 ∧ ∃ before p after, prog = before ++ p :: after ∧ p.2.Reads l h x ∧
        ∀ q ∈ before, ∀ y, q.2.Reads l h y → y.range.1 ≠ x.range.1 := by
  obtain ⟨l', new, h1, h2, _, h4⟩ := priority_run prog hh ne hb
  exact ⟨l', new, h1, h2, h4⟩

example := C149_priority Demo.chainHonest Demo.chain_ne [(1, Demo.two), (2, Demo.single)] Demo.readings_blind

/-- C149: running any of them again, in any order and number, leaves the line as it is. -/
theorem C149_again {l : LLLine W} {h : History W} (hh : Honest l h) (ne : l.ll_tokens ≠ []) (prog : List (Nat × Reading W k))
    (hb : ∀ p ∈ prog, p.2.Blind) :
    ∃ l', runAll l (priorityRuns prog) = .ok l' ∧ ∀ prog' : List (Nat × Reading W k),
      (∀ p ∈ prog', ∃ q ∈ prog, q.2 = p.2) → runAll l' (priorityRuns prog') = .ok l' := by
  obtain ⟨l', new, h1, h2, h3, h4⟩ := priority_run prog hh ne hb
  have hty : ∀ x ∈ new, x.ty = k := fun x hx => by
    obtain ⟨_, _, p, _, _, hr, _⟩ := (h4 x).1 hx
    exact (hr.inside hh).2
  refine ⟨l', h1, fun prog' hp => priority_still h2 (by rw [h3]; exact ne) prog' (fun p hm x hx hf => ?_)⟩
  obtain ⟨q, hq, e⟩ := hp p hm
  have hx : q.2.Reads l h x := (Reading.Reads.blind h3 hty (hb q hq)).1 (e ▸ hx)
  obtain ⟨before, q', after, e', ⟨y, hy, hs⟩, hn⟩ := first_split
    (P := fun q : Nat × Reading W k => ∃ y, q.2.Reads l h y ∧ y.range.1 = x.range.1) ⟨q, hq, x, hx, rfl⟩
  refine hf y (List.mem_append_right _ ((h4 y).2 ⟨fun z hz hk hzs => hf z (List.mem_append_left _ hz) hk (hzs.trans hs),
    before, q', after, e', hy, fun r hr z hz hzs => hn r hr ⟨z, hz, hzs.trans hs⟩⟩)) (hy.inside hh).2 hs

example := C149_again Demo.chainHonest Demo.chain_ne [(1, Demo.two), (2, Demo.single)] Demo.readings_blind

/-- C149: all that is the same as one run of one reading with `x::any_of`, if all readings but the last assign a value wherever
they find anything: searches forwards find the same in the same order, and queries list the same. -/
theorem C149_any_of {l : LLLine W} {h : History W} (hh : Honest l h) (ne : l.ll_tokens ≠ []) (p : Nat × Reading W k)
    (rest : List (Nat × Reading W k)) (hb : ∀ q ∈ p :: rest, q.2.Blind)
    (hv : ∀ q ∈ (p :: rest).dropLast, ∀ f, q.2.values f ≠ []) (ptr : Nat) :
    ∃ l1 l2, runAll l (priorityRuns (p :: rest)) = .ok l1 ∧
      l.run ptr (p.2.firstOf (rest.map (·.2))).guarded.resolver = .ok l2 ∧ SameForwards l1 l2 :=
  firstOf_run rest p hh ne hb hv ptr

example := C149_any_of Demo.chainHonest Demo.chain_ne (1, Demo.two) [(2, Demo.single)] Demo.readings_blind (by
  intro q hq
  cases List.mem_singleton.1 hq
  exact fun f => by simp [Demo.two]) 3

/-- without that condition -/
def C149_any_of_claim : Prop := ∀ (W : World) (k : Ty W) (l l1 l2 : LLLine W) (h : History W) (a b : Reading W k), Honest l h →
  l.ll_tokens ≠ [] → a.Blind → b.Blind → runAll l (priorityRuns [(1, a), (2, b)]) = .ok l1 →
  l.run 3 (a.orElse b).guarded.resolver = .ok l2 → SameForwards l1 l2

/-- C149: a reading that finds something but assigns no value hides the others in `x::any_of`, but not in order of priority. -/
theorem C149_any_of_false : ¬ C149_any_of_claim := fun c => by
  have := (c Demo.W _ Demo.chainLine _ _ _ Demo.silent Demo.single Demo.chainHonest Demo.chain_ne Demo.silent_blind
    Demo.single_blind rfl rfl).1 (Ty.user 2) 0
  have e : Except.ok (ε := Panic) [((['a'] : Str), 0)] = .ok [] := this
  cases e

/-- C149: two readings can be run in the other order exactly if, wherever both find something where nothing began before, they
assign the same. -/
theorem C149_order {l : LLLine W} {h : History W} (hh : Honest l h) (ne : l.ll_tokens ≠ []) (a b : Reading W k) (ha : a.Blind)
    (hb : b.Blind) (p q : Nat) :
    ∃ l1 n1 l2 n2, runAll l (priorityRuns [(p, a), (q, b)]) = .ok l1 ∧ Honest l1 (h ++ n1) ∧
      runAll l (priorityRuns [(q, b), (p, a)]) = .ok l2 ∧ Honest l2 (h ++ n2) ∧
      ((∀ x, x ∈ n1 ↔ x ∈ n2) ↔ ∀ x y, FreeAt k h x.range.1 → x.range.1 = y.range.1 →
        (a.Reads l h x → b.Reads l h y → b.Reads l h x ∧ a.Reads l h y)) := by
  have two : ∀ {c d : Reading W k} {m n : Nat} (x : Rec W), (∃ (before : List (Nat × Reading W k)) (r : Nat × Reading W k) (after : List (Nat × Reading W k)),
      [(m, c), (n, d)] = before ++ r :: after ∧ r.2.Reads l h x ∧ ∀ s ∈ before, ∀ y, s.2.Reads l h y → y.range.1 ≠ x.range.1) ↔
      c.Reads l h x ∨ d.Reads l h x ∧ ∀ y, c.Reads l h y → y.range.1 ≠ x.range.1 := by
    intro c d m n x
    constructor
    · rintro ⟨before, r, after, e, hx, hn⟩
      match before with
      | [] =>
        simp only [List.nil_append, List.cons.injEq] at e
        obtain ⟨rfl, _⟩ := e
        exact .inl hx
      | [s] =>
        simp only [List.cons_append, List.nil_append, List.cons.injEq] at e
        obtain ⟨rfl, rfl, _⟩ := e
        exact .inr ⟨hx, hn (m, c) (by simp)⟩
      | _ :: _ :: before => simp at e
    · rintro (hx | ⟨hx, hn⟩)
      · exact ⟨[], _, _, rfl, hx, by simp⟩
      · refine ⟨[_], _, _, rfl, hx, fun s hs => ?_⟩
        cases List.mem_singleton.1 hs
        exact hn
  obtain ⟨l1, n1, a1, a2, a3⟩ := C149_priority hh ne [(p, a), (q, b)] (by
    intro r hr
    simp only [List.mem_cons, List.not_mem_nil, or_false] at hr
    rcases hr with rfl | rfl
    · exact ha
    · exact hb)
  obtain ⟨l2, n2, b1, b2, b3⟩ := C149_priority hh ne [(q, b), (p, a)] (by
    intro r hr
    simp only [List.mem_cons, List.not_mem_nil, or_false] at hr
    rcases hr with rfl | rfl
    · exact hb
    · exact ha)
  refine ⟨l1, n1, l2, n2, a1, a2, b1, b2, ?_, ?_⟩
  · intro same x y hf hxy hax hby
    have h1 : x ∈ n1 := (a3 x).2 ⟨hf, (two x).2 (.inl hax)⟩
    have h2 : y ∈ n2 := (b3 y).2 ⟨hxy ▸ hf, (two y).2 (.inl hby)⟩
    refine ⟨?_, ?_⟩
    · rcases (two x).1 ((b3 x).1 ((same x).1 h1)).2 with h3 | ⟨_, h3⟩
      · exact h3
      · exact absurd hxy.symm (h3 y hby)
    · rcases (two y).1 ((a3 y).1 ((same y).2 h2)).2 with h3 | ⟨_, h3⟩
      · exact h3
      · exact absurd hxy (h3 x hax)
  · intro agree x
    rw [a3, b3, two, two]
    constructor
    · rintro ⟨hf, hx | ⟨hx, hn⟩⟩
      · refine ⟨hf, ?_⟩
        by_cases hy : ∃ y, b.Reads l h y ∧ y.range.1 = x.range.1
        · obtain ⟨y, hy, e⟩ := hy
          exact .inl (agree x y hf e.symm hx hy).1
        · exact .inr ⟨hx, fun y hy' e => hy ⟨y, hy', e⟩⟩
      · exact ⟨hf, .inl hx⟩
    · rintro ⟨hf, hx | ⟨hx, hn⟩⟩
      · refine ⟨hf, ?_⟩
        by_cases hy : ∃ y, a.Reads l h y ∧ y.range.1 = x.range.1
        · obtain ⟨y, hy, e⟩ := hy
          exact .inl (agree y x (e ▸ hf) e hy hx).2
        · exact .inr ⟨hx, fun y hy' e => hy ⟨y, hy', e⟩⟩
      · exact ⟨hf, .inl hx⟩

example := C149_order Demo.chainHonest Demo.chain_ne Demo.two Demo.single Demo.two_blind Demo.single_blind 1 2

/-- C149: such readings are not rules in layers (C146): there is a stable set only if they find nothing new. -/
theorem C149_stable {l : LLLine W} {h : History W} (readings : List (Reading W k)) (hb : ∀ r ∈ readings, r.Blind) :
    (∃ M, Stable l h (readings.map Reading.guarded) M) ↔
      ∀ r ∈ readings, ∀ x, r.Reads l h x → ¬ FreeAt k h x.range.1 := by
  have guarded : ∀ {r : Reading W k} {F N : Rec W → Prop} {x : Rec W}, r.guarded.Concludes l F N x ↔
      r.rule.Concludes l F N x ∧ ∀ y, N y → y.ty = k → y.range.1 ≠ x.range.1 := by
    intro r F N x
    constructor
    · rintro ⟨i, j, f, v, ⟨hp, hn⟩, hv, rfl⟩
      refine ⟨⟨i, j, f, v, hp, hv, rfl⟩, fun y hy hk hs => ?_⟩
      obtain ⟨t, ⟨a, b⟩, w⟩ := y
      cases hk
      cases hs
      exact hn ⟨b, w, hy⟩
    · rintro ⟨⟨i, j, f, v, hp, hv, rfl⟩, hn⟩
      exact ⟨i, j, f, v, ⟨hp, fun ⟨j', w, hy⟩ => hn _ hy rfl rfl⟩, hv, rfl⟩
  have blind : ∀ {r : Reading W k}, r ∈ readings → ∀ {F G N N' : Rec W → Prop} {x : Rec W}, (∀ y, y.ty ≠ k → (F y → G y)) →
      (∀ y, y.ty ≠ k → (N y ↔ N' y)) → r.rule.Concludes l F N x → r.rule.Concludes l G N' x := by
    intro r hr F G N N' x h1 h2 hx
    exact hx.mono (fun y hm => h1 y (fun e => (hb r hr).1 (e ▸ hm))) (fun y hm => h2 y (fun e => (hb r hr).2 (e ▸ hm)))
  have isk : ∀ {r : Reading W k} {F N : Rec W → Prop} {x : Rec W}, r.rule.Concludes l F N x → x.ty = k := by
    rintro r F N x ⟨_, _, _, _, _, _, rfl⟩
    rfl
  constructor
  · rintro ⟨M, hM⟩ r hr x hx hf
    have base : ∀ y ∈ h, M y := fun y hy => (hM y).2 (fun F h1 _ => h1 y hy)
    have other : ∀ y, y.ty ≠ k → (M y ↔ y ∈ h) := fun y hy => ⟨fun hm => by
      have := (hM y).1 hm (fun z => z.ty ≠ k → z ∈ h) (fun z hz _ => hz) (fun g hg z hz hk => by
        obtain ⟨s, _, rfl⟩ := List.mem_map.1 hg
        exact absurd (isk (guarded.1 hz).1) hk)
      exact this hy, base y⟩
    by_cases hex : ∃ y, M y ∧ y.ty = k ∧ y.range.1 = x.range.1
    · obtain ⟨y, hy, hk, hs⟩ := hex
      have := (hM y).1 hy (fun z => z.ty = k → z.range.1 = x.range.1 → z ∈ h) (fun z hz _ _ => hz) (fun g hg z hz hk' hs' => by
        obtain ⟨s, _, rfl⟩ := List.mem_map.1 hg
        exact absurd (hs.trans hs'.symm) ((guarded.1 hz).2 y hy hk)) hk hs
      exact hf y this hk hs
    · have hMx : M x := (hM x).2 (fun F h1 h2 => h2 r.guarded (List.mem_map.2 ⟨r, hr, rfl⟩) x (guarded.2
        ⟨blind hr (fun y hy hyh => h1 y hyh) (fun y hy => (other y hy).symm) hx,
          fun y hy hk hs => hex ⟨y, hy, hk, hs⟩⟩))
      exact hex ⟨x, hMx, isk hx, rfl⟩
  · intro still
    refine ⟨(· ∈ h), fun x => ⟨fun hx F h1 _ => h1 x hx, fun hx => hx (· ∈ h) (fun _ => id) (fun g hg z hz => ?_)⟩⟩
    obtain ⟨s, hs, rfl⟩ := List.mem_map.1 hg
    obtain ⟨h1, h2⟩ := guarded.1 hz
    exact absurd (fun y hy hk => h2 y hy hk) (still s hs z h1)

example := C149_stable (l := Demo.chainLine) (h := creationHistory Demo.W List.length Demo.chainInput) [Demo.two, Demo.single] (by
  intro r hr
  simp only [List.mem_cons, List.not_mem_nil, or_false] at hr
  rcases hr with rfl | rfl
  · exact Demo.two_blind
  · exact Demo.single_blind)

/-- what they assign does not overlap -/
def C149_overlap_claim : Prop := ∀ (W : World) (k : Ty W) (l l' : LLLine W) (h : History W) (r : Reading W k) (q : List _),
  Honest l h → l.ll_tokens ≠ [] → r.Blind → runAll l (priorityRuns [(1, r)]) = .ok l' → l'.query k = .ok q →
  ∀ x ∈ q, ∀ y ∈ q, x.1.1 < y.1.1 → x.1.2 < y.1.1

/-- C149: only the first tokens are looked at, so what is assigned can overlap. -/
theorem C149_overlap_false : ¬ C149_overlap_claim := fun c => by
  have := c Demo.W _ Demo.chainLine _ _ Demo.two _ Demo.chainHonest Demo.chain_ne Demo.two_blind rfl rfl
    ((0, 1), _, _) (.head _) ((1, 2), _, _) (.tail _ (.head _)) (by decide)
  exact absurd this (by decide)

/-- readings that look at what is assigned: running them again leaves the line as it is -/
def C149_again_claim : Prop := ∀ (W : World) (k : Ty W) (l l' l'' : LLLine W) (h : History W) (prog : List (Nat × Reading W k)),
  Honest l h → l.ll_tokens ≠ [] → runAll l (priorityRuns prog) = .ok l' → runAll l' (priorityRuns prog) = .ok l'' →
  ∀ q q', l'.query k = .ok q → l''.query k = .ok q' → q = q'

/-- C149: a reading that looks for what is assigned may find more when it is run again. -/
theorem C149_again_false : ¬ C149_again_claim := fun c => by
  have := c Demo.W _ Demo.chainLine _ _ _ [(1, Demo.end'), (2, Demo.left)] Demo.chainHonest Demo.chain_ne rfl rfl _ _ rfl rfl
  exact absurd (congrArg List.length this) (by decide)

end LNlp
