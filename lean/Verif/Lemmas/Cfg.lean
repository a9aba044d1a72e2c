import Verif.Spec.Cfg
import Verif.Lemmas.Grammar
import Verif.Lemmas.Tokens
import Verif.Lemmas.StoreProps
import Verif.Demo.Cfg
/- Helper lemmas for Props/Cfg.lean. -/
namespace LNlp
variable {W : World}

/-- the recogniser finds something it wants -/
def Recogniser.Finds (r : Recogniser W) (l : LLLine W) (F : Rec W → Prop) (i j : Nat) : Prop :=
  ∃ x, r.pat.Holds l F i j x ∧ r.ok x = true

theorem finds_text {s : Str} {l : LLLine W} {F : Rec W → Prop} {i j : Nat} :
    (Symbol.text s).recogniser.Finds l F i j ↔ i = j ∧ textAt l i = some s := by
  constructor
  · rintro ⟨x, ⟨h1, h2⟩, h3⟩
    have : x = s := (beq_iff_eq (α := Str)).1 h3
    exact ⟨h1, this ▸ h2⟩
  · rintro ⟨h1, h2⟩
    exact ⟨s, ⟨h1, h2⟩, (beq_iff_eq (α := Str)).2 rfl⟩

theorem finds_attr {k : Ty W} {l : LLLine W} {F : Rec W → Prop} {i j : Nat} :
    (Symbol.attr k).recogniser.Finds l F i j ↔ ∃ v, F ⟨k, (i, j), v⟩ :=
  ⟨fun ⟨v, h, _⟩ => ⟨v, h⟩, fun ⟨v, h⟩ => ⟨v, h, rfl⟩⟩

theorem finds_cons {x y : Symbol W} {ys : List (Symbol W)} {l : LLLine W} {F : Rec W → Prop} {i j : Nat} :
    (sequenceOf x (y :: ys)).Finds l F i j ↔
      ∃ m, x.recogniser.Finds l F i m ∧ (sequenceOf y ys).Finds l F (m + 1) j := by
  constructor
  · rintro ⟨⟨a, b⟩, ⟨m, h1, h2⟩, h3⟩
    simp only [sequenceOf, Bool.and_eq_true] at h3
    exact ⟨m, ⟨a, h1, h3.1⟩, b, h2, h3.2⟩
  · rintro ⟨m, ⟨a, h1, h3⟩, b, h2, h4⟩
    exact ⟨(a, b), ⟨m, h1, h2⟩, by simp only [sequenceOf, h3, h4, Bool.and_self]⟩

theorem finds_conj {l : LLLine W} {F : Rec W → Prop} {i j : Nat} : ∀ (c : Symbol W × List (Symbol W)) (ds),
    (conjunctionOf c ds).Finds l F i j ↔ ∀ d ∈ c :: ds, (sequenceOf d.1 d.2).Finds l F i j
  | c, [] => by simp [conjunctionOf]
  | c, d :: ds => by
    rw [List.forall_mem_cons, ← finds_conj d ds]
    constructor
    · rintro ⟨⟨a, b⟩, ⟨h1, h2⟩, h3⟩
      simp only [conjunctionOf, Bool.and_eq_true] at h3
      exact ⟨⟨a, h1, h3.1⟩, b, h2, h3.2⟩
    · rintro ⟨⟨a, h1, h3⟩, b, h2, h4⟩
      exact ⟨(a, b), ⟨h1, h2⟩, by simp only [conjunctionOf, h3, h4, Bool.and_self]⟩

theorem rule_concludes {p : Production W} {l : LLLine W} {F : Rec W → Prop} {x : Rec W} :
    p.rule.Concludes l F x ↔ ∃ i j, x = ⟨p.lhs, (i, j), p.value⟩ ∧
      ∀ d ∈ p.first :: p.more, (sequenceOf d.1 d.2).Finds l F i j := by
  constructor
  · rintro ⟨i, j, f, v, h1, h2, rfl⟩
    simp only [Production.rule] at h2
    split at h2
    · rename_i hok
      have e : v = p.value := List.mem_singleton.1 h2
      subst e
      exact ⟨i, j, rfl, (finds_conj _ _).1 ⟨f, h1, hok⟩⟩
    · cases h2
  · rintro ⟨i, j, rfl, h⟩
    obtain ⟨f, h1, hok⟩ := (finds_conj _ _).2 h
    exact ⟨i, j, f, p.value, h1, by simp only [Production.rule, hok, if_true]; exact List.mem_singleton.2 rfl, rfl⟩

theorem Spells.append {l : LLLine W} {i m j : Nat} {u v : List Str} (h1 : Spells l i m u) (h2 : Spells l (m + 1) j v) :
    Spells l i j (u ++ v) := by
  refine ⟨by have := h1.1; have := h2.1; rw [List.length_append]; omega, fun n w hn => ?_⟩
  by_cases hlt : n < u.length
  · rw [List.getElem?_append_left hlt] at hn
    exact h1.2 n w hn
  · rw [List.getElem?_append_right (by omega)] at hn
    have := h2.2 _ w hn
    have := h1.1
    rwa [show m + 1 + (n - u.length) = i + n by omega] at *

theorem Spells.split {l : LLLine W} {i j : Nat} {u v : List Str} (h : Spells l i j (u ++ v)) (hu : u ≠ []) :
    ∃ m, Spells l i m u ∧ Spells l (m + 1) j v := by
  have hp : 0 < u.length := List.length_pos_iff.2 hu
  have hl := h.1
  rw [List.length_append] at hl
  refine ⟨i + u.length - 1, ⟨by omega, fun n w hn => h.2 n w ?_⟩, by omega, fun n w hn => ?_⟩
  · rw [List.getElem?_append_left (List.getElem?_eq_some_iff.1 hn).1]
    exact hn
  · have := h.2 (u.length + n) w (by rw [List.getElem?_append_right (by omega), Nat.add_sub_cancel_left]; exact hn)
    rwa [show i + u.length - 1 + 1 + n = i + (u.length + n) by omega]

theorem spells_single {l : LLLine W} {i j : Nat} {s : Str} : Spells l i j [s] ↔ i = j ∧ textAt l i = some s := by
  constructor
  · intro h
    have := h.1
    simp only [List.length_singleton] at this
    exact ⟨by omega, h.2 0 s rfl⟩
  · rintro ⟨rfl, h⟩
    refine ⟨rfl, fun n w hn => ?_⟩
    cases n with
    | zero => cases hn; exact h
    | succ n => cases hn

/-- the texts of a range -/
theorem Spells.unique {l : LLLine W} {i j : Nat} {u v : List Str} (h1 : Spells l i j u) (h2 : Spells l i j v) : u = v := by
  have hl : u.length = v.length := by have := h1.1; have := h2.1; omega
  refine List.ext_getElem? (fun n => ?_)
  cases hu : u[n]? with
  | none => rw [List.getElem?_eq_none (by rw [← hl]; exact List.getElem?_eq_none_iff.1 hu)]
  | some w =>
    have hlt : n < v.length := by rw [← hl]; exact (List.getElem?_eq_some_iff.1 hu).1
    have e := h2.2 n v[n] (List.getElem?_eq_getElem hlt)
    rw [h1.2 n w hu] at e
    cases e
    rw [List.getElem?_eq_getElem hlt]

/-- languages that have what is found have what sequences find -/
theorem concatenated_of_finds {L : Symbol W → List Str → Prop} {l : LLLine W} {F : Rec W → Prop} :
    ∀ (x : Symbol W) (xs : List (Symbol W)) {i j : Nat},
      (∀ y ∈ x :: xs, ∀ i j, (Symbol.recogniser y).Finds l F i j → ∃ ws, Spells l i j ws ∧ L y ws) →
      (sequenceOf x xs).Finds l F i j → ∃ ws, Spells l i j ws ∧ Concatenated L (x :: xs) ws
  | x, [], i, j, hs, h => by
    obtain ⟨ws, h1, h2⟩ := hs x (List.mem_cons_self ..) i j h
    exact ⟨ws, h1, ws, [], by simp, h2, rfl⟩
  | x, y :: ys, i, j, hs, h => by
    obtain ⟨m, h1, h2⟩ := finds_cons.1 h
    obtain ⟨u, hu, lu⟩ := hs x (List.mem_cons_self ..) i m h1
    obtain ⟨v, hv, lv⟩ := concatenated_of_finds y ys (fun z hz => hs z (List.mem_cons_of_mem _ hz)) h2
    exact ⟨u ++ v, hu.append hv, u, v, rfl, lu, lv⟩

/-- … and the other way round -/
theorem finds_of_concatenated {L : Symbol W → List Str → Prop} {l : LLLine W} {F : Rec W → Prop}
    (hn : ∀ x ws, L x ws → ws ≠ [])
    (hs : ∀ x ws i j, L x ws → Spells l i j ws → (Symbol.recogniser x).Finds l F i j) :
    ∀ (x : Symbol W) (xs : List (Symbol W)) {i j : Nat} {ws : List Str}, Concatenated L (x :: xs) ws → Spells l i j ws →
      (sequenceOf x xs).Finds l F i j
  | x, [], i, j, ws, h, hw => by
    obtain ⟨u, v, rfl, hu, rfl⟩ := h
    rw [List.append_nil] at hw
    exact hs x u i j hu hw
  | x, y :: ys, i, j, ws, h, hw => by
    obtain ⟨u, v, rfl, hu, hv⟩ := h
    obtain ⟨m, h1, h2⟩ := hw.split (hn x u hu)
    exact finds_cons.2 ⟨m, hs x u i m hu h1, finds_of_concatenated hn hs y ys hv h2⟩

theorem derivable_closed (l : LLLine W) (h : History W) (rules : List (Rule W)) :
    Closed l rules (Derivable l h rules) := by
  intro r hr x hx F hF hc
  exact hc r hr x (hx.mono (fun y _ hy => hy F hF hc))

/-- what follows by the rules of a grammar is what the grammar derives -/
theorem derivable_iff_derives {l : LLLine W} {h : History W} {G : List (Production W)}
    (clean : ∀ r ∈ h, ¬ MentionsType G r.ty) {k : Ty W} (hk : MentionsType G k) {i j : Nat} :
    (∃ v, Derivable l h (G.map Production.rule) ⟨k, (i, j), v⟩) ↔ ∃ ws, Spells l i j ws ∧ Derives G (.attr k) ws := by
  constructor
  · rintro ⟨v, hv⟩
    have key : ∀ L, Solves G L → ∃ ws, Spells l i j ws ∧ L (.attr k) ws := by
      intro L hL
      have := hv (fun x => x ∈ h ∨ ∃ ws, Spells l x.range.1 x.range.2 ws ∧ L (.attr x.ty) ws) (fun y hy => .inl hy) (by
        intro r hr x hx
        obtain ⟨p, hp, rfl⟩ := List.mem_map.1 hr
        obtain ⟨a, b, rfl, hd⟩ := rule_concludes.1 hx
        refine .inr ?_
        have hall : ∀ d ∈ p.first :: p.more, ∃ ws, Spells l a b ws ∧ Concatenated L (d.1 :: d.2) ws := by
          intro d hdm
          refine concatenated_of_finds d.1 d.2 (fun y hy a b hf => ?_) (hd d hdm)
          cases y with
          | text s =>
            exact ⟨[s], spells_single.2 (finds_text.1 hf), hL.1 s⟩
          | attr k' =>
            obtain ⟨v', h' | h'⟩ := finds_attr.1 hf
            · exact absurd ⟨p, hp, .inr ⟨d, hdm, hy⟩⟩ (clean _ h')
            · exact h'
        obtain ⟨ws, h1, _⟩ := hall _ (List.mem_cons_self ..)
        refine ⟨ws, h1, hL.2 p hp ws (fun c hc => ?_)⟩
        obtain ⟨ws', h2, h3⟩ := hall c hc
        rw [h1.unique h2]
        exact h3)
      rcases this with h' | h'
      · exact absurd hk (clean _ h')
      · exact h'
    obtain ⟨ws, hs, _⟩ := key (fun _ _ => True) ⟨fun _ => trivial, fun _ _ _ _ => trivial⟩
    refine ⟨ws, hs, fun L hL => ?_⟩
    obtain ⟨ws', hs', hl⟩ := key L hL
    rw [hs.unique hs']
    exact hl
  · rintro ⟨ws, hs, hd⟩
    have := hd (fun x ws => ws ≠ [] ∧ ∀ i j, Spells l i j ws →
        (Symbol.recogniser x).Finds l (Derivable l h (G.map Production.rule)) i j) ⟨?_, ?_⟩
    · obtain ⟨v, hv⟩ := finds_attr.1 (this.2 i j hs)
      exact ⟨v, hv⟩
    · intro s
      exact ⟨by simp, fun i j hs => finds_text.2 (spells_single.1 hs)⟩
    · intro p hp ws hc
      refine ⟨?_, fun i j hs => finds_attr.2 ⟨p.value, ?_⟩⟩
      · obtain ⟨u, v, rfl, hu, _⟩ := hc p.first (List.mem_cons_self ..)
        exact fun h => hu.1 (List.append_eq_nil_iff.1 h).1
      · refine derivable_closed l h _ p.rule (List.mem_map.2 ⟨p, hp, rfl⟩) _ (rule_concludes.2 ⟨i, j, rfl, fun d hd => ?_⟩)
        exact finds_of_concatenated (fun x ws h => h.1) (fun x ws i j h hs => h.2 i j hs) d.1 d.2 (hc d hd) hs

theorem countP_grows {α : Type} {p q : α → Bool} : ∀ {G : List α}, (∀ x ∈ G, p x = true → q x = true) →
    (∃ x ∈ G, q x = true ∧ p x = false) → G.countP p + 1 ≤ G.countP q
  | [], _, h => by obtain ⟨x, hx, _⟩ := h; cases hx
  | y :: G, hm, ⟨x, hx, h1, h2⟩ => by
    have hm' := fun z hz => hm z (List.mem_cons_of_mem _ hz)
    rcases List.mem_cons.1 hx with rfl | hx
    · rw [List.countP_cons_of_pos h1, List.countP_cons_of_neg (by simp [h2])]
      exact Nat.succ_le_succ (List.countP_mono_left hm')
    · have ih := countP_grows hm' ⟨x, hx, h1, h2⟩
      rw [List.countP_cons, List.countP_cons]
      have : p y = true → q y = true := hm y (List.mem_cons_self ..)
      cases hp : p y <;> cases hq : q y <;> simp_all <;> omega

/-- a growing set of members of a list that stays as it is once it does not grow stops after as many steps as the list
is long -/
theorem stops {α : Type} {G : List α} {R : Nat → α → Prop} (hm : ∀ t p, R t p → R (t + 1) p)
    (hs : ∀ t, (∀ p ∈ G, R (t + 1) p → R t p) → ∀ p ∈ G, R (t + 2) p → R (t + 1) p) (t : Nat) {p : α} (hp : p ∈ G)
    (h : R t p) : R G.length p := by
  classical
  have hcount : ∀ t, (∀ p ∈ G, R (t + 1) p → R t p) ∨ t + 1 ≤ G.countP (fun p => decide (R (t + 1) p)) := by
    have grow : ∀ t, ¬ (∀ p ∈ G, R (t + 1) p → R t p) →
        G.countP (fun p => decide (R t p)) + 1 ≤ G.countP (fun p => decide (R (t + 1) p)) := by
      intro t hn
      refine countP_grows (fun x _ hx => by simpa using hm t x (by simpa using hx)) ?_
      simp only [Classical.not_forall] at hn
      obtain ⟨x, hx, h1, h2⟩ := hn
      exact ⟨x, hx, by simpa using h1, by simpa using h2⟩
    intro t
    induction t with
    | zero =>
      by_cases hst : ∀ p ∈ G, R 1 p → R 0 p
      · exact .inl hst
      · have := grow 0 hst
        exact .inr (by omega)
    | succ t ih =>
      by_cases hst : ∀ p ∈ G, R (t + 2) p → R (t + 1) p
      · exact .inl hst
      · rcases ih with ih | ih
        · exact absurd (hs t ih) hst
        · have := grow (t + 1) hst
          exact .inr (by omega)
  have hstop : ∀ p ∈ G, R (G.length + 1) p → R G.length p := by
    rcases hcount G.length with h | h
    · exact h
    · have := List.countP_le_length (p := fun p => decide (R (G.length + 1) p)) (l := G)
      omega
  have hall : ∀ s, ∀ p ∈ G, R (G.length + s + 1) p → R (G.length + s) p := by
    intro s
    induction s with
    | zero => exact hstop
    | succ s ih => exact hs _ ih
  have hdown : ∀ s, ∀ p ∈ G, R (G.length + s) p → R G.length p := by
    intro s
    induction s with
    | zero => exact fun p _ h => h
    | succ s ih => exact fun p hp h => ih p hp (hall s p hp h)
  have hup : ∀ s, R (t + s) p := by
    intro s
    induction s with
    | zero => exact h
    | succ s ih => exact hm _ _ ih
  refine hdown t p hp ?_
  rw [Nat.add_comm]
  exact hup _

theorem Recogniser.Finds.inside {r : Recogniser W} {l : LLLine W} {F : Rec W → Prop}
    (hF : ∀ y, F y → y.range.1 ≤ y.range.2 ∧ y.range.2 < l.ll_tokens.length) {i j : Nat} (h : r.Finds l F i j) :
    i ≤ j ∧ j < l.ll_tokens.length := by
  obtain ⟨x, h, _⟩ := h
  exact h.inside hF

theorem Symbol.finds_change {l : LLLine W} {F F' : Rec W → Prop} : ∀ (x : Symbol W) {i j : Nat},
    x.recogniser.Finds l F i j → (∀ k, (∃ v, F ⟨k, (i, j), v⟩) → ∃ v, F' ⟨k, (i, j), v⟩) → x.recogniser.Finds l F' i j
  | .text _, _, _, h, _ => finds_text.2 (finds_text.1 h)
  | .attr k, _, _, h, hk => finds_attr.2 (hk k (finds_attr.1 h))

/-- sequences find what they find from facts about the same ranges of the same types -/
theorem Recogniser.Finds.change {l : LLLine W} {F F' : Rec W → Prop}
    (hF : ∀ y, F y → y.range.1 ≤ y.range.2 ∧ y.range.2 < l.ll_tokens.length) :
    ∀ (x : Symbol W) (xs : List (Symbol W)) {i j : Nat}, (sequenceOf x xs).Finds l F i j →
      (∀ k a b, i ≤ a → b ≤ j → (∃ v, F ⟨k, (a, b), v⟩) → ∃ v, F' ⟨k, (a, b), v⟩) →
      (sequenceOf x xs).Finds l F' i j
  | x, [], i, j, h, hk => x.finds_change h (fun k => hk k i j (Nat.le_refl _) (Nat.le_refl _))
  | x, y :: ys, i, j, h, hk => by
    obtain ⟨m, h1, h2⟩ := finds_cons.1 h
    have o1 := h1.inside hF
    have o2 := h2.inside hF
    refine finds_cons.2 ⟨m, ?_, ?_⟩
    · exact x.finds_change h1 (fun k => hk k i m (Nat.le_refl _) (by omega))
    · exact Recogniser.Finds.change hF y ys h2 (fun k a b ha hb => hk k a b (by omega) hb)

/-- … the parts of sequences are shorter -/
theorem Recogniser.Finds.parts {l : LLLine W} {F F' : Rec W → Prop}
    (hF : ∀ y, F y → y.range.1 ≤ y.range.2 ∧ y.range.2 < l.ll_tokens.length)
    {x y : Symbol W} {ys : List (Symbol W)} {i j : Nat} (h : (sequenceOf x (y :: ys)).Finds l F i j)
    (hk : ∀ k a b, b - a < j - i → (∃ v, F ⟨k, (a, b), v⟩) → ∃ v, F' ⟨k, (a, b), v⟩) :
    (sequenceOf x (y :: ys)).Finds l F' i j := by
  obtain ⟨m, h1, h2⟩ := finds_cons.1 h
  have o1 := h1.inside hF
  have o2 := h2.inside hF
  refine finds_cons.2 ⟨m, ?_, ?_⟩
  · exact x.finds_change h1 (fun k => hk k i m (by omega))
  · exact Recogniser.Finds.change hF y ys h2 (fun k a b ha hb => hk k a b (by omega))

/-- every range that is found at all is found within as many steps as it is long times as there are productions -/
theorem grammar_steps {l : LLLine W} {h : History W} {G : List (Production W)}
    (hin : ∀ y ∈ h, y.range.1 ≤ y.range.2 ∧ y.range.2 < l.ll_tokens.length) : ∀ (w : Nat) (k : Ty W) (i j : Nat), j - i < w →
      (∃ n v, InSteps l h (G.map Production.rule) n ⟨k, (i, j), v⟩) →
      ∃ v, InSteps l h (G.map Production.rule) (w * G.length) ⟨k, (i, j), v⟩ := by
  have hF : ∀ n y, InSteps l h (G.map Production.rule) n y → y.range.1 ≤ y.range.2 ∧ y.range.2 < l.ll_tokens.length := by
    intro n y hy
    refine hy.derivable (fun y => y.range.1 ≤ y.range.2 ∧ y.range.2 < l.ll_tokens.length) hin ?_
    rintro r hr x ⟨i, j, f, v, hp, hv, rfl⟩
    exact hp.inside (fun y hy => hy)
  intro w
  induction w with
  | zero => intro k i j h; omega
  | succ w ih =>
    intro k i j hw hx
    by_cases hlt : j - i < w
    · obtain ⟨v, hv⟩ := ih k i j hlt hx
      exact ⟨v, hv.le (Nat.mul_le_mul_right _ (Nat.le_succ _))⟩
    have hji : j - i = w := by omega
    generalize hB : w * G.length = B at ih
    have eB : (w + 1) * G.length = B + G.length := by rw [Nat.succ_mul, hB]
    rw [eB]
    let Q : Nat → Production W → Prop := fun t p =>
      ∀ d ∈ p.first :: p.more, (sequenceOf d.1 d.2).Finds l (InSteps l h (G.map Production.rule) (B + t)) i j
    let R : Nat → Production W → Prop := fun t p => ∃ t', t = t' + 1 ∧ Q t' p
    have hQm : ∀ t p, Q t p → Q (t + 1) p := fun t p hq d hd =>
      Recogniser.Finds.change (hF _) d.1 d.2 (hq d hd) (fun k a b _ _ ⟨v, hv⟩ => ⟨v, hv.le (by omega)⟩)
    have conc : ∀ n k, (∃ v, InSteps l h (G.map Production.rule) (n + 1) ⟨k, (i, j), v⟩) →
        (∃ v, InSteps l h (G.map Production.rule) n ⟨k, (i, j), v⟩) ∨ ∃ q ∈ G, q.lhs = k ∧
          ∀ d ∈ q.first :: q.more, (sequenceOf d.1 d.2).Finds l (InSteps l h (G.map Production.rule) n) i j := by
      rintro n k ⟨v, hv | ⟨r, hr, hc⟩⟩
      · exact .inl ⟨v, hv⟩
      · obtain ⟨q, hq, rfl⟩ := List.mem_map.1 hr
        obtain ⟨a, b, e, hd⟩ := rule_concludes.1 hc
        have e1 := congrArg Rec.ty e
        have e2 := congrArg Rec.range e
        simp only [Prod.mk.injEq] at e1 e2
        obtain ⟨rfl, rfl⟩ := e2
        exact .inr ⟨q, hq, e1.symm, hd⟩
    have back : ∀ n q, q ∈ G →
        (∀ d ∈ q.first :: q.more, (sequenceOf d.1 d.2).Finds l (InSteps l h (G.map Production.rule) n) i j) →
        InSteps l h (G.map Production.rule) (n + 1) ⟨q.lhs, (i, j), q.value⟩ := fun n q hq hd =>
      .inr ⟨q.rule, List.mem_map.2 ⟨q, hq, rfl⟩, rule_concludes.2 ⟨i, j, rfl, hd⟩⟩
    have fin : ∀ t p, p ∈ G → Q t p → R G.length p := by
      intro t p hp hq
      refine stops (R := R) (G := G) ?_ ?_ (t + 1) hp ⟨t, rfl, hq⟩
      · rintro t p ⟨t', rfl, hq⟩
        exact ⟨_, rfl, hQm _ _ hq⟩
      · rintro t hst p hp ⟨t', e, hq⟩
        obtain rfl : t' = t + 1 := by omega
        refine ⟨t, rfl, fun d hd => ?_⟩
        have hf := hq d hd
        obtain ⟨x, xs⟩ := d
        cases xs with
        | cons y ys =>
          refine hf.parts (hF _) (fun k a b hab ⟨v, hv⟩ => ?_)
          obtain ⟨v', hv'⟩ := ih k a b (by omega) ⟨_, v, hv⟩
          exact ⟨v', hv'.le (by omega)⟩
        | nil =>
          cases x with
          | text s => exact finds_text.2 (finds_text.1 hf)
          | attr k' =>
            refine finds_attr.2 ?_
            rcases conc (B + t) k' (finds_attr.1 hf) with h' | ⟨q, hqG, rfl, hqd⟩
            · exact h'
            · obtain ⟨t2, e2, h2⟩ := hst q hqG ⟨t, rfl, hqd⟩
              subst e2
              exact ⟨_, back _ q hqG h2⟩
    obtain ⟨n, hx⟩ := hx
    induction n generalizing k with
    | zero =>
      obtain ⟨v, hv⟩ := hx
      exact ⟨v, hv.le (Nat.zero_le _)⟩
    | succ n ihn =>
      rcases conc n k hx with h' | ⟨q, hq, rfl, hd⟩
      · exact ihn k h'
      · obtain ⟨t, e, h2⟩ := fin n q hq (fun d hdm =>
          Recogniser.Finds.change (hF _) d.1 d.2 (hd d hdm) (fun k a b _ _ ⟨v, hv⟩ => ⟨v, hv.le (by omega)⟩))
        rw [e]
        exact ⟨_, back _ q hq h2⟩

theorem mentionsWhole_sequence {t : Ty W} : ∀ {x : Symbol W} {xs : List (Symbol W)},
    (sequenceOf x xs).pat.MentionsWhole t → xs = [] ∧ x = .attr t
  | .text _, [], h => h.elim
  | .attr _, [], h => ⟨rfl, congrArg Symbol.attr h⟩
  | _, _ :: _, h => h.elim

theorem mentionsWhole_conjunction {t : Ty W} : ∀ {c : Symbol W × List (Symbol W)} {ds},
    (conjunctionOf c ds).pat.MentionsWhole t → ∃ d ∈ c :: ds, d.2 = [] ∧ d.1 = .attr t
  | c, [], h => ⟨c, by simp, mentionsWhole_sequence h⟩
  | c, d :: ds, h => by
    rcases h with h | h
    · exact ⟨c, by simp, mentionsWhole_sequence h⟩
    · obtain ⟨e, he, h'⟩ := mentionsWhole_conjunction h
      exact ⟨e, List.mem_cons_of_mem _ he, h'⟩

theorem UnitFree.growing {G : List (Production W)} (hu : UnitFree G) : Growing (G.map Production.rule) := by
  intro r hr r' hr' hm
  obtain ⟨p, hp, rfl⟩ := List.mem_map.1 hr
  obtain ⟨q, hq, rfl⟩ := List.mem_map.1 hr'
  obtain ⟨c, hc, h1, h2⟩ := mentionsWhole_conjunction hm
  exact hu p hp c hc h1 q hq h2

theorem Derives.ne_nil {G : List (Production W)} {x : Symbol W} {ws : List Str} (h : Derives G x ws) : ws ≠ [] := by
  refine h (fun _ ws => ws ≠ []) ⟨fun s => by simp, fun p _ ws hc => ?_⟩
  obtain ⟨u, v, rfl, hu, _⟩ := hc p.first (List.mem_cons_self ..)
  exact fun h => hu (List.append_eq_nil_iff.1 h).1

theorem Spells.inside {l : LLLine W} {i j : Nat} {ws : List Str} (h : Spells l i j ws) (hn : ws ≠ []) :
    i ≤ j ∧ j < l.ll_tokens.length := by
  have hp := List.length_pos_iff.2 hn
  have hl := h.1
  refine ⟨by omega, ?_⟩
  have := h.2 (ws.length - 1) _ (List.getElem?_eq_getElem (by omega))
  have := textAt_lt this
  omega

/-! lines made from a text -/

theorem text_honest {s : Str} {l : LLLine W} (hl : createLineFromString W s = .ok l) :
    Honest l (creationHistory W utf8Len [.Text s []]) :=
  .create _ _ _ (by intro t ht a ha; cases List.mem_singleton.1 ht; cases ha) hl

theorem text_clean {s : Str} {G : List (Production W)} (own : ¬ MentionsType G .char ∧ ¬ MentionsType G .textTag) :
    ∀ r ∈ creationHistory W utf8Len [.Text s []], ¬ MentionsType G r.ty := by
  intro r hr hm
  rcases List.mem_append.1 hr with hr | hr
  · rcases builtinHistory_ty _ r hr with e | e
    · exact own.1 (e ▸ hm)
    · exact own.2 (e ▸ hm)
  · cases hr

theorem text_tokens {s : Str} {l : LLLine W} (hl : createLineFromString W s = .ok l) :
    l.ll_tokens.map (·.token) = (textPieces W s).map (fun p => LToken.Text p.1 p.2) := by
  obtain ⟨_, h, _⟩ := create_inv (by intro t ht a ha; cases List.mem_singleton.1 ht; cases ha) hl
  rw [h, layoutM_tokens]
  simp [tokensOf, Function.comp_def]

theorem text_length {s : Str} {l : LLLine W} (hl : createLineFromString W s = .ok l) :
    l.ll_tokens.length = (textPieces W s).length := by
  have := congrArg List.length (text_tokens hl)
  simpa using this

theorem text_textAt {s : Str} {l : LLLine W} (hl : createLineFromString W s = .ok l) (i : Nat) :
    textAt l i = ((textPieces W s).map (·.1))[i]? := by
  have h := congrArg (fun ts => ts[i]?) (text_tokens hl)
  simp only [List.getElem?_map] at h ⊢
  rw [textAt]
  cases ht : l.ll_tokens[i]? with
  | none =>
    rw [ht] at h
    cases hp : (textPieces W s)[i]? with
    | none => rfl
    | some p => rw [hp] at h; cases h
  | some t =>
    rw [ht] at h
    cases hp : (textPieces W s)[i]? with
    | none => rw [hp] at h; cases h
    | some p =>
      rw [hp] at h
      simp only [Option.map_some, Option.some.injEq] at h
      simp only [Option.bind_some, h, Option.map_some]

theorem text_spells {s : Str} {l : LLLine W} (hl : createLineFromString W s = .ok l) {i j : Nat} (hij : i ≤ j)
    (hj : j < (textPieces W s).length) : Spells l i j ((((textPieces W s).map (·.1)).drop i).take (j + 1 - i)) := by
  refine ⟨by rw [List.length_take, List.length_drop, List.length_map]; omega, fun n w hn => ?_⟩
  rw [text_textAt hl, ← hn, List.getElem?_take]
  split
  · rw [List.getElem?_drop]
  · rename_i hlt
    rw [List.getElem?_take, if_neg hlt] at hn
    cases hn

/-! `aⁿbⁿcⁿ` -/

theorem concatenated_one {L : Symbol W → List Str → Prop} {x : Symbol W} {ws : List Str} :
    Concatenated L [x] ws ↔ L x ws :=
  ⟨fun ⟨u, v, e, hu, hv⟩ => by cases hv; rw [e, List.append_nil]; exact hu, fun h => ⟨ws, [], by simp, h, rfl⟩⟩

theorem abc_iff (ws : List Str) : Derives Demo.abc (.attr (.user 0)) ws ↔
    ∃ n, 0 < n ∧ ws = List.replicate n ['a'] ++ List.replicate n ['b'] ++ List.replicate n ['c'] := by
  constructor
  · intro h
    let a : Nat → List Str := fun n => List.replicate n ['a']
    let b : Nat → List Str := fun n => List.replicate n ['b']
    let c : Nat → List Str := fun n => List.replicate n ['c']
    let L : Symbol Demo.W → List Str → Prop := fun x ws =>
      (∀ d, x = Demo.tok d → ws = [[d]]) ∧ (x = Demo.nt 0 → ∃ n, 0 < n ∧ ws = a n ++ b n ++ c n) ∧
      (x = Demo.nt 1 → ∃ n, 0 < n ∧ ws = a n) ∧ (x = Demo.nt 2 → ∃ n, 0 < n ∧ ws = b n ++ c n) ∧
      (x = Demo.nt 3 → ∃ n, 0 < n ∧ ws = a n ++ b n) ∧ (x = Demo.nt 4 → ∃ n, 0 < n ∧ ws = c n)
    have lk : ∀ k ws, (k = 0 → ∃ n, 0 < n ∧ ws = a n ++ b n ++ c n) → (k = 1 → ∃ n, 0 < n ∧ ws = a n) →
        (k = 2 → ∃ n, 0 < n ∧ ws = b n ++ c n) → (k = 3 → ∃ n, 0 < n ∧ ws = a n ++ b n) →
        (k = 4 → ∃ n, 0 < n ∧ ws = c n) → L (Demo.nt k) ws := by
      intro k ws h0 h1 h2 h3 h4
      have inj : ∀ m, Demo.nt k = Demo.nt m → k = m := fun m e => by cases e; rfl
      exact ⟨fun d e => (by cases e), fun e => h0 (inj _ e), fun e => h1 (inj _ e), fun e => h2 (inj _ e),
        fun e => h3 (inj _ e), fun e => h4 (inj _ e)⟩
    have hL : Solves Demo.abc L := by
      refine ⟨fun s => ⟨fun d e => (by cases e; rfl), fun e => (by cases e), fun e => (by cases e), fun e => (by cases e),
        fun e => (by cases e), fun e => (by cases e)⟩, ?_⟩
      intro p hp ws hc
      have hc1 := hc p.first (List.mem_cons_self ..)
      simp only [Demo.abc, List.mem_cons, List.not_mem_nil, or_false] at hp
      rcases hp with rfl | rfl | rfl | rfl | rfl | rfl | rfl | rfl | rfl
      · have hc2 := hc (Demo.nt 3, [Demo.nt 4]) (by simp)
        obtain ⟨u, v, rfl, hu, hv⟩ := hc1
        obtain ⟨u', v', e, hu', hv'⟩ := hc2
        obtain ⟨m, hm, rfl⟩ := hu.2.2.1 rfl
        obtain ⟨n, hn, rfl⟩ := (concatenated_one.1 hv).2.2.2.1 rfl
        obtain ⟨m', hm', rfl⟩ := hu'.2.2.2.2.1 rfl
        obtain ⟨n', hn', rfl⟩ := (concatenated_one.1 hv').2.2.2.2.2 rfl
        have ea := congrArg (List.count ['a']) e
        have eb := congrArg (List.count ['b']) e
        simp [a, b, c, List.count_replicate] at ea eb
        obtain rfl : m = m' := ea
        obtain rfl : n = m := eb
        exact lk 0 _ (fun _ => ⟨n, hm, (List.append_assoc ..).symm⟩) (fun e => absurd e (by decide)) (fun e => absurd e (by decide))
          (fun e => absurd e (by decide)) (fun e => absurd e (by decide))
      · have e := (concatenated_one.1 hc1).1 'a' rfl
        subst e
        exact lk 1 _ (fun e => absurd e (by decide)) (fun _ => ⟨1, by omega, rfl⟩) (fun e => absurd e (by decide))
          (fun e => absurd e (by decide)) (fun e => absurd e (by decide))
      · obtain ⟨u, v, rfl, hu, hv⟩ := hc1
        have e := hu.1 'a' rfl
        subst e
        obtain ⟨n, hn, rfl⟩ := (concatenated_one.1 hv).2.2.1 rfl
        exact lk 1 _ (fun e => absurd e (by decide)) (fun _ => ⟨n + 1, by omega, rfl⟩) (fun e => absurd e (by decide))
          (fun e => absurd e (by decide)) (fun e => absurd e (by decide))
      · obtain ⟨u, v, rfl, hu, hv⟩ := hc1
        have e := hu.1 'b' rfl
        subst e
        have e := (concatenated_one.1 hv).1 'c' rfl
        subst e
        exact lk 2 _ (fun e => absurd e (by decide)) (fun e => absurd e (by decide)) (fun _ => ⟨1, by omega, rfl⟩)
          (fun e => absurd e (by decide)) (fun e => absurd e (by decide))
      · obtain ⟨u, v, rfl, hu, x, y, rfl, hx, hy⟩ := hc1
        have e := hu.1 'b' rfl
        subst e
        have e := (concatenated_one.1 hy).1 'c' rfl
        subst e
        obtain ⟨n, hn, rfl⟩ := hx.2.2.2.1 rfl
        exact lk 2 _ (fun e => absurd e (by decide)) (fun e => absurd e (by decide)) (fun _ => ⟨n + 1, by omega, by
            show _ = List.replicate (n + 1) ['b'] ++ List.replicate (n + 1) ['c']
            rw [List.replicate_succ' (a := ['c']), List.append_assoc (b n)]
            rfl⟩)
          (fun e => absurd e (by decide)) (fun e => absurd e (by decide))
      · obtain ⟨u, v, rfl, hu, hv⟩ := hc1
        have e := hu.1 'a' rfl
        subst e
        have e := (concatenated_one.1 hv).1 'b' rfl
        subst e
        exact lk 3 _ (fun e => absurd e (by decide)) (fun e => absurd e (by decide)) (fun e => absurd e (by decide))
          (fun _ => ⟨1, by omega, rfl⟩) (fun e => absurd e (by decide))
      · obtain ⟨u, v, rfl, hu, x, y, rfl, hx, hy⟩ := hc1
        have e := hu.1 'a' rfl
        subst e
        have e := (concatenated_one.1 hy).1 'b' rfl
        subst e
        obtain ⟨n, hn, rfl⟩ := hx.2.2.2.2.1 rfl
        exact lk 3 _ (fun e => absurd e (by decide)) (fun e => absurd e (by decide)) (fun e => absurd e (by decide))
          (fun _ => ⟨n + 1, by omega, by
            show _ = List.replicate (n + 1) ['a'] ++ List.replicate (n + 1) ['b']
            rw [List.replicate_succ' (a := ['b']), List.append_assoc (a n)]
            rfl⟩) (fun e => absurd e (by decide))
      · have e := (concatenated_one.1 hc1).1 'c' rfl
        subst e
        exact lk 4 _ (fun e => absurd e (by decide)) (fun e => absurd e (by decide)) (fun e => absurd e (by decide))
          (fun e => absurd e (by decide)) (fun _ => ⟨1, by omega, rfl⟩)
      · obtain ⟨u, v, rfl, hu, hv⟩ := hc1
        have e := hu.1 'c' rfl
        subst e
        obtain ⟨n, hn, rfl⟩ := (concatenated_one.1 hv).2.2.2.2.2 rfl
        exact lk 4 _ (fun e => absurd e (by decide)) (fun e => absurd e (by decide)) (fun e => absurd e (by decide))
          (fun e => absurd e (by decide)) (fun _ => ⟨n + 1, by omega, rfl⟩)
    exact (h L hL).2.1 rfl
  · rintro ⟨n, hn, rfl⟩ L hL
    have one : ∀ c, L (Demo.tok c) [[c]] := fun c => hL.1 _
    have prod : ∀ k x xs, Demo.to k x xs ∈ Demo.abc → ∀ ws, Concatenated L (x :: xs) ws → L (Demo.nt k) ws :=
      fun k x xs hm ws hw => hL.2 _ hm ws (fun c hc => by cases List.mem_singleton.1 hc; exact hw)
    have h1 : ∀ m, L (Demo.nt 1) (List.replicate (m + 1) ['a']) := by
      intro m
      induction m with
      | zero => exact prod 1 (Demo.tok 'a') [] (by simp [Demo.abc]) _ (concatenated_one.2 (one 'a'))
      | succ m ih =>
        exact prod 1 (Demo.tok 'a') [Demo.nt 1] (by simp [Demo.abc]) _
          ⟨[['a']], _, rfl, one 'a', concatenated_one.2 ih⟩
    have h4 : ∀ m, L (Demo.nt 4) (List.replicate (m + 1) ['c']) := by
      intro m
      induction m with
      | zero => exact prod 4 (Demo.tok 'c') [] (by simp [Demo.abc]) _ (concatenated_one.2 (one 'c'))
      | succ m ih =>
        exact prod 4 (Demo.tok 'c') [Demo.nt 4] (by simp [Demo.abc]) _
          ⟨[['c']], _, rfl, one 'c', concatenated_one.2 ih⟩
    have h2 : ∀ m, L (Demo.nt 2) (List.replicate (m + 1) ['b'] ++ List.replicate (m + 1) ['c']) := by
      intro m
      induction m with
      | zero =>
        exact prod 2 (Demo.tok 'b') [Demo.tok 'c'] (by simp [Demo.abc]) _
          ⟨[['b']], [['c']], rfl, one 'b', concatenated_one.2 (one 'c')⟩
      | succ m ih =>
        refine prod 2 (Demo.tok 'b') [Demo.nt 2, Demo.tok 'c'] (by simp [Demo.abc]) _
          ⟨[['b']], _, ?_, one 'b', _, [['c']], rfl, ih, concatenated_one.2 (one 'c')⟩
        rw [List.append_assoc, ← List.replicate_succ', ← List.append_assoc]
        rfl
    have h3 : ∀ m, L (Demo.nt 3) (List.replicate (m + 1) ['a'] ++ List.replicate (m + 1) ['b']) := by
      intro m
      induction m with
      | zero =>
        exact prod 3 (Demo.tok 'a') [Demo.tok 'b'] (by simp [Demo.abc]) _
          ⟨[['a']], [['b']], rfl, one 'a', concatenated_one.2 (one 'b')⟩
      | succ m ih =>
        refine prod 3 (Demo.tok 'a') [Demo.nt 3, Demo.tok 'b'] (by simp [Demo.abc]) _
          ⟨[['a']], _, ?_, one 'a', _, [['b']], rfl, ih, concatenated_one.2 (one 'b')⟩
        rw [List.append_assoc, ← List.replicate_succ', ← List.append_assoc]
        rfl
    obtain ⟨m, rfl⟩ : ∃ m, n = m + 1 := ⟨n - 1, by omega⟩
    refine hL.2 _ (List.mem_cons_self ..) _ (fun c hc => ?_)
    rcases List.mem_cons.1 hc with rfl | hc
    · exact ⟨_, _, List.append_assoc .., h1 m, concatenated_one.2 (h2 m)⟩
    · cases List.mem_singleton.1 hc
      exact ⟨_, _, rfl, h3 m, concatenated_one.2 (h4 m)⟩

end LNlp
