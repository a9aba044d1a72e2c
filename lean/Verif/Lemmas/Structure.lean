import Verif.Spec.Structure
import Verif.Lemmas.Cfg
import Verif.Props.Grammar
/- Helper lemmas for Props/Structure.lean. -/
namespace LNlp
variable {W : World}

/-! ### as many steps as there are tokens times values -/

/-- what is found on a range is found from facts inside of it -/
theorem Pat.Holds.within {l : LLLine W} {F G : Rec W → Prop}
    (hF : ∀ y, F y → y.range.1 ≤ y.range.2 ∧ y.range.2 < l.ll_tokens.length) :
    ∀ {α : Type} {p : Pat W α} {i j : Nat} {x : α}, p.Holds l F i j x →
      (∀ y, F y → i ≤ y.range.1 → y.range.2 ≤ j → G y) → p.Holds l G i j x
  | _, .attr _, _, _, _, h, hs => hs _ h (Nat.le_refl _) (Nat.le_refl _)
  | _, .attrEq _ _, _, _, _, hh, hs => by
    obtain ⟨w, hw, h⟩ := hh
    exact ⟨w, hw, hs _ h (Nat.le_refl _) (Nat.le_refl _)⟩
  | _, .text, _, _, _, h, _ => h
  | _, .seq _ _, _, _, (_, _), hh, hs => by
    obtain ⟨m, h1, h2⟩ := hh
    have o1 := h1.inside hF
    have o2 := h2.inside hF
    exact ⟨m, h1.within hF (fun y hy ha hb => hs y hy ha (by omega)),
      h2.within hF (fun y hy ha hb => hs y hy (by omega) hb)⟩
  | _, .both _ _, _, _, (_, _), hh, hs => ⟨hh.1.within hF hs, hh.2.within hF hs⟩

/-- rules that assign values from a finite stock find everything on a range within as many steps as it is long times as
there are values -/
theorem stock_steps {l : LLLine W} {h : History W} {rules : List (Rule W)} {C : List ((k : Ty W) × Val k)}
    (hC : ∀ r ∈ rules, ∀ f, ∀ v ∈ r.values f, (⟨r.attr, v⟩ : (k : Ty W) × Val k) ∈ C)
    (hin : ∀ y ∈ h, y.range.1 ≤ y.range.2 ∧ y.range.2 < l.ll_tokens.length) : ∀ (w : Nat) (x : Rec W),
      x.range.2 - x.range.1 < w → (∃ n, InSteps l h rules n x) → InSteps l h rules (w * C.length) x := by
  have hF : ∀ n y, InSteps l h rules n y → y.range.1 ≤ y.range.2 ∧ y.range.2 < l.ll_tokens.length := by
    intro n y hy
    refine hy.derivable (fun y => y.range.1 ≤ y.range.2 ∧ y.range.2 < l.ll_tokens.length) hin ?_
    rintro r hr x ⟨i, j, f, v, hp, hv, rfl⟩
    exact hp.inside (fun y hy => hy)
  have old : ∀ n x, InSteps l h rules n x → x ∈ h ∨ (⟨x.ty, x.val⟩ : (k : Ty W) × Val k) ∈ C := by
    intro n
    induction n with
    | zero => exact fun x hx => .inl hx
    | succ n ih =>
      rintro x (hx | ⟨r, hr, i, j, f, v, _, hv, rfl⟩)
      · exact ih x hx
      · exact .inr (hC r hr f v hv)
  intro w
  induction w with
  | zero => intro x h; omega
  | succ w ih =>
    rintro x hw ⟨n, hn⟩
    by_cases hlt : x.range.2 - x.range.1 < w
    · exact (ih x hlt ⟨n, hn⟩).le (Nat.mul_le_mul_right _ (Nat.le_succ _))
    rw [Nat.succ_mul]
    generalize hB : w * C.length = B at ih
    rcases old n x hn with hx | hx
    · exact InSteps.le (Nat.zero_le _) hx
    let R : Nat → ((k : Ty W) × Val k) → Prop := fun t c => InSteps l h rules (B + t) ⟨c.1, x.range, c.2⟩
    refine stops (R := R) (fun t p hp => hp.le (by omega)) ?_ n hx (hn.le (by omega))
    intro t hst c hc hr
    rcases hr with hr | ⟨r, hr, i, j, f, v, hp, hv, e⟩
    · exact hr
    · have e2 := congrArg Rec.range e
      simp only at e2
      refine .inr ⟨r, hr, i, j, f, v, hp.within (hF _) (fun y hy ha hb => ?_), hv, e⟩
      have hj : j - i = w := by have e3 := congrArg Prod.fst e2; have e4 := congrArg Prod.snd e2; simp only at e3 e4; omega
      have oy := hF _ y hy
      by_cases hyw : y.range.2 - y.range.1 < w
      · exact (ih y hyw ⟨_, hy⟩).le (Nat.le_add_right B t)
      · have ey : y.range = x.range := by rw [e2]; exact Prod.ext (by simp only; omega) (by simp only; omega)
        rcases old _ y hy with hy' | hy'
        · exact InSteps.le (Nat.zero_le _) hy'
        · have := hst ⟨y.ty, y.val⟩ hy'
          simp only [R, ← ey] at this
          exact this hy

/-! ### symbols one behind the other -/

theorem there_iff {x : Category W} {l : LLLine W} {F : Rec W → Prop} {i j : Nat} :
    x.There l F i j ↔ x.recogniser.Finds l F i j := by
  cases x with
  | text s =>
    constructor
    · rintro ⟨h1, h2⟩
      exact ⟨s, ⟨h1, h2⟩, beq_self_eq_true s⟩
    · rintro ⟨t, ⟨h1, h2⟩, ht⟩
      rw [(beq_iff_eq (α := Str)).1 ht] at h2
      exact ⟨h1, h2⟩
  | attr k => exact ⟨fun ⟨v, hv⟩ => ⟨v, hv, rfl⟩, fun ⟨v, hv, _⟩ => ⟨v, hv⟩⟩
  | attrEq k v => exact ⟨fun h => ⟨(), h, rfl⟩, fun ⟨_, h, _⟩ => h⟩

theorem there_fits {x : Category W} {l : LLLine W} {F : Rec W → Prop} {i j : Nat} {k : Ty W} {v : Val k}
    (hf : x.Fits k v) (h : F ⟨k, (i, j), v⟩) : x.There l F i j := by
  cases x with
  | text s => cases hf
  | attr k' => cases hf; exact ⟨v, h⟩
  | attrEq k' v' =>
    obtain ⟨rfl, e⟩ := hf
    exact ⟨v, e, h⟩

/-- a symbol that is there is a text or an attribute it stands for -/
theorem there_cases {x : Category W} {l : LLLine W} {F : Rec W → Prop} {i j : Nat} (h : x.There l F i j) :
    (∀ F', x.There l F' i j) ∨ ∃ k v, x.Fits k v ∧ F ⟨k, (i, j), v⟩ := by
  cases x with
  | text s => exact .inl (fun _ => h)
  | attr k => obtain ⟨v, hv⟩ := h; exact .inr ⟨k, v, rfl, hv⟩
  | attrEq k v => obtain ⟨w, hw, h⟩ := h; exact .inr ⟨k, w, ⟨rfl, hw⟩, h⟩

theorem phrase_finds {l : LLLine W} {F : Rec W → Prop} : ∀ (x : Category W) (xs : List (Category W)) {i j : Nat},
    (phraseOf x xs).Finds l F i j ↔ SymbolsAt l F i (x :: xs) (j + 1)
  | x, [], i, j => by
    constructor
    · intro h
      exact ⟨j, there_iff.2 h, rfl⟩
    · rintro ⟨m, h, e⟩
      obtain rfl : m = j := Nat.succ.inj e
      exact there_iff.1 h
  | x, y :: ys, i, j => by
    constructor
    · rintro ⟨⟨a, b⟩, ⟨m, h1, h2⟩, ok⟩
      have ok := Bool.and_eq_true_iff.1 ok
      exact ⟨m, there_iff.2 ⟨a, h1, ok.1⟩, (phrase_finds y ys).1 ⟨b, h2, ok.2⟩⟩
    · rintro ⟨m, h1, h2⟩
      obtain ⟨a, h1, o1⟩ := there_iff.1 h1
      obtain ⟨b, h2, o2⟩ := (phrase_finds y ys).2 h2
      exact ⟨(a, b), ⟨m, h1, h2⟩, Bool.and_eq_true_iff.2 ⟨o1, o2⟩⟩

theorem expansion_concludes {p : Expansion W} {l : LLLine W} {F : Rec W → Prop} {x : Rec W} :
    p.rule.Concludes l F x ↔ ∃ i j, x = ⟨p.lhs, (i, j), p.value⟩ ∧ SymbolsAt l F i p.rhs (j + 1) := by
  constructor
  · rintro ⟨i, j, f, v, hp, hv, rfl⟩
    change v ∈ (if (phraseOf p.first p.more).ok f then [p.value] else []) at hv
    by_cases ok : (phraseOf p.first p.more).ok f = true
    · rw [if_pos ok] at hv
      have e : v = p.value := List.mem_singleton.1 hv
      subst e
      exact ⟨i, j, rfl, (phrase_finds _ _).1 ⟨f, hp, ok⟩⟩
    · rw [if_neg ok] at hv
      cases hv
  · rintro ⟨i, j, rfl, h⟩
    obtain ⟨f, hp, ok⟩ := (phrase_finds _ _).2 h
    refine ⟨i, j, f, p.value, hp, ?_, rfl⟩
    change p.value ∈ (if (phraseOf p.first p.more).ok f then [p.value] else [])
    rw [if_pos ok]
    exact List.mem_singleton.2 rfl

theorem symbols_mono {l : LLLine W} {F F' : Rec W → Prop} (hF : ∀ y, F y → F' y) : ∀ {as : List (Category W)} {i e : Nat},
    SymbolsAt l F i as e → SymbolsAt l F' i as e
  | [], _, _, h => h
  | _ :: _, _, _, ⟨m, h1, h2⟩ => by
    refine ⟨m, ?_, symbols_mono hF h2⟩
    rcases there_cases h1 with h1 | ⟨k, v, hx, h1⟩
    · exact h1 _
    · exact there_fits hx (hF _ h1)

theorem symbols_append {l : LLLine W} {F : Rec W → Prop} {e : Nat} {bs : List (Category W)} : ∀ {as : List (Category W)} {i : Nat},
    SymbolsAt l F i (as ++ bs) e ↔ ∃ m, SymbolsAt l F i as m ∧ SymbolsAt l F m bs e
  | [], i => ⟨fun h => ⟨i, rfl, h⟩, fun ⟨m, h1, h2⟩ => by cases h1; exact h2⟩
  | a :: as, i => by
    constructor
    · rintro ⟨j, h1, h2⟩
      obtain ⟨m, h2, h3⟩ := symbols_append.1 h2
      exact ⟨m, ⟨j, h1, h2⟩, h3⟩
    · rintro ⟨m, ⟨j, h1, h2⟩, h3⟩
      exact ⟨j, h1, symbols_append.2 ⟨m, h2, h3⟩⟩

theorem symbols_grow {l : LLLine W} {F : Rec W → Prop} (hF : ∀ y, F y → y.range.1 ≤ y.range.2) :
    ∀ {as : List (Category W)} {i e : Nat}, SymbolsAt l F i as e → i ≤ e ∧ (as ≠ [] → i < e)
  | [], i, e, h => by cases h; exact ⟨Nat.le_refl _, fun h => absurd rfl h⟩
  | a :: as, i, e, h => by
    obtain ⟨j, h1, h2⟩ := h
    have := (symbols_grow hF h2).1
    have hij : i ≤ j := by
      cases a with
      | text s => exact Nat.le_of_eq h1.1
      | attr k => obtain ⟨v, hv⟩ := h1; exact hF _ hv
      | attrEq k v => obtain ⟨w, _, hv⟩ := h1; exact hF _ hv
    exact ⟨by omega, fun _ => by omega⟩

theorem Rewrites.append {G : List (Expansion W)} {us vs : List (Category W)} (h : Rewrites G us vs) (as bs : List (Category W)) :
    Rewrites G (as ++ us ++ bs) (as ++ vs ++ bs) := by
  induction h with
  | refl => exact .refl _
  | @step before after x p _ hp hx ih =>
    have := Rewrites.step (before := as ++ before) (after := after ++ bs) (x := x) (p := p) (by simpa using ih) hp hx
    simpa using this

theorem Rewrites.trans {G : List (Expansion W)} {us vs ws : List (Category W)} (h1 : Rewrites G us vs) (h2 : Rewrites G vs ws) :
    Rewrites G us ws := by
  induction h2 with
  | refl => exact h1
  | step _ hp hx ih => exact .step ih hp hx

/-- read backwards, replacing keeps what is there in a closed set of facts -/
theorem Rewrites.symbols {G : List (Expansion W)} {l : LLLine W} {F : Rec W → Prop} (hord : ∀ y, F y → y.range.1 ≤ y.range.2)
    (hc : Closed l (G.map Expansion.rule) F) {us vs : List (Category W)} (h : Rewrites G us vs) :
    ∀ {i e : Nat}, SymbolsAt l F i vs e → SymbolsAt l F i us e := by
  induction h with
  | refl => exact fun h => h
  | @step before after x p _ hp hx ih =>
    intro i e hr
    rw [List.append_assoc] at hr
    obtain ⟨m, h1, h2⟩ := symbols_append.1 hr
    obtain ⟨n, h2, h3⟩ := symbols_append.1 h2
    have hlt := (symbols_grow hord h2).2 (by simp [Expansion.rhs])
    obtain ⟨n, rfl⟩ : ∃ n', n = n' + 1 := ⟨n - 1, by omega⟩
    have := hc p.rule (List.mem_map.2 ⟨p, hp, rfl⟩) _ (expansion_concludes.2 ⟨m, n, rfl, h2⟩)
    exact ih (symbols_append.2 ⟨m, h1, ⟨n, there_fits hx this, h3⟩⟩)

theorem symbols_parsed {l : LLLine W} {h : History W} {G : List (Expansion W)} : ∀ {as : List (Category W)} {i e : Nat},
    SymbolsAt l (Parsed l h G) i as e → ∃ ws, Rewrites G as ws ∧ SymbolsAt l (· ∈ h) i ws e
  | [], i, e, hr => ⟨[], .refl _, hr⟩
  | a :: as, i, e, hr => by
    obtain ⟨j, h1, h2⟩ := hr
    obtain ⟨ws, h3, h4⟩ := symbols_parsed h2
    have h3' : Rewrites G (a :: as) (a :: ws) := by simpa using h3.append [a] []
    rcases there_cases h1 with h1 | ⟨k, v, hx, h1 | ⟨p, hp, i', j', e', vs, h5, h6⟩⟩
    · exact ⟨a :: ws, h3', j, h1 _, h4⟩
    · exact ⟨a :: ws, h3', j, there_fits hx h1, h4⟩
    · cases e'
      refine ⟨vs ++ ws, h3'.trans ?_, symbols_append.2 ⟨j + 1, h6, h4⟩⟩
      have h7 : Rewrites G (a :: ws) (p.rhs ++ ws) := .step (before := []) (.refl _) hp hx
      exact h7.trans (by simpa using h5.append [] ws)

theorem derivable_iff_parsed {l : LLLine W} {h : History W} {G : List (Expansion W)}
    (hin : ∀ y ∈ h, y.range.1 ≤ y.range.2 ∧ y.range.2 < l.ll_tokens.length) {x : Rec W} :
    Derivable l h (G.map Expansion.rule) x ↔ Parsed l h G x := by
  constructor
  · intro hx
    refine hx _ (fun y hy => .inl hy) ?_
    intro r hr y hy
    obtain ⟨p, hp, rfl⟩ := List.mem_map.1 hr
    obtain ⟨i, j, rfl, hr⟩ := expansion_concludes.1 hy
    exact .inr ⟨p, hp, i, j, rfl, symbols_parsed hr⟩
  · intro hx F hF hc
    rcases hx with hx | ⟨p, hp, i, j, rfl, ws, h1, h2⟩
    · exact hF _ hx
    · let F' : Rec W → Prop := fun y => F y ∧ y.range.1 ≤ y.range.2 ∧ y.range.2 < l.ll_tokens.length
      have hc' : Closed l (G.map Expansion.rule) F' := by
        intro r hr y hy
        refine ⟨hc r hr y (hy.mono (fun y _ h => h.1)), ?_⟩
        obtain ⟨i, j, f, v, hp, _, rfl⟩ := hy
        exact hp.inside (fun y hy => hy.2)
      have h3 : SymbolsAt l F' i ws (j + 1) := symbols_mono (fun y hy => ⟨hF y hy, hin y hy⟩) h2
      have h4 := h1.symbols (fun y hy => hy.2.1) hc' h3
      exact (hc' p.rule (List.mem_map.2 ⟨p, hp, rfl⟩) _ (expansion_concludes.2 ⟨i, j, rfl, h4⟩)).1

/-- the symbols that are there at the end are those that can be replaced by symbols that were there -/
theorem symbols_iff {l : LLLine W} {h : History W} {G : List (Expansion W)}
    (hin : ∀ y ∈ h, y.range.1 ≤ y.range.2 ∧ y.range.2 < l.ll_tokens.length) {us : List (Category W)} {i e : Nat} :
    SymbolsAt l (Parsed l h G) i us e ↔ ∃ ws, Rewrites G us ws ∧ SymbolsAt l (· ∈ h) i ws e := by
  refine ⟨symbols_parsed, fun ⟨ws, h1, h2⟩ => h1.symbols (F := Parsed l h G) ?_ ?_ ?_⟩
  · intro y hy
    refine (derivable_iff_parsed hin).2 hy (fun y => y.range.1 ≤ y.range.2 ∧ y.range.2 < l.ll_tokens.length) hin ?_ |>.1
    rintro r _ x ⟨i, j, f, v, hp, _, rfl⟩
    exact hp.inside (fun y hy => hy)
  · intro r hr x hx
    exact (derivable_iff_parsed hin).1
      (derivable_closed l h _ r hr x (hx.mono (fun y _ hy => (derivable_iff_parsed hin).2 hy)))
  · exact symbols_mono (fun y hy => .inl hy) h2

theorem fullyParsed {l l' : LLLine W} {h h' : History W} {G : List (Expansion W)} (hh : Honest l h) (hh' : Honest l' h')
    (ne : l.ll_tokens ≠ []) (ht : l'.ll_tokens = l.ll_tokens)
    (hx : ∀ x, x ∈ h' ↔ Derivable l h (G.map Expansion.rule) x) : FullyParsed l h G l' := by
  obtain ⟨hr, ho⟩ := hh.spec
  obtain ⟨hr', ho'⟩ := hh'.spec
  have hin : ∀ y ∈ h, y.range.1 ≤ y.range.2 ∧ y.range.2 < l.ll_tokens.length := fun y hy => ⟨ho y hy, (hr.rep.bounds y hy).2⟩
  have hin' : ∀ y ∈ h', y.range.1 ≤ y.range.2 ∧ y.range.2 < l'.ll_tokens.length :=
    fun y hy => ⟨ho' y hy, (hr'.rep.bounds y hy).2⟩
  have hx : ∀ x, x ∈ h' ↔ Parsed l h G x := fun x => (hx x).trans (derivable_iff_parsed hin)
  constructor
  · intro k
    have hq := C13_query_is_history hr' k (fun r hm => by
      obtain ⟨v, hv⟩ := mem_rangesOf.1 hm
      have := ho' _ hv
      simp only at this
      omega)
    exact ⟨_, hq, fun i j v => ((C13_query_complete hr' k _ hq).2.1 (i, j) v).trans (hx _)⟩
  · intro ptr x xs
    have ne' : l'.ll_tokens ≠ [] := by rw [ht]; exact ne
    obtain ⟨found, hf⟩ := findBy_total (wholeLine_inside ne' ptr)
      (show TotalOn (wholeLine l' ptr).ll_line.val (phraseOf x xs).pat.matcher from built_totalOn (Pat.built _) hr')
    refine ⟨found, hf, fun i j => ?_⟩
    rw [← symbols_iff hin, ← phrase_finds]
    have hlen : 0 < l'.ll_tokens.length := List.length_pos_iff.2 ne'
    constructor
    · rintro ⟨f, hm, ok⟩
      obtain ⟨_, hi, rs, hrs, hm⟩ := (mem_findBy hf).1 hm
      have hi' : i < l'.ll_tokens.length := by
        have := hi.2
        simp only [wholeLine] at this
        omega
      obtain ⟨rs', hrs', hiff⟩ := (phraseOf x xs).pat.matcher_spec hr' ho' hi'
      have hrs : (phraseOf x xs).pat.matcher.go (.fwd i) l' = .ok rs := hrs
      rw [hrs] at hrs'; cases hrs'
      exact ⟨f, (((hiff _ _).1 hm).line ht.symm).mono (fun y _ hy => (hx y).1 hy), ok⟩
    · rintro ⟨f, hp, ok⟩
      have hp : (phraseOf x xs).pat.Holds l' (· ∈ h') i j f := (hp.mono (fun y _ hy => (hx y).2 hy)).line ht
      have hb := hp.inside hin'
      obtain ⟨rs, hrs, hiff⟩ := (phraseOf x xs).pat.matcher_spec hr' ho' (i := i) (by omega)
      refine ⟨f, (mem_findBy hf).2 ⟨rfl, ⟨Nat.zero_le _, ?_⟩, rs, hrs, (hiff _ _).2 hp⟩, ok⟩
      simp only [wholeLine]
      omega

/-- the values productions assign -/
theorem expansions_stock (G : List (Expansion W)) : ∀ r ∈ G.map Expansion.rule, ∀ f, ∀ v ∈ r.values f,
    (⟨r.attr, v⟩ : (k : Ty W) × Val k) ∈ G.map (fun p => ⟨p.lhs, p.value⟩) := by
  intro r hr f v hv
  obtain ⟨p, hp, rfl⟩ := List.mem_map.1 hr
  change v ∈ (if (phraseOf p.first p.more).ok f then [p.value] else []) at hv
  split at hv
  · have e : v = p.value := List.mem_singleton.1 hv
    subst e
    exact List.mem_map.2 ⟨p, hp, rfl⟩
  · cases hv

theorem runs_tokens : ∀ {rs : List (Nat × Resolver W)} {l l' : LLLine W}, runAll l rs = .ok l' → l'.ll_tokens = l.ll_tokens
  | [], _, _, h => by cases h; rfl
  | p :: rs, l, l', h => by
    simp only [runAll] at h
    cases h1 : l.run p.1 p.2 with
    | error e => rw [h1] at h; cases h
    | ok l1 =>
      rw [h1] at h
      exact (runs_tokens h).trans (run_tokens h1)

theorem mentionsWhole_phrase {t : Ty W} : ∀ {x : Category W} {xs : List (Category W)},
    (phraseOf x xs).pat.MentionsWhole t → xs = [] ∧ (x = .attr t ∨ ∃ v, x = .attrEq t v)
  | .text _, [], h => absurd h (fun h => h)
  | .attr _, [], h => ⟨rfl, .inl (by cases h; rfl)⟩
  | .attrEq _ v, [], h => ⟨rfl, .inr (by cases h; exact ⟨v, rfl⟩)⟩
  | _, _ :: _, h => absurd h (fun h => h)

theorem NoChains.growing {G : List (Expansion W)} (hu : NoChains G) : Growing (G.map Expansion.rule) := by
  intro r hr r' hr' hm
  obtain ⟨p, hp, rfl⟩ := List.mem_map.1 hr
  obtain ⟨q, hq, rfl⟩ := List.mem_map.1 hr'
  obtain ⟨e, h⟩ := mentionsWhole_phrase hm
  rcases h with h | ⟨v, h⟩
  · exact (hu p hp e q hq).1 h
  · exact (hu p hp e q hq).2 v h

end LNlp
