import Verif.Lemmas.AmountLine
import Verif.Lemmas.Algebra
import Verif.Spec.Pipeline
import Verif.Props.Resolve
import Verif.Props.Amount
import Verif.Props.Match
import Verif.Props.Algebra
/- Helper lemmas about pipelines. -/
namespace LNlp
variable {W : World}

/-! ### a selection on another line -/

/-- the same tokens on another line -/
def LLSelection.on (rc : Rc (LLLine W)) (s : LLSelection W) : LLSelection W := { s with ll_line := rc }

def okMap {α β : Type} (f : α → β) : R α → R β
  | .ok a => .ok (f a)
  | .error e => .error e

theorem flatMapR_okMap {α β γ : Type} (f : α → R (List β)) (g : α → R (List γ)) (t : β → γ) :
    ∀ (xs : List α), (∀ x ∈ xs, g x = okMap (List.map t) (f x)) → flatMapR g xs = okMap (List.map t) (flatMapR f xs)
  | [], _ => rfl
  | x :: xs, h => by
    have ih := flatMapR_okMap f g t xs (fun y hy => h y (by simp [hy]))
    have h1 := h x (by simp)
    simp only [flatMapR, h1, ih]
    cases f x with
    | error e => rfl
    | ok a =>
      simp only [okMap]
      cases flatMapR f xs with
      | error e => rfl
      | ok b => simp

theorem findBy_on {Out : Type} {m : XMatch W Out} {s : LLSelection W} {rc : Rc (LLLine W)}
    (h : ∀ i, s.Has i → m.go (.fwd i) rc.val = m.go (.fwd i) s.ll_line.val) :
    (s.on rc).findBy m = okMap (List.map (fun p => (p.1.on rc, p.2))) (s.findBy m) := by
  unfold LLSelection.findBy
  refine flatMapR_okMap _ _ _ _ (fun i hi => ?_)
  have hi := mem_rangeIncl.1 hi
  show (match m.go (.fwd i) rc.val with
    | .error e => _
    | .ok rs => _ : R _) = _
  rw [h i ⟨hi.1, hi.2⟩]
  cases m.go (.fwd i) s.ll_line.val with
  | error e => rfl
  | ok rs => simp [okMap, LLSelection.on]

theorem selectionFrom_on (rc : Rc (LLLine W)) (s : LLSelection W) (a b : Nat) :
    (s.on rc).selectionFrom a b = (s.selectionFrom a b).map (LLSelection.on rc) := by
  unfold LLSelection.selectionFrom
  by_cases h : max a s.start_idx ≤ min b s.end_idx
  · simp only [LLSelection.on, h, if_true, Option.map_some]
  · simp only [LLSelection.on, h, if_false, Option.map_none]

theorem gaps_on (rc : Rc (LLLine W)) (s : LLSelection W) : ∀ (rs : List LRange) (a : Nat),
    gaps (s.on rc) a rs = (gaps s a rs).map (LLSelection.on rc)
  | [], a => by
    show ((s.on rc).selectionFrom a s.end_idx).toList = _
    rw [selectionFrom_on]
    simp only [gaps]
    cases s.selectionFrom a s.end_idx <;> rfl
  | m :: ms, a => by
    simp only [gaps, gapBefore, List.map_append, gaps_on rc s ms]
    congr 1
    cases checkedSub m.1 1 with
    | none => rfl
    | some e =>
      simp only [Option.bind_some, selectionFrom_on]
      cases s.selectionFrom a e <;> rfl

theorem splitBy_on {Out : Type} {m : XMatch W Out} {s : LLSelection W} {rc : Rc (LLLine W)}
    (ne : s.start_idx ≤ s.end_idx) (h : ∀ i, s.Has i → m.go (.fwd i) rc.val = m.go (.fwd i) s.ll_line.val) :
    (s.on rc).splitBy m = okMap (List.map (LLSelection.on rc)) (s.splitBy m) := by
  have hf := findBy_on h
  cases hs : s.findBy m with
  | error e =>
    rw [hs] at hf
    unfold LLSelection.splitBy
    rw [hf, hs]
    rfl
  | ok out =>
    rw [hs] at hf
    rw [splitBy_eq hs ne, splitBy_eq (s := s.on rc) hf ne]
    show Except.ok _ = Except.ok _
    congr 1
    rw [List.map_map]
    exact gaps_on rc s _ _

theorem trim_on {Out : Type} {m : XMatch W Out} {s : LLSelection W} {rc : Rc (LLLine W)}
    (h1 : m.go (.fwd s.start_idx) rc.val = m.go (.fwd s.start_idx) s.ll_line.val)
    (h2 : m.go (.bwd s.end_idx) rc.val = m.go (.bwd s.end_idx) s.ll_line.val) :
    (s.on rc).trim m = okMap (Option.map (LLSelection.on rc)) (s.trim m) := by
  unfold LLSelection.trim LLSelection.trimSelection
  simp only [LLSelection.on, h1, h2, if_true]
  cases m.go (.fwd s.start_idx) s.ll_line.val with
  | error e => rfl
  | ok r1 =>
    cases m.go (.bwd s.end_idx) s.ll_line.val with
    | error e => cases r1 <;> rfl
    | ok r2 =>
      cases r1 <;> cases r2 <;> simp only [List.head?_nil, List.head?_cons] <;> split <;>
        rename_i hh <;> first | exact (if_pos hh).trans rfl | exact (if_neg hh).trans rfl

theorem matchFirstBackwards_on {Out : Type} {m : XMatch W Out} {s : LLSelection W} {rc : Rc (LLLine W)}
    (h : m.go (.bwd (s.start_idx - 1)) rc.val = m.go (.bwd (s.start_idx - 1)) s.ll_line.val) :
    (s.on rc).matchFirstBackwards m = okMap (Option.map (fun p => (p.1.on rc, p.2))) (s.matchFirstBackwards m) := by
  unfold LLSelection.matchFirstBackwards LLSelection.matchBackwards
  simp only [LLSelection.on, h]
  by_cases h0 : s.start_idx = 0
  · simp only [h0, if_true]; rfl
  · simp only [h0, if_false]
    cases m.go (.bwd (s.start_idx - 1)) s.ll_line.val with
    | error e => rfl
    | ok rs => cases rs <;> rfl

/-- two lines on which the matchers of the clause resolver agree -/
structure SameForClauses (l l' : LLLine W) : Prop where
  len : l'.ll_tokens.length = l.ll_tokens.length
  delim : ∀ d : Dir, d.at < l.ll_tokens.length → (clauseDelimiter W).go d l' = (clauseDelimiter W).go d l
  space : ∀ d : Dir, d.at < l.ll_tokens.length → X.whitespace.go d l' = X.whitespace.go d l
  kw : ∀ d : Dir, d.at < l.ll_tokens.length →
    (X.attr (W := W) .clauseKeyword).go d l' = (X.attr (W := W) .clauseKeyword).go d l

theorem clauseSingle_on {s : LLSelection W} {rc : Rc (LLLine W)} (hs : s.Inside)
    (h : SameForClauses s.ll_line.val rc.val) : clauseSingle (s.on rc) = clauseSingle s := by
  have := hs.1; have := hs.2
  unfold clauseSingle
  rw [trim_on (h.space (.fwd _) (show s.start_idx < _ by omega)) (h.space (.bwd _) (show s.end_idx < _ by omega)),
    matchFirstBackwards_on (h.kw (.bwd _) (show s.start_idx - 1 < _ by omega))]
  cases s.trim X.whitespace with
  | error e => rfl
  | ok o =>
    cases o with
    | none => rfl
    | some t =>
      cases s.matchFirstBackwards (X.attr (W := W) .clauseKeyword) with
      | error e => rfl
      | ok o =>
        match o with
        | none => rfl
        | some (q, ClauseKeyword.ConditionStart) => rfl
        | some (q, ClauseKeyword.Then) => rfl
        | some (q, ClauseKeyword.And) => rfl

theorem clauseStep_on {s : LLSelection W} {rc : Rc (LLLine W)} (hs : s.Inside)
    (h : SameForClauses s.ll_line.val rc.val) (st : Bool × List (LLCursorAssignment Clause)) :
    clauseStep st (s.on rc) = clauseStep st s := by
  have := hs.1; have := hs.2
  unfold clauseStep
  rw [trim_on (h.space (.fwd _) (show s.start_idx < _ by omega)) (h.space (.bwd _) (show s.end_idx < _ by omega)),
    matchFirstBackwards_on (h.kw (.bwd _) (show s.start_idx - 1 < _ by omega))]
  cases s.trim X.whitespace with
  | error e => rfl
  | ok o =>
    cases o with
    | none => rfl
    | some t =>
      cases s.matchFirstBackwards (X.attr (W := W) .clauseKeyword) with
      | error e => rfl
      | ok o =>
        match o with
        | none => rfl
        | some (q, ClauseKeyword.ConditionStart) => rfl
        | some (q, ClauseKeyword.Then) => rfl
        | some (q, ClauseKeyword.And) => rfl

theorem clauseFold_on {l : LLLine W} {rc : Rc (LLLine W)} (h : SameForClauses l rc.val) :
    ∀ (ps : List (LLSelection W)) (st : Bool × List (LLCursorAssignment Clause)),
    (∀ p ∈ ps, p.Inside ∧ p.ll_line.val = l) → foldR clauseStep st (ps.map (LLSelection.on rc)) = foldR clauseStep st ps
  | [], _, _ => rfl
  | p :: ps, st, hp => by
    have h0 := hp p (by simp)
    simp only [List.map_cons, foldR]
    rw [clauseStep_on h0.1 (by rw [h0.2]; exact h)]
    cases clauseStep st p with
    | error e => rfl
    | ok st' => exact clauseFold_on h ps st' (fun q hq => hp q (by simp [hq]))

theorem clauseGo_on {s : LLSelection W} {rc : Rc (LLLine W)} (hs : s.Inside)
    (h : SameForClauses s.ll_line.val rc.val) : clauseGo (s.on rc) = clauseGo s := by
  unfold clauseGo
  rw [splitBy_on hs.1 (fun i hi => h.delim (.fwd i) (Nat.lt_of_le_of_lt hi.2 hs.2))]
  cases hsp : s.splitBy (clauseDelimiter W) with
  | error e => rfl
  | ok ps =>
    have hin : ∀ p ∈ ps, p.Inside ∧ p.ll_line.val = s.ll_line.val := by
      intro p hp
      obtain ⟨h1, h2, h3, h4⟩ := splitBy_partOf hs.1 hsp hp
      have := hs.2
      exact ⟨⟨h3, by rw [h1]; omega⟩, by rw [h1]⟩
    match ps, hin with
    | [], _ => rfl
    | [c], hin =>
      have h0 := hin c (by simp)
      exact clauseSingle_on h0.1 (by rw [h0.2]; exact h)
    | c :: d :: ps, hin =>
      show (match foldR clauseStep (false, []) ((c :: d :: ps).map (LLSelection.on rc)) with
        | .error e => .error e
        | .ok st => .ok st.2 : R _) = _
      rw [clauseFold_on h _ _ hin]
      rfl

/-! ### what the built-in resolvers look at -/

theorem run_adds {l l' : LLLine W} {h : History W} (hr : Reachable l h) (ne : l.ll_tokens ≠ []) {ptr : Nat}
    {r : Resolver W} (ok : l.run ptr r = .ok l') :
    l'.ll_tokens = l.ll_tokens ∧ ∃ hx : History W, (∀ x ∈ hx, x.ty = r.attr) ∧ Reachable l' (h ++ hx) := by
  obtain ⟨asgs, a', hg, _, _⟩ := run_inv ne ok
  refine ⟨run_tokens ok, asgs.map (recOf r.attr), ?_, .run l h ptr r asgs false l' hr ne hg ok⟩
  intro x hx
  obtain ⟨a, _, rfl⟩ := List.mem_map.1 hx
  rfl

theorem values_none {k : Ty W} : ∀ {h : History W}, (∀ x ∈ h, x.ty ≠ k) → ∀ (r : LRange), valuesOf k r h = [] := by
  intro h hn r
  exact valuesOf_not_mem (fun hm => by
    obtain ⟨v, hv⟩ := mem_rangesOf.1 hm
    exact hn _ hv rfl)

theorem values_keep {k : Ty W} {h hx : History W} (hn : ∀ x ∈ hx, x.ty ≠ k) (r : LRange) :
    valuesOf k r (h ++ hx) = valuesOf k r h := by
  rw [valuesOf_append, values_none hn, List.append_nil]

theorem wholeLine_on (l l' : LLLine W) (p p' : Nat) (ht : l'.ll_tokens = l.ll_tokens) :
    wholeLine l' p' = (wholeLine l p).on ⟨p', l'⟩ := by
  simp only [wholeLine, LLSelection.on, ht]

theorem table_go_iff {k : Ty W} (t : TextMatchAssignResolver W k) {s : LLSelection W} {asgs} :
    (t.resolver).go s = .ok (asgs, false) ↔ t.go s = .ok asgs := by
  show (match t.go s with
    | .ok as => .ok (as, false)
    | .error e => .error e : R _) = _ ↔ _
  cases t.go s with
  | error e => constructor <;> (intro h; cases h)
  | ok a => constructor <;> (intro h; cases h; rfl)

theorem keywords_go_iff (r : ClauseKeywordResolver) {s : LLSelection W} {asgs} :
    (r.resolver W).go s = .ok (asgs, false) ↔ r.go s = .ok asgs := by
  show (match r.go s with
    | .ok as => .ok (as, false)
    | .error e => .error e : R _) = _ ↔ _
  cases r.go s with
  | error e => constructor <;> (intro h; cases h)
  | ok a => constructor <;> (intro h; cases h; rfl)

theorem pos_go_iff  {s : LLSelection W} {asgs} :
    (posTagResolver W).go s = .ok (asgs, false) ↔ posTagGo s = .ok asgs := by
  show (match posTagGo s with
    | .ok as => .ok (as, false)
    | .error e => .error e : R _) = _ ↔ _
  cases posTagGo s with
  | error e => constructor <;> (intro h; cases h)
  | ok a => constructor <;> (intro h; cases h; rfl)

theorem clause_go_iff  {s : LLSelection W} {asgs} :
    (clauseResolver W).go s = .ok (asgs, false) ↔ clauseGo s = .ok asgs := by
  show (match clauseGo s with
    | .ok as => .ok (as, false)
    | .error e => .error e : R _) = _ ↔ _
  cases clauseGo s with
  | error e => constructor <;> (intro h; cases h)
  | ok a => constructor <;> (intro h; cases h; rfl)

theorem amount_go_iff (r : AmountResolver) {s : LLSelection W} {asgs} :
    (r.resolver W).go s = .ok (asgs, false) ↔ r.go s = .ok asgs := by
  show (match r.go s with
    | .ok as => .ok (as, false)
    | .error e => .error e : R _) = _ ↔ _
  cases r.go s with
  | error e => constructor <;> (intro h; cases h)
  | ok a => constructor <;> (intro h; cases h; rfl)

theorem tableValues_tokens {k : Ty W} (t : TextMatchAssignResolver W k) {l l' : LLLine W}
    (ht : l'.ll_tokens = l.ll_tokens) (i : Nat) : tableValues t l' i = tableValues t l i := by
  unfold tableValues; rw [textAt_tokens ht]

theorem table_tokens {k : Ty W} (t : TextMatchAssignResolver W k) {l l' : LLLine W} (ne : l.ll_tokens ≠ [])
    (ht : l'.ll_tokens = l.ll_tokens) (p p' : Nat) : t.go (wholeLine l' p') = t.go (wholeLine l p) := by
  rw [C58_table t _ (wholeLine_inside ne p), C58_table t _ (wholeLine_inside (by rw [ht]; exact ne) p')]
  simp only [wholeLine, tableValues_tokens t ht, ht]

theorem keywords_tokens (r : ClauseKeywordResolver) {l l' : LLLine W}
    (ht : l'.ll_tokens = l.ll_tokens) (p p' : Nat) : r.go (wholeLine l' p') = r.go (wholeLine l p) := by
  have hh : ∀ i, (wholeLine l p).Has i → (X.tokenText (W := W)).go (.fwd i) l' = (X.tokenText (W := W)).go (.fwd i) l := by
    intro i _
    simp only [X.tokenText, Dir.textToken, ht]
  unfold ClauseKeywordResolver.go
  rw [wholeLine_on l l' p p' ht, findBy_on hh]
  cases (wholeLine l p).findBy X.tokenText with
  | error e => rfl
  | ok found =>
    show Except.ok _ = Except.ok _
    congr 1
    rw [List.filterMap_map]
    rfl

theorem pos_same {l l' : LLLine W} {h h' : History W} (hr : Reachable l h) (hr' : Reachable l' h')
    (ne : l.ll_tokens ≠ []) (ht : l'.ll_tokens = l.ll_tokens) (hv : ∀ i, tagsOn h' i = tagsOn h i) (p p' : Nat) :
    posTagGo (wholeLine l' p') = posTagGo (wholeLine l p) := by
  rw [C63_pos (s := wholeLine l p) hr (wholeLine_inside ne p),
    C63_pos (s := wholeLine l' p') hr' (wholeLine_inside (by rw [ht]; exact ne) p')]
  have : ∀ i, posTags l' h' i = posTags l h i := by
    intro i; unfold posTags; rw [textAt_tokens ht, hv]
  simp only [wholeLine, this, ht]

section amounts
variable {r : AmountResolver} {l l' : LLLine W} {h h' : History W}

theorem numAt_same (ht : l'.ll_tokens = l.ll_tokens) (hv : ∀ i, tagsOn h' i = tagsOn h i) (i : Nat) (t : Str) :
    NumAt l' h' i t ↔ NumAt l h i t := by
  unfold NumAt; rw [textAt_tokens ht, hv]

theorem groups_same (ht : l'.ll_tokens = l.ll_tokens) (hv : ∀ i, tagsOn h' i = tagsOn h i)
    (hc : ∀ i, charsOn h' i = charsOn h i) {a e : Nat} {s : Str} (hg : Groups r l h a e s) : Groups r l' h' a e s := by
  induction hg with
  | one hn => exact .one ((numAt_same ht hv _ _).2 hn)
  | more _ hd hn ih => exact .more ih (by unfold DelimAt; rw [hc]; exact hd) ((numAt_same ht hv _ _).2 hn)

theorem amountEnd_same (ht : l'.ll_tokens = l.ll_tokens) (hv : ∀ i, tagsOn h' i = tagsOn h i)
    (hc : ∀ i, charsOn h' i = charsOn h i) {e b next : Nat} {s str : Str}
    (hg : AmountEnd r l h e s b str next) : AmountEnd r l' h' e s b str next := by
  have hn := fun i t => numAt_same ht hv i t
  have hd : ∀ i, DelimAt r h' i ↔ DelimAt r h i := fun i => by unfold DelimAt; rw [hc]
  have hp : ∀ i, DecAt r h' i ↔ DecAt r h i := fun i => by unfold DecAt; rw [hc]
  cases hg with
  | trailing h1 h2 => exact .trailing ((hd _).2 h1) (fun t ht => h2 t ((hn _ _).1 ht))
  | fraction h1 h2 h3 => exact .fraction (fun x => h1 ((hd _).1 x)) ((hp _).2 h2) ((hn _ _).2 h3)
  | point h1 h2 h3 => exact .point (fun x => h1 ((hd _).1 x)) ((hp _).2 h2) (fun t ht => h3 t ((hn _ _).1 ht))
  | adjacent h1 h2 h3 => exact .adjacent (fun x => h1 ((hd _).1 x)) (fun x => h2 ((hp _).1 x)) ((hn _ _).2 h3)
  | plain h1 h2 h3 => exact .plain (fun x => h1 ((hd _).1 x)) (fun x => h2 ((hp _).1 x)) (fun t ht => h3 t ((hn _ _).1 ht))

theorem amounts_same (ht : l'.ll_tokens = l.ll_tokens) (hv : ∀ i, tagsOn h' i = tagsOn h i)
    (hc : ∀ i, charsOn h' i = charsOn h i) (ha : ∀ i, HasAttr h i → HasAttr h' i) {stop start : Nat}
    {out : List (LLCursorAssignment W.Decimal)} (hg : Amounts r l h stop start out) : Amounts r l' h' stop start out := by
  have hn := fun i t => numAt_same ht hv i t
  induction hg with
  | done hd => exact .done (fun j h1 h2 t ht => hd j h1 h2 t ((hn _ _).1 ht))
  | next hf hi hp _ ih =>
    obtain ⟨f1, f2, ⟨t, ft⟩, f4⟩ := hf
    obtain ⟨e, s, hg, htest, hend⟩ := hi
    exact .next ⟨f1, f2, ⟨t, (hn _ _).2 ft⟩, fun j j1 j2 t ht => f4 j j1 j2 t ((hn _ _).1 ht)⟩
      ⟨e, s, groups_same ht hv hc hg, fun hlt => ha _ (htest (by rw [← ht]; exact hlt)), amountEnd_same ht hv hc hend⟩ hp ih

end amounts

theorem stage_blind (st : Stage W) (k : Ty W) (hk : ¬ st.Looks k) : Blind k st.resolver := by
  intro l l' h r' ptr p p' asgs hr ne hk' ok hg
  obtain ⟨ht, hx, hty, hr'⟩ := run_adds hr ne ok
  have ne' : l'.ll_tokens ≠ [] := by rw [ht]; exact ne
  cases st with
  | table t => exact (table_go_iff t).2 ((table_tokens t ne ht p p').trans ((table_go_iff t).1 hg))
  | keywords r => exact (keywords_go_iff r).2 ((keywords_tokens r ht p p').trans ((keywords_go_iff r).1 hg))
  | pos =>
    refine pos_go_iff.2 ((pos_same hr hr' ne ht (fun i => ?_) p p').trans (pos_go_iff.1 hg))
    exact values_keep (fun x hxm he => hk (by rw [← hk', ← hty x hxm, he]; rfl)) _
  | clauses =>
    have h1 : r'.attr ≠ .textTag := fun he => hk (.inl (by rw [← hk', he]))
    have h2 : r'.attr ≠ .clauseKeyword := fun he => hk (.inr (by rw [← hk', he]))
    have same : SameForClauses l l' := {
      len := by rw [ht]
      delim := fun d hd => (C18_matchers_independent hr ptr r' ok (has := false)
        (.anyOf2 (.attr (W := W) .clauseKeyword (Ne.symm h2)) (Built.attrEq (T := fun k => k ≠ r'.attr) .textTag (Ne.symm h1) _)) d).2 rfl hd
      space := fun d hd => (C18_matchers_independent hr ptr r' ok (has := false) (Built.attrEq (T := fun k => k ≠ r'.attr) .textTag (Ne.symm h1) _) d).2 rfl hd
      kw := fun d hd => (C18_matchers_independent hr ptr r' ok (has := false) (.attr (W := W) .clauseKeyword (Ne.symm h2)) d).2 rfl hd }
    refine clause_go_iff.2 (Eq.trans ?_ (clause_go_iff.1 hg))
    rw [wholeLine_on l l' p p' ht]
    exact clauseGo_on (wholeLine_inside ne p) same
  | amounts r =>
    refine (amount_go_iff r).2 ?_
    have ho := (amount_go_iff r).1 hg
    have := (C67_amounts r (s := wholeLine l p) hr (wholeLine_inside ne p) _).1 ho
    refine (C67_amounts r (s := wholeLine l' p') hr' (wholeLine_inside ne' p') _).2 ?_
    rw [show (wholeLine l' p').end_idx = (wholeLine l p).end_idx by simp only [wholeLine, ht]]
    exact amounts_same ht
      (fun i => values_keep (fun x hxm he => hk (.inl (by rw [← hk', ← hty x hxm, he]))) _)
      (fun i => values_keep (fun x hxm he => hk (.inr (by rw [← hk', ← hty x hxm, he]))) _)
      (fun i ⟨x, hm, he⟩ => ⟨x, List.mem_append.2 (.inl hm), he⟩) this

/-! ### running -/

theorem run_bounds {l l' : LLLine W} {h : History W} (hr : Reachable l h) (ne : l.ll_tokens ≠ []) {r : Resolver W}
    {asgs : List (LLCursorAssignment (Val r.attr))} {p : Nat} (hg : r.go (wholeLine l p) = .ok (asgs, false))
    (ok : l.run p r = .ok l') :
    ∀ a ∈ asgs, a.start_idx < l.ll_tokens.length ∧ a.end_idx < l.ll_tokens.length := by
  intro a ha
  have hr' : Reachable l' (h ++ asgs.map (recOf r.attr)) := .run l h p r asgs false l' hr ne hg ok
  have := hr'.rep.bounds (recOf r.attr a) (List.mem_append.2 (.inr (List.mem_map.2 ⟨a, ha, rfl⟩)))
  rw [run_tokens ok] at this
  exact this

theorem mapR_map {α β γ : Type} (f : α → R β) (g : α → R γ) (t : β → γ) : ∀ (xs : List α) (ys : List β),
    (∀ x ∈ xs, ∀ y, f x = .ok y → g x = .ok (t y)) → mapR f xs = .ok ys → mapR g xs = .ok (ys.map t)
  | [], ys, _, h => by cases h; rfl
  | x :: xs, ys, hx, h => by
    simp only [mapR] at h ⊢
    cases hf : f x with
    | error e => rw [hf] at h; cases h
    | ok y =>
      rw [hf] at h
      simp only at h
      cases hm : mapR f xs with
      | error e => rw [hm] at h; cases h
      | ok zs =>
        rw [hm] at h
        cases h
        rw [hx x (by simp) y hf, mapR_map f g t xs zs (fun x' hx' => hx x' (by simp [hx'])) hm]
        rfl

theorem firsts_old {α : Type} [DecidableEq α] : ∀ (ys xs : List α), (∀ y ∈ ys, y ∈ xs) →
    firsts (xs ++ ys) = firsts xs
  | [], xs, _ => by simp
  | y :: ys, xs, h => by
    rw [show xs ++ y :: ys = (xs ++ [y]) ++ ys by simp,
      firsts_old ys (xs ++ [y]) (fun z hz => by simp [h z (by simp [hz])]), firsts_append_singleton, if_pos (h y (by simp))]

theorem rangesOf_old {k : Ty W} {h A : History W} (ha : ∀ x ∈ A, x ∈ h) : rangesOf k (h ++ A) = rangesOf k h := by
  unfold rangesOf
  rw [List.filter_append, List.map_append]
  refine firsts_old _ _ (fun r hr => ?_)
  obtain ⟨x, hx, rfl⟩ := List.mem_map.1 hr
  obtain ⟨hx, hk⟩ := List.mem_filter.1 hx
  exact List.mem_map.2 ⟨x, List.mem_filter.2 ⟨ha x hx, hk⟩, rfl⟩

theorem runAll_append (l : LLLine W) (xs ys : List (Nat × Resolver W)) :
    runAll l (xs ++ ys) = match runAll l xs with
      | .ok l' => runAll l' ys
      | .error e => .error e := by
  induction xs generalizing l with
  | nil => rfl
  | cons x xs ih =>
    simp only [List.cons_append, runAll]
    cases l.run x.1 x.2 with
    | error e => rfl
    | ok l' => exact ih l'

end LNlp
