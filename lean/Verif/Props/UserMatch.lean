import Verif.Lemmas.UserMatch
import Verif.Lemmas.Select
import Verif.Props.Select
/- Properties of matchers that users write themselves (C122, C123). -/
namespace LNlp
variable {W : World} {α β Out : Type}

/-! ### C122: matchers of the user are as good as those of the library -/

/-- a matcher of the user for the examples: two values of which the second is not that of the first -/
def Demo.userTree : UserTree (I := Bool) (fun _ => Str) Str :=
  .ask true (fun vs _ => match vs with
    | [] => .answer []
    | v :: _ => .ask false (fun ws same => if ws.contains v then .answer [(v, 0)] else
        if same 0 1 then .answer [] else .answer [(v, 1), (v, 9)]))

/-- the matchers it asks -/
def Demo.userParts : (i : Bool) → XMatch Demo.W Str
  | true => X.attr (Ty.user 2)
  | false => X.tokenText

theorem Demo.userBuilt : ∀ i, Built (fun _ => True) false (Demo.userParts i)
  | true => .attr _ trivial
  | false => .tokenText

/-- C122: whatever a user's matcher does with the matchers it asks, forwards from `i` its results end at `i ≤ j < len`,
backwards from `i` at `j ≤ i`: on its own and in any expression it is a part of. -/
theorem C122_results_inside {I : Type} {A : I → Type} (t : UserTree A Out) (part : (i : I) → XMatch W (A i))
    (hp : ∀ i, Builtin (part i)) {l : LLLine W} {h : History W} (hr : Reachable l h) (ho : Ordered h) (i : Nat) :
    (∀ out, (t.matcher part).go (.fwd i) l = .ok out → ∀ r ∈ out, i ≤ r.2 ∧ r.2 < l.ll_tokens.length) ∧
    (∀ out, (t.matcher part).go (.bwd i) l = .ok out → ∀ r ∈ out, r.2 ≤ i ∧ r.2 < l.ll_tokens.length) :=
  C34_results_inside (.user part t hp) hr ho i

example := C122_results_inside Demo.userTree Demo.userParts (fun i => by cases i <;> constructor <;> trivial)
  Demo.exReach2 Demo.exHist2_ordered 0

/-- C122: it panics at a token of the line only if one of the matchers it asks does so there. -/
theorem C122_panics {I : Type} {A : I → Type} (t : UserTree A Out) (part : (i : I) → XMatch W (A i)) (d : Dir) (l : LLLine W)
    (e : Panic) (hg : (t.matcher part).go d l = .error e) : ∃ i, (part i).go d l = .error e :=
  userTree_error part d l t [] e hg

example := C122_panics (W := Demo.W) (UserTree.keep (fun _ => true)) (fun _ => X.tokenHasAny .char []) (.fwd 0) Demo.bare _ rfl

/-- C122: so it does not panic if it does not use `token_has_any`. -/
theorem C122_never_panics {I : Type} {A : I → Type} {T : Ty W → Prop} (t : UserTree A Out) (part : (i : I) → XMatch W (A i))
    (hp : ∀ i, Built T false (part i)) {l : LLLine W} {h : History W} (hr : Reachable l h) (d : Dir)
    (hd : d.at < l.ll_tokens.length) : ∃ out, (t.matcher part).go d l = .ok out := by
  cases hg : (t.matcher part).go d l with
  | ok out => exact ⟨out, rfl⟩
  | error e => exact absurd (C36_panics (.user part t hp) hr d hd e hg).2.1 (by simp)

example := C122_never_panics Demo.userTree Demo.userParts Demo.userBuilt Demo.exReach2 (.fwd 0) (by decide)

/-- C122: every selection found with it lies in the line and starts in the searched selection. -/
theorem C122_find_by {I : Type} {A : I → Type} (t : UserTree A Out) (part : (i : I) → XMatch W (A i))
    (hp : ∀ i, Builtin (part i)) {l : LLLine W} {h : History W} (hr : Reachable l h) (ho : Ordered h) {ptr : Nat}
    {s : LLSelection W} (hl : s.ll_line = ⟨ptr, l⟩) (hs : s.Inside) {out : List (LLSelection W × Out)}
    (hf : s.findBy (t.matcher part) = .ok out) :
    ∀ p ∈ out, p.1.ll_line = s.ll_line ∧ s.Has p.1.start_idx ∧ p.1.Inside :=
  C39_partial hr ho hl hs (.user part t hp) hf

example := C122_find_by Demo.userTree Demo.userParts (fun i => by cases i <;> constructor <;> trivial)
  Demo.exReach2 Demo.exHist2_ordered (s := Demo.sel 0 5) rfl ⟨by decide, by decide⟩ rfl

/-- what C122 excludes: a matcher that jumps with `XDirection::after` to an index of its own making -/
def C122_jump_claim : Prop :=
  ∀ (l : LLLine Demo.W) (h : History Demo.W), Honest l h → ∀ (n : Nat) (k : Ty Demo.W) (d : Dir), d.at < l.ll_tokens.length →
    ∃ out, (X.jump n k).go d l = .ok out ∧ ∀ r ∈ out, d.RightWay r.2

/-- C122: such a matcher may panic, since `XBackwards::after` does not check its index against the length of the line,
and forwards it may find selections that end before they start. -/
theorem C122_jump_false : ¬ C122_jump_claim := by
  intro hc
  obtain ⟨out, h1, _⟩ := hc _ _ Demo.nestHonest0 100 .char (.bwd 0) (by decide)
  have : (X.jump 100 .char).go (.bwd 0) Demo.nestLine0 = .error .dirOob := rfl
  rw [this] at h1
  cases h1

example : ∃ out, (X.jump (W := Demo.W) 0 .textTag).go (.fwd 2) Demo.nestLine0 = .ok out ∧
    ∃ r ∈ out, ¬ (Dir.fwd 2).RightWay r.2 :=
  ⟨_, rfl, _, .head _, by simp only [Dir.RightWay]; decide⟩

/-! ### C123: what some matchers of the user find -/

/-- C123: a matcher that filters the results of another finds exactly the other's finds that pass: all the searches
commute with filtering. -/
theorem C123_keep (s : LLSelection W) (m : XMatch W α) (p : α → Bool) :
    s.findBy (X.keep p m) = Except.map (List.filter (fun r => p r.2)) (s.findBy m) ∧
    s.findByForwardsAndBackwards (X.keep p m) =
      Except.map (List.filter (fun r => p r.2)) (s.findByForwardsAndBackwards m) ∧
    s.matchForwards (X.keep p m) = Except.map (List.filter (fun r => p r.2)) (s.matchForwards m) ∧
    s.matchBackwards (X.keep p m) = Except.map (List.filter (fun r => p r.2)) (s.matchBackwards m) := by
  refine ⟨?_, ?_, ?_, ?_⟩
  · unfold LLSelection.findBy
    refine flatMapR_filter _ _ _ _ (fun i _ => ?_)
    rw [keep_go]
    cases m.go (.fwd i) s.ll_line.val with
    | error e => rfl
    | ok rs => simp only [Except.map, List.filter_map, Function.comp_def]
  · unfold LLSelection.findByForwardsAndBackwards
    refine flatMapR_filter _ _ _ _ (fun i _ => ?_)
    rw [keep_go, keep_go]
    cases m.go (.fwd i) s.ll_line.val with
    | error e => rfl
    | ok fs =>
      cases m.go (.bwd i) s.ll_line.val with
      | error e => rfl
      | ok bs => simp only [Except.map, List.filter_append, List.filter_map, Function.comp_def]
  · unfold LLSelection.matchForwards
    split
    · rfl
    rw [keep_go]
    cases m.go (.fwd (s.end_idx + 1)) s.ll_line.val with
    | error e => rfl
    | ok rs => simp only [Except.map, List.filter_map, Function.comp_def]
  · unfold LLSelection.matchBackwards
    split
    · rfl
    rw [keep_go]
    cases m.go (.bwd (s.start_idx - 1)) s.ll_line.val with
    | error e => rfl
    | ok rs => simp only [Except.map, List.filter_map, Function.comp_def]

/-- C123: a matcher that changes the values of another finds the same selections with the changed values; so do all
searches, and `split_by` and `trim`, which look at no values, give the same as with the other. -/
theorem C123_change (s : LLSelection W) (m : XMatch W α) (f : α → β) :
    s.findBy (X.change f m) = Except.map (List.map (fun r => (r.1, f r.2))) (s.findBy m) ∧
    s.findByForwardsAndBackwards (X.change f m) =
      Except.map (List.map (fun r => (r.1, f r.2))) (s.findByForwardsAndBackwards m) ∧
    s.matchForwards (X.change f m) = Except.map (List.map (fun r => (r.1, f r.2))) (s.matchForwards m) ∧
    s.matchBackwards (X.change f m) = Except.map (List.map (fun r => (r.1, f r.2))) (s.matchBackwards m) ∧
    ∀ a b, s.trimSelection (X.change f m) a b = s.trimSelection m a b := by
  refine ⟨?_, ?_, ?_, ?_, ?_⟩
  · unfold LLSelection.findBy
    refine flatMapR_change _ _ _ _ (fun i _ => ?_)
    rw [change_go]
    cases m.go (.fwd i) s.ll_line.val with
    | error e => rfl
    | ok rs => simp only [Except.map, List.map_map, Function.comp_def]
  · unfold LLSelection.findByForwardsAndBackwards
    refine flatMapR_change _ _ _ _ (fun i _ => ?_)
    rw [change_go, change_go]
    cases m.go (.fwd i) s.ll_line.val with
    | error e => rfl
    | ok fs =>
      cases m.go (.bwd i) s.ll_line.val with
      | error e => rfl
      | ok bs => simp only [Except.map, List.map_append, List.map_map, Function.comp_def]
  · unfold LLSelection.matchForwards
    split
    · rfl
    rw [change_go]
    cases m.go (.fwd (s.end_idx + 1)) s.ll_line.val with
    | error e => rfl
    | ok rs => simp only [Except.map, List.map_map, Function.comp_def]
  · unfold LLSelection.matchBackwards
    split
    · rfl
    rw [change_go]
    cases m.go (.bwd (s.start_idx - 1)) s.ll_line.val with
    | error e => rfl
    | ok rs => simp only [Except.map, List.map_map, Function.comp_def]
  · intro a b
    unfold LLSelection.trimSelection
    rw [change_go, change_go]
    cases m.go (.fwd s.start_idx) s.ll_line.val with
    | error e =>
      cases m.go (.bwd s.end_idx) s.ll_line.val with
      | error e => rfl
      | ok rs => cases rs <;> rfl
    | ok fs =>
      cases m.go (.bwd s.end_idx) s.ll_line.val with
      | error e => cases fs <;> rfl
      | ok rs => cases fs <;> cases rs <;> rfl

/-- C123: `a` unless `b`: finds what `a` finds at the tokens where `b` finds nothing. -/
theorem C123_unless (s : LLSelection W) (a : XMatch W α) (b : XMatch W β) (as : List (LLSelection W × α))
    (bs : List (LLSelection W × β)) (ha : s.findBy a = .ok as) (hb : s.findBy b = .ok bs) :
    s.findBy (X.unless a b) = .ok (as.filter (fun r => bs.all (fun q => q.1.start_idx != r.1.start_idx))) := by
  obtain ⟨A, hA, rfl⟩ := flatMapR_inv (show flatMapR _ _ = _ from ha)
  have hB : ∀ i, s.Has i → ∃ rs, b.go (.fwd i) s.ll_line.val = .ok rs := by
    intro i hi
    cases h : b.go (.fwd i) s.ll_line.val with
    | ok rs => exact ⟨rs, rfl⟩
    | error e =>
      obtain ⟨e', h'⟩ := findBy_error_iff.2 ⟨i, e, hi, h⟩
      rw [hb] at h'; cases h'
  rw [List.filter_flatMap]
  unfold LLSelection.findBy
  refine flatMapR_ok _ _ _ (fun i hi => ?_)
  have hi' := mem_rangeIncl.1 hi
  obtain ⟨rs, hrs⟩ := hB i hi'
  have h1 := hA i hi
  have none_iff : (bs.all (fun q => q.1.start_idx != i)) = rs.isEmpty := by
    rw [Bool.eq_iff_iff, List.all_eq_true, List.isEmpty_iff]
    constructor
    · intro h
      cases rs with
      | nil => rfl
      | cons r rs =>
        have := (mem_findBy hb (p := { start_idx := i, end_idx := r.2, ll_line := s.ll_line }) (x := r.1)).2
          ⟨rfl, hi', _, hrs, by simp⟩
        simpa using h _ this
    · rintro rfl q hq
      obtain ⟨_, _, rs', h2, h3⟩ := (mem_findBy hb (p := q.1) (x := q.2)).1 hq
      rw [bne_iff_ne]
      intro e
      rw [e, hrs] at h2
      cases h2
      cases h3
  rw [unless_go, hrs]
  simp only
  cases hg : a.go (.fwd i) s.ll_line.val with
  | error e => rw [hg] at h1; cases h1
  | ok as =>
    rw [hg] at h1
    simp only [Except.ok.injEq] at h1
    rw [← h1]
    have : (as.map (fun r => (({ start_idx := i, end_idx := r.2, ll_line := s.ll_line } : LLSelection W), r.1))).filter
        (fun r => bs.all (fun q => q.1.start_idx != r.1.start_idx)) =
        if rs.isEmpty then as.map (fun r => (({ start_idx := i, end_idx := r.2, ll_line := s.ll_line } : LLSelection W), r.1))
        else [] := by
      simp only [List.filter_map, Function.comp_def, none_iff]
      cases hh : rs.isEmpty
      · simp
      · rw [List.filter_eq_self.2 (fun _ _ => rfl)]; rfl
    rw [this]
    cases rs <;> rfl

example := C123_unless (Demo.sel 0 5) (X.attr (Ty.user 2)) (X.attrEq (W := Demo.W) .textTag TextTag.SPACE) _ _ rfl rfl

/-- C123: a hand-written copy of `x::all((a, b))` is as good as the original, panics included. -/
theorem C123_both (a : XMatch W α) (b : XMatch W β) (d : Dir) (l : LLLine W) :
    (X.both a b).go d l = (X.all2 a b).go d l := both_go a b d l

end LNlp
