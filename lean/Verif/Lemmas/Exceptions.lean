import Verif.Spec.Exceptions
import Verif.Lemmas.Structure
import Verif.Lemmas.UserMatch
/- Helper lemmas for the rules with exceptions of Props/Exceptions.lean. -/
namespace LNlp
variable {W : World} {α : Type}

theorem EPat.built : ∀ {α : Type} (p : EPat W α) (has : Bool), Built (fun _ => True) has p.matcher
  | _, .attr k, _ => .attr k trivial
  | _, .attrEq k v, _ => .attrEq k trivial v
  | _, .text, _ => .tokenText
  | _, .seq a b, has => .seq2 (a.built has) (b.built has)
  | _, .both a b, has => .all2 (a.built has) (b.built has)
  | _, .anyOf a b, has => .anyOf2 (a.built has) (b.built has)
  | _, .unless a b, has => .user (parts a.matcher b.matcher) UserTree.unless (fun i => match i with
    | true => a.built has
    | false => b.built has)

theorem EPat.Holds.mono {l : LLLine W} : ∀ {α : Type} {p : EPat W α} {F G N N' : Rec W → Prop} {i j : Nat} {x : α},
    p.Holds l F N i j x → (∀ y, p.Mentions y.ty → F y → G y) → (∀ y, p.Excepts y.ty → (N y ↔ N' y)) →
    p.Holds l G N' i j x
  | _, .attr _, _, _, _, _, _, _, _, h, hF, _ => hF _ rfl h
  | _, .attrEq _ _, _, _, _, _, _, _, _, hh, hF, _ => by
    obtain ⟨w, hw, h⟩ := hh
    exact ⟨w, hw, hF _ rfl h⟩
  | _, .text, _, _, _, _, _, _, _, h, _, _ => h
  | _, .seq _ _, _, _, _, _, _, _, (_, _), hh, hF, hN => by
    obtain ⟨m, ha, hb⟩ := hh
    exact ⟨m, ha.mono (fun y hy => hF y (.inl hy)) (fun y hy => hN y (.inl hy)),
      hb.mono (fun y hy => hF y (.inr hy)) (fun y hy => hN y (.inr hy))⟩
  | _, .both _ _, _, _, _, _, _, _, (_, _), hh, hF, hN => by
    obtain ⟨ha, hb⟩ := hh
    exact ⟨ha.mono (fun y hy => hF y (.inl hy)) (fun y hy => hN y (.inl hy)),
      hb.mono (fun y hy => hF y (.inr hy)) (fun y hy => hN y (.inr hy))⟩
  | _, .anyOf a _, F, _, N, _, i, j, .A x, hh, hF, hN => by
    have ha : a.Holds l F N i j x := hh
    exact ha.mono (fun y hy => hF y (.inl hy)) (fun y hy => hN y (.inr (.inl hy)))
  | _, .anyOf _ _, _, _, _, _, _, _, .B _, hh, hF, hN => by
    obtain ⟨hb, hn⟩ := hh
    refine ⟨hb.mono (fun y hy => hF y (.inr hy)) (fun y hy => hN y (.inr (.inr hy))), ?_⟩
    rintro ⟨j', x, ha⟩
    exact hn ⟨j', x, ha.mono (fun y hy => (hN y (.inl hy)).2) (fun y hy => (hN y (.inr (.inl hy))).symm)⟩
  | _, .unless _ _, _, _, _, _, _, _, _, hh, hF, hN => by
    obtain ⟨ha, hn⟩ := hh
    refine ⟨ha.mono hF (fun y hy => hN y (.inl hy)), ?_⟩
    rintro ⟨j', x, hb⟩
    exact hn ⟨j', x, hb.mono (fun y hy => (hN y (.inr (.inl hy))).2) (fun y hy => (hN y (.inr (.inr hy))).symm)⟩

/-- only the tokens of the line matter -/
theorem EPat.Holds.line {l l' : LLLine W} (ht : l'.ll_tokens = l.ll_tokens) :
    ∀ {α : Type} {p : EPat W α} {F N : Rec W → Prop} {i j : Nat} {x : α}, p.Holds l F N i j x ↔ p.Holds l' F N i j x
  | _, .attr _, _, _, _, _, _ => Iff.rfl
  | _, .attrEq _ _, _, _, _, _, _ => Iff.rfl
  | _, .text, _, _, _, _, _ => by simp only [EPat.Holds, textAt, ht]
  | _, .seq a b, F, N, i, j, (x, y) => by
    simp only [EPat.Holds]
    exact exists_congr (fun m => and_congr (line ht) (line ht))
  | _, .both _ _, _, _, _, _, (_, _) => and_congr (line ht) (line ht)
  | _, .anyOf _ _, _, _, _, _, .A _ => by simp only [EPat.Holds]; exact line ht
  | _, .anyOf _ _, _, _, _, _, .B _ => by
    simp only [EPat.Holds]
    exact and_congr (line ht) (not_congr (exists_congr (fun _ => exists_congr (fun _ => line ht))))
  | _, .unless _ _, _, _, _, _, _ => by
    simp only [EPat.Holds]
    exact and_congr (line ht) (not_congr (exists_congr (fun _ => exists_congr (fun _ => line ht))))

theorem EPat.Holds.inside {l : LLLine W} {F N : Rec W → Prop}
    (hF : ∀ y, F y → y.range.1 ≤ y.range.2 ∧ y.range.2 < l.ll_tokens.length) :
    ∀ {α : Type} {p : EPat W α} {i j : Nat} {x : α}, p.Holds l F N i j x → i ≤ j ∧ j < l.ll_tokens.length
  | _, .attr _, _, _, _, h => hF _ h
  | _, .attrEq _ _, _, _, _, hh => by
    obtain ⟨_, _, h⟩ := hh
    exact hF _ h
  | _, .text, _, _, _, h => ⟨Nat.le_of_eq h.1, h.1 ▸ textAt_lt h.2⟩
  | _, .seq _ _, _, _, (_, _), hh => by
    obtain ⟨m, ha, hb⟩ := hh
    have h1 := ha.inside hF
    have h2 := hb.inside hF
    omega
  | _, .both _ _, _, _, (_, _), hh => by
    obtain ⟨ha, _⟩ := hh
    exact ha.inside hF
  | _, .anyOf a _, i, j, .A x, hh => by
    have ha : a.Holds l F N i j x := hh
    exact ha.inside hF
  | _, .anyOf _ _, _, _, .B _, hh => by
    obtain ⟨hb, _⟩ := hh
    exact hb.inside hF
  | _, .unless _ _, _, _, _, hh => by
    obtain ⟨ha, _⟩ := hh
    exact ha.inside hF

/-- what is found on a range is found from facts inside of it, and from facts about all of it only if they are mentioned
as the whole -/
theorem EPat.Holds.within {l : LLLine W} {F G N : Rec W → Prop}
    (hF : ∀ y, F y → y.range.1 ≤ y.range.2 ∧ y.range.2 < l.ll_tokens.length) :
    ∀ {α : Type} {p : EPat W α} {i j : Nat} {x : α}, p.Holds l F N i j x →
      (∀ y, F y → i ≤ y.range.1 → y.range.2 ≤ j →
        p.MentionsWhole y.ty ∨ y.range.2 - y.range.1 < j - i → G y) → p.Holds l G N i j x
  | _, .attr _, _, _, _, h, hs => hs _ h (Nat.le_refl _) (Nat.le_refl _) (.inl rfl)
  | _, .attrEq _ _, _, _, _, hh, hs => by
    obtain ⟨w, hw, h⟩ := hh
    exact ⟨w, hw, hs _ h (Nat.le_refl _) (Nat.le_refl _) (.inl rfl)⟩
  | _, .text, _, _, _, h, _ => h
  | _, .seq _ _, i, j, (_, _), hh, hs => by
    obtain ⟨m, h1, h2⟩ := hh
    have o1 := h1.inside hF
    have o2 := h2.inside hF
    refine ⟨m, h1.within hF (fun y hy ha hb _ => hs y hy ha (by omega) (.inr ?_)),
      h2.within hF (fun y hy ha hb _ => hs y hy (by omega) hb (.inr ?_))⟩
    · have := (hF y hy).1
      omega
    · have := (hF y hy).1
      omega
  | _, .both _ _, _, _, (_, _), hh, hs =>
    ⟨hh.1.within hF (fun y hy ha hb hc => hs y hy ha hb (hc.imp .inl id)),
      hh.2.within hF (fun y hy ha hb hc => hs y hy ha hb (hc.imp .inr id))⟩
  | _, .anyOf a _, i, j, .A x, hh, hs => by
    have ha : a.Holds l F N i j x := hh
    exact ha.within hF (fun y hy ha hb hc => hs y hy ha hb (hc.imp .inl id))
  | _, .anyOf _ _, _, _, .B _, hh, hs => ⟨hh.1.within hF (fun y hy ha hb hc => hs y hy ha hb (hc.imp .inr id)), hh.2⟩
  | _, .unless _ _, _, _, _, hh, hs => ⟨hh.1.within hF hs, hh.2⟩

/-- a matcher finds forwards exactly what holds -/
theorem EPat.matcher_spec {l : LLLine W} {h : History W} (hr : Reachable l h) (ho : Ordered h) :
    ∀ {α : Type} (p : EPat W α) {i : Nat}, i < l.ll_tokens.length →
      ∃ rs, p.matcher.go (.fwd i) l = .ok rs ∧ ∀ x j, (x, j) ∈ rs ↔ p.Holds l (· ∈ h) (· ∈ h) i j x := by
  have hF : ∀ y, y ∈ h → y.range.1 ≤ y.range.2 ∧ y.range.2 < l.ll_tokens.length :=
    fun y hy => ⟨ho y hy, (hr.rep.bounds y hy).2⟩
  have none_iff : ∀ {α : Type} {p : EPat W α} {i : Nat} {rs : List (α × Nat)},
      (∀ x j, (x, j) ∈ rs ↔ p.Holds l (· ∈ h) (· ∈ h) i j x) →
      (rs = [] ↔ ¬ ∃ j' x, p.Holds l (· ∈ h) (· ∈ h) i j' x) := by
    intro α p i rs hiff
    rw [List.eq_nil_iff_forall_not_mem]
    exact ⟨fun hn ⟨j', x, hx⟩ => hn _ ((hiff x j').2 hx), fun hn r hm => hn ⟨r.2, r.1, (hiff r.1 r.2).1 hm⟩⟩
  intro α p
  induction p with
  | attr k => exact fun hi => (Pat.attr k).matcher_spec hr ho hi
  | attrEq k v => exact fun hi => (Pat.attrEq k v).matcher_spec hr ho hi
  | text => exact fun hi => Pat.text.matcher_spec hr ho hi
  | seq a b iha ihb =>
    intro i hi
    obtain ⟨rs, hrs, _⟩ := built_totalOn (EPat.built (.seq a b) false) hr (.fwd i) hi
    refine ⟨rs, hrs, fun x j => ?_⟩
    obtain ⟨x, y⟩ := x
    rw [mem_seq2 hrs]
    constructor
    · rintro ⟨as, m, d', bs, ha, hma, ⟨rfl, hm⟩, hb, hmb⟩
      obtain ⟨as', ha', hia⟩ := iha hi
      obtain ⟨bs', hb', hib⟩ := ihb hm
      rw [ha] at ha'; cases ha'
      rw [hb] at hb'; cases hb'
      exact ⟨m, (hia x m).1 hma, (hib y j).1 hmb⟩
    · rintro ⟨m, ha, hb⟩
      have hm := hb.inside hF
      obtain ⟨as, ha', hia⟩ := iha hi
      obtain ⟨bs, hb', hib⟩ := ihb (i := m + 1) (by omega)
      exact ⟨as, m, _, bs, ha', (hia x m).2 ha, ⟨rfl, by omega⟩, hb', (hib y j).2 hb⟩
  | both a b iha ihb =>
    intro i hi
    obtain ⟨rs, hrs, _⟩ := built_totalOn (EPat.built (.both a b) false) hr (.fwd i) hi
    refine ⟨rs, hrs, fun x j => ?_⟩
    obtain ⟨x, y⟩ := x
    rw [mem_all2 hrs]
    obtain ⟨as, ha, hia⟩ := iha hi
    obtain ⟨bs, hb, hib⟩ := ihb hi
    constructor
    · rintro ⟨as', bs', ha', hb', h1, h2⟩
      rw [ha] at ha'; cases ha'
      rw [hb] at hb'; cases hb'
      exact ⟨(hia x j).1 h1, (hib y j).1 h2⟩
    · rintro ⟨h1, h2⟩
      exact ⟨as, bs, ha, hb, (hia x j).2 h1, (hib y j).2 h2⟩
  | anyOf a b iha ihb =>
    intro i hi
    obtain ⟨as, ha, hia⟩ := iha hi
    obtain ⟨bs, hb, hib⟩ := ihb hi
    by_cases hn : as = []
    · refine ⟨_, anyOf2_ok_iff.2 ⟨as, ha, .inr ⟨hn, bs, hb, rfl⟩⟩, fun x j => ?_⟩
      have hno := (none_iff hia).1 hn
      cases x with
      | A x =>
        simp only [EPat.Holds]
        exact ⟨fun hm => (by obtain ⟨_, _, e⟩ := List.mem_map.1 hm; cases e), fun hx => absurd ⟨j, x, hx⟩ hno⟩
      | B y =>
        simp only [EPat.Holds]
        rw [← hib y j]
        constructor
        · intro hm
          obtain ⟨p, hp, e⟩ := List.mem_map.1 hm
          cases e
          exact ⟨hp, hno⟩
        · exact fun hx => List.mem_map.2 ⟨(y, j), hx.1, rfl⟩
    · refine ⟨_, anyOf2_ok_iff.2 ⟨as, ha, .inl ⟨hn, rfl⟩⟩, fun x j => ?_⟩
      cases x with
      | A x =>
        simp only [EPat.Holds]
        rw [← hia x j]
        constructor
        · intro hm
          obtain ⟨p, hp, e⟩ := List.mem_map.1 hm
          cases e
          exact hp
        · exact fun hx => List.mem_map.2 ⟨(x, j), hx, rfl⟩
      | B y =>
        simp only [EPat.Holds]
        exact ⟨fun hm => (by obtain ⟨_, _, e⟩ := List.mem_map.1 hm; cases e),
          fun hx => absurd ((none_iff hia).2 hx.2) hn⟩
  | «unless» a b iha ihb =>
    intro i hi
    obtain ⟨as, ha, hia⟩ := iha hi
    obtain ⟨bs, hb, hib⟩ := ihb hi
    have hg : (X.unless a.matcher b.matcher).go (.fwd i) l = if bs.isEmpty then .ok as else .ok [] := by
      rw [unless_go, hb]
      simp only
      rw [ha]
    by_cases hn : bs = []
    · refine ⟨as, by subst hn; exact hg, fun x j => ?_⟩
      simp only [EPat.Holds]
      rw [← hia x j]
      exact ⟨fun hx => ⟨hx, (none_iff hib).1 hn⟩, fun hx => hx.1⟩
    · refine ⟨[], by rw [show bs.isEmpty = false by cases bs <;> simp_all] at hg; exact hg, fun x j => ?_⟩
      simp only [EPat.Holds]
      exact ⟨fun hm => (by cases hm), fun hx => absurd ((none_iff hib).2 hx.2) hn⟩

theorem ERule.Concludes.mono {l : LLLine W} {F G N N' : Rec W → Prop} {r : ERule W} {x : Rec W} (h : r.Concludes l F N x)
    (hF : ∀ y, r.pat.Mentions y.ty → F y → G y) (hN : ∀ y, r.pat.Excepts y.ty → (N y ↔ N' y)) : r.Concludes l G N' x := by
  obtain ⟨i, j, f, v, hh, hv, rfl⟩ := h
  exact ⟨i, j, f, v, hh.mono hF hN, hv, rfl⟩

theorem ERule.Concludes.line {l l' : LLLine W} (ht : l'.ll_tokens = l.ll_tokens) {F N : Rec W → Prop} {r : ERule W}
    {x : Rec W} (h : r.Concludes l F N x) : r.Concludes l' F N x := by
  obtain ⟨i, j, f, v, hh, hv, rfl⟩ := h
  exact ⟨i, j, f, v, (EPat.Holds.line ht).1 hh, hv, rfl⟩

/-- one run of a rule adds exactly its conclusions from the facts so far -/
theorem erule_run {l : LLLine W} {h : History W} (hh : Honest l h) (ne : l.ll_tokens ≠ []) (ptr : Nat) (r : ERule W) :
    ∃ l' new, l.run ptr r.resolver = .ok l' ∧ Honest l' (h ++ new) ∧ l'.ll_tokens = l.ll_tokens ∧
      ∀ x, x ∈ new ↔ r.Concludes l (· ∈ h) (· ∈ h) x := by
  obtain ⟨hr, ho⟩ := hh.spec
  obtain ⟨found, hf⟩ := findBy_total (wholeLine_inside ne ptr)
    (show TotalOn (wholeLine l ptr).ll_line.val r.pat.matcher from built_totalOn (r.pat.built false) hr)
  have hrun : HonestRun l ptr r.resolver
      (found.flatMap (fun st => (r.values st.2).map (fun v => st.1.finishWithAttr v))) := by
    refine ⟨by simp only [ERule.resolver, hf], fun a ha => ?_⟩
    exact honest_findBy (r.pat.built true) hf ha
  obtain ⟨l', hl'⟩ := honest_run_ok hr.rep ho ne hrun
  refine ⟨l', _, hl', .run l h ptr r.resolver _ l' hh ne hrun hl', run_tokens hl', fun x => ?_⟩
  have hlen : 0 < l.ll_tokens.length := List.length_pos_iff.2 ne
  simp only [List.mem_map, List.mem_flatMap]
  constructor
  · rintro ⟨a, ⟨⟨s, f⟩, hs, v, hv, rfl⟩, rfl⟩
    obtain ⟨_, hi, rs, hrs, hm⟩ := (mem_findBy hf).1 hs
    have hi' : s.start_idx < l.ll_tokens.length := by
      have := hi.2
      simp only [wholeLine] at this
      omega
    obtain ⟨rs', hrs', hiff⟩ := r.pat.matcher_spec hr ho hi'
    have hrs : r.pat.matcher.go (.fwd s.start_idx) l = .ok rs := hrs
    rw [hrs] at hrs'; cases hrs'
    exact ⟨s.start_idx, s.end_idx, f, v, (hiff _ _).1 hm, hv, rfl⟩
  · rintro ⟨i, j, f, v, hp, hv, rfl⟩
    have hin := hp.inside (F := (· ∈ h)) (fun y hy => ⟨ho y hy, (hr.rep.bounds y hy).2⟩)
    obtain ⟨rs, hrs, hiff⟩ := r.pat.matcher_spec hr ho (i := i) (by omega)
    refine ⟨_, ⟨(⟨⟨ptr, l⟩, i, j⟩, f), (mem_findBy hf).2 ⟨rfl, ⟨Nat.zero_le _, ?_⟩, rs, hrs, (hiff _ _).2 hp⟩, v, hv, rfl⟩, rfl⟩
    simp only [wholeLine]
    omega

end LNlp
