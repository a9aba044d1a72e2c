import Verif.Spec.Rewrite
import Verif.Lemmas.Grammar
/- Helper lemmas for Props/Rewrite.lean. -/
namespace LNlp
variable {W : World}

theorem Pat.tokens_pos : ∀ {α : Type} (p : Pat W α), 0 < p.tokens
  | _, .attr _ => Nat.one_pos
  | _, .attrEq _ _ => Nat.one_pos
  | _, .text => Nat.one_pos
  | _, .seq a b => by have := a.tokens_pos; simp only [Pat.tokens]; omega
  | _, .both a b => by have := a.tokens_pos; have := b.tokens_pos; simp only [Pat.tokens]; omega

theorem Pat.sketch_inside (w : (k : Ty W) → Val k) : ∀ {α : Type} (p : Pat W α), ∀ r ∈ p.sketch w,
    r.range.1 ≤ r.range.2 ∧ r.range.2 < p.tokens
  | _, .attr _, r, hr => by simp only [Pat.sketch, List.mem_singleton] at hr; subst hr; simp [Pat.tokens]
  | _, .attrEq _ _, r, hr => by simp only [Pat.sketch, List.mem_singleton] at hr; subst hr; simp [Pat.tokens]
  | _, .text, r, hr => by simp [Pat.sketch] at hr
  | _, .seq a b, r, hr => by
    simp only [Pat.sketch, List.mem_append, List.mem_map] at hr
    simp only [Pat.tokens]
    rcases hr with hr | ⟨q, hq, rfl⟩
    · have := a.sketch_inside w r hr; omega
    · have := b.sketch_inside w q hq; simp only; omega
  | _, .both a b, r, hr => by
    simp only [Pat.sketch, List.mem_append, List.mem_map] at hr
    simp only [Pat.tokens]
    have := a.tokens_pos
    have := b.tokens_pos
    rcases hr with ⟨q, hq, rfl⟩ | ⟨q, hq, rfl⟩
    · have := a.sketch_inside w q hq
      simp only
      split <;> omega
    · have := b.sketch_inside w q hq
      simp only
      split <;> omega

/-- every record of `F` has one in `G` where `f` puts its ends (the places between tokens), which compares equal to the
values of `C` at least as often -/
def Carries (C : (k : Ty W) → Val k → Prop) (f : Nat → Nat) (F G : Rec W → Prop) : Prop :=
  ∀ k p q v, F ⟨k, (p, q), v⟩ → ∃ e u, G ⟨k, (f p, e), u⟩ ∧ e + 1 = f (q + 1) ∧
    ∀ v', C k v' → valEq k v v' = true → valEq k u v' = true

theorem Pat.Holds.carry {C : (k : Ty W) → Val k → Prop} {f : Nat → Nat} {F G : Rec W → Prop} {l l' : LLLine W}
    (nt : ∀ i, textAt l i = none) (hc : Carries C f F G) : ∀ {α : Type} {p : Pat W α} {i j : Nat} {x : α},
      (∀ k v, p.Compares k v → C k v) → p.Holds l F i j x → ∃ e y, p.Holds l' G (f i) e y ∧ e + 1 = f (j + 1)
  | _, .attr k, i, j, v, _, h => by
    obtain ⟨e, u, hu, he, _⟩ := hc k i j v h
    exact ⟨e, u, hu, he⟩
  | _, .attrEq k v, i, j, _, hC, h => by
    obtain ⟨w, hw, h⟩ := h
    obtain ⟨e, u, hu, he, hv⟩ := hc k i j w h
    exact ⟨e, (), ⟨u, hv v (hC k v rfl) hw, hu⟩, he⟩
  | _, .text, i, _, _, _, h => by
    have := h.2
    rw [nt i] at this
    cases this
  | _, .seq a b, i, j, (_, _), hC, h => by
    obtain ⟨m, ha, hb⟩ := h
    obtain ⟨e1, y1, h1, he1⟩ := ha.carry (l' := l') nt hc (fun k v hv => hC k v (.inl hv))
    obtain ⟨e2, y2, h2, he2⟩ := hb.carry (l' := l') nt hc (fun k v hv => hC k v (.inr hv))
    exact ⟨e2, (y1, y2), ⟨e1, h1, he1 ▸ h2⟩, he2⟩
  | _, .both a b, i, j, (_, _), hC, h => by
    obtain ⟨ha, hb⟩ := h
    obtain ⟨e1, y1, h1, he1⟩ := ha.carry (l' := l') nt hc (fun k v hv => hC k v (.inl hv))
    obtain ⟨e2, y2, h2, he2⟩ := hb.carry (l' := l') nt hc (fun k v hv => hC k v (.inr hv))
    have : e1 = e2 := by omega
    subst this
    exact ⟨e1, (y1, y2), ⟨h1, h2⟩, he1⟩

/-- what is found on the sketch is the whole -/
theorem Pat.sketch_holds {w : (k : Ty W) → Val k} {l : LLLine W} (nt : ∀ i, textAt l i = none) :
    ∀ {α : Type} (p : Pat W α), p.NoText → (∀ k v, p.Compares k v → valEq k v v = true) →
      ∃ x, p.Holds l (· ∈ p.sketch w) 0 (p.tokens - 1) x
  | _, .attr k, _, _ => ⟨w k, by simp [Pat.Holds, Pat.sketch, Pat.tokens]⟩
  | _, .attrEq k v, _, hr => ⟨(), v, hr k v rfl, by simp [Pat.sketch, Pat.tokens]⟩
  | _, .text, ht, _ => ht.elim
  | _, .seq a b, ht, hr => by
    obtain ⟨x, hx⟩ := a.sketch_holds (w := w) nt ht.1 (fun k v hv => hr k v (.inl hv))
    obtain ⟨y, hy⟩ := b.sketch_holds (w := w) nt ht.2 (fun k v hv => hr k v (.inr hv))
    have pa := a.tokens_pos
    have pb := b.tokens_pos
    obtain ⟨e1, x', hx', he1⟩ := hx.carry (l' := l) (C := fun _ _ => True) (f := id)
      (G := (· ∈ (Pat.seq a b).sketch w)) nt
      (fun k p q v hv => ⟨q, v, List.mem_append_left _ hv, rfl, fun _ _ h => h⟩) (fun _ _ _ => trivial)
    obtain ⟨e2, y', hy', he2⟩ := hy.carry (l' := l) (C := fun _ _ => True) (f := (· + a.tokens))
      (G := (· ∈ (Pat.seq a b).sketch w)) nt
      (fun k p q v hv => ⟨q + a.tokens, v, List.mem_append_right _ (List.mem_map.2 ⟨_, hv, rfl⟩), by
        show q + a.tokens + 1 = q + 1 + a.tokens; omega, fun _ _ h => h⟩) (fun _ _ _ => trivial)
    refine ⟨(x', y'), e1, hx', ?_⟩
    simp only [id] at he1
    have e : (Pat.seq a b).tokens - 1 = e2 := by simp only [Pat.tokens]; omega
    have e' : e1 + 1 = 0 + a.tokens := by omega
    rw [e, e']
    exact hy'
  | _, .both a b, ht, hr => by
    obtain ⟨x, hx⟩ := a.sketch_holds (w := w) nt ht.1 (fun k v hv => hr k v (.inl hv))
    obtain ⟨y, hy⟩ := b.sketch_holds (w := w) nt ht.2 (fun k v hv => hr k v (.inr hv))
    have pa := a.tokens_pos
    have pb := b.tokens_pos
    obtain ⟨e1, x', hx', he1⟩ := hx.carry (l' := l) (C := fun _ _ => True)
      (f := fun g => if g = a.tokens then a.tokens + b.tokens - 1 else g)
      (G := (· ∈ (Pat.both a b).sketch w)) nt
      (fun k p q v hv => by
        have hi := a.sketch_inside w _ hv
        simp only at hi
        refine ⟨if q + 1 = a.tokens then a.tokens + b.tokens - 2 else q, v,
          List.mem_append_left _ (List.mem_map.2 ⟨_, hv, ?_⟩), ?_, fun _ _ h => h⟩
        · show _ = (⟨k, (if p = a.tokens then a.tokens + b.tokens - 1 else p, _), v⟩ : Rec W)
          rw [if_neg (show ¬ p = a.tokens by omega)]
        · show _ = if q + 1 = a.tokens then a.tokens + b.tokens - 1 else q + 1
          split <;> omega) (fun _ _ _ => trivial)
    obtain ⟨e2, y', hy', he2⟩ := hy.carry (l' := l) (C := fun _ _ => True)
      (f := fun g => if g = 0 then 0 else g + a.tokens - 1)
      (G := (· ∈ (Pat.both a b).sketch w)) nt
      (fun k p q v hv =>
        ⟨q + a.tokens - 1, v, List.mem_append_right _ (List.mem_map.2 ⟨_, hv, rfl⟩), by
          show _ = if q + 1 = 0 then 0 else q + 1 + a.tokens - 1
          rw [if_neg (show ¬ q + 1 = 0 by omega)]; omega, fun _ _ h => h⟩) (fun _ _ _ => trivial)
    rw [if_neg (show ¬ 0 = a.tokens by omega)] at hx'
    rw [if_pos rfl] at hy'
    rw [if_pos (show a.tokens - 1 + 1 = a.tokens by omega)] at he1
    rw [if_neg (show ¬ b.tokens - 1 + 1 = 0 by omega)] at he2
    have e : (Pat.both a b).tokens - 1 = e1 := by simp only [Pat.tokens]; omega
    have e' : e1 = e2 := by omega
    exact ⟨(x', y'), by rw [e]; exact ⟨hx', e' ▸ hy'⟩⟩

/-- the sketch is found wherever the expression is -/
theorem Pat.Holds.sketch {w : (k : Ty W) → Val k} {C : (k : Ty W) → Val k → Prop}
    (fresh : ∀ k v, C k v → valEq k (w k) v = false) {l : LLLine W} {G : Rec W → Prop} :
    ∀ {α : Type} {p : Pat W α} {i j : Nat} {x : α}, p.NoText →
      (∀ k v, p.Compares k v → ∀ u v', valEq k u v = true → valEq k v v' = true → valEq k u v' = true) →
      p.Holds l G i j x → ∃ f : Nat → Nat, f 0 = i ∧ f p.tokens = j + 1 ∧ Carries C f (· ∈ p.sketch w) G
  | _, .attr k, i, j, v, _, _, h => by
    refine ⟨fun g => if g = 0 then i else j + 1, rfl, rfl, fun k' p q u hu => ?_⟩
    simp only [Pat.sketch, List.mem_singleton] at hu
    cases hu
    refine ⟨j, v, h, rfl, fun v' hv' he => ?_⟩
    rw [fresh k v' hv'] at he
    cases he
  | _, .attrEq k v, i, j, _, _, tr, h => by
    obtain ⟨w', hw, h⟩ := h
    refine ⟨fun g => if g = 0 then i else j + 1, rfl, rfl, fun k' p q u hu => ?_⟩
    simp only [Pat.sketch, List.mem_singleton] at hu
    cases hu
    exact ⟨j, w', h, rfl, fun v' _ he => tr k v rfl _ _ hw he⟩
  | _, .text, _, _, _, ht, _, _ => ht.elim
  | _, .seq a b, i, j, (_, _), ht, tr, h => by
    obtain ⟨m, ha, hb⟩ := h
    obtain ⟨f, f0, fn, hf⟩ := ha.sketch fresh ht.1 (fun k v hv => tr k v (.inl hv))
    obtain ⟨g, g0, gn, hg⟩ := hb.sketch fresh ht.2 (fun k v hv => tr k v (.inr hv))
    have pa := a.tokens_pos
    have pb := b.tokens_pos
    refine ⟨fun x => if x < a.tokens then f x else g (x - a.tokens), ?_, ?_, ?_⟩
    · simp only [pa, if_true, f0]
    · show (if a.tokens + b.tokens < a.tokens then _ else g (a.tokens + b.tokens - a.tokens)) = _
      rw [if_neg (by omega), Nat.add_sub_cancel_left, gn]
    · intro k p q v hv
      rcases List.mem_append.1 hv with hv | hv
      · have hi := a.sketch_inside w _ hv
        simp only at hi
        obtain ⟨e, u, h1, h2, h3⟩ := hf k p q v hv
        refine ⟨e, u, ?_, ?_, h3⟩
        · simp only
          rw [if_pos (show p < a.tokens by omega)]
          exact h1
        · simp only
          split
          · exact h2
          · have hq : q + 1 = a.tokens := by omega
            rw [hq, fn] at h2
            rw [hq, Nat.sub_self, g0]
            exact h2
      · obtain ⟨⟨k', ⟨p', q'⟩, v'⟩, hr, he⟩ := List.mem_map.1 hv
        cases he
        obtain ⟨e, u, h1, h2, h3⟩ := hg k' p' q' v' hr
        refine ⟨e, u, ?_, ?_, h3⟩
        · simp only
          rw [if_neg (show ¬ p' + a.tokens < a.tokens by omega), Nat.add_sub_cancel]
          exact h1
        · simp only
          rw [if_neg (show ¬ q' + a.tokens + 1 < a.tokens by omega),
            show q' + a.tokens + 1 - a.tokens = q' + 1 by omega]
          exact h2
  | _, .both a b, i, j, (_, _), ht, tr, h => by
    obtain ⟨ha, hb⟩ := h
    obtain ⟨f, f0, fn, hf⟩ := ha.sketch fresh ht.1 (fun k v hv => tr k v (.inl hv))
    obtain ⟨g, g0, gn, hg⟩ := hb.sketch fresh ht.2 (fun k v hv => tr k v (.inr hv))
    have pa := a.tokens_pos
    have pb := b.tokens_pos
    refine ⟨fun x => if x < a.tokens then f x else g (x + 1 - a.tokens), ?_, ?_, ?_⟩
    · simp only [pa, if_true, f0]
    · show (if a.tokens + b.tokens - 1 < a.tokens then _ else g (a.tokens + b.tokens - 1 + 1 - a.tokens)) = _
      rw [if_neg (by omega), show a.tokens + b.tokens - 1 + 1 - a.tokens = b.tokens by omega, gn]
    · intro k p q v hv
      rcases List.mem_append.1 hv with hv | hv
      · obtain ⟨⟨k', ⟨p', q'⟩, v'⟩, hr, he⟩ := List.mem_map.1 hv
        have hi := a.sketch_inside w _ hr
        cases he
        simp only at hi
        obtain ⟨e, u, h1, h2, h3⟩ := hf k' p' q' v' hr
        refine ⟨e, u, ?_, ?_, h3⟩
        · simp only
          rw [if_pos (show p' < a.tokens by omega)]
          exact h1
        · by_cases hq : q' + 1 = a.tokens
          · simp only [hq, if_true]
            rw [if_neg (by omega), show a.tokens + b.tokens - 2 + 1 + 1 - a.tokens = b.tokens by omega, gn]
            rw [hq, fn] at h2
            exact h2
          · simp only [hq, if_false]
            rw [if_pos (by omega)]
            exact h2
      · obtain ⟨⟨k', ⟨p', q'⟩, v'⟩, hr, he⟩ := List.mem_map.1 hv
        have hi := b.sketch_inside w _ hr
        cases he
        simp only at hi
        obtain ⟨e, u, h1, h2, h3⟩ := hg k' p' q' v' hr
        refine ⟨e, u, ?_, ?_, h3⟩
        · by_cases hp : p' = 0
          · subst hp
            simp only [if_true, pa, f0]
            rw [g0] at h1
            exact h1
          · simp only [hp, if_false]
            rw [if_neg (by omega), show p' + a.tokens - 1 + 1 - a.tokens = p' by omega]
            exact h1
        · simp only
          rw [if_neg (by omega), show q' + a.tokens - 1 + 1 + 1 - a.tokens = q' + 1 by omega]
          exact h2

/-- covering, in terms of what is found -/
theorem covers_iff {l : LLLine W} {h : History W} (hh : Honest l h) {α β : Type} (a : Pat W α) (b : Pat W β) :
    Covers LLSelection.findBy l a.matcher b.matcher ↔
      ∀ i j x, a.Holds l (· ∈ h) i j x → ∃ y, b.Holds l (· ∈ h) i j y := by
  obtain ⟨hr, ho⟩ := hh.spec
  have hin : ∀ y, y ∈ h → y.range.1 ≤ y.range.2 ∧ y.range.2 < l.ll_tokens.length :=
    fun y hy => ⟨ho y hy, (hr.rep.bounds y hy).2⟩
  constructor
  · intro hc i j x hx
    have hij := hx.inside hin
    obtain ⟨as, bs, ha, hb, hab⟩ := hc ⟨⟨0, l⟩, i, i⟩ rfl ⟨Nat.le_refl _, by show i < l.ll_tokens.length; omega⟩
    obtain ⟨rs, hrs, hiff⟩ := a.matcher_spec hr ho (i := i) (by omega)
    obtain ⟨⟨q, y⟩, hq, he⟩ := hab (⟨⟨0, l⟩, i, j⟩, x)
      ((mem_findBy ha).2 ⟨rfl, ⟨Nat.le_refl _, Nat.le_refl _⟩, rs, hrs, (hiff x j).2 hx⟩)
    simp only at he
    subst he
    obtain ⟨_, _, rs', hrs', hm⟩ := (mem_findBy hb).1 hq
    obtain ⟨rs'', hrs'', hiff'⟩ := b.matcher_spec hr ho (i := i) (by omega)
    have hrs' : b.matcher.go (.fwd i) l = .ok rs' := hrs'
    rw [hrs'] at hrs''
    cases hrs''
    exact ⟨y, (hiff' y j).1 hm⟩
  · intro hc s hs hi
    obtain ⟨as, ha⟩ := findBy_total hi (m := a.matcher) (hs ▸ built_totalOn a.built hr)
    obtain ⟨bs, hb⟩ := findBy_total hi (m := b.matcher) (hs ▸ built_totalOn b.built hr)
    refine ⟨as, bs, ha, hb, ?_⟩
    rintro ⟨p, x⟩ hp
    obtain ⟨hpl, hpi, rs, hrs, hm⟩ := (mem_findBy ha).1 hp
    have hlt : p.start_idx < l.ll_tokens.length := by
      have h1 := hi.2
      have h2 := hpi.2
      rw [hs] at h1
      omega
    obtain ⟨rs', hrs', hiff⟩ := a.matcher_spec hr ho hlt
    rw [hs] at hrs
    rw [hrs] at hrs'
    cases hrs'
    obtain ⟨y, hy⟩ := hc _ _ x ((hiff x _).1 hm)
    obtain ⟨rs', hrs', hiff'⟩ := b.matcher_spec hr ho hlt
    exact ⟨(p, y), (mem_findBy hb).2 ⟨hpl, hpi, rs', by rw [hs]; exact hrs', (hiff' y _).2 hy⟩, rfl⟩

/-- a row of marks -/
theorem exists_row (mk : Ty W) (mv : Val mk) : ∀ n : Nat, ∃ (α : Type) (p : Pat W α), ∀ (l : LLLine W) (F : Rec W → Prop)
    (i : Nat), (∀ m, i ≤ m → m ≤ i + n → F ⟨mk, (m, m), mv⟩) → ∃ x, p.Holds l F i (i + n) x
  | 0 => ⟨_, .attr mk, fun _ _ i hF => ⟨mv, hF i (Nat.le_refl _) (Nat.le_refl _)⟩⟩
  | n + 1 => by
    obtain ⟨α, p, hp⟩ := exists_row mk mv n
    refine ⟨_, .seq (.attr mk) p, fun l F i hF => ?_⟩
    obtain ⟨x, hx⟩ := hp l F (i + 1) (fun m h1 h2 => hF m (by omega) (by omega))
    exact ⟨(mv, x), i, hF i (Nat.le_refl _) (by omega), by
      rw [show i + (n + 1) = i + 1 + n by omega]; exact hx⟩

/-- on a line with a mark on each token, every attribute can be assigned to every range -/
theorem realise {mk : Ty W} {mv : Val mk} : ∀ (rs : List (Rec W)) {l : LLLine W} {h : History W}, Honest l h →
    (∀ i < l.ll_tokens.length, (⟨mk, (i, i), mv⟩ : Rec W) ∈ h) →
    (∀ r ∈ rs, r.range.1 ≤ r.range.2 ∧ r.range.2 < l.ll_tokens.length) →
    ∃ l', Honest l' (h ++ rs) ∧ l'.ll_tokens = l.ll_tokens
  | [], l, h, hh, _, _ => ⟨l, by rw [List.append_nil]; exact hh, rfl⟩
  | r :: rs, l, h, hh, hm, hr => by
    obtain ⟨hre, ho⟩ := hh.spec
    have h0 := hr r (List.mem_cons_self ..)
    have ne : l.ll_tokens ≠ [] := by
      intro e
      rw [e] at h0
      simp at h0
    obtain ⟨k, ⟨i, j⟩, v⟩ := r
    simp only at h0
    obtain ⟨α, p, hp⟩ := exists_row mk mv (j - i)
    obtain ⟨x, hx⟩ := hp l (· ∈ h) i (fun m h1 h2 => hm m (by omega))
    rw [show i + (j - i) = j by omega] at hx
    obtain ⟨found, hf⟩ := findBy_total (wholeLine_inside ne 0)
      (show TotalOn (wholeLine l 0).ll_line.val p.matcher from built_totalOn p.built hre)
    obtain ⟨out, hout, hiff⟩ := p.matcher_spec hre ho (i := i) (by omega)
    have hmem : ((⟨⟨0, l⟩, i, j⟩ : LLSelection W), x) ∈ found :=
      (mem_findBy hf).2 ⟨rfl, ⟨Nat.zero_le _, by show i ≤ l.ll_tokens.length - 1; omega⟩, out, hout, (hiff x j).2 hx⟩
    let sel : LLSelection W := ⟨⟨0, l⟩, i, j⟩
    let res : Resolver W := { attr := k, go := fun _ => .ok ([sel.finishWithAttr v], false) }
    have hrun : HonestRun l 0 res [sel.finishWithAttr v] := by
      refine ⟨rfl, fun a ha => ?_⟩
      exact ⟨sel, v, .findBy .self p.builtin hf hmem, List.mem_singleton.1 ha⟩
    obtain ⟨l1, hl1⟩ := honest_run_ok hre.rep ho ne hrun
    have hh1 := Honest.run l h 0 res _ l1 hh ne hrun hl1
    have ht := run_tokens hl1
    obtain ⟨l2, hh2, ht2⟩ := realise rs (l := l1) hh1
      (fun i hi => List.mem_append_left _ (hm i (by rw [← ht]; exact hi)))
      (fun r hr' => by rw [ht]; exact hr r (List.mem_cons_of_mem _ hr'))
    refine ⟨l2, ?_, ht2.trans ht⟩
    rw [List.append_assoc] at hh2
    exact hh2

theorem marked_history (mk : Ty W) (mv : Val mk) (n : Nat) (x : Rec W) :
    x ∈ creationHistory W (fun _ => 0) (markedInput mk mv n) ↔ ∃ i < n, x = ⟨mk, (i, i), mv⟩ := by
  have hb : builtinHistory W (((markedInput mk mv n).flatMap (tokensOf W (fun _ => 0))).map (·.1)) = [] := by
    rw [builtinHistory, List.flatMap_eq_nil_iff]
    rintro ⟨t, i⟩ hp
    have ht : t ∈ ((markedInput mk mv n).flatMap (tokensOf W (fun _ => 0))).map (·.1) := by
      rw [List.mem_zipIdx_iff_getElem?] at hp
      exact List.mem_of_getElem? hp
    obtain ⟨⟨t', sz⟩, h1, rfl⟩ := List.mem_map.1 ht
    obtain ⟨inp, h2, h3⟩ := List.mem_flatMap.1 h1
    rw [markedInput] at h2
    rw [List.eq_of_mem_replicate h2] at h3
    simp only [tokensOf, List.mem_singleton, Prod.mk.injEq] at h3
    simp [h3.1, builtinOf]
  rw [creationHistory, hb, List.nil_append]
  have key : ∀ (n s : Nat), x ∈ inputHistory W (fun _ => 0) s (markedInput mk mv n) ↔
      ∃ i, s ≤ i ∧ i < s + n ∧ x = ⟨mk, (i, i), mv⟩ := by
    intro n
    induction n with
    | zero => intro s; simp [markedInput, inputHistory]; omega
    | succ n ih =>
      intro s
      have ih := ih (s + 1)
      rw [markedInput] at ih ⊢
      rw [List.replicate_succ]
      simp only [AnyAttribute.new] at ih
      simp only [inputHistory, tokensOf, List.length_singleton, InputToken.attrList, List.map_cons, List.map_nil,
        List.cons_append, List.nil_append, List.mem_cons, ih, AnyAttribute.new, Nat.add_sub_cancel]
      constructor
      · rintro (rfl | ⟨i, h1, h2, h3⟩)
        · exact ⟨s, Nat.le_refl _, by omega, rfl⟩
        · exact ⟨i, by omega, by omega, h3⟩
      · rintro ⟨i, h1, h2, h3⟩
        by_cases hi : i = s
        · subst hi; exact .inl h3
        · exact .inr ⟨i, by omega, by omega, h3⟩
  rw [key n 0]
  simp

/-- a line with given attributes on given ranges, and a mark on each token -/
theorem marked_line (hu : 0 < W.usizeBound) (mk : Ty W) (mv : Val mk) (n : Nat) (rs : List (Rec W))
    (hrs : ∀ r ∈ rs, r.range.1 ≤ r.range.2 ∧ r.range.2 < n) :
    ∃ l, Honest l (creationHistory W (fun _ => 0) (markedInput mk mv n) ++ rs) ∧ l.ll_tokens.length = n ∧
      ∀ i, textAt l i = none := by
  have wf : ∀ t ∈ markedInput mk mv n, t.WF := by
    intro t ht
    rw [List.eq_of_mem_replicate ht]
    intro x hx
    simp only [InputToken.attrList, List.mem_singleton] at hx
    exact ⟨mk, mv, hx⟩
  have tot : ∀ n, totalSize ((markedInput mk mv n).flatMap (tokensOf W (fun _ => 0))) = 0 := by
    intro n
    induction n with
    | zero => rfl
    | succ n ih =>
      rw [markedInput] at ih ⊢
      rw [List.replicate_succ, List.flatMap_cons]
      simp only [tokensOf, List.cons_append, List.nil_append]
      simpa [totalSize] using ih
  obtain ⟨l, hl⟩ := create_ok (size := fun _ => 0) wf
    (fun t ht => by rw [List.eq_of_mem_replicate ht]; trivial) (.inr (by rw [tot]; exact hu))
  obtain ⟨_, htoks, _⟩ := create_inv wf hl
  have hmap : l.ll_tokens.map (·.token) = List.replicate n LToken.Value := by
    rw [htoks, layoutM_tokens]
    have : ∀ n, ((markedInput mk mv n).flatMap (tokensOf W (fun _ => 0))).map (·.1) = List.replicate n LToken.Value := by
      intro n
      induction n with
      | zero => rfl
      | succ n ih =>
        rw [markedInput] at ih ⊢
        rw [List.replicate_succ, List.flatMap_cons, List.map_append, ih, List.replicate_succ]
        rfl
    exact this _
  have hlen : l.ll_tokens.length = n := by
    have := congrArg List.length hmap
    simpa using this
  obtain ⟨l', hh', ht'⟩ := realise (mk := mk) (mv := mv) rs (.create _ _ l wf hl)
    (fun i hi => (marked_history mk mv _ _).2 ⟨i, by omega, rfl⟩)
    (fun r hr => by rw [hlen]; exact hrs r hr)
  refine ⟨l', hh', by rw [ht', hlen], fun i => ?_⟩
  unfold textAt
  rw [ht']
  cases hi : l.ll_tokens[i]? with
  | none => rfl
  | some t =>
    have : t.token ∈ l.ll_tokens.map (·.token) := List.mem_map.2 ⟨t, List.mem_of_getElem? hi, rfl⟩
    rw [hmap] at this
    have := List.eq_of_mem_replicate this
    simp [this]

/-- the line read from its end -/
def backLine (l : LLLine W) : LLLine W := { l with ll_tokens := l.ll_tokens.reverse }

/-- the attributes of a line of `n` tokens read from its end -/
def backFacts (n : Nat) (h : History W) (y : Rec W) : Prop :=
  y.range.1 < n ∧ y.range.2 < n ∧ (⟨y.ty, (n - 1 - y.range.2, n - 1 - y.range.1), y.val⟩ : Rec W) ∈ h

theorem textAt_backLine {l : LLLine W} {c : Nat} (hc : c < l.ll_tokens.length) :
    textAt (backLine l) c = textAt l (l.ll_tokens.length - 1 - c) := by
  unfold textAt backLine
  simp only
  rw [List.getElem?_reverse hc]

/-- a matcher finds backwards what holds on the line read from its end -/
theorem Pat.matcher_back {l : LLLine W} {h : History W} (hr : Reachable l h) (ho : Ordered h) :
    ∀ {α : Type} (p : Pat W α) {c : Nat}, c < l.ll_tokens.length →
      ∃ rs, p.matcher.go (.bwd (l.ll_tokens.length - 1 - c)) l = .ok rs ∧
        ∀ x i, (x, i) ∈ rs ↔ ∃ e, i + e + 1 = l.ll_tokens.length ∧
          p.Holds (backLine l) (backFacts l.ll_tokens.length h) c e x := by
  have hF : ∀ y, backFacts l.ll_tokens.length h y → y.range.1 ≤ y.range.2 ∧ y.range.2 < (backLine l).ll_tokens.length := by
    rintro y ⟨h1, h2, hy⟩
    have := ho _ hy
    simp only at this
    have e : (backLine l).ll_tokens.length = l.ll_tokens.length := List.length_reverse ..
    rw [e]
    omega
  have e : (backLine l).ll_tokens.length = l.ll_tokens.length := List.length_reverse ..
  intro α p
  induction p with
  | attr k =>
    intro c hc
    refine ⟨_, rep_attr_bwd hr.rep k (by omega), fun x i => ?_⟩
    rw [mem_attr_list]
    constructor
    · rintro ⟨⟨p, q⟩, h1, h2, h3⟩
      simp only at h1 h2
      subst h1 h2
      have := ho _ h3
      simp only at this
      refine ⟨l.ll_tokens.length - 1 - p, by omega, hc, by show l.ll_tokens.length - 1 - p < _; omega, ?_⟩
      show (⟨k, (l.ll_tokens.length - 1 - (l.ll_tokens.length - 1 - p), l.ll_tokens.length - 1 - c), x⟩ : Rec W) ∈ h
      rw [show l.ll_tokens.length - 1 - (l.ll_tokens.length - 1 - p) = p by omega]
      exact h3
    · rintro ⟨e, h1, _, _, h2⟩
      exact ⟨_, rfl, by show l.ll_tokens.length - 1 - e = i; omega, h2⟩
  | attrEq k v =>
    intro c hc
    refine ⟨_, rep_attrEq_bwd hr.rep k v (by omega), fun x i => ?_⟩
    rw [mem_oneOf_list]
    constructor
    · rintro ⟨⟨p, q⟩, w, h1, h2, hw, _, h3⟩
      simp only at h1 h2
      subst h1 h2
      have := ho _ h3
      simp only at this
      refine ⟨l.ll_tokens.length - 1 - p, by omega, w, hw, hc, by show l.ll_tokens.length - 1 - p < _; omega, ?_⟩
      show (⟨k, (l.ll_tokens.length - 1 - (l.ll_tokens.length - 1 - p), l.ll_tokens.length - 1 - c), w⟩ : Rec W) ∈ h
      rw [show l.ll_tokens.length - 1 - (l.ll_tokens.length - 1 - p) = p by omega]
      exact h3
    · rintro ⟨e, h1, w, hw, _, _, h2⟩
      exact ⟨_, w, rfl, by show l.ll_tokens.length - 1 - e = i; omega, hw, rfl, h2⟩
  | text =>
    intro c hc
    have hi : l.ll_tokens.length - 1 - c < l.ll_tokens.length := by omega
    have hg := textToken_bwd l (l.ll_tokens.length - 1 - c)
    rw [List.getElem?_eq_getElem hi] at hg
    have ht : textAt (backLine l) c = (match l.ll_tokens[l.ll_tokens.length - 1 - c].token with
      | .Text s _ => some s
      | .Value => none) := by rw [textAt_backLine hc, textAt, List.getElem?_eq_getElem hi]; rfl
    cases hk : l.ll_tokens[l.ll_tokens.length - 1 - c].token with
    | Text s tag =>
      rw [hk] at ht
      simp only [hk] at hg
      refine ⟨_, hg, fun x j => ?_⟩
      simp only [List.mem_singleton, Prod.mk.injEq, Pat.Holds, ht, Option.some.injEq]
      exact ⟨fun ⟨a, b⟩ => ⟨c, by omega, rfl, a.symm⟩, fun ⟨e, he, a, b⟩ => ⟨b.symm, by omega⟩⟩
    | Value =>
      rw [hk] at ht
      simp only [hk] at hg
      exact ⟨_, hg, fun x j => by simp [Pat.Holds, ht]⟩
  | seq a b iha ihb =>
    intro c hc
    obtain ⟨rs, hrs, _⟩ := built_totalOn (Pat.built (.seq a b)) hr (.bwd (l.ll_tokens.length - 1 - c))
      (by show l.ll_tokens.length - 1 - c < _; omega)
    refine ⟨rs, hrs, fun x j => ?_⟩
    obtain ⟨x, y⟩ := x
    rw [mem_seq2 hrs]
    obtain ⟨as, ha, hia⟩ := iha hc
    constructor
    · rintro ⟨as', m, d', bs, ha', hma, ⟨m', rfl, rfl⟩, hb, hmb⟩
      rw [ha] at ha'; cases ha'
      obtain ⟨e1, he1, h1⟩ := (hia x _).1 hma
      obtain ⟨bs', hb', hib⟩ := ihb (c := e1 + 1) (by omega)
      rw [show l.ll_tokens.length - 1 - (e1 + 1) = m' by omega, hb] at hb'
      cases hb'
      obtain ⟨e2, he2, h2⟩ := (hib y j).1 hmb
      exact ⟨e2, he2, e1, h1, h2⟩
    · rintro ⟨e2, he2, e1, h1, h2⟩
      have hm := h2.inside hF
      rw [e] at hm
      obtain ⟨bs, hb, hib⟩ := ihb (c := e1 + 1) (by omega)
      refine ⟨as, l.ll_tokens.length - 1 - (e1 + 1) + 1, _, bs, ha, (hia x _).2 ⟨e1, by omega, h1⟩, ⟨_, rfl, rfl⟩, hb,
        (hib y j).2 ⟨e2, he2, h2⟩⟩
  | both a b iha ihb =>
    intro c hc
    obtain ⟨rs, hrs, _⟩ := built_totalOn (Pat.built (.both a b)) hr (.bwd (l.ll_tokens.length - 1 - c))
      (by show l.ll_tokens.length - 1 - c < _; omega)
    refine ⟨rs, hrs, fun x j => ?_⟩
    obtain ⟨x, y⟩ := x
    rw [mem_all2 hrs]
    obtain ⟨as, ha, hia⟩ := iha hc
    obtain ⟨bs, hb, hib⟩ := ihb hc
    constructor
    · rintro ⟨as', bs', ha', hb', h1, h2⟩
      rw [ha] at ha'; cases ha'
      rw [hb] at hb'; cases hb'
      obtain ⟨e1, he1, h1⟩ := (hia x j).1 h1
      obtain ⟨e2, he2, h2⟩ := (hib y j).1 h2
      have : e1 = e2 := by omega
      subst this
      exact ⟨e1, he1, h1, h2⟩
    · rintro ⟨e1, he, h1, h2⟩
      exact ⟨as, bs, ha, hb, (hia x j).2 ⟨e1, he, h1⟩, (hib y j).2 ⟨e1, he, h2⟩⟩

theorem covers_forwards_iff {l : LLLine W} {h : History W} (hh : Honest l h) {α β : Type} (a : Pat W α) (b : Pat W β) :
    Covers LLSelection.matchForwards l a.matcher b.matcher ↔
      ∀ i j x, a.Holds l (· ∈ h) (i + 1) j x → ∃ y, b.Holds l (· ∈ h) (i + 1) j y := by
  obtain ⟨hr, ho⟩ := hh.spec
  have hin : ∀ y, y ∈ h → y.range.1 ≤ y.range.2 ∧ y.range.2 < l.ll_tokens.length :=
    fun y hy => ⟨ho y hy, (hr.rep.bounds y hy).2⟩
  constructor
  · intro hc i j x hx
    have hij := hx.inside hin
    obtain ⟨ra, hra, iffa⟩ := a.matcher_spec hr ho (i := i + 1) (by omega)
    obtain ⟨rb, hrb, iffb⟩ := b.matcher_spec hr ho (i := i + 1) (by omega)
    obtain ⟨as, bs, ha, hb, hab⟩ := hc ⟨⟨0, l⟩, i, i⟩ rfl ⟨Nat.le_refl _, by show i < l.ll_tokens.length; omega⟩
    simp only [LLSelection.matchForwards, hra, hrb] at ha hb
    rw [if_neg (by omega)] at ha hb
    cases ha
    cases hb
    obtain ⟨q, hq, he⟩ := hab _ (List.mem_map.2 ⟨(x, j), (iffa x j).2 hx, rfl⟩)
    obtain ⟨⟨y, j'⟩, hy, rfl⟩ := List.mem_map.1 hq
    simp only [LLSelection.mk.injEq, true_and] at he
    subst he
    exact ⟨y, (iffb y j').1 hy⟩
  · intro hc s hs hi
    subst hs
    by_cases hend : s.end_idx + 1 = s.ll_line.val.ll_tokens.length
    · refine ⟨[], [], ?_, ?_, by simp⟩ <;> simp [LLSelection.matchForwards, hend]
    · have := hi.2
      obtain ⟨ra, hra, iffa⟩ := a.matcher_spec hr ho (i := s.end_idx + 1) (by omega)
      obtain ⟨rb, hrb, iffb⟩ := b.matcher_spec hr ho (i := s.end_idx + 1) (by omega)
      refine ⟨_, _, by simp only [LLSelection.matchForwards, hra]; rw [if_neg hend],
        by simp only [LLSelection.matchForwards, hrb]; rw [if_neg hend], ?_⟩
      intro p hp
      obtain ⟨⟨x, j⟩, hx, rfl⟩ := List.mem_map.1 hp
      obtain ⟨y, hy⟩ := hc _ _ _ ((iffa x j).1 hx)
      exact ⟨_, List.mem_map.2 ⟨(y, j), (iffb y j).2 hy, rfl⟩, rfl⟩

theorem covers_backwards_iff {l : LLLine W} {h : History W} (hh : Honest l h) {α β : Type} (a : Pat W α) (b : Pat W β) :
    Covers LLSelection.matchBackwards l a.matcher b.matcher ↔
      ∀ c e x, a.Holds (backLine l) (backFacts l.ll_tokens.length h) (c + 1) e x →
        ∃ y, b.Holds (backLine l) (backFacts l.ll_tokens.length h) (c + 1) e y := by
  obtain ⟨hr, ho⟩ := hh.spec
  have el : (backLine l).ll_tokens.length = l.ll_tokens.length := List.length_reverse ..
  have hin : ∀ y, backFacts l.ll_tokens.length h y → y.range.1 ≤ y.range.2 ∧ y.range.2 < (backLine l).ll_tokens.length := by
    rintro y ⟨h1, h2, hy⟩
    have := ho _ hy
    simp only at this
    rw [el]
    omega
  constructor
  · intro hc c e x hx
    have hij := hx.inside hin
    rw [el] at hij
    obtain ⟨ra, hra, iffa⟩ := a.matcher_back hr ho (c := c + 1) (by omega)
    obtain ⟨rb, hrb, iffb⟩ := b.matcher_back hr ho (c := c + 1) (by omega)
    obtain ⟨as, bs, ha, hb, hab⟩ := hc ⟨⟨0, l⟩, l.ll_tokens.length - 1 - c, l.ll_tokens.length - 1 - c⟩ rfl
      ⟨Nat.le_refl _, by show l.ll_tokens.length - 1 - c < l.ll_tokens.length; omega⟩
    simp only [LLSelection.matchBackwards] at ha hb
    rw [if_neg (by omega), show l.ll_tokens.length - 1 - c - 1 = l.ll_tokens.length - 1 - (c + 1) by omega] at ha hb
    simp only [hra, hrb] at ha hb
    cases ha
    cases hb
    obtain ⟨q, hq, he⟩ := hab _ (List.mem_map.2 ⟨(x, l.ll_tokens.length - 1 - e), (iffa x _).2 ⟨e, by omega, hx⟩, rfl⟩)
    obtain ⟨⟨y, j'⟩, hy, rfl⟩ := List.mem_map.1 hq
    simp only [LLSelection.mk.injEq, true_and, and_true] at he
    subst he
    obtain ⟨e', he', hy'⟩ := (iffb y _).1 hy
    have : e' = e := by omega
    subst this
    exact ⟨y, hy'⟩
  · intro hc s hs hi
    subst hs
    have h1 := hi.1
    have h2 := hi.2
    by_cases hst : s.start_idx = 0
    · refine ⟨[], [], ?_, ?_, by simp⟩ <;> simp [LLSelection.matchBackwards, hst]
    · have hce : ∃ c, c + 1 < s.ll_line.val.ll_tokens.length ∧
          s.start_idx - 1 = s.ll_line.val.ll_tokens.length - 1 - (c + 1) :=
        ⟨s.ll_line.val.ll_tokens.length - 1 - s.start_idx, by omega, by omega⟩
      obtain ⟨c, hc1, hc2⟩ := hce
      obtain ⟨ra, hra, iffa⟩ := a.matcher_back hr ho (c := c + 1) hc1
      obtain ⟨rb, hrb, iffb⟩ := b.matcher_back hr ho (c := c + 1) hc1
      rw [← hc2] at hra hrb
      refine ⟨_, _, by simp only [LLSelection.matchBackwards, hra]; rw [if_neg hst],
        by simp only [LLSelection.matchBackwards, hrb]; rw [if_neg hst], ?_⟩
      intro p hp
      obtain ⟨⟨x, j⟩, hx, rfl⟩ := List.mem_map.1 hp
      obtain ⟨e, he, hx⟩ := (iffa x j).1 hx
      obtain ⟨y, hy⟩ := hc _ _ _ hx
      exact ⟨_, List.mem_map.2 ⟨(y, j), (iffb y j).2 ⟨e, he, hy⟩, rfl⟩, rfl⟩

/-- an expression that is found on the sketch of another is found wherever the other is -/
theorem Pat.Holds.replace {w : (k : Ty W) → Val k} {α β : Type} {a : Pat W α} {b : Pat W β} {l0 : LLLine W} {y : β}
    (nt : ∀ i, textAt l0 i = none) (hb : b.Holds l0 (· ∈ a.sketch w) 0 (a.tokens - 1) y) (ht : a.NoText)
    (tr : ∀ k v, a.Compares k v → ∀ u v', valEq k u v = true → valEq k v v' = true → valEq k u v' = true)
    (fresh : ∀ k v, b.Compares k v → valEq k (w k) v = false)
    {l : LLLine W} {G : Rec W → Prop} {i j : Nat} {x : α} (ha : a.Holds l G i j x) : ∃ y, b.Holds l G i j y := by
  obtain ⟨f, f0, fn, hf⟩ := ha.sketch fresh ht tr
  obtain ⟨e, y', hy, he⟩ := hb.carry (l' := l) nt hf (fun _ _ h => h)
  have := a.tokens_pos
  rw [show a.tokens - 1 + 1 = a.tokens by omega, fn] at he
  rw [f0, show e = j by omega] at hy
  exact ⟨y', hy⟩

end LNlp
