import Verif.Lemmas.Layers
import Verif.Props.Program
import Verif.Spec.UserMatch
/- Property C130: what layers of resolvers compute, and in which orders they may be run. -/
namespace LNlp
variable {W : World}

/-! ### C130: layers -/

/-- C130: resolvers run in layers give a line that is consistent: each of them, asked again about the finished line,
answers just what it assigned. They may use choices, negations and computations of their own. -/
theorem C130_consistent {looks : Ty W → Ty W → Prop} {l l' : LLLine W} {h : History W} (hr : Reachable l h)
    (ne : l.ll_tokens ≠ []) (rs : List (Nat × Resolver W))
    (hb : ∀ p ∈ rs, ByApi (fun m => Built (looks p.2.attr) true m) p.2) (hl : InLayers looks (rs.map (·.2)))
    (ok : runAll l rs = .ok l') : ∃ h', Consistent l h (rs.map (·.2)) l' h' := by
  obtain ⟨h', c, _⟩ := layers_consistent hr ne rs hb hl ok
  exact ⟨h', c⟩

/-- C130: there is only one consistent line. -/
theorem C130_unique {looks : Ty W → Ty W → Prop} {l l1 l2 : LLLine W} {h h1 h2 : History W} (ne : l.ll_tokens ≠ [])
    (rs : List (Resolver W)) (hb : ∀ r ∈ rs, ByApi (fun m => Built (looks r.attr) true m) r) (hl : InLayers looks rs)
    (c1 : Consistent l h rs l1 h1) (c2 : Consistent l h rs l2 h2) : l1 = l2 :=
  line_ofType c1.reachable c2.reachable (by rw [c1.tokens, c2.tokens]) (layers_unique ne rs hb hl c1 c2)

/-- C130: hence two orders of the same resolvers, both in layers, give the very same line if both run through,
wherever lines are stored. -/
theorem C130_order {looks : Ty W → Ty W → Prop} {l l1 l2 : LLLine W} {h : History W} (hr : Reachable l h)
    (ne : l.ll_tokens ≠ []) (rs rs' : List (Nat × Resolver W))
    (hb : ∀ p ∈ rs, ByApi (fun m => Built (looks p.2.attr) true m) p.2)
    (same : ∀ r, r ∈ rs.map (·.2) ↔ r ∈ rs'.map (·.2))
    (hl : InLayers looks (rs.map (·.2))) (hl' : InLayers looks (rs'.map (·.2)))
    (ok : runAll l rs = .ok l1) (ok' : runAll l rs' = .ok l2) : l1 = l2 := by
  have hb' : ∀ p ∈ rs', ByApi (fun m => Built (looks p.2.attr) true m) p.2 := by
    intro p hp
    obtain ⟨q, hq, e⟩ := List.mem_map.1 ((same p.2).2 (List.mem_map.2 ⟨p, hp, rfl⟩))
    rw [← e]
    exact hb q hq
  obtain ⟨h1, c1⟩ := C130_consistent hr ne rs hb hl ok
  obtain ⟨h2, c2⟩ := C130_consistent hr ne rs' hb' hl' ok'
  refine C130_unique ne (rs.map (·.2)) (fun r hr => ?_) hl c1
    ⟨c2.reachable, c2.tokens, fun r hr => c2.answered r ((same r).1 hr),
      fun k hk => c2.others k (fun r hr => hk r ((same r).2 hr))⟩
  obtain ⟨q, hq, e⟩ := List.mem_map.1 hr
  rw [← e]
  exact hb q hq

/-- C130 for careful programs (C121) without `token_has_any`: every order in layers runs through, and all give the
same line. -/
theorem C130_careful {looks : Ty W → Ty W → Prop} {l : LLLine W} {h : History W} (hh : Honest l h) (L : WidthLaws W)
    (ne : l.ll_tokens ≠ []) (rs rs' : List (Nat × Resolver W))
    (hp : ∀ p ∈ rs, ∃ q : LRange → Api W (Val p.2.attr), p.2 = apiResolver p.2.attr q ∧ (∀ x, (q x).Careful 1) ∧
      ∀ x, (q x).Uses (fun m => Built (looks p.2.attr) false m))
    (same : ∀ r, r ∈ rs.map (·.2) ↔ r ∈ rs'.map (·.2))
    (hl : InLayers looks (rs.map (·.2))) (hl' : InLayers looks (rs'.map (·.2))) :
    ∃ l', runAll l rs = .ok l' ∧ runAll l rs' = .ok l' := by
  have hp' : ∀ p ∈ rs', ∃ q : LRange → Api W (Val p.2.attr), p.2 = apiResolver p.2.attr q ∧ (∀ x, (q x).Careful 1) ∧
      ∀ x, (q x).Uses (fun m => Built (looks p.2.attr) false m) := by
    intro p hm
    obtain ⟨q, hq, e⟩ := List.mem_map.1 ((same p.2).2 (List.mem_map.2 ⟨p, hm, rfl⟩))
    rw [← e]
    exact hp q hq
  have runs : ∀ rs : List (Nat × Resolver W), (∀ p ∈ rs, ∃ q : LRange → Api W (Val p.2.attr), p.2 = apiResolver p.2.attr q ∧
      (∀ x, (q x).Careful 1) ∧ ∀ x, (q x).Uses (fun m => Built (looks p.2.attr) false m)) → ∃ l', runAll l rs = .ok l' := by
    intro rs hp
    obtain ⟨l', _, _, _, ok, _⟩ := C121_pipelines hh L [] rs (fun p hm => by
      obtain ⟨q, e, hc, hu⟩ := hp p hm
      exact ⟨q, e, hc, .inl ⟨_, hu⟩⟩)
    exact ⟨l', ok⟩
  obtain ⟨l1, ok1⟩ := runs rs hp
  obtain ⟨l2, ok2⟩ := runs rs' hp'
  have hb : ∀ p ∈ rs, ByApi (fun m => Built (looks p.2.attr) true m) p.2 := by
    intro p hm
    obtain ⟨q, e, _, hu⟩ := hp p hm
    exact ⟨q, fun x => (hu x).mono (fun _ h => built_more (fun _ h => h) (fun h => by cases h) h), fun l ptr _ => by
      exact congrArg (fun r : Resolver W => (⟨r.attr, r.go (wholeLine l ptr)⟩ : (k : Ty W) × R (List (LLCursorAssignment (Val k)) × Bool))) e |> fun h => by
        injection h⟩
  exact ⟨l1, ok1, C130_order hh.spec.1 ne rs rs' hb same hl hl' ok1 ok2 ▸ ok2⟩

/-- C130 for the library's resolvers: two orders of resolvers of different types, each after those whose types it looks
at, give the very same line if both run through. -/
theorem C130_library {l l1 l2 : LLLine W} {h : History W} (hr : Reachable l h) (ne : l.ll_tokens ≠ [])
    (stages stages' : List (Nat × Stage W)) (same : ∀ s, s ∈ stages.map (·.2) ↔ s ∈ stages'.map (·.2))
    (hl : stages.Pairwise (fun a b => a.2.resolver.attr ≠ b.2.resolver.attr ∧ ¬ a.2.Looks b.2.resolver.attr))
    (hl' : stages'.Pairwise (fun a b => a.2.resolver.attr ≠ b.2.resolver.attr ∧ ¬ a.2.Looks b.2.resolver.attr))
    (self : ∀ s ∈ stages, ¬ s.2.Looks s.2.resolver.attr)
    (ok : runAll l (stages.map (fun p => (p.1, p.2.resolver))) = .ok l1)
    (ok' : runAll l (stages'.map (fun p => (p.1, p.2.resolver))) = .ok l2) : l1 = l2 := by
  have layers : ∀ ss : List (Nat × Stage W),
      ss.Pairwise (fun a b => a.2.resolver.attr ≠ b.2.resolver.attr ∧ ¬ a.2.Looks b.2.resolver.attr) →
      (∀ s ∈ ss, ¬ s.2.Looks s.2.resolver.attr) → (∀ s ∈ ss, ∃ t ∈ stages, t.2 = s.2) →
      InLayers (fun a k => ∃ s ∈ stages, s.2.resolver.attr = a ∧ s.2.Looks k) (ss.map (fun s => s.2.resolver)) := by
    intro ss
    induction ss with
    | nil => intro _ _ _; trivial
    | cons s ss ih =>
      intro hp hs hsub
      rw [List.pairwise_cons] at hp
      have inj : ∀ t ∈ stages, t.2.resolver.attr = s.2.resolver.attr → t.2 = s.2 := by
        intro t ht e
        obtain ⟨u, hu, eu⟩ := hsub s (by simp)
        have tot : ∀ (xs : List (Nat × Stage W)),
            xs.Pairwise (fun a b => a.2.resolver.attr ≠ b.2.resolver.attr ∧ ¬ a.2.Looks b.2.resolver.attr) →
            ∀ a ∈ xs, ∀ b ∈ xs, a.2.resolver.attr = b.2.resolver.attr → a.2 = b.2 := by
          intro xs
          induction xs with
          | nil => intro _ a ha; cases ha
          | cons x xs ihx =>
            intro hpx a ha b hb e
            rw [List.pairwise_cons] at hpx
            rcases List.mem_cons.1 ha with ha | ha' <;> rcases List.mem_cons.1 hb with hb | hb'
            · rw [ha, hb]
            · rw [ha] at e; exact absurd e (hpx.1 b hb').1
            · rw [hb] at e; exact absurd e.symm (hpx.1 a ha').1
            · exact ihx hpx.2 a ha' b hb' e
        exact (tot stages hl t ht u hu (by rw [e, eu])).trans eu
      refine ⟨?_, ?_, ih hp.2 (fun t ht => hs t (by simp [ht])) (fun t ht => hsub t (by simp [ht]))⟩
      · rintro r' hr' ⟨t, ht, e, hk⟩
        rw [inj t ht e] at hk
        rcases List.mem_cons.1 hr' with rfl | hr'
        · exact hs s (by simp) hk
        · obtain ⟨u, hu, rfl⟩ := List.mem_map.1 hr'
          exact (hp.1 u hu).2 hk
      · intro r' hr'
        obtain ⟨u, hu, rfl⟩ := List.mem_map.1 hr'
        exact fun e => (hp.1 u hu).1 e.symm
  have maps : ∀ ss : List (Nat × Stage W), (ss.map (fun p => (p.1, p.2.resolver))).map (·.2) = ss.map (fun s => s.2.resolver) := by
    intro ss
    rw [List.map_map]; rfl
  have sub' : ∀ s ∈ stages', ∃ t ∈ stages, t.2 = s.2 := by
    intro s hs
    obtain ⟨t, ht, e⟩ := List.mem_map.1 ((same s.2).2 (List.mem_map.2 ⟨s, hs, rfl⟩))
    exact ⟨t, ht, e⟩
  refine C130_order (looks := fun a k => ∃ s ∈ stages, s.2.resolver.attr = a ∧ s.2.Looks k) hr ne _ _ ?_ ?_ ?_ ?_ ok ok'
  · intro p hp
    obtain ⟨s, hs, rfl⟩ := List.mem_map.1 hp
    exact byApi_mono (fun k hk => ⟨s, hs, rfl, hk⟩) (stage_byApi s.2)
  · intro r
    rw [maps, maps]
    constructor
    · intro hr
      obtain ⟨s, hs, rfl⟩ := List.mem_map.1 hr
      obtain ⟨t, ht, e⟩ := List.mem_map.1 ((same s.2).1 (List.mem_map.2 ⟨s, hs, rfl⟩))
      exact List.mem_map.2 ⟨t, ht, by rw [e]⟩
    · intro hr
      obtain ⟨s, hs, rfl⟩ := List.mem_map.1 hr
      obtain ⟨t, ht, e⟩ := sub' s hs
      exact List.mem_map.2 ⟨t, ht, by rw [e]⟩
  · rw [maps]
    exact layers stages hl self (fun s hs => ⟨s, hs, rfl⟩)
  · rw [maps]
    exact layers stages' hl' (fun s hs => by
      obtain ⟨t, ht, e⟩ := sub' s hs
      rw [← e]; exact self t ht) sub'

/-- a resolver that marks the text tokens without an attribute of type `other` -/
def Demo.lacks (mine other : Nat) : LRange → Api Demo.W (Val (Ty.user (W := Demo.W) mine)) := fun _ =>
  .call (.findBy 0 (X.unless X.tokenText (X.attr (.user other)))) (fun rs _ =>
    .finish ((List.range rs.length).map (fun i => (i + 1, ['n']))))

theorem Demo.lacks_uses (mine other : Nat) (x : LRange) :
    (Demo.lacks mine other x).Uses (fun m => Built (fun t => t = Ty.user (W := Demo.W) other) false m) := by
  refine ⟨.user _ _ (fun i => ?_), fun rs _ => trivial⟩
  cases i with
  | true => exact .tokenText
  | false => exact .attr (T := fun t => t = Ty.user (W := Demo.W) other) _ rfl

theorem Demo.lacks_careful (mine other : Nat) (x : LRange) : (Demo.lacks mine other x).Careful 1 := by
  refine ⟨Nat.one_pos, fun rs _ _ => ?_⟩
  intro v hv
  obtain ⟨i, hi, rfl⟩ := List.mem_map.1 hv
  have := List.mem_range.1 hi
  show i + 1 < 1 + rs.length
  omega

def Demo.lacksR (mine other : Nat) : Resolver Demo.W := apiResolver (.user mine) (Demo.lacks mine other)

/-- numbers (type 5), then the texts that are no numbers (twice, types 7 and 9) -/
def Demo.layers : List (Nat × Resolver Demo.W) := [(1, apiResolver (.user (5 : Nat)) Demo.unitProg), (2, Demo.lacksR 7 5), (3, Demo.lacksR 9 5)]
def Demo.looks5 (a k : Ty Demo.W) : Prop :=
  (a = .user (5 : Nat) ∧ k = .textTag) ∨ (a = .user (7 : Nat) ∧ k = .user (5 : Nat)) ∨ (a = .user (9 : Nat) ∧ k = .user (5 : Nat))
instance (a k : Ty Demo.W) : Decidable (Demo.looks5 a k) := by unfold Demo.looks5; infer_instance

theorem Demo.layers_careful : ∀ p ∈ Demo.layers, ∃ q : LRange → Api Demo.W (Val p.2.attr), p.2 = apiResolver p.2.attr q ∧
    (∀ x, (q x).Careful 1) ∧ ∀ x, (q x).Uses (fun m => Built (Demo.looks5 p.2.attr) false m) := by
  intro p hp
  simp only [Demo.layers, List.mem_cons, List.not_mem_nil, or_false] at hp
  rcases hp with rfl | rfl | rfl
  · exact ⟨Demo.unitProg, rfl, Demo.unitProg_careful, fun x => (Demo.unitProg_plain x).mono (fun _ hm =>
      built_more (fun _ e => .inl ⟨rfl, e⟩) id hm)⟩
  · exact ⟨Demo.lacks 7 5, rfl, Demo.lacks_careful 7 5, fun x => (Demo.lacks_uses 7 5 x).mono (fun _ hm =>
      built_more (fun _ e => .inr (.inl ⟨rfl, e⟩)) id hm)⟩
  · exact ⟨Demo.lacks 9 5, rfl, Demo.lacks_careful 9 5, fun x => (Demo.lacks_uses 9 5 x).mono (fun _ hm =>
      built_more (fun _ e => .inr (.inr ⟨rfl, e⟩)) id hm)⟩

theorem Demo.layers_byApi : ∀ p ∈ Demo.layers, ByApi (fun m => Built (Demo.looks5 p.2.attr) true m) p.2 := by
  intro p hp
  simp only [Demo.layers, List.mem_cons, List.not_mem_nil, or_false] at hp
  rcases hp with rfl | rfl | rfl
  · exact byApi_mono (fun _ e => .inl ⟨rfl, e⟩) Demo.unitProg_byApi
  · exact ⟨Demo.lacks 7 5, fun x => (Demo.lacks_uses 7 5 x).mono (fun _ hm =>
      built_more (fun _ e => .inr (.inl ⟨rfl, e⟩)) (by intro h; cases h) hm), fun _ _ _ => rfl⟩
  · exact ⟨Demo.lacks 9 5, fun x => (Demo.lacks_uses 9 5 x).mono (fun _ hm =>
      built_more (fun _ e => .inr (.inr ⟨rfl, e⟩)) (by intro h; cases h) hm), fun _ _ _ => rfl⟩

theorem Demo.layers_in : InLayers Demo.looks5 (Demo.layers.map (·.2)) := by
  refine ⟨?_, ?_, ?_, ?_, ?_, ?_, trivial⟩ <;>
    (intro r hr; simp only [Demo.layers, List.map_cons, List.map_nil, List.mem_cons, List.not_mem_nil, or_false] at hr) <;>
    (first | (rcases hr with rfl | rfl | rfl <;> decide) | (rcases hr with rfl | rfl <;> decide) | (subst hr; decide) | cases hr)

/-- 16 tokens, 5 of them numbers -/
example : ∃ l', runAll Demo.amountLine Demo.layers = .ok l' ∧ (okD (l'.query (.user (5 : Nat)))).length = 5 ∧
    (okD (l'.query (.user (7 : Nat)))).length = 11 ∧ (okD (l'.query (.user (9 : Nat)))).length = 11 := ⟨_, rfl, rfl, rfl, rfl⟩

def Demo.layers' : List (Nat × Resolver Demo.W) :=
  [(8, apiResolver (.user (5 : Nat)) Demo.unitProg), (2, Demo.lacksR 9 5), (0, Demo.lacksR 7 5)]
theorem Demo.layers_in' : InLayers Demo.looks5 (Demo.layers'.map (·.2)) := by
  refine ⟨?_, ?_, ?_, ?_, ?_, ?_, trivial⟩ <;>
    (intro r hr; simp only [Demo.layers', List.map_cons, List.map_nil, List.mem_cons, List.not_mem_nil, or_false] at hr) <;>
    (first | (rcases hr with rfl | rfl | rfl <;> decide) | (rcases hr with rfl | rfl <;> decide) | (subst hr; decide) | cases hr)
theorem Demo.layers_same : ∀ r, r ∈ Demo.layers.map (·.2) ↔ r ∈ Demo.layers'.map (·.2) := by
  intro r
  simp only [Demo.layers, Demo.layers', List.map_cons, List.map_nil, List.mem_cons, List.not_mem_nil, or_false]
  constructor <;> (intro h; rcases h with h | h | h <;> simp [h])

example := C130_consistent Demo.amountReach Demo.amountLine_ne Demo.layers Demo.layers_byApi Demo.layers_in rfl
example : ∃ l1 l2 h1 h2, Consistent Demo.amountLine Demo.amountHist (Demo.layers.map (·.2)) l1 h1 ∧
    Consistent Demo.amountLine Demo.amountHist (Demo.layers.map (·.2)) l2 h2 ∧ l1 = l2 := by
  obtain ⟨h1, c1⟩ := C130_consistent Demo.amountReach Demo.amountLine_ne Demo.layers Demo.layers_byApi Demo.layers_in rfl
  exact ⟨_, _, _, _, c1, c1, C130_unique Demo.amountLine_ne _ (fun r hr => by
    obtain ⟨p, hp, rfl⟩ := List.mem_map.1 hr
    exact Demo.layers_byApi p hp) Demo.layers_in c1 c1⟩
example := C130_order Demo.amountReach Demo.amountLine_ne Demo.layers Demo.layers' Demo.layers_byApi Demo.layers_same
  Demo.layers_in Demo.layers_in' rfl rfl
example := C130_careful Demo.amountHonest (additive_mono Demo.additive) Demo.amountLine_ne Demo.layers Demo.layers'
  Demo.layers_careful Demo.layers_same Demo.layers_in Demo.layers_in'
example := C130_library Demo.amountReach Demo.amountLine_ne
  [(0, .keywords Demo.kws), (1, .pos), (2, .clauses)] [(0, .pos), (1, .keywords Demo.kws), (2, .clauses)]
  (by intro s; simp only [List.map_cons, List.map_nil, List.mem_cons, List.not_mem_nil, or_false]; constructor <;> (intro h; rcases h with h | h | h <;> simp [h]))
  (by simp [Stage.resolver, Stage.Looks, posTagResolver, ClauseKeywordResolver.resolver, clauseResolver])
  (by simp [Stage.resolver, Stage.Looks, posTagResolver, ClauseKeywordResolver.resolver, clauseResolver])
  (by simp [Stage.resolver, Stage.Looks, posTagResolver, ClauseKeywordResolver.resolver, clauseResolver]) rfl rfl

/-- C130 without layers: the claim that there is only one consistent line however the resolvers look at each other -/
def C130_circles_claim : Prop := ∀ (W : World) (looks : Ty W → Ty W → Prop) (l l1 l2 : LLLine W) (h h1 h2 : History W)
  (rs : List (Resolver W)), Reachable l h → l.ll_tokens ≠ [] → (∀ r ∈ rs, ByApi (fun m => Built (looks r.attr) true m) r) →
  (∀ a, ¬ looks a a) → rs.Pairwise (fun a b => a.attr ≠ b.attr) →
  Consistent l h rs l1 h1 → Consistent l h rs l2 h2 → l1 = l2

/-- "a" -/
def Demo.oneLine : LLLine Demo.W := Demo.lineOf ['a']
def Demo.oneHist : History Demo.W := Demo.histOf ['a']
theorem Demo.oneReach : Reachable Demo.oneLine Demo.oneHist := .create [.Text ['a'] []] utf8Len _ (Demo.textWF _) rfl
theorem Demo.oneLine_ne : Demo.oneLine.ll_tokens ≠ [] := by decide

/-- the first of two resolvers that exclude each other wins -/
theorem Demo.consistent57 : Consistent Demo.oneLine Demo.oneHist [Demo.lacksR 5 7, Demo.lacksR 7 5]
    (Demo.runOk Demo.oneLine 0 (Demo.lacksR 5 7)) (Demo.oneHist ++ [⟨.user (5 : Nat), (0, 0), ['n']⟩]) where
  reachable := .run _ _ 0 (Demo.lacksR 5 7) [⟨0, 0, ['n']⟩] false _ Demo.oneReach Demo.oneLine_ne rfl rfl
  tokens := rfl
  answered := by
    intro r hr
    simp only [List.mem_cons, List.not_mem_nil, or_false] at hr
    rcases hr with rfl | rfl
    · exact ⟨[⟨0, 0, ['n']⟩], fun ptr => rfl, rfl⟩
    · exact ⟨[], fun ptr => rfl, rfl⟩
  others := by
    intro k hk
    rw [ofType_append]
    have : ofType k [⟨Ty.user (W := Demo.W) (5 : Nat), (0, 0), ['n']⟩] = [] := by
      unfold ofType
      rw [List.filter_eq_nil_iff]
      intro x hx e
      rw [List.mem_singleton.1 hx] at e
      exact hk (Demo.lacksR 5 7) (by simp) (of_decide_eq_true e)
    rw [this, List.append_nil]

theorem Demo.consistent75 : Consistent Demo.oneLine Demo.oneHist [Demo.lacksR 5 7, Demo.lacksR 7 5]
    (Demo.runOk Demo.oneLine 0 (Demo.lacksR 7 5)) (Demo.oneHist ++ [⟨.user (7 : Nat), (0, 0), ['n']⟩]) where
  reachable := .run _ _ 0 (Demo.lacksR 7 5) [⟨0, 0, ['n']⟩] false _ Demo.oneReach Demo.oneLine_ne rfl rfl
  tokens := rfl
  answered := by
    intro r hr
    simp only [List.mem_cons, List.not_mem_nil, or_false] at hr
    rcases hr with rfl | rfl
    · exact ⟨[], fun ptr => rfl, rfl⟩
    · exact ⟨[⟨0, 0, ['n']⟩], fun ptr => rfl, rfl⟩
  others := by
    intro k hk
    rw [ofType_append]
    have : ofType k [⟨Ty.user (W := Demo.W) (7 : Nat), (0, 0), ['n']⟩] = [] := by
      unfold ofType
      rw [List.filter_eq_nil_iff]
      intro x hx e
      rw [List.mem_singleton.1 hx] at e
      exact hk (Demo.lacksR 7 5) (by simp) (of_decide_eq_true e)
    rw [this, List.append_nil]

/-- C130 needs layers: two resolvers, each marking what the other did not mark, have two consistent lines; the one that
is run first marks everything. -/
theorem C130_circles_false : ¬ C130_circles_claim := by
  intro claim
  have := claim Demo.W (fun a k => (a = .user (5 : Nat) ∧ k = .user (7 : Nat)) ∨ (a = .user (7 : Nat) ∧ k = .user (5 : Nat)))
    Demo.oneLine _ _ _ _ _ [Demo.lacksR 5 7, Demo.lacksR 7 5] Demo.oneReach Demo.oneLine_ne
    (by
      intro r hr
      simp only [List.mem_cons, List.not_mem_nil, or_false] at hr
      rcases hr with rfl | rfl
      · exact ⟨Demo.lacks 5 7, fun x => (Demo.lacks_uses 5 7 x).mono (fun _ hm =>
          built_more (fun _ e => .inl ⟨rfl, e⟩) (by intro h; cases h) hm), fun _ _ _ => rfl⟩
      · exact ⟨Demo.lacks 7 5, fun x => (Demo.lacks_uses 7 5 x).mono (fun _ hm =>
          built_more (fun _ e => .inr ⟨rfl, e⟩) (by intro h; cases h) hm), fun _ _ _ => rfl⟩)
    (by
      rintro a (⟨rfl, h⟩ | ⟨rfl, h⟩) <;> exact absurd h (by decide))
    (by
      refine .cons (fun b hb => ?_) (.cons (fun b hb => by cases hb) .nil)
      rw [List.mem_singleton.1 hb]
      show ¬ (Ty.user (W := Demo.W) (5 : Nat) = .user (7 : Nat))
      decide)
    Demo.consistent57 Demo.consistent75
  have h1 : (okD ((Demo.runOk Demo.oneLine 0 (Demo.lacksR 5 7)).query (.user (5 : Nat)))).length = 1 := rfl
  have h2 : (okD ((Demo.runOk Demo.oneLine 0 (Demo.lacksR 7 5)).query (.user (5 : Nat)))).length = 0 := rfl
  rw [this, h2] at h1
  cases h1

end LNlp
