import Verif.Lemmas.Given
import Verif.Lemmas.WrittenIn
import Verif.Demo.Examples
/- C154: attributes given with the input are what resolvers assign right after the creation. -/
namespace LNlp
variable {W : World}

/-- C154: the line of inputs with attributes is the line of the same inputs without attributes after one resolver for
every attribute, in the order of the inputs and of each input's attributes, assigned it to the tokens of its input. -/
theorem C154_one_by_one (size : Str → Nat) {input : List (InputToken W)} (wf : ∀ t ∈ input, t.WF) {l l0 : LLLine W}
    (ok : createLineFromInputTokens W input size = .ok l)
    (ok0 : createLineFromInputTokens W (input.map InputToken.bare) size = .ok l0) :
    assignEach l0 (attrsOfInputs W size 0 input) = .ok l := by
  have hr : Reachable l _ := .create _ _ _ wf ok
  have hr0 : Reachable l0 _ := .create _ _ _ bare_wf ok0
  obtain ⟨_, ht, _⟩ := create_inv wf ok
  obtain ⟨_, ht0, _⟩ := create_inv bare_wf ok0
  rw [bare_flat, ← ht] at ht0
  rw [attrsOfInputs_eq]
  by_cases ne : l0.ll_tokens = []
  · have hin : input = [] := by
      cases input with
      | nil => rfl
      | cons t ts => exact absurd ne (create_ne bare_wf ok0 (by simp))
    subst hin
    rw [List.map_nil, ok] at ok0
    cases ok0
    rfl
  have hb : ∀ x ∈ inputHistory W size 0 input, x.range.1 < l0.ll_tokens.length ∧ x.range.2 < l0.ll_tokens.length := by
    intro x hx
    rw [ht0]
    exact hr.rep.bounds x (List.mem_append_right _ hx)
  obtain ⟨l', h1, h2, h3⟩ := assignEach_reachable _ hr0 ne hb
  rw [h1]
  congr 1
  refine C88_order_within_types h3 hr (by rw [h2, ht0]) fun k => ?_
  rw [creationHistory, creationHistory, bare_history, bare_flat, List.append_nil]

example := C154_one_by_one List.length Demo.exInput_wf Demo.exLine_ok rfl

/-- C154: one resolver for every type does as well, the types in any order. -/
theorem C154_by_type (size : Str → Nat) {input : List (InputToken W)} (wf : ∀ t ∈ input, t.WF) {l l0 : LLLine W}
    (ok : createLineFromInputTokens W input size = .ok l)
    (ok0 : createLineFromInputTokens W (input.map InputToken.bare) size = .ok l0) (ks : List (Ty W)) (nd : ks.Nodup)
    (all : ∀ t ∈ input, ∀ a ∈ t.attrList, a.value.ty ∈ ks) :
    assignTypes l0 (attrsOfInputs W size 0 input) ks = .ok l := by
  have hr : Reachable l _ := .create _ _ _ wf ok
  have hr0 : Reachable l0 _ := .create _ _ _ bare_wf ok0
  obtain ⟨_, ht, _⟩ := create_inv wf ok
  obtain ⟨_, ht0, _⟩ := create_inv bare_wf ok0
  rw [bare_flat, ← ht] at ht0
  rw [attrsOfInputs_eq]
  by_cases ne : l0.ll_tokens = []
  · have hin : input = [] := by
      cases input with
      | nil => rfl
      | cons t ts => exact absurd ne (create_ne bare_wf ok0 (by simp))
    subst hin
    rw [List.map_nil, ok] at ok0
    cases ok0
    clear all nd
    induction ks with
    | nil => rfl
    | cons k ks ih =>
      have : l.run 0 (assigning k (assignmentsOf k (inputHistory W size 0 []))) = .ok l := by
        unfold LLLine.run
        rw [if_pos (by rw [ne]; rfl)]
      rw [assignTypes, this]
      exact ih
  have hb : ∀ x ∈ inputHistory W size 0 input, x.range.1 < l0.ll_tokens.length ∧ x.range.2 < l0.ll_tokens.length := by
    intro x hx
    rw [ht0]
    exact hr.rep.bounds x (List.mem_append_right _ hx)
  have htys : ∀ k, k ∉ ks → NoCustom k input := fun k hk t ht a ha e => hk (e ▸ all t ht a ha)
  obtain ⟨l', h1, h2, h3⟩ := assignTypes_reachable _ ks hr0 ne hb
  rw [h1]
  congr 1
  refine C88_order_within_types h3 hr (by rw [h2, ht0]) fun k => ?_
  rw [creationHistory, creationHistory, bare_history, bare_flat, List.append_nil]
  show ofType k _ = ofType k _
  rw [ofType_append, ofType_append, ofType_flat _ _ _ nd]
  congr 1
  split
  · rfl
  · next hk =>
    symm
    unfold ofType
    rw [List.filter_eq_nil_iff]
    intro x hx
    simpa using noCustom_history (htys k hk) 0 x hx

example := C154_by_type List.length Demo.exInput_wf Demo.exLine_ok rfl [Ty.user (1 : Nat), .char, Ty.user (0 : Nat)]
  (by decide) (by
    simp only [Demo.exInput, InputToken.attrList, AnyAttribute.new, List.mem_cons, List.not_mem_nil, or_false,
      forall_eq_or_imp, forall_eq, false_imp_iff, implies_true, and_true]
    decide)

/-- C154: and the other way round: instead of running a resolver that assigns values to whole inputs, in the order of
the inputs, the values can be given with the inputs, if no input was given with values of that type before. -/
theorem C154_given (size : Str → Nat) (hB : 0 < W.usizeBound) {k : Ty W} (ps : List (InputToken W × List (Val k)))
    (wf : ∀ p ∈ ps, p.1.WF) (nc : NoCustom k (ps.map (·.1))) {l : LLLine W}
    (ok : createLineFromInputTokens W (ps.map (·.1)) size = .ok l) (ptr : Nat) :
    ∃ l', l.run ptr (assigning k (onInputs W size k 0 ps)) = .ok l' ∧
      createLineFromInputTokens W (ps.map (fun p => p.1.with k p.2)) size = .ok l' := by
  have wf1 : ∀ t ∈ ps.map (·.1), t.WF := by
    intro t ht
    obtain ⟨p, hp, rfl⟩ := List.mem_map.1 ht
    exact wf p hp
  have wf2 : ∀ t ∈ ps.map (fun p => p.1.with k p.2), t.WF := by
    intro t ht
    obtain ⟨p, hp, rfl⟩ := List.mem_map.1 ht
    exact with_wf (wf p hp) k p.2
  obtain ⟨l', ok', ht⟩ := C79_attrs_do_not_matter size _ _ wf1 wf2 hB
    (by rw [List.map_map, List.map_map]; exact List.map_congr_left fun p _ => (with_bare p.1 k p.2).symm) l ok
  refine ⟨l', ?_, ok'⟩
  have hr : Reachable l _ := .create _ _ _ wf1 ok
  have hr' : Reachable l' _ := .create _ _ _ wf2 ok'
  by_cases ne : l.ll_tokens = []
  · have hps : ps = [] := by
      cases ps with
      | nil => rfl
      | cons p ps => exact absurd ne (create_ne wf1 ok (by simp))
    subst hps
    rw [List.map_nil] at ok ok'
    rw [ok] at ok'
    cases ok'
    unfold LLLine.run
    rw [if_pos (by rw [ne]; rfl)]
  have hflat : (ps.map (fun p => p.1.with k p.2)).flatMap (tokensOf W size) = (ps.map (·.1)).flatMap (tokensOf W size) := by
    rw [List.flatMap_map, List.flatMap_map]
    congr 1
    funext p
    exact with_tokens size p.1 k p.2
  have hh : ∀ k', ofType k' (creationHistory W size (ps.map (fun p => p.1.with k p.2))) =
      ofType k' (creationHistory W size (ps.map (·.1)) ++ (onInputs W size k 0 ps).map (recOf k)) := by
    intro k'
    rw [creationHistory, creationHistory, hflat, ofType_append, with_history size k' ps 0 nc, ofType_append, ofType_append,
      List.append_assoc]
  have hb : ∀ a ∈ onInputs W size k 0 ps, a.start_idx < l.ll_tokens.length ∧ a.end_idx < l.ll_tokens.length := by
    intro a ha
    have h1 : recOf k a ∈ ofType k (creationHistory W size (ps.map (fun p => p.1.with k p.2))) := by
      rw [hh k, ofType_append]
      refine List.mem_append_right _ ?_
      unfold ofType
      rw [List.mem_filter]
      exact ⟨List.mem_map_of_mem ha, decide_eq_true rfl⟩
    have := hr'.rep.bounds _ (List.mem_filter.1 h1).1
    rw [ht] at this
    exact this
  obtain ⟨l2, h2, r2⟩ := run_reachable (ptr := ptr) (k := k) (f := (assigning k (onInputs W size k 0 ps)).go)
    (asgs := onInputs W size k 0 ps) hr ne rfl hb
  have h2' : l.run ptr (assigning k (onInputs W size k 0 ps)) = .ok l2 := h2
  rw [h2']
  congr 1
  exact C88_order_within_types r2 hr' (by rw [run_tokens h2, ht]) fun k' => (hh k').symm

def Demo.givenPairs : List (InputToken Demo.W × List Str) :=
  [(.Text ['a', ' ', 'b'] [AnyAttribute.new (Ty.user 0) (['A'] : Str)], [['x'], ['y']]), (.Custom 2 [], []), (.Text ['c'] [], [['z']])]

theorem Demo.givenPairs_wf : ∀ p ∈ Demo.givenPairs, p.1.WF := by
  intro p hp a ha
  simp only [Demo.givenPairs, List.mem_cons, List.not_mem_nil, or_false] at hp
  rcases hp with rfl | rfl | rfl <;> simp only [InputToken.attrList, List.mem_singleton, List.not_mem_nil] at ha
  exact ⟨_, _, ha⟩

theorem Demo.givenPairs_new : NoCustom (Ty.user (5 : Nat)) (Demo.givenPairs.map (·.1)) := by
  simp only [NoCustom, Demo.givenPairs, List.map_cons, List.map_nil, InputToken.attrList, AnyAttribute.new, List.mem_cons,
    List.not_mem_nil, or_false, forall_eq_or_imp, forall_eq, false_imp_iff, implies_true, and_true]
  exact (nomatch ·)

example := C154_given (W := Demo.W) List.length (by decide) (k := Ty.user (5 : Nat)) Demo.givenPairs Demo.givenPairs_wf
  Demo.givenPairs_new rfl 3

/-- the claim that this holds whatever the inputs were given with -/
def C154_given_anyway_claim : Prop :=
  ∀ (W : World) (size : Str → Nat) (_ : 0 < W.usizeBound) (k : Ty W) (ps : List (InputToken W × List (Val k)))
    (_ : ∀ p ∈ ps, p.1.WF) (l l1 l2 : LLLine W), createLineFromInputTokens W (ps.map (·.1)) size = .ok l →
    l.run 0 (assigning k (onInputs W size k 0 ps)) = .ok l1 →
    createLineFromInputTokens W (ps.map (fun p => p.1.with k p.2)) size = .ok l2 → l1.query k = l2.query k

def Demo.givenAgain : List (InputToken Demo.W × List Str) :=
  [(.Text ['a'] [], [['x']]), (.Text ['b'] [AnyAttribute.new (Ty.user 0) (['B'] : Str)], [])]

theorem Demo.givenAgain_wf : ∀ p ∈ Demo.givenAgain, p.1.WF := by
  intro p hp a ha
  simp only [Demo.givenAgain, List.mem_cons, List.not_mem_nil, or_false] at hp
  rcases hp with rfl | rfl <;> simp only [InputToken.attrList, List.mem_singleton, List.not_mem_nil] at ha
  exact ⟨_, _, ha⟩

def Demo.givenLine0 : LLLine Demo.W :=
  Demo.getOk Demo.emptyLine (createLineFromInputTokens Demo.W (Demo.givenAgain.map (·.1)) List.length)
def Demo.givenLine1 : LLLine Demo.W :=
  Demo.getOk Demo.emptyLine (Demo.givenLine0.run 0 (assigning (Ty.user (0 : Nat)) (onInputs Demo.W List.length (Ty.user (0 : Nat)) 0 Demo.givenAgain)))
def Demo.givenLine2 : LLLine Demo.W :=
  Demo.getOk Demo.emptyLine (createLineFromInputTokens Demo.W (Demo.givenAgain.map (fun p => p.1.with (Ty.user (0 : Nat)) p.2)) List.length)

/-- C154: it does not: what was given comes first in the queries. -/
theorem C154_given_anyway_false : ¬ C154_given_anyway_claim := by
  intro claim
  have h := claim Demo.W List.length (by decide) (Ty.user (0 : Nat)) Demo.givenAgain
    Demo.givenAgain_wf
    Demo.givenLine0 Demo.givenLine1 Demo.givenLine2 rfl rfl rfl
  have e1 : (okD (Demo.givenLine1.query (Ty.user (0 : Nat)))).map (·.1) = [(1, 1), (0, 0)] := by decide
  have e2 : (okD (Demo.givenLine2.query (Ty.user (0 : Nat)))).map (·.1) = [(0, 0), (1, 1)] := by decide
  exact absurd (e1.symm.trans ((congrArg (fun q => (okD q).map (·.1)) h).trans e2)) (by decide)

end LNlp
