import Verif.Lemmas.View
import Verif.Props.Fuse
import Verif.Props.Program
/- C133: what resolvers can tell apart. -/
namespace LNlp
section
variable {W : World} {l l' : LLLine W} {h h' : History W}

/-! ### C133 -/

/-- C133: two lines with the same tokens look the same exactly if their histories agree up to what `SameOrder`
leaves open. -/
theorem C133_order (hr : Reachable l h) (hr' : Reachable l' h') (ht : l.ll_tokens.map (·.token) = l'.ll_tokens.map (·.token)) :
    Looks l l' ↔ SameOrder h h' :=
  ⟨fun s => s.order hr.rep hr'.rep, fun s => s.looks hr.rep hr'.rep ht⟩

/-- C133: two assignments of different types, or to ranges with different starts and different ends, can be made in
either order. -/
theorem C133_swap (before after : History W) {a b : Rec W}
    (apart : a.ty ≠ b.ty ∨ (a.range.1 ≠ b.range.1 ∧ a.range.2 ≠ b.range.2)) :
    SameOrder (before ++ a :: b :: after) (before ++ b :: a :: after) := by
  have := (SameOrder.swap before apart).append after
  simpa using this

/-- C133: every matcher finds the same on lines that look the same -/
theorem C133_matchers (hr : Reachable l h) (hr' : Reachable l' h') (s : Looks l l') {Out : Type} {m : XMatch W Out}
    (hm : Builtin m) (d : Dir) : m.go d l = m.go d l' :=
  (((s.order hr.rep hr'.rep).agree hr.rep hr'.rep s.1).built hm d).eq

/-- C133: looking the same is exactly what resolvers written against the public API cannot tell apart: all of them
return the same assignments, or panic alike, on both lines if and only if the lines look the same. -/
theorem C133_exact (hr : Reachable l h) (hr' : Reachable l' h') (ne : l.ll_tokens ≠ []) (ne' : l'.ll_tokens ≠ []) :
    Looks l l' ↔ NoResolverTells l l' := by
  refine ⟨fun s r api ptr ptr' => ?_, told_looks hr hr' ne ne'⟩
  have hlen : l.ll_tokens.length = l'.ll_tokens.length := by simpa using congrArg List.length s.1
  exact (byApi_sim (b := true) hlen ne (fun m hm => ((s.order hr.rep hr'.rep).agree hr.rep hr'.rep s.1).built hm) api ptr ptr').eq

/-- C133: nor can they after any further resolvers ran on both lines -/
theorem C133_pipelines (hr : Reachable l h) (hr' : Reachable l' h') (s : Looks l l') (rs rs' : List (Nat × Resolver W))
    (he : rs.map (·.2) = rs'.map (·.2)) (api : ∀ p ∈ rs, ByApi (fun m => Builtin m) p.2) :
    LooksResult (runAll l rs) (runAll l' rs') := looks_runAll hr hr' s he api

/-- C133: queries on lines that look the same return the same entries, perhaps in another order -/
theorem C133_queries (hr : Reachable l h) (hr' : Reachable l' h') (s : Looks l l') (k : Ty W) {q q' : List _}
    (hq : l.query k = .ok q) (hq' : l'.query k = .ok q') : q.Perm q' := by
  have so := s.order hr.rep hr'.rep
  have ord : ∀ {l : LLLine W} {h : History W} {q}, Reachable l h → l.query k = .ok q → ∀ r ∈ rangesOf k h, r.1 ≤ r.2 + 1 := by
    intro l h q hr hq r hm
    apply Nat.le_of_not_lt
    intro hlt
    obtain ⟨e, he⟩ := (C13_query_panics_iff hr k).2 ⟨r, hm, hlt⟩
    rw [hq] at he; cases he
  rw [C13_query_is_history hr k (ord hr hq)] at hq
  rw [C13_query_is_history hr' k (ord hr' hq')] at hq'
  cases hq
  cases hq'
  have e : (rangesOf k h').map (fun r => (r, coveredText l'.ll_tokens r, valuesOf k r h')) =
      (rangesOf k h').map (fun r => (r, coveredText l.ll_tokens r, valuesOf k r h)) := by
    apply List.map_congr_left
    intro r _
    rw [(so k).2.2 r, coveredText_tokens, coveredText_tokens, s.1]
  rw [e]
  exact (so.ranges_perm k).map _

/-- C133: and panic on one if and only if on the other -/
theorem C133_queries_panic (hr : Reachable l h) (hr' : Reachable l' h') (s : Looks l l') (k : Ty W) :
    (∃ e, l.query k = .error e) ↔ ∃ e, l'.query k = .error e := by
  rw [C13_query_panics_iff hr k, C13_query_panics_iff hr' k]
  have := fun r => ((s.order hr.rep hr'.rep).ranges_perm k).mem_iff (a := r)
  constructor <;> rintro ⟨r, hm, h⟩
  · exact ⟨r, (this r).1 hm, h⟩
  · exact ⟨r, (this r).2 hm, h⟩

end

namespace Demo

/-- three assignments in one order and in another -/
def abOrder : Resolver W := assigning (Ty.user 2) [⟨0, 2, (['x'] : Str)⟩, ⟨3, 4, (['y'] : Str)⟩]
def baOrder : Resolver W := assigning (Ty.user 2) [⟨3, 4, (['y'] : Str)⟩, ⟨0, 2, (['x'] : Str)⟩]
/-- and two that share their start -/
def acOrder : Resolver W := assigning (Ty.user 2) [⟨0, 2, (['x'] : Str)⟩, ⟨0, 1, (['y'] : Str)⟩]
def caOrder : Resolver W := assigning (Ty.user 2) [⟨0, 1, (['y'] : Str)⟩, ⟨0, 2, (['x'] : Str)⟩]

def lineAfter (r : Resolver W) : LLLine W := getOk emptyLine (exLine.run 0 r)

theorem abOrderReach : Reachable (lineAfter abOrder) (exHist ++ [⟨Ty.user 2, (0, 2), (['x'] : Str)⟩, ⟨Ty.user 2, (3, 4), (['y'] : Str)⟩]) :=
  .run exLine exHist 0 abOrder _ false _ exReach exLine_ne rfl rfl
theorem baOrderReach : Reachable (lineAfter baOrder) (exHist ++ [⟨Ty.user 2, (3, 4), (['y'] : Str)⟩, ⟨Ty.user 2, (0, 2), (['x'] : Str)⟩]) :=
  .run exLine exHist 0 baOrder _ false _ exReach exLine_ne rfl rfl
theorem acOrderReach : Reachable (lineAfter acOrder) (exHist ++ [⟨Ty.user 2, (0, 2), (['x'] : Str)⟩, ⟨Ty.user 2, (0, 1), (['y'] : Str)⟩]) :=
  .run exLine exHist 0 acOrder _ false _ exReach exLine_ne rfl rfl
theorem caOrderReach : Reachable (lineAfter caOrder) (exHist ++ [⟨Ty.user 2, (0, 1), (['y'] : Str)⟩, ⟨Ty.user 2, (0, 2), (['x'] : Str)⟩]) :=
  .run exLine exHist 0 caOrder _ false _ exReach exLine_ne rfl rfl

theorem abOrderLooks : Looks (lineAfter abOrder) (lineAfter baOrder) :=
  (C133_order abOrderReach baOrderReach rfl).2 (C133_swap exHist [] (.inr (by decide)))

/-- the order of the second pair can be seen -/
theorem acOrderSeen : ¬ Looks (lineAfter acOrder) (lineAfter caOrder) := by
  intro s
  have := s.2 (Ty.user 2) (.fwd 0)
  have e : (Except.ok [((['x'] : Str), 2), (['y'], 1)] : R (List (Str × Nat))) = .ok [(['y'], 1), (['x'], 2)] := this
  simp at e

example := C133_matchers abOrderReach baOrderReach abOrderLooks (.all2 (.attr (Ty.user 2) trivial) .tokenText) (.bwd 4)
example := C133_pipelines abOrderReach baOrderReach abOrderLooks [(0, Stage.pos.resolver)] [(4, Stage.pos.resolver)] rfl
  (by intro p hp; simp only [List.mem_singleton] at hp; subst hp; exact C119_library.1 _)
example := C133_queries abOrderReach baOrderReach abOrderLooks (Ty.user 2) rfl rfl
example := C133_queries_panic abOrderReach baOrderReach abOrderLooks (Ty.user 2)
example : NoResolverTells (lineAfter abOrder) (lineAfter baOrder) := (C133_exact abOrderReach baOrderReach (by decide) (by decide)).1 abOrderLooks
/-- so some resolver returns different assignments on the two lines -/
example : ¬ NoResolverTells (lineAfter acOrder) (lineAfter caOrder) :=
  fun t => acOrderSeen ((C133_exact acOrderReach caOrderReach (by decide) (by decide)).2 t)

end Demo

example := C133_order Demo.abOrderReach Demo.baOrderReach rfl
example := C133_swap (W := Demo.W) Demo.exHist [] (a := ⟨Ty.user 2, (0, 2), (['x'] : Str)⟩) (b := ⟨Ty.user 2, (3, 4), (['y'] : Str)⟩) (.inr (by decide))

end LNlp
