import Verif.Lemmas.Reference
import Verif.Props.Program
/- C135: the library does the same as the reference implementation of Spec/Reference.lean. -/
namespace LNlp
variable {W : World}

/-- C135: every matcher expression finds on a line what the reference finds, and panics where it says so -/
theorem C135_matchers {l : LLLine W} {h : History W} (hr : Reachable l h) {Out : Type} (e : Expr W Out) (d : Dir) :
    (e.matcher.go d l).toOption = e.means ⟨l.ll_tokens, h⟩ d := means_eq hr.rep e d

/-- an amount: a number, or a number, a dot and a number -/
def Demo.decimal : Expr Demo.W (AnyOf2 (TextTag × Str × TextTag) TextTag) :=
  .anyOf2 (.seq3 (.attr .textTag) .tokenText (.attr .textTag)) (.attr .textTag)

example : Demo.decimal.means ⟨Demo.exLine2.ll_tokens, Demo.exHist2⟩ (.fwd 0) = some [(.A (.WORD, [' '], .NATN), 2)] := rfl
example : Demo.decimal.means ⟨Demo.exLine2.ll_tokens, Demo.exHist2⟩ (.bwd 0) = some [(.B .WORD, 0)] := rfl
example := C135_matchers Demo.exReach2 Demo.decimal (.fwd 0)

/-- C135: the same for one call of the selection API, on any line and any selections -/
theorem C135_calls {l : LLLine W} {h : History W} (hr : Reachable l h) (ptr : Nat) (sels : List LRange) {Resp : Type}
    (c : Call W Resp) : (c.op.exec ⟨ptr, l⟩ sels).toOption = c.means ⟨l.ll_tokens, h⟩ sels := call_eq hr.rep ⟨ptr, l⟩ rfl sels c

example := C135_calls Demo.exReach2 3 [(1, 3)] (.splitBy 0 (.attrEq .textTag .NATN))
example : Call.means (W := Demo.W) ⟨Demo.exLine2.ll_tokens, Demo.exHist2⟩ [(1, 3)] (.splitBy 0 (.attrEq .textTag .NATN)) =
    some ([(1, 1), (3, 3)], ()) := rfl

/-- C135: the same for whole programs: what they assign -/
theorem C135_programs {l : LLLine W} {h : History W} (hr : Reachable l h) (ptr : Nat) (sels : List LRange) {V : Type}
    (c : Code W V) : (c.api.run ⟨ptr, l⟩ sels).toOption.map (·.map (fun a => ((a.start_idx, a.end_idx), a.value))) =
      c.means ⟨l.ll_tokens, h⟩ sels := code_eq hr.rep ⟨ptr, l⟩ rfl c sels

/-- mark numbers with a space before them, together with the space -/
def Demo.spaced : Code Demo.W Str :=
  .call (.findBy 0 (.attrEq .textTag .NATN)) (fun rs _ =>
    if rs = [] then .finish []
    else .call (.matchBackwards 1 (.attrEq .textTag .SPACE)) (fun rs' _ =>
      .finish (rs'.mapIdx (fun i _ => (1 + rs.length + i, ['n'])))))

example : Demo.spaced.means ⟨Demo.exLine2.ll_tokens, Demo.exHist2⟩ [(0, 5)] = some [((1, 2), ['n'])] := rfl
example := C135_programs Demo.exReach2 3 [(0, 5)] Demo.spaced

/-- C135: whole sessions.  Make a line from any inputs and run any programs on it: either both the library and the
reference panic somewhere, or neither does, and tokens, queries, displays and searches give the same afterwards. -/
theorem C135_session (L : SplitLaws W) (hB : 0 < W.usizeBound) (size : Str → Nat) (input : List (InputToken W))
    (wf : ∀ t ∈ input, t.WF) (ps : List (Nat × Script W)) :
    Refines (do
      let l ← createLineFromInputTokens W input size
      runAll l (ps.map (fun p => (p.1, p.2.resolver)))) (do
      let s ← Sheet.create W size input
      s.runs (ps.map (·.2))) := by
  have := create_eq L hB size input wf
  cases h1 : createLineFromInputTokens W input size with
  | error e =>
    cases h2 : Sheet.create W size input with
    | none => trivial
    | some s => rw [h1, h2] at this; exact this.elim
  | ok l =>
    cases h2 : Sheet.create W size input with
    | none => rw [h1, h2] at this; exact this.elim
    | some s =>
      rw [h1, h2] at this
      have := runs_eq ps this.1
      rw [‹Reachable l s.facts ∧ l.ll_tokens = s.tokens›.2] at this
      exact this

example := C135_session Demo.splitLaws (by decide) List.length Demo.exInput Demo.exInput_wf
  [(1, ⟨.user (2 : Nat), fun _ => Demo.spaced⟩), (2, ⟨.user (2 : Nat), fun _ => Demo.spaced⟩)]

/-- C135: nothing is missing from the reference: every matcher built from `x::*` and matchers of the user is the matcher of
an expression, and every resolver that uses such matchers behaves as a script. -/
theorem C135_complete :
    (∀ {Out : Type} (m : XMatch W Out), Builtin m → ∃ e : Expr W Out, e.matcher = m) ∧
    (∀ r : Resolver W, ByApi (fun m => Builtin m) r →
      ∃ p : Script W, p.ty = r.attr ∧ ∀ (l : LLLine W) (ptr : Nat), l.run ptr r = l.run ptr p.resolver) :=
  ⟨fun _ hm => expr_of hm, fun _ hr => script_of hr⟩

example := C135_complete.2 _ ((C119_library (W := Demo.W)).1 .pos)

/-- C135: the library's own resolvers, those of the currency example, and all others written against the API: there are
scripts that do, on every input, what the resolvers do. -/
theorem C135_resolvers (L : SplitLaws W) (hB : 0 < W.usizeBound) (rs : List (Nat × Resolver W))
    (hr : ∀ p ∈ rs, ByApi (fun m => Builtin m) p.2) :
    ∃ ps : List (Script W), ps.map (·.ty) = rs.map (·.2.attr) ∧
      ∀ (size : Str → Nat) (input : List (InputToken W)), (∀ t ∈ input, t.WF) →
        Refines (do
          let l ← createLineFromInputTokens W input size
          runAll l rs) (do
          let s ← Sheet.create W size input
          s.runs ps) := by
  have key : ∃ ps : List (Nat × Script W), ps.map (·.2.ty) = rs.map (·.2.attr) ∧
      ∀ l : LLLine W, runAll l rs = runAll l (ps.map (fun p => (p.1, p.2.resolver))) := by
    induction rs with
    | nil => exact ⟨[], rfl, fun _ => rfl⟩
    | cons r rs ih =>
      obtain ⟨ps, h1, h2⟩ := ih (fun p hp => hr p (by simp [hp]))
      obtain ⟨p, h3, h4⟩ := script_of (hr r (by simp))
      refine ⟨(r.1, p) :: ps, by simp [h1, h3], fun l => ?_⟩
      obtain ⟨ptr, r⟩ := r
      simp only [runAll, List.map_cons, h4]
      cases l.run ptr p.resolver with
      | error e => rfl
      | ok l' => exact h2 l'
  obtain ⟨ps, h1, h2⟩ := key
  refine ⟨ps.map (·.2), by simpa [List.map_map, Function.comp_def] using h1, fun size input wf => ?_⟩
  have := C135_session L hB size input wf ps
  cases hc : createLineFromInputTokens W input size with
  | error e => rw [hc] at this; exact this
  | ok l => rw [hc] at this; rw [show (do let l ← Except.ok l; runAll l rs) = runAll l rs from rfl, h2 l]; exact this

example := C135_resolvers Demo.splitLaws (by decide) [(1, Stage.resolver (W := Demo.W) .pos), (2, Stage.resolver (.amounts .english))]
  (by intro p hp; simp at hp; rcases hp with rfl | rfl <;> exact C119_library.1 _)

end LNlp
