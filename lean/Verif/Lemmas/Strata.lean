import Verif.Lemmas.Exceptions
/- Helper lemmas for Props/Exceptions.lean: passes over a layer, layers after each other, and the one stable set. -/
namespace LNlp
variable {W : World} {α : Type}

/-- what follows in at most `n` steps -/
def ESteps (l : LLLine W) (h : History W) (rules : List (ERule W)) (N : Rec W → Prop) : Nat → Rec W → Prop
  | 0, x => x ∈ h
  | n + 1, x => ESteps l h rules N n x ∨ ∃ r ∈ rules, r.Concludes l (ESteps l h rules N n) N x

section
variable {l : LLLine W} {h : History W} {rules : List (ERule W)} {N : Rec W → Prop}

theorem ESteps.le {n m : Nat} {x : Rec W} (hnm : n ≤ m) (hx : ESteps l h rules N n x) : ESteps l h rules N m x := by
  induction hnm with
  | refl => exact hx
  | step _ ih => exact .inl ih

theorem ESteps.entailed : ∀ {n : Nat} {x : Rec W}, ESteps l h rules N n x → Entailed l h rules N x
  | 0, x, hx, F, hF, _ => hF x hx
  | n + 1, x, hx, F, hF, hc => by
    rcases hx with hx | ⟨r, hr, hx⟩
    · exact hx.entailed F hF hc
    · exact hc r hr x (hx.mono (fun y _ hy => hy.entailed F hF hc) (fun _ _ => Iff.rfl))

theorem EPat.Holds.finite {F : Nat → Rec W → Prop} (hm : ∀ (n m : Nat) (y), n ≤ m → F n y → F m y) :
    ∀ {α : Type} {p : EPat W α} {i j : Nat} {x : α}, p.Holds l (fun y => ∃ n, F n y) N i j x → ∃ n, p.Holds l (F n) N i j x
  | _, .attr _, _, _, _, hh => by
    obtain ⟨n, h⟩ := hh
    exact ⟨n, h⟩
  | _, .attrEq _ _, _, _, _, hh => by
    obtain ⟨w, he, n, h⟩ := hh
    exact ⟨n, w, he, h⟩
  | _, .text, _, _, _, h => ⟨0, h⟩
  | _, .seq _ _, _, _, (_, _), hh => by
    obtain ⟨m, ha, hb⟩ := hh
    obtain ⟨n1, h1⟩ := ha.finite hm
    obtain ⟨n2, h2⟩ := hb.finite hm
    exact ⟨n1 + n2, m, h1.mono (fun y _ => hm _ _ y (by omega)) (fun _ _ => Iff.rfl),
      h2.mono (fun y _ => hm _ _ y (by omega)) (fun _ _ => Iff.rfl)⟩
  | _, .both _ _, _, _, (_, _), hh => by
    obtain ⟨ha, hb⟩ := hh
    obtain ⟨n1, h1⟩ := ha.finite hm
    obtain ⟨n2, h2⟩ := hb.finite hm
    exact ⟨n1 + n2, h1.mono (fun y _ => hm _ _ y (by omega)) (fun _ _ => Iff.rfl),
      h2.mono (fun y _ => hm _ _ y (by omega)) (fun _ _ => Iff.rfl)⟩
  | _, .anyOf a _, i, j, .A x, hh => by
    have ha : a.Holds l (fun y => ∃ n, F n y) N i j x := hh
    exact ha.finite hm
  | _, .anyOf _ _, _, _, .B _, hh => by
    obtain ⟨n, hb⟩ := hh.1.finite hm
    exact ⟨n, hb, hh.2⟩
  | _, .unless _ _, _, _, _, hh => by
    obtain ⟨n, hb⟩ := hh.1.finite hm
    exact ⟨n, hb, hh.2⟩

theorem entailed_iff_steps {x : Rec W} : Entailed l h rules N x ↔ ∃ n, ESteps l h rules N n x := by
  constructor
  · intro hx
    refine hx (fun x => ∃ n, ESteps l h rules N n x) (fun y hy => ⟨0, hy⟩) ?_
    rintro r hr x ⟨i, j, f, v, hp, hv, rfl⟩
    obtain ⟨n, hp⟩ := hp.finite (F := ESteps l h rules N) (fun _ _ _ h1 h2 => h2.le h1)
    exact ⟨n + 1, .inr ⟨r, hr, i, j, f, v, hp, hv, rfl⟩⟩
  · rintro ⟨n, hx⟩
    exact hx.entailed

theorem Entailed.base {x : Rec W} (hx : Entailed l h rules N x) : x ∈ h ∨ ∃ r ∈ rules, x.ty = r.attr := by
  refine hx (fun x => x ∈ h ∨ ∃ r ∈ rules, x.ty = r.attr) (fun y hy => .inl hy) ?_
  rintro r hr x ⟨i, j, f, v, _, _, rfl⟩
  exact .inr ⟨r, hr, rfl⟩

theorem Entailed.of_mem {x : Rec W} (hx : x ∈ h) : Entailed l h rules N x := fun _ hF _ => hF x hx

/-- what follows is closed under the rules -/
theorem Entailed.closed {r : ERule W} (hr : r ∈ rules) {x : Rec W} (hc : r.Concludes l (Entailed l h rules N) N x) :
    Entailed l h rules N x := fun F hF hcl =>
  hcl r hr x (hc.mono (fun _ _ hy => hy F hF hcl) (fun _ _ => Iff.rfl))

theorem Entailed.inside (hin : ∀ y ∈ h, y.range.1 ≤ y.range.2 ∧ y.range.2 < l.ll_tokens.length) {x : Rec W}
    (hx : Entailed l h rules N x) : x.range.1 ≤ x.range.2 ∧ x.range.2 < l.ll_tokens.length := by
  refine hx (fun y => y.range.1 ≤ y.range.2 ∧ y.range.2 < l.ll_tokens.length) hin ?_
  rintro r _ x ⟨i, j, f, v, hp, _, rfl⟩
  exact hp.inside (fun y hy => hy)

/-- rules that do not use each other are done after one step -/
theorem one_step (hn : ∀ r ∈ rules, ∀ r' ∈ rules, ¬ r.pat.Mentions r'.attr) {x : Rec W}
    (hx : Entailed l h rules N x) : ESteps l h rules N 1 x := by
  refine hx (fun x => ESteps l h rules N 1 x) (fun y hy => .inl hy) (fun r hr x hc => .inr ⟨r, hr, ?_⟩)
  refine hc.mono (fun y hm hy => ?_) (fun _ _ => Iff.rfl)
  rcases hy.entailed.base with hy | ⟨r', hr', e⟩
  · exact hy
  · rw [e] at hm
    exact absurd hm (hn r hr r' hr')

/-- rules that use each other only as parts are done on a range after as many steps as it is long -/
theorem growing_steps (hg : ∀ r ∈ rules, ∀ r' ∈ rules, ¬ r.pat.MentionsWhole r'.attr)
    (hin : ∀ y ∈ h, y.range.1 ≤ y.range.2 ∧ y.range.2 < l.ll_tokens.length) {x : Rec W} (hx : Entailed l h rules N x) :
    ESteps l h rules N (x.range.2 - x.range.1 + 1) x := by
  refine (hx (fun x => (x.range.1 ≤ x.range.2 ∧ x.range.2 < l.ll_tokens.length) ∧
      ESteps l h rules N (x.range.2 - x.range.1 + 1) x)
    (fun y hy => ⟨hin y hy, ESteps.le (Nat.zero_le _) (show ESteps l h rules N 0 y from hy)⟩) ?_).2
  rintro r hr x ⟨i, j, f, v, hp, hv, rfl⟩
  refine ⟨hp.inside (fun y hy => hy.1), .inr ⟨r, hr, i, j, f, v, ?_, hv, rfl⟩⟩
  refine hp.within (fun y hy => hy.1) (fun y hy _ _ hw => ?_)
  rcases hw with hw | hw
  · rcases hy.2.entailed.base with hm | ⟨r', hr', e⟩
    · exact ESteps.le (Nat.zero_le _) (show ESteps l h rules N 0 y from hm)
    · rw [e] at hw
      exact absurd hw (hg r hr r' hr')
  · exact hy.2.le hw

/-- rules that assign values from a finite stock are done after as many steps as the range is long times values -/
theorem stock_esteps {C : List ((k : Ty W) × Val k)} (hC : ∀ r ∈ rules, ∀ f, ∀ v ∈ r.values f, ⟨r.attr, v⟩ ∈ C)
    (hin : ∀ y ∈ h, y.range.1 ≤ y.range.2 ∧ y.range.2 < l.ll_tokens.length) : ∀ (w : Nat) (x : Rec W),
      x.range.2 - x.range.1 < w → (∃ n, ESteps l h rules N n x) → ESteps l h rules N (w * C.length) x := by
  have hF : ∀ n y, ESteps l h rules N n y → y.range.1 ≤ y.range.2 ∧ y.range.2 < l.ll_tokens.length :=
    fun n y hy => hy.entailed.inside hin
  have old : ∀ n x, ESteps l h rules N n x → x ∈ h ∨ (⟨x.ty, x.val⟩ : (k : Ty W) × Val k) ∈ C := by
    intro n
    induction n with
    | zero => exact fun x hx => .inl hx
    | succ n ih =>
      rintro x (hx | ⟨r, hr, i, j, f, v, _, hv, rfl⟩)
      · exact ih x hx
      · exact .inr (hC r hr f v hv)
  intro w
  induction w with
  | zero => intro x h; omega
  | succ w ih =>
    rintro x hw ⟨n, hn⟩
    by_cases hlt : x.range.2 - x.range.1 < w
    · exact (ih x hlt ⟨n, hn⟩).le (Nat.mul_le_mul_right _ (Nat.le_succ _))
    rw [Nat.succ_mul]
    generalize hB : w * C.length = B at ih
    rcases old n x hn with hx | hx
    · exact ESteps.le (Nat.zero_le _) (show ESteps l h rules N 0 x from hx)
    let R : Nat → ((k : Ty W) × Val k) → Prop := fun t c => ESteps l h rules N (B + t) ⟨c.1, x.range, c.2⟩
    refine stops (R := R) (fun t p hp => hp.le (by omega)) ?_ n hx (hn.le (by omega))
    intro t hst c hc hr
    rcases hr with hr | ⟨r, hr, i, j, f, v, hp, hv, e⟩
    · exact hr
    · have e2 := congrArg Rec.range e
      simp only at e2
      refine .inr ⟨r, hr, i, j, f, v, hp.within (hF _) (fun y hy ha hb _ => ?_), hv, e⟩
      have hj : j - i = w := by have e3 := congrArg Prod.fst e2; have e4 := congrArg Prod.snd e2; simp only at e3 e4; omega
      have oy := hF _ y hy
      by_cases hyw : y.range.2 - y.range.1 < w
      · exact (ih y hyw ⟨_, hy⟩).le (Nat.le_add_right B t)
      · have ey : y.range = x.range := by rw [e2]; exact Prod.ext (by simp only; omega) (by simp only; omega)
        rcases old _ y hy with hy' | hy'
        · exact ESteps.le (Nat.zero_le _) (show ESteps l h rules N 0 y from hy')
        · have := hst ⟨y.ty, y.val⟩ hy'
          simp only [R, ← ey] at this
          exact this hy

end

/-! ### passes over a layer -/

/-- runs of rules of a layer that starts with the facts `h0` -/
theorem erules_run {l0 : LLLine W} {h0 : History W} {rules : List (ERule W)}
    (hx : ∀ r ∈ rules, ∀ r' ∈ rules, ¬ r.pat.Excepts r'.attr) :
    ∀ (prog : List (Nat × ERule W)) {l : LLLine W} {h : History W}, Honest l h → l.ll_tokens ≠ [] →
      (∀ p ∈ prog, p.2 ∈ rules) → l.ll_tokens = l0.ll_tokens → (∀ x ∈ h0, x ∈ h) →
      (∀ x ∈ h, Entailed l0 h0 rules (· ∈ h0) x) →
      ∃ l' new, runAll l (eruleRuns prog) = .ok l' ∧ Honest l' (h ++ new) ∧ l'.ll_tokens = l0.ll_tokens ∧
        (∀ x ∈ h ++ new, Entailed l0 h0 rules (· ∈ h0) x) ∧
        ∀ p ∈ prog, ∀ x, p.2.Concludes l0 (· ∈ h) (· ∈ h0) x → x ∈ h ++ new
  | [], l, h, hh, _, _, ht, _, hd => ⟨l, [], rfl, by simpa using hh, ht, by simpa using hd, by simp⟩
  | (ptr, r) :: prog, l, h, hh, ne, hm, ht, hs, hd => by
    obtain ⟨l1, new, hl1, hh1, ht1, hn⟩ := erule_run hh ne ptr r
    have hr : r ∈ rules := hm (ptr, r) (by simp)
    have agree : ∀ y, r.pat.Excepts y.ty → (y ∈ h ↔ y ∈ h0) := fun y hy => ⟨fun hyh => by
      rcases (hd y hyh).base with hy0 | ⟨r', hr', e⟩
      · exact hy0
      · rw [e] at hy
        exact absurd hy (hx r hr r' hr'), hs y⟩
    have hd1 : ∀ x ∈ h ++ new, Entailed l0 h0 rules (· ∈ h0) x := by
      intro x hxm
      rcases List.mem_append.1 hxm with hxm | hxm
      · exact hd x hxm
      · exact Entailed.closed hr ((((hn x).1 hxm).line ht.symm).mono (fun y _ hy => hd y hy) agree)
    obtain ⟨l', new', hl', hh', ht', hd', hc'⟩ := erules_run hx prog hh1 (by rw [ht1]; exact ne)
      (fun p hp => hm p (by simp [hp])) (ht1.trans ht) (fun x hx => List.mem_append_left _ (hs x hx)) hd1
    refine ⟨l', new ++ new', ?_, by rw [← List.append_assoc]; exact hh', ht',
      by rw [← List.append_assoc]; exact hd', ?_⟩
    · simp only [eruleRuns, List.map_cons, runAll, hl1]
      exact hl'
    · rw [← List.append_assoc]
      intro p hp x hxc
      rcases List.mem_cons.1 hp with rfl | hp
      · exact List.mem_append_left _ (List.mem_append_right _ ((hn x).2
          ((hxc.line ht).mono (fun y _ hy => hy) (fun y hy => (agree y hy).symm))))
      · exact hc' p hp x (hxc.mono (fun y _ hy => List.mem_append_left _ hy) (fun _ _ => Iff.rfl))

theorem epasses_run {l0 : LLLine W} {h0 : History W} {rules : List (ERule W)}
    (hx : ∀ r ∈ rules, ∀ r' ∈ rules, ¬ r.pat.Excepts r'.attr) :
    ∀ (passes : List (List (Nat × ERule W))) {l : LLLine W} {h : History W} (n : Nat), Honest l h → l.ll_tokens ≠ [] →
      (∀ prog ∈ passes, ∀ r, r ∈ rules ↔ ∃ p ∈ prog, p.2 = r) → l.ll_tokens = l0.ll_tokens → (∀ x ∈ h0, x ∈ h) →
      (∀ x ∈ h, Entailed l0 h0 rules (· ∈ h0) x) → (∀ x, ESteps l0 h0 rules (· ∈ h0) n x → x ∈ h) →
      ∃ l' new, runAll l (eruleRuns passes.flatten) = .ok l' ∧ Honest l' (h ++ new) ∧ l'.ll_tokens = l0.ll_tokens ∧
        (∀ x ∈ h ++ new, Entailed l0 h0 rules (· ∈ h0) x) ∧
        ∀ x, ESteps l0 h0 rules (· ∈ h0) (n + passes.length) x → x ∈ h ++ new
  | [], l, h, n, hh, _, _, ht, _, hd, hw => ⟨l, [], rfl, by simpa using hh, ht, by simpa using hd, by simpa using hw⟩
  | prog :: passes, l, h, n, hh, ne, hm, ht, hs, hd, hw => by
    have hmem := hm prog (by simp)
    obtain ⟨l1, new1, hl1, hh1, ht1, hd1, hc⟩ := erules_run hx prog hh ne
      (fun p hp => (hmem _).2 ⟨p, hp, rfl⟩) ht hs hd
    obtain ⟨l', new2, hl2, hh2, ht2, hd2, hw2⟩ := epasses_run hx passes (n + 1) hh1
      (by rw [ht1, ← ht]; exact ne) (fun q hq => hm q (by simp [hq])) ht1
      (fun x hx => List.mem_append_left _ (hs x hx)) hd1 (fun x hx => by
        rcases hx with hx | ⟨r, hr, hx⟩
        · exact List.mem_append_left _ (hw x hx)
        · obtain ⟨p, hp, rfl⟩ := (hmem r).1 hr
          exact hc p hp x (hx.mono (fun y _ hy => hw y hy) (fun _ _ => Iff.rfl)))
    refine ⟨l', new1 ++ new2, ?_, by rw [← List.append_assoc]; exact hh2, ht2, by rw [← List.append_assoc]; exact hd2, ?_⟩
    · simp only [eruleRuns, List.flatten_cons, List.map_append] at hl1 hl2 ⊢
      rw [runAll_append, hl1]
      exact hl2
    · rw [← List.append_assoc]
      intro x hx
      refine hw2 x ?_
      rw [List.length_cons] at hx
      rw [show n + 1 + passes.length = n + (passes.length + 1) by omega]
      exact hx

/-- a layer with enough passes finds exactly what follows -/
theorem stratum_run {l : LLLine W} {h : History W} (hh : Honest l h) (ne : l.ll_tokens ≠ []) (s : Stratum W)
    (hx : ∀ r ∈ s.rules, ∀ r' ∈ s.rules, ¬ r.pat.Excepts r'.attr) (enough : s.Enough l.ll_tokens.length) :
    ∃ l' new, runAll l (eruleRuns s.passes.flatten) = .ok l' ∧ Honest l' (h ++ new) ∧ l'.ll_tokens = l.ll_tokens ∧
      ∀ x, x ∈ h ++ new ↔ Entailed l h s.rules (· ∈ h) x := by
  obtain ⟨hr, ho⟩ := hh.spec
  have hin : ∀ y ∈ h, y.range.1 ≤ y.range.2 ∧ y.range.2 < l.ll_tokens.length := fun y hy => ⟨ho y hy, (hr.rep.bounds y hy).2⟩
  obtain ⟨l', new, h1, h2, h3, h4, h5⟩ := epasses_run hx s.passes 0 hh ne enough.1 rfl (fun _ hx => hx)
    (fun x hx => Entailed.of_mem hx) (fun x hx => hx)
  refine ⟨l', new, h1, h2, h3, fun x => ⟨h4 x, fun hxe => h5 x ?_⟩⟩
  rw [Nat.zero_add]
  have hb := hxe.inside hin
  rcases enough.2 with ⟨hn, hl⟩ | ⟨hg, hl⟩ | ⟨stock, hs, hl⟩
  · exact (one_step hn hxe).le hl
  · exact (growing_steps hg hin hxe).le (by omega)
  · exact (stock_esteps hs hin l.ll_tokens.length x (by omega) (entailed_iff_steps.1 hxe)).le hl

/-! ### layers -/

theorem entailed_line {l l' : LLLine W} (ht : l'.ll_tokens = l.ll_tokens) {h : History W} {rules : List (ERule W)}
    {N : Rec W → Prop} {x : Rec W} (hx : Entailed l h rules N x) : Entailed l' h rules N x :=
  fun F hF hc => hx F hF (fun r hr z hz => hc r hr z (hz.line ht))

theorem entailed_congr {l : LLLine W} {h h' : History W} (hm : ∀ x, x ∈ h ↔ x ∈ h') {rules rules' : List (ERule W)}
    (hr : ∀ r, r ∈ rules ↔ r ∈ rules') {N N' : Rec W → Prop} (hN : ∀ x, N x ↔ N' x) {x : Rec W}
    (hx : Entailed l h rules N x) : Entailed l h' rules' N' x :=
  fun F hF hc => hx F (fun y hy => hF y ((hm y).1 hy)) (fun r hr' z hz =>
    hc r ((hr r).1 hr') z (hz.mono (fun _ _ hy => hy) (fun y _ => hN y)))

/-- layers with enough passes, run after each other, find a stable set -/
theorem strata_run : ∀ (layers : List (Stratum W)) {l : LLLine W} {h : History W}, Honest l h → l.ll_tokens ≠ [] →
    InStrata (layers.map (·.rules)) → (∀ s ∈ layers, s.Enough l.ll_tokens.length) →
    ∃ l' new, runAll l (strataRuns layers) = .ok l' ∧ Honest l' (h ++ new) ∧ l'.ll_tokens = l.ll_tokens ∧
      Stable l h (layers.map (·.rules)).flatten (· ∈ h ++ new)
  | [], l, h, hh, _, _, _ => by
    refine ⟨l, [], rfl, by simpa using hh, rfl, fun x => ⟨fun hx => Entailed.of_mem (by simpa using hx), fun hx => ?_⟩⟩
    rcases hx.base with hx | ⟨r, hr, _⟩
    · simpa using hx
    · cases hr
  | s :: layers, l, h, hh, ne, hst, en => by
    simp only [List.map_cons, InStrata] at hst
    obtain ⟨hs1, hs2, hs3⟩ := hst
    obtain ⟨l1, new1, a1, a2, a3, a4⟩ := stratum_run hh ne s hs1 (en s (by simp))
    obtain ⟨l2, new2, b1, b2, b3, b4⟩ := strata_run layers a2 (by rw [a3]; exact ne) hs3
      (fun t ht => by rw [a3]; exact en t (by simp [ht]))
    refine ⟨l2, new1 ++ new2, ?_, by rw [← List.append_assoc]; exact b2, b3.trans a3, ?_⟩
    · simp only [strataRuns, List.flatMap_cons] at b1 ⊢
      rw [runAll_append, a1]
      exact b1
    rw [← List.append_assoc, List.map_cons, List.flatten_cons]
    have late : ∀ y, y ∈ h ++ new1 ++ new2 → y ∈ h ++ new1 ∨ ∃ r ∈ (layers.map (·.rules)).flatten, y.ty = r.attr :=
      fun y hy => ((b4 y).1 hy).base
    have early : ∀ y, y ∈ h ++ new1 → y ∈ h ∨ ∃ r ∈ s.rules, y.ty = r.attr := fun y hy => ((a4 y).1 hy).base
    have agree : ∀ r ∈ s.rules, ∀ y, r.pat.Excepts y.ty → (y ∈ h ↔ y ∈ h ++ new1 ++ new2) := by
      intro r hr y hy
      refine ⟨fun hm => List.mem_append_left _ (List.mem_append_left _ hm), fun hm => ?_⟩
      rcases late y hm with hm | ⟨r', hr', e⟩
      · rcases early y hm with hm | ⟨r', hr', e⟩
        · exact hm
        · rw [e] at hy
          exact absurd hy (hs1 r hr r' hr')
      · rw [e] at hy
        exact absurd hy (hs2 r hr r' hr').2
    intro x
    constructor
    · intro hx F hF hc
      refine entailed_line (l' := l) a3.symm ((b4 x).1 hx) F (fun y hy => ?_) (fun r hr => hc r (List.mem_append_right _ hr))
      refine (a4 y).1 hy F hF (fun r hr z hz => hc r (List.mem_append_left _ hr) z ?_)
      exact hz.mono (fun _ _ hy => hy) (agree r hr)
    · intro hx
      refine hx (· ∈ h ++ new1 ++ new2) (fun y hy => List.mem_append_left _ (List.mem_append_left _ hy)) (fun r hr z hz => ?_)
      rcases List.mem_append.1 hr with hr | hr
      · refine List.mem_append_left _ ((a4 z).2 (Entailed.closed hr (hz.mono (fun y hm hy => ?_) (fun y hy => (agree r hr y hy).symm))))
        rcases late y hy with hy | ⟨r', hr', e⟩
        · exact (a4 y).1 hy
        · rw [e] at hm
          exact absurd hm (hs2 r hr r' hr').1
      · exact (b4 z).2 (Entailed.closed hr ((hz.line a3).mono (fun y _ hy => (b4 y).1 hy) (fun _ _ => Iff.rfl)))

/-! ### there is only one stable set -/

/-- the rules up to a layer say nothing about what is assigned behind it, and make no exceptions about that layer -/
theorem inStrata_split : ∀ (pre : List (List (ERule W))) {layer : List (ERule W)} {later : List (List (ERule W))},
    InStrata (pre ++ layer :: later) → ∀ r, r ∈ pre.flatten ∨ r ∈ layer →
      (∀ r' ∈ later.flatten, ¬ r.pat.Mentions r'.attr) ∧ ∀ r' ∈ (layer :: later).flatten, ¬ r.pat.Excepts r'.attr
  | [], layer, later, h, r, hr => by
    rcases hr with hr | hr
    · cases hr
    · refine ⟨fun r' hr' => (h.2.1 r hr r' hr').1, fun r' hr' => ?_⟩
      rcases List.mem_append.1 (by simpa using hr' : r' ∈ layer ++ later.flatten) with hr' | hr'
      · exact h.1 r hr r' hr'
      · exact (h.2.1 r hr r' hr').2
  | first :: pre, layer, later, h, r, hr => by
    have h : InStrata (first :: (pre ++ layer :: later)) := h
    by_cases hf : r ∈ first
    · refine ⟨fun r' hr' => (h.2.1 r hf r' ?_).1, fun r' hr' => (h.2.1 r hf r' ?_).2⟩
      · simp only [List.flatten_append, List.flatten_cons, List.mem_append]
        exact .inr (.inr hr')
      · rw [List.flatten_append]
        exact List.mem_append_right _ hr'
    · refine inStrata_split pre h.2.2 r ?_
      rcases hr with hr | hr
      · rcases List.mem_append.1 (by simpa using hr : r ∈ first ++ pre.flatten) with hr | hr
        · exact absurd hr hf
        · exact .inl hr
      · exact .inr hr

theorem stable_base {l : LLLine W} {h : History W} {rules : List (ERule W)} {M : Rec W → Prop} (hM : Stable l h rules M)
    {x : Rec W} (hx : M x) : x ∈ h ∨ ∃ r ∈ rules, x.ty = r.attr := ((hM x).1 hx).base

theorem stable_le {l : LLLine W} {h : History W} {layers : List (List (ERule W))} (hs : InStrata layers) :
    ∀ (n : Nat) (pre later : List (List (ERule W))), pre.length = n → layers = pre ++ later →
      ∀ {M M' : Rec W → Prop}, Stable l h layers.flatten M → Stable l h layers.flatten M' →
      ∀ x, (∀ r ∈ later.flatten, x.ty ≠ r.attr) → M x → M' x
  | 0, pre, later, hp, e, M, M', hM, hM', x, hx, hm => by
    cases List.length_eq_zero_iff.1 hp
    rcases stable_base hM hm with hm | ⟨r, hr, hty⟩
    · exact (hM' x).2 (Entailed.of_mem hm)
    · rw [e] at hr
      exact absurd hty (hx r hr)
  | n + 1, pre, later, hp, e, M, M', hM, hM', x, hx, hm => by
    obtain ⟨pre', layer, rfl⟩ : ∃ pre' layer, pre = pre' ++ [layer] := by
      rcases List.eq_nil_or_concat pre with rfl | ⟨a, b, rfl⟩
      · cases hp
      · exact ⟨a, b, by simp⟩
    have hl : pre'.length = n := by simpa using hp
    have e' : layers = pre' ++ layer :: later := by rw [e]; simp
    have ih := @stable_le l h layers hs n pre' (layer :: later) hl e'
    refine (hM x).1 hm (fun y => (∀ r ∈ later.flatten, y.ty ≠ r.attr) → M' y)
      (fun y hy _ => (hM' y).2 (Entailed.of_mem hy)) (fun r hr z hz hzt => ?_) hx
    have hpos : r ∈ pre'.flatten ∨ r ∈ layer := by
      rw [e', List.flatten_append, List.flatten_cons] at hr
      rcases List.mem_append.1 hr with hr | hr
      · exact .inl hr
      · rcases List.mem_append.1 hr with hr | hr
        · exact .inr hr
        · obtain ⟨_, _, _, _, _, _, rfl⟩ := hz
          exact absurd rfl (hzt r hr)
    obtain ⟨q1, q2⟩ := inStrata_split pre' (e' ▸ hs) r hpos
    refine (hM' z).2 (Entailed.closed hr (hz.mono (fun y hmy hy => (hM' y).1 (hy (fun r' hr' et => ?_))) (fun y hey => ?_)))
    · rw [et] at hmy
      exact q1 r' hr' hmy
    · have hno : ∀ r' ∈ (layer :: later).flatten, y.ty ≠ r'.attr := fun r' hr' et => by
        rw [et] at hey
        exact q2 r' hr' hey
      exact ⟨ih hM hM' y hno, ih hM' hM y hno⟩

theorem stable_unique {l : LLLine W} {h : History W} {layers : List (List (ERule W))} (hs : InStrata layers)
    {M M' : Rec W → Prop} (hM : Stable l h layers.flatten M) (hM' : Stable l h layers.flatten M') (x : Rec W) :
    M x ↔ M' x :=
  ⟨stable_le hs layers.length layers [] rfl (by simp) hM hM' x (by simp),
    stable_le hs layers.length layers [] rfl (by simp) hM' hM x (by simp)⟩

/-- once the facts are stable, no run of a rule adds any -/
theorem stable_runs {l0 : LLLine W} {h0 : History W} {rules : List (ERule W)} {M : Rec W → Prop}
    (hM : Stable l0 h0 rules M) : ∀ (prog : List (Nat × ERule W)) {l : LLLine W} {h : History W}, Honest l h →
      l.ll_tokens ≠ [] → l.ll_tokens = l0.ll_tokens → (∀ p ∈ prog, p.2 ∈ rules) → (∀ x, x ∈ h ↔ M x) →
      ∃ l' h', runAll l (eruleRuns prog) = .ok l' ∧ Honest l' h' ∧ ∀ x, x ∈ h' ↔ M x
  | [], l, h, hh, _, _, _, hm => ⟨l, h, rfl, hh, hm⟩
  | (ptr, r) :: prog, l, h, hh, ne, ht, hp, hm => by
    obtain ⟨l1, new, hl1, hh1, ht1, hn⟩ := erule_run hh ne ptr r
    obtain ⟨l', h', a1, a2, a3⟩ := stable_runs hM prog hh1 (by rw [ht1]; exact ne) (ht1.trans ht)
      (fun p hpp => hp p (by simp [hpp])) (fun x => by
        rw [List.mem_append]
        refine ⟨fun hx => ?_, fun hx => .inl ((hm x).2 hx)⟩
        rcases hx with hx | hx
        · exact (hm x).1 hx
        · exact (hM x).2 (Entailed.closed (hp (ptr, r) (by simp)) ((((hn x).1 hx).line ht.symm).mono
            (fun y _ hy => (hM y).1 ((hm y).1 hy)) (fun y _ => hm y))))
    refine ⟨l', h', ?_, a2, a3⟩
    simp only [eruleRuns, List.map_cons, runAll, hl1]
    exact a1

end LNlp
