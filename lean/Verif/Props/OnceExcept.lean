import Verif.Lemmas.OnceExcept
import Verif.Lemmas.Structure
import Verif.Props.Exceptions
import Verif.Demo.Exceptions
import Verif.Props.Once
/- C147: rules with exceptions and choices that look before they assign, in layers. -/
namespace LNlp
variable {W : World}

theorem Demo.echain_exact : ∀ r ∈ (Demo.echain.map (·.rules)).flatten, Exact r.attr := by
  intro r hr
  simp only [Demo.echain, List.map_cons, List.map_nil, List.flatten_cons, List.flatten_nil, List.append_nil, List.cons_append,
    List.nil_append, List.mem_cons, List.not_mem_nil, or_false] at hr
  rcases hr with rfl | rfl <;> exact Demo.exact _

/-- C147: one run of such a rule adds exactly its conclusions that are not there yet, each once; if there are none, the line
is left as it is. -/
theorem C147_one_run {l : LLLine W} {h : History W} (hh : Honest l h) (ne : l.ll_tokens ≠ []) (ptr : Nat) (r : ERule W)
    (hx : Exact r.attr) :
    ∃ l' new, l.run ptr r.once = .ok l' ∧ Honest l' (h ++ new) ∧ new.Nodup ∧
      (∀ x, x ∈ new ↔ r.Concludes l (· ∈ h) (· ∈ h) x ∧ x ∉ h) ∧ (new = [] → l' = l) := by
  obtain ⟨l', new, h1, h2, _, h4, h5, h6⟩ := eonce_run hh ne ptr r hx
  exact ⟨l', new, h1, h2, h4, h5, h6⟩

example := C147_one_run Demo.chainHonest Demo.chain_ne 1 Demo.elast (Demo.exact 1)

/-- C147: in any order and number, the rules find the same attributes as without looking first, and each new one once. -/
theorem C147_same_attributes {l : LLLine W} {h : History W} (hh : Honest l h) (ne : l.ll_tokens ≠ [])
    (prog : List (Nat × ERule W)) (hx : ∀ p ∈ prog, Exact p.2.attr) :
    ∃ l1 new1 l2 new2, runAll l (eonceRuns prog) = .ok l1 ∧ Honest l1 (h ++ new1) ∧
      runAll l (eruleRuns prog) = .ok l2 ∧ Honest l2 (h ++ new2) ∧ (∀ x, x ∈ h ++ new1 ↔ x ∈ h ++ new2) ∧
      new1.Nodup ∧ ∀ x ∈ new1, x ∉ h :=
  eonces_same prog hh hh ne rfl (fun _ => Iff.rfl) hx

example := C147_same_attributes Demo.chainHonest Demo.chain_ne [(1, Demo.elast), (2, Demo.epair), (3, Demo.elast)] (by
  intro p hp
  simp only [List.mem_cons, List.not_mem_nil, or_false] at hp
  rcases hp with rfl | rfl | rfl
  · exact Demo.exact 1
  · exact Demo.exact 0
  · exact Demo.exact 1)

/-- C147: the loop ends: with enough passes over each layer, a pass leaves the numbers as they were. -/
theorem C147_ends {l : LLLine W} {h : History W} (hh : Honest l h) (ne : l.ll_tokens ≠ []) (layers : List (Stratum W))
    (hs : InStrata (layers.map (·.rules))) (hx : ∀ r ∈ (layers.map (·.rules)).flatten, Exact r.attr)
    (enough : ∀ s ∈ layers, s.Enough l.ll_tokens.length) :
    ∃ l', runAll l (onceStrataRuns layers) = .ok l' ∧ LayerLoop l (layers.map (·.rules)) l' :=
  enough_loop layers hh ne hs hx enough

/-- the chain: neighbours are joined until nothing is new, then what has no neighbour is last -/
theorem Demo.echain_loop : ∃ l', LayerLoop Demo.chainLine (Demo.echain.map (·.rules)) l' := by
  obtain ⟨l', _, h⟩ := C147_ends Demo.chainHonest Demo.chain_ne Demo.echain Demo.echain_strata Demo.echain_exact Demo.echain_enough
  exact ⟨l', h⟩

/-- C147: a loop over the layers that goes on to the next layer when a pass leaves the number of values `query` lists as it
was ends with a stable set, each new value once. -/
theorem C147_stable {l l' : LLLine W} {h : History W} (hh : Honest l h) (ne : l.ll_tokens ≠ []) (layers : List (List (ERule W)))
    (hs : InStrata layers) (hx : ∀ r ∈ layers.flatten, Exact r.attr) (loop : LayerLoop l layers l') :
    ∃ new, Honest l' (h ++ new) ∧ new.Nodup ∧ (∀ x ∈ new, x ∉ h) ∧ Stable l h layers.flatten (· ∈ h ++ new) := by
  obtain ⟨new, h1, _, h3, h4, h5⟩ := loop_stable loop hh ne hs hx
  exact ⟨new, h1, h3, h4, h5⟩

example : ∃ l' new, Honest l' (creationHistory Demo.W List.length Demo.chainInput ++ new) ∧ new.Nodup ∧
    Stable Demo.chainLine (creationHistory Demo.W List.length Demo.chainInput) (Demo.echain.map (·.rules)).flatten
      (· ∈ creationHistory Demo.W List.length Demo.chainInput ++ new) := by
  obtain ⟨l', h⟩ := Demo.echain_loop
  obtain ⟨new, h1, h2, _, h4⟩ := C147_stable Demo.chainHonest Demo.chain_ne _ Demo.echain_strata Demo.echain_exact h
  exact ⟨l', new, h1, h2, h4⟩

/-- C147: so `query` lists just what is in that set, and no value twice if it listed none twice before. -/
theorem C147_loop {l l' : LLLine W} {h : History W} (hh : Honest l h) (ne : l.ll_tokens ≠ []) (layers : List (List (ERule W)))
    (hs : InStrata layers) (hx : ∀ r ∈ layers.flatten, Exact r.attr) (loop : LayerLoop l layers l') {M : Rec W → Prop}
    (hM : Stable l h layers.flatten M) (k : Ty W) :
    ∃ q q', l.query k = .ok q ∧ l'.query k = .ok q' ∧
      (∀ i j v, (∃ text vs, ((i, j), text, vs) ∈ q' ∧ v ∈ vs) ↔ M ⟨k, (i, j), v⟩) ∧
      ((∀ e ∈ q, e.2.2.Nodup) → ∀ e ∈ q', e.2.2.Nodup) := by
  obtain ⟨new, h1, h2, h3, h4, h5⟩ := loop_stable loop hh ne hs hx
  obtain ⟨hr, ho⟩ := hh.spec
  obtain ⟨hr', ho'⟩ := h1.spec
  have hd : ∀ {h : History W}, Ordered h → ∀ r ∈ rangesOf k h, r.1 ≤ r.2 + 1 := fun ho r hm => by
    obtain ⟨v, hv⟩ := mem_rangesOf.1 hm
    have := ho _ hv
    simp only at this
    omega
  have hq := C13_query_is_history hr k (hd ho)
  have hq' := C13_query_is_history hr' k (hd ho')
  exact ⟨_, _, hq, hq', fun i j v => ((C13_query_complete hr' k _ hq').2.1 (i, j) v).trans (stable_unique hs h5 hM _),
    query_nodup hh h1 h3 h4 k hq hq'⟩

example : ∃ (l' : LLLine Demo.W) (q : List (LRange × Str × List (Val (Ty.user 1 : Ty Demo.W)))) (M : _),
    Stable Demo.chainLine (creationHistory Demo.W List.length Demo.chainInput) (Demo.echain.map (·.rules)).flatten M ∧
    l'.query (Ty.user 1) = .ok q ∧ ∀ i j v, (∃ text vs, ((i, j), text, vs) ∈ q ∧ v ∈ vs) ↔ M ⟨Ty.user 1, (i, j), v⟩ := by
  obtain ⟨l', h⟩ := Demo.echain_loop
  obtain ⟨new, _, _, _, hM⟩ := C147_stable Demo.chainHonest Demo.chain_ne _ Demo.echain_strata Demo.echain_exact h
  obtain ⟨_, q, _, h2, h3, _⟩ := C147_loop Demo.chainHonest Demo.chain_ne _ Demo.echain_strata Demo.echain_exact h hM (Ty.user 1)
  exact ⟨l', q, _, hM, h2, h3⟩

/-- C147: one layer, wherever it is begun: after enough passes, no run of its rules changes the line. -/
theorem C147_layer_ends {l : LLLine W} {h : History W} (hh : Honest l h) (ne : l.ll_tokens ≠ []) (s : Stratum W)
    (hs : ∀ r ∈ s.rules, ∀ r' ∈ s.rules, ¬ r.pat.Excepts r'.attr) (hx : ∀ r ∈ s.rules, Exact r.attr)
    (enough : s.Enough l.ll_tokens.length) :
    ∃ l', runAll l (eonceRuns s.passes.flatten) = .ok l' ∧
      ∀ prog : List (Nat × ERule W), (∀ p ∈ prog, p.2 ∈ s.rules) → runAll l' (eonceRuns prog) = .ok l' := by
  obtain ⟨l', _, h1, _, _, h4⟩ := enough_still hh ne s hs hx enough
  exact ⟨l', h1, h4⟩

example := C147_layer_ends Demo.chainHonest Demo.chain_ne ⟨[Demo.epair], [[(1, Demo.epair)], [(2, Demo.epair)], [(3, Demo.epair)]]⟩
  (by simp [Demo.epair, EPat.Excepts]) (by
    intro r hr
    cases List.mem_singleton.1 hr
    exact Demo.exact 0) (Demo.echain_enough _ (.head _))

/-- C147: and when the loop has ended, no run of any rule of any layer changes the line. -/
theorem C147_done {l l' : LLLine W} {h : History W} (hh : Honest l h) (ne : l.ll_tokens ≠ []) (layers : List (List (ERule W)))
    (hs : InStrata layers) (hx : ∀ r ∈ layers.flatten, Exact r.attr) (loop : LayerLoop l layers l')
    (prog : List (Nat × ERule W)) (hp : ∀ p ∈ prog, p.2 ∈ layers.flatten) : runAll l' (eonceRuns prog) = .ok l' := by
  obtain ⟨new, h1, h2, _, _, h5⟩ := loop_stable loop hh ne hs hx
  refine eonces_still h1 (by rw [h2]; exact ne) prog (fun p hm => hx _ (hp p hm)) (fun p hm x hc => ?_)
  exact (h5 x).2 (Entailed.closed (hp p hm) ((hc.line h2.symm).mono (fun y _ hy => (h5 y).1 hy) (fun _ _ => Iff.rfl)))

example : ∃ l', runAll l' (eonceRuns [(5, Demo.elast), (6, Demo.epair)]) = .ok l' := by
  obtain ⟨l', h⟩ := Demo.echain_loop
  exact ⟨l', C147_done Demo.chainHonest Demo.chain_ne _ Demo.echain_strata Demo.echain_exact h _ (by simp [Demo.echain])⟩

/-- C147: loops over the same rules in other layers, or with other runs, end with the same attributes. -/
theorem C147_order {l l1 l2 : LLLine W} {h : History W} (hh : Honest l h) (ne : l.ll_tokens ≠ [])
    (layers layers' : List (List (ERule W))) (hs : InStrata layers) (hs' : InStrata layers')
    (same : ∀ r, r ∈ layers.flatten ↔ r ∈ layers'.flatten) (hx : ∀ r ∈ layers.flatten, Exact r.attr)
    (loop : LayerLoop l layers l1) (loop' : LayerLoop l layers' l2) :
    ∃ new1 new2, Honest l1 (h ++ new1) ∧ Honest l2 (h ++ new2) ∧ ∀ x, x ∈ h ++ new1 ↔ x ∈ h ++ new2 := by
  obtain ⟨new1, a1, _, _, _, a5⟩ := loop_stable loop hh ne hs hx
  obtain ⟨new2, b1, _, _, _, b5⟩ := loop_stable loop' hh ne hs' (fun r hr => hx r ((same r).2 hr))
  refine ⟨new1, new2, a1, b1, stable_unique hs a5 (fun x => (b5 x).trans ⟨?_, ?_⟩)⟩
  · exact entailed_congr (fun _ => Iff.rfl) (fun r => (same r).symm) (fun _ => Iff.rfl)
  · exact entailed_congr (fun _ => Iff.rfl) same (fun _ => Iff.rfl)

example : ∃ l', LayerLoop Demo.chainLine (Demo.echain.map (·.rules)) l' ∧ ∀ l2,
    LayerLoop Demo.chainLine (Demo.echain.map (·.rules)) l2 → ∃ new1 new2,
      Honest l' (creationHistory Demo.W List.length Demo.chainInput ++ new1) ∧
      Honest l2 (creationHistory Demo.W List.length Demo.chainInput ++ new2) ∧
      ∀ x, x ∈ creationHistory Demo.W List.length Demo.chainInput ++ new1 ↔
        x ∈ creationHistory Demo.W List.length Demo.chainInput ++ new2 := by
  obtain ⟨l', h⟩ := Demo.echain_loop
  exact ⟨l', h, fun l2 h2 => C147_order Demo.chainHonest Demo.chain_ne _ _ Demo.echain_strata Demo.echain_strata (fun _ => Iff.rfl)
    Demo.echain_exact h h2⟩

theorem Demo.eshorts_exact : ∀ r ∈ (Demo.eshorts.map (·.rules)).flatten, Exact r.attr := by
  intro r hr
  simp only [Demo.eshorts, List.map_cons, List.map_nil, List.flatten_cons, List.flatten_nil, List.append_nil, List.cons_append,
    List.nil_append, List.mem_cons, List.not_mem_nil, or_false] at hr
  rcases hr with rfl | rfl <;> exact Demo.exact _

/-- a layer may be begun before the layers before it are done, if all layers are run again afterwards -/
def C147_early_claim : Prop := ∀ (W : World) (l l1 l2 l3 : LLLine W) (h : History W) (layers : List (List (ERule W)))
  (prog : List (Nat × ERule W)), Honest l h → l.ll_tokens ≠ [] → InStrata layers → (∀ r ∈ layers.flatten, Exact r.attr) →
  (∀ p ∈ prog, p.2 ∈ layers.flatten) → runAll l (eonceRuns prog) = .ok l1 → LayerLoop l1 layers l2 → LayerLoop l layers l3 →
  ∀ k q2 q3, l2.query k = .ok q2 → l3.query k = .ok q3 → listed q2 = listed q3

/-- C147: what a layer assigns too early stays, so the loop has to wait for each layer. -/
theorem C147_early_false : ¬ C147_early_claim := by
  intro claim
  obtain ⟨l1, new1, a1, a2, _⟩ := eonce_run Demo.chainHonest Demo.chain_ne 1 Demo.epair (Demo.exact 0)
  obtain ⟨l2, new2, b1, b2, _⟩ := eonce_run a2 (by cases a1; decide) 2 Demo.eshort (Demo.exact 1)
  have hr : runAll Demo.chainLine (eonceRuns [(1, Demo.epair), (2, Demo.eshort)]) = .ok l2 := by
    simp only [eonceRuns, List.map_cons, List.map_nil, runAll, a1, b1]
  cases a1
  cases b1
  obtain ⟨l3, c1, c2⟩ := C147_ends b2 (by decide) Demo.eshorts Demo.eshorts_strata Demo.eshorts_exact Demo.eshorts_enough
  obtain ⟨l4, d1, d2⟩ := C147_ends Demo.chainHonest Demo.chain_ne Demo.eshorts Demo.eshorts_strata Demo.eshorts_exact
    Demo.eshorts_enough
  have := claim Demo.W Demo.chainLine _ l3 l4 _ _ _ Demo.chainHonest Demo.chain_ne Demo.eshorts_strata Demo.eshorts_exact
    (by simp [Demo.eshorts]) hr c2 d2 (Ty.user 1)
  cases c1
  cases d1
  exact absurd (this _ _ rfl rfl) (by decide)

example := C147_ends Demo.chainHonest Demo.chain_ne Demo.echain Demo.echain_strata Demo.echain_exact Demo.echain_enough

end LNlp
