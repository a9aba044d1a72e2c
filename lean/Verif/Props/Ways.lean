import Verif.Lemmas.Ways
import Verif.Props.Grammar
/- C142: rules assign a value as often as there are ways to find it. -/
namespace LNlp
variable {W : World}

/-- C142: a right-hand side, searched at a token, has each result once for each way to find it. -/
theorem C142_matcher {l : LLLine W} {h : History W} (hh : Honest l h) {α : Type} (p : Pat W α) {i : Nat}
    (hi : i < l.ll_tokens.length) : ∃ rs, p.matcher.go (.fwd i) l = .ok rs ∧
      rs.Perm ((List.range l.ll_tokens.length).flatMap (fun j => (p.ways l h i j).map (fun x => (x, j)))) := by
  obtain ⟨hr, ho⟩ := hh.spec
  exact p.matcher_ways hr ho hi

example := C142_matcher Demo.chainHonest (.seq (.attr (.user 0)) (.attr (.user 0))) (i := 1) (by decide)

/-- C142: one run of a rule assigns each value once for each way to conclude it. -/
theorem C142_one_run {l : LLLine W} {h : History W} (hh : Honest l h) (ne : l.ll_tokens ≠ []) (ptr : Nat) (r : Rule W) :
    ∃ l' new, l.run ptr r.resolver = .ok l' ∧ Honest l' (h ++ new) ∧ new.Perm (r.ways l h) := by
  obtain ⟨l', new, h1, h2, _, h3⟩ := rule_run_ways hh ne ptr r
  exact ⟨l', new, h1, h2, h3⟩

example := C142_one_run Demo.chainHonest Demo.chain_ne 1 Demo.pair

/-- C142: for rules in layers, the line has at the end what it had at the start and each conclusion once for each way to
conclude it from what the line has at the end; nothing else satisfies this, but for the order. -/
theorem C142_layers {l : LLLine W} {h : History W} (hh : Honest l h) (ne : l.ll_tokens ≠ []) (prog : List (Nat × Rule W))
    (hl : Layered (prog.map (·.2))) :
    ∃ l' h', runAll l (ruleRuns prog) = .ok l' ∧ Honest l' h' ∧
      ∀ h'' : History W, h''.Perm h' ↔ h''.Perm (h ++ (prog.map (·.2)).flatMap (fun r => r.ways l h'')) := by
  obtain ⟨l', new, h1, h2, _, _, h3⟩ := layers_run_ways prog hh ne hl
  have e : (h ++ new).Perm (h ++ (prog.map (·.2)).flatMap (fun r => r.ways l (h ++ new))) := by
    rw [List.flatMap_map]
    exact List.Perm.append_left _ h3
  refine ⟨l', h ++ new, h1, h2, fun h'' => ⟨fun hp => ?_, fun hp => ways_unique hp e hl⟩⟩
  refine hp.trans (e.trans (List.Perm.append_left _ (perm_flatMap_left (fun r _ => ?_))))
  exact r.ways_perm (fun k _ x => valuesOf_perm hp.symm)

example := C142_layers Demo.readmeHonest Demo.readme_ne Demo.readme Demo.readme_layered

/-- C142: `query` lists them all: for a type that only one rule assigns, it lists the ranges on which there is a way to
find the rule's right-hand side, and the values are those of all ways to find it there. -/
theorem C142_query {l : LLLine W} {h : History W} (hh : Honest l h) (ne : l.ll_tokens ≠ []) (prog : List (Nat × Rule W))
    (hl : Layered (prog.map (·.2))) (own : (prog.map (·.2.attr)).Nodup) (new : ∀ x ∈ h, ∀ p ∈ prog, x.ty ≠ p.2.attr) :
    ∃ l' h', runAll l (ruleRuns prog) = .ok l' ∧ Honest l' h' ∧ ∀ p ∈ prog, ∃ q, l'.query p.2.attr = .ok q ∧
      (∀ i j text vs, ((i, j), text, vs) ∈ q → vs.Perm ((p.2.pat.ways l h' i j).flatMap p.2.values)) ∧
      ∀ i j, i < l.ll_tokens.length → j < l.ll_tokens.length → (p.2.pat.ways l h' i j).flatMap p.2.values ≠ [] →
        ∃ text vs, ((i, j), text, vs) ∈ q := by
  obtain ⟨l', new', h1, h2, h4, _, h3⟩ := layers_run_ways prog hh ne hl
  refine ⟨l', h ++ new', h1, h2, fun p hp => ?_⟩
  obtain ⟨hr, ho⟩ := h2.spec
  have hq := C13_query_is_history hr p.2.attr (fun r hm => by
    obtain ⟨v, hv⟩ := mem_rangesOf.1 hm
    have := ho _ hv
    simp only at this
    omega)
  have hv : ∀ i j, i < l.ll_tokens.length → j < l.ll_tokens.length →
      (valuesOf p.2.attr (i, j) (h ++ new')).Perm ((p.2.pat.ways l (h ++ new') i j).flatMap p.2.values) := by
    intro i j hi hj
    rw [valuesOf_append, valuesOf_other (h := h) (fun x hx => new x hx p hp), List.nil_append]
    refine (valuesOf_perm h3).trans (.of_eq ?_)
    exact (valuesOf_flatMap_one (key := fun p : Nat × Rule W => p.2.attr) (f := fun p => p.2.ways l (h ++ new')) own hp rfl
      (fun y _ z hz => Rule.mem_ways_ty hz)).trans (valuesOf_ways hi hj)
  refine ⟨_, hq, fun i j text vs hm => ?_, fun i j hi hj hne => ⟨_, _, List.mem_map.2 ⟨(i, j), ?_, rfl⟩⟩⟩
  · obtain ⟨r, hr', e⟩ := List.mem_map.1 hm
    cases e
    obtain ⟨v, hv'⟩ := mem_rangesOf.1 hr'
    have b1 := ho _ hv'
    have b2 := (hr.rep.bounds _ hv').2
    rw [h4] at b2
    simp only at b1 b2
    exact hv i j (by omega) b2
  · exact mem_rangesOf_iff_values.2 (fun e => hne (by have := hv i j hi hj; rw [e] at this; exact this.nil_eq.symm))

example := C142_query Demo.readmeHonest Demo.readme_ne [(1, Demo.word), (2, Demo.location), (4, Demo.address)]
  (by simp [Layered, Demo.word, Demo.location, Demo.address, Demo.is, Demo.sp, Pat.Mentions]; decide) (by decide) (by decide)

/-- C142: a rule that finds what it assigns doubles it with every run: after `n` runs, every value that was there once is
there 2ⁿ times. -/
theorem C142_doubling {l : LLLine W} {h : History W} (hh : Honest l h) (ne : l.ll_tokens ≠ []) (k : Ty W) (ptrs : List Nat) :
    ∃ l' q q', runAll l (ruleRuns (ptrs.map (fun ptr => (ptr, again k)))) = .ok l' ∧ l.query k = .ok q ∧
      l'.query k = .ok q' ∧ ∀ r text vs, (r, text, vs) ∈ q →
        ∃ vs', (r, text, vs') ∈ q' ∧ vs'.length = 2 ^ ptrs.length * vs.length ∧ ∀ v ∈ vs', v ∈ vs := by
  obtain ⟨l', h', h1, h2, ht, h3, h4⟩ := again_runs k ptrs hh ne
  have hq : ∀ {l : LLLine W} {h : History W}, Honest l h →
      l.query k = .ok ((rangesOf k h).map (fun r => (r, coveredText l.ll_tokens r, valuesOf k r h))) := by
    intro l h hh
    obtain ⟨hr, ho⟩ := hh.spec
    refine C13_query_is_history hr k (fun r hm => ?_)
    obtain ⟨v, hv⟩ := mem_rangesOf.1 hm
    have := ho _ hv
    simp only at this
    omega
  refine ⟨l', _, _, h1, hq hh, hq h2, fun r text vs hm => ?_⟩
  obtain ⟨r', hr', e⟩ := List.mem_map.1 hm
  cases e
  refine ⟨_, List.mem_map.2 ⟨r, mem_rangesOf_iff_values.2 ?_, by rw [ht]⟩, h3 r, h4 r⟩
  have hpos := List.length_pos_iff.2 (mem_rangesOf_iff_values.1 hr')
  refine List.length_pos_iff.1 ?_
  rw [h3 r]
  exact Nat.mul_pos (Nat.pow_pos (by decide)) hpos

example := C142_doubling Demo.chainHonest Demo.chain_ne (.user 0) [1, 2, 3]

end LNlp
