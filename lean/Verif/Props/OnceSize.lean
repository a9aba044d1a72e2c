import Verif.Lemmas.OnceSize
import Verif.Props.Once
/- C144, continued: how much rules that look first can add. -/
namespace LNlp
variable {W : World}

/-- C144: on a line of `n` tokens, rules that look first and take their values for a type from a finite stock add at most
`n (n + 1) / 2` values for each of them, however many runs there are. -/
theorem C144_size {l : LLLine W} {h : History W} (hh : Honest l h) (ne : l.ll_tokens ≠ [])
    (prog : List (Nat × Rule W)) (hx : ∀ p ∈ prog, Exact p.2.attr) (stock : List ((k : Ty W) × Val k))
    (hs : ∀ p ∈ prog, ∀ f, ∀ v ∈ p.2.values f, ⟨p.2.attr, v⟩ ∈ stock) (k : Ty W)
    {q : List (LRange × Str × List (Val k))} (hq : l.query k = .ok q) :
    ∃ l' q', runAll l (onceRuns prog) = .ok l' ∧ l'.query k = .ok q' ∧
      2 * listed q' ≤ 2 * listed q +
        l.ll_tokens.length * (l.ll_tokens.length + 1) * (stock.filter (fun s => decide (s.1 = k))).length := by
  obtain ⟨l', new, h1, h2, _, h4, h5, _, _, _, h9⟩ := onces_sound (rules := prog.map (·.2)) (prog := prog) hh ne
    (fun r hr => by obtain ⟨p, hp, rfl⟩ := List.mem_map.1 hr; exact hx p hp) (fun p hp => List.mem_map.2 ⟨p, hp, rfl⟩)
  obtain ⟨hr, ho⟩ := hh.spec
  obtain ⟨hr', ho'⟩ := h2.spec
  obtain ⟨q0, hq0, e0⟩ := listed_history hr ho k
  rw [hq] at hq0
  cases hq0
  obtain ⟨q', hq', e'⟩ := listed_history hr' ho' k
  refine ⟨l', q', h1, hq', ?_⟩
  rw [e0, e', List.filter_append, List.length_append, ← length_cellsOf]
  have : (new.filter (fun x => decide (x.ty = k))).length ≤
      (cellsOf l.ll_tokens.length (stock.filter (fun s => decide (s.1 = k)))).length := by
    refine List.Nodup.length_le_of_subset (h4.filter _) (fun x hx => ?_)
    obtain ⟨hxn, hk⟩ := List.mem_filter.1 hx
    rcases derivable_cells (rules := prog.map (·.2)) hh (fun r hr => by
      obtain ⟨p, hp, rfl⟩ := List.mem_map.1 hr; exact hs p hp) (h9 x (List.mem_append_right _ hxn)) with hm | hm
    · exact absurd hm (h5 x hxn)
    · obtain ⟨hb, hst⟩ := mem_cellsOf.1 hm
      exact mem_cellsOf.2 ⟨hb, List.mem_filter.2 ⟨hst, hk⟩⟩
  omega

example := C144_size Demo.chainHonest Demo.chain_ne (Demo.chains.map (fun p => (1, p.rule))) (by
    intro p hp
    obtain ⟨e, he, rfl⟩ := List.mem_map.1 hp
    exact Demo.chains_exact _ (List.mem_map.2 ⟨e, he, rfl⟩))
  _ (by
    intro p hp f v hv
    obtain ⟨e, he, rfl⟩ := List.mem_map.1 hp
    exact expansions_stock Demo.chains _ (List.mem_map.2 ⟨e, he, rfl⟩) f v hv)
  (.user 0)
  (q := ([((0, 0), [], [['a']]), ((1, 1), [], [['a']]), ((2, 2), [], [['a']])] : List (LRange × Str × List Str))) rfl

end LNlp
