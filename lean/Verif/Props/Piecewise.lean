import Verif.Lemmas.Parts
/- C100, C101: resolvers on lines put together from parts. -/
namespace LNlp
variable {W : World}

section
variable {size : Str → Nat} {xs ys : List (InputToken W)} {l lx ly : LLLine W}
  (wf : ∀ t ∈ xs ++ ys, t.WF) (ok : createLineFromInputTokens W (xs ++ ys) size = .ok l)
  (okx : createLineFromInputTokens W xs size = .ok lx) (oky : createLineFromInputTokens W ys size = .ok ly)
  (nx : xs ≠ []) (ny : ys ≠ [])
include wf ok okx oky nx ny

/-! ### C100: resolvers that look at single tokens -/

/-- C100: on a line created from `xs ++ ys` the table resolver assigns what it assigns on the line of `xs`,
followed by what it assigns on the line of `ys`, moved behind the tokens of `xs`. -/
theorem C100_table {k : Ty W} (r : TextMatchAssignResolver W k) (p px py : Nat) :
    r.go (wholeLine l p) = joinAssigned lx.ll_tokens.length (r.go (wholeLine lx px)) (r.go (wholeLine ly py)) :=
  joined_table (joined_create wf ok okx oky) (create_ne (fun t ht => wf t (by simp [ht])) okx nx) (create_ne (fun t ht => wf t (by simp [ht])) oky ny) r p px py

/-- C100 for the clause keyword resolver. -/
theorem C100_keywords (r : ClauseKeywordResolver) (p px py : Nat) :
    r.go (wholeLine l p) = joinAssigned lx.ll_tokens.length (r.go (wholeLine lx px)) (r.go (wholeLine ly py)) :=
  joined_keywords (joined_create wf ok okx oky) (create_ne (fun t ht => wf t (by simp [ht])) okx nx) (create_ne (fun t ht => wf t (by simp [ht])) oky ny) r p px py

/-- C100 for the part-of-speech resolver (also if the input brings its own `TextTag`s). -/
theorem C100_pos (p px py : Nat) :
    posTagGo (wholeLine l p) = joinAssigned lx.ll_tokens.length (posTagGo (wholeLine lx px)) (posTagGo (wholeLine ly py)) :=
  joined_pos (joined_create wf ok okx oky) (create_ne (fun t ht => wf t (by simp [ht])) okx nx) (create_ne (fun t ht => wf t (by simp [ht])) oky ny)
    (.create _ size _ wf ok) (.create _ size _ (fun t ht => wf t (by simp [ht])) okx)
    (.create _ size _ (fun t ht => wf t (by simp [ht])) oky) p px py

/-! ### C101: amounts -/

/-- C101: if the last token of the line of `xs` is no number, no delimiter and no decimal point, the amount
resolver assigns on the line of `xs ++ ys` what it assigns on the line of `xs`, followed by what it assigns on
the line of `ys`; and it panics exactly if it panics on one of the parts, the first part first. -/
theorem C101_amounts_piecewise (r : AmountResolver)
    (hsep : Separator r lx (creationHistory W size xs) (lx.ll_tokens.length - 1)) (p px py : Nat) :
    r.go (wholeLine l p) = joinAssigned lx.ll_tokens.length (r.go (wholeLine lx px)) (r.go (wholeLine ly py)) :=
  joined_amounts (joined_create wf ok okx oky) (create_ne (fun t ht => wf t (by simp [ht])) okx nx) (create_ne (fun t ht => wf t (by simp [ht])) oky ny)
    (.create _ size _ wf ok) (.create _ size _ (fun t ht => wf t (by simp [ht])) okx)
    (.create _ size _ (fun t ht => wf t (by simp [ht])) oky) r hsep p px py

/-- C101: the same if the first token of the line of `ys` is no number, no delimiter and no decimal point; it has to
carry an attribute (which text tokens do). -/
theorem C101_amounts_before (r : AmountResolver) (hsep : Separator r ly (creationHistory W size ys) 0)
    (hat : HasAttr (creationHistory W size ys) 0) (p px py : Nat) :
    r.go (wholeLine l p) = joinAssigned lx.ll_tokens.length (r.go (wholeLine lx px)) (r.go (wholeLine ly py)) :=
  joined_amounts_before (joined_create wf ok okx oky) (create_ne (fun t ht => wf t (by simp [ht])) okx nx) (create_ne (fun t ht => wf t (by simp [ht])) oky ny)
    (.create _ size _ wf ok) (.create _ size _ (fun t ht => wf t (by simp [ht])) okx)
    (.create _ size _ (fun t ht => wf t (by simp [ht])) oky) r hsep hat p px py

end

/-- the input `"pay 1. "`, `"2,0 now"` -/
def Demo.partX : List (InputToken Demo.W) := [.Text ['p', 'a', 'y', ' ', '1', '.', ' '] []]
def Demo.partY : List (InputToken Demo.W) := [.Text ['2', ',', '0', ' ', 'n', 'o', 'w'] []]
theorem Demo.parts_wf : ∀ t ∈ Demo.partX ++ Demo.partY, t.WF := by
  intro t ht a ha
  simp only [Demo.partX, Demo.partY, List.cons_append, List.nil_append, List.mem_cons, List.not_mem_nil, or_false] at ht
  rcases ht with rfl | rfl <;> cases ha

example := C100_table Demo.parts_wf (size := utf8Len) rfl rfl rfl (by decide) (by decide) (Demo.table)
example := C100_keywords Demo.parts_wf (size := utf8Len) rfl rfl rfl (by decide) (by decide) Demo.kws
example := C100_pos Demo.parts_wf (size := utf8Len) rfl rfl rfl (by decide) (by decide)
example := C101_amounts_piecewise Demo.parts_wf (size := utf8Len) rfl rfl rfl (by decide) (by decide) .english
  ⟨by intro t ht
      have : TextTag.NATN ∈ [TextTag.SPACE] := ht.2
      revert this; decide,
   by rintro ⟨c, hc, hd⟩
      have : c ∈ [' '] := hc
      rw [List.mem_singleton.1 this] at hd
      revert hd; decide,
   by intro hd
      have : '.' ∈ [' '] := hd
      revert this; decide⟩

/-- the input `"1,5"`, `" now"` -/
example := C101_amounts_before (W := Demo.W) (xs := [.Text ['1', ',', '5'] []]) (ys := [.Text [' ', 'n', 'o', 'w'] []])
  (by intro t ht a ha
      simp only [List.cons_append, List.nil_append, List.mem_cons, List.not_mem_nil, or_false] at ht
      rcases ht with rfl | rfl <;> cases ha) (size := utf8Len) rfl rfl rfl (by decide) (by decide) .english
  ⟨by intro t ht
      have : TextTag.NATN ∈ [TextTag.SPACE] := ht.2
      revert this; decide,
   by rintro ⟨c, hc, hd⟩
      have : c ∈ [' '] := hc
      rw [List.mem_singleton.1 this] at hd
      revert hd; decide,
   by intro hd
      have : '.' ∈ [' '] := hd
      revert this; decide⟩
  ⟨_, .head _, rfl⟩

/-- C101 without the condition on the last token -/
def C101_claim : Prop := ∀ (W : World) (r : AmountResolver) (s t : Str) (l lx ly : LLLine W) (p : Nat),
  createLineFromInputTokens W [.Text s [], .Text t []] utf8Len = .ok l → createLineFromString W s = .ok lx →
  createLineFromString W t = .ok ly →
  r.go (wholeLine l p) = joinAssigned lx.ll_tokens.length (r.go (wholeLine lx p)) (r.go (wholeLine ly p))

/-- C101 needs its condition: `1` followed by `2` is the single amount 12. -/
theorem C101_condition_needed : ¬ C101_claim := by
  intro claim
  have := claim Demo.W .english ['1'] ['2'] _ _ _ 0 rfl rfl rfl
  have e1 : AmountResolver.english.go (wholeLine (Demo.getOk Demo.emptyLine
      (createLineFromInputTokens Demo.W [.Text ['1'] [], .Text ['2'] []] utf8Len)) 0) =
      .ok [⟨0, 1, (['1', '2'] : Str)⟩] := rfl
  have e2 : AmountResolver.english.go (wholeLine (Demo.getOk Demo.emptyLine (createLineFromString Demo.W ['1'])) 0) =
      .ok [⟨0, 0, (['1'] : Str)⟩] := rfl
  have e3 : AmountResolver.english.go (wholeLine (Demo.getOk Demo.emptyLine (createLineFromString Demo.W ['2'])) 0) =
      .ok [⟨0, 0, (['2'] : Str)⟩] := rfl
  have h := e1.symm.trans (this.trans (congrArg (fun x => joinAssigned 1 x _) e2))
  have h := h.trans (congrArg (fun x => joinAssigned 1 (Except.ok [⟨0, 0, (['1'] : Str)⟩]) x) e3)
  have h := Except.ok.inj h
  cases h

end LNlp
