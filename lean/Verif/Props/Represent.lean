import Verif.Lemmas.RepresentShow
import Verif.Demo.Examples
/- Property C131: attribute values matter only where they are compared or printed. -/
namespace LNlp

section
variable {W : World} {T : Types}

/-! ### C131: representing attribute values differently -/

/-- C131: the same input with recoded attributes gives the same tokens with recoded attributes on the same ranges, or the
same panic. Nothing is asked of the recoding: not even `PartialEq` has to agree. -/
theorem C131_create (ρ : Recoding W T) {input : List (InputToken W)} {input' : List (InputToken (W.retype T))}
    (size : Str → Nat) (hi : AllRel (InputRel ρ) input input') :
    SameOutcome (Recoded ρ) (createLineFromInputTokens W input size) (createLineFromInputTokens (W.retype T) input' size) :=
  create_rel size hi

/-- C131: a matcher expression finds the recoded values at the same places; `attr_eq` and `token_has_any` must compare
with values that are equal to the same things. -/
theorem C131_matchers (ρ : Recoding W T) {l : LLLine W} {l' : LLLine (W.retype T)} (ha : Recoded ρ l l') {Out Out' : Type}
    {S : Out → Out' → Prop} {m : XMatch W Out} {m' : XMatch (W.retype T) Out'} (hm : Paired ρ S m m') (d : Dir) :
    SameOutcome (AllRel (AtSame S)) (m.go d l) (m'.go d l') := paired_answers ha.twins hm d

/-- C131: so does a search of the line, at the same positions. -/
theorem C131_find (ρ : Recoding W T) {l : LLLine W} {l' : LLLine (W.retype T)} (ha : Recoded ρ l l') {Out Out' : Type}
    {S : Out → Out' → Prop} {m : XMatch W Out} {m' : XMatch (W.retype T) Out'} (hm : Paired ρ S m m') :
    SameOutcome (AllRel (fun f f' => f.range = f'.range ∧ S f.found f'.found)) (l.find m) (l'.find m') := find_rel ha hm

/-- C131: a resolver that treats recoded values alike assigns recoded values to the same ranges in the same order, or
panics alike. -/
theorem C131_run (ρ : Recoding W T) {l : LLLine W} {l' : LLLine (W.retype T)} (ha : Recoded ρ l l') {r : Resolver W}
    {r' : Resolver (W.retype T)} (hr : ResolverRel ρ r r') (ptr ptr' : Nat) :
    SameOutcome (Recoded ρ) (l.run ptr r) (l'.run ptr' r') := run_rel ha hr ptr ptr'

/-- C131 for whole pipelines. -/
theorem C131_pipeline (ρ : Recoding W T) {l : LLLine W} {l' : LLLine (W.retype T)} (ha : Recoded ρ l l')
    {rs : List (Nat × Resolver W)} {rs' : List (Nat × Resolver (W.retype T))}
    (hr : AllRel (fun p q => ResolverRel ρ p.2 q.2) rs rs') : SameOutcome (Recoded ρ) (runAll l rs) (runAll l' rs') :=
  runAll_rel ha hr

/-- C131: the library's resolvers treat recoded values alike; tables need related values for the same texts. -/
theorem C131_library (ρ : Recoding W T) {st : Stage W} {st' : Stage (W.retype T)} (h : StageRel ρ st st') :
    ResolverRel ρ st.resolver st'.resolver := stage_rel h

/-- C131: the resolvers of the currency test too. -/
theorem C131_currency (ρ : Recoding W T) {kSym kAmt k : Ty W} {usd euro : Val kSym} {usd' euro' : Val (ρ.ty kSym)}
    {mk : Val kSym → Val kAmt → Val k} {mk' : Val (ρ.ty kSym) → Val (ρ.ty kAmt) → Val (ρ.ty k)}
    (hu : ρ.val kSym usd usd') (he : ρ.val kSym euro euro')
    (hm : ∀ a a' b b', ρ.val kSym a a' → ρ.val kAmt b b' → ρ.val k (mk a b) (mk' a' b')) :
    ResolverRel ρ (currencySymbolResolver usd euro) (currencySymbolResolver usd' euro') ∧
    ResolverRel ρ (currencyAmountResolver mk) (currencyAmountResolver mk') := ⟨symbol_rel hu he, money_rel hm⟩

/-- C131: a query gives the same ranges and texts with the recoded values in the same order. -/
theorem C131_query (ρ : Recoding W T) {l : LLLine W} {l' : LLLine (W.retype T)} (ha : Recoded ρ l l') (k : Ty W) :
    SameOutcome (AllRel (fun x x' => x.1 = x'.1 ∧ x.2.1 = x'.2.1 ∧ AllRel (ρ.val k) x.2.2 x'.2.2)) (l.query k)
      (l'.query (ρ.ty k)) := query_rel ha k

/-- C131: if recoded values print alike, the lines display alike. -/
theorem C131_display (ρ : Recoding W T) {l : LLLine W} {l' : LLLine (W.retype T)} (ha : Recoded ρ l l') (ks : List (Ty W))
    (hd : ∀ k ∈ ks, ∀ v v', ρ.val k v v' → valDbg k v = valDbg (ρ.ty k) v') :
    shownWith l' (ks.map ρ.ty) = shownWith l ks := shown_rel ha ks hd

end

/-! Strings stored as lists of code points. -/
namespace Demo

/-- attribute types whose values are lists of numbers -/
def Codes : Types where
  Key := Nat
  decKey := inferInstance
  UserVal := fun _ => List Nat
  userEq := fun _ a b => a == b
  userDbg := fun _ n => ['"'] ++ n.map Char.ofNat ++ ['"']

def coding : Recoding W Codes where
  key := id
  inj := fun _ _ h => h
  rel := fun _ (s : Str) (n : List Nat) => n = s.map Char.toNat

abbrev W' : World := W.retype Codes

theorem codes_inj {a b : Str} (h : a.map Char.toNat = b.map Char.toNat) : a = b := by
  have : ∀ s : Str, (s.map Char.toNat).map Char.ofNat = s := by
    intro s
    simp [List.map_map, Function.comp_def, Char.ofNat_toNat]
  rw [← this a, ← this b, h]

theorem codes_eq (a b : Str) : (a == b) = (a.map Char.toNat == b.map Char.toNat) := by
  by_cases h : a = b
  · subst h; simp
  · rw [beq_eq_false_iff_ne.2 h, beq_eq_false_iff_ne.2 (fun e => h (codes_inj e))]

theorem coding_eq (k : Nat) (v : Str) : EqAlike coding (Ty.user (W := W) k) v (v.map Char.toNat) := by
  intro a a' h
  have h : a' = (show Str from a).map Char.toNat := h
  subst h
  exact codes_eq _ _

/-- the input of `exInput`, recoded -/
def exInput' : List (InputToken W') :=
  [.Text ['P','a','y',' ','1','2','a','b',',',' '] [AnyAttribute.new (W := W') (Ty.user (0 : Nat)) ([65] : List Nat)],
   .Custom 3 [AnyAttribute.new (W := W') (Ty.user (1 : Nat)) ([76] : List Nat), AnyAttribute.new (W := W') (Ty.user (0 : Nat)) ([66] : List Nat)],
   .Text ['1','_','0'] []]

theorem codedInput : AllRel (InputRel coding) exInput exInput' :=
  .cons (.text _ (.cons (.new (ρ := coding) (Ty.user 0) rfl) .nil))
    (.cons (.custom 3 (.cons (.new (ρ := coding) (Ty.user 1) rfl) (.cons (.new (ρ := coding) (Ty.user 0) rfl) .nil)))
      (.cons (.text _ .nil) .nil))

/-- the line of the recoded input -/
def exLine' : LLLine W' := getOk ⟨[], ⟨TypeIdToMany.empty, [], [], HMap.empty⟩⟩ (createLineFromInputTokens W' exInput' List.length)

theorem exLine'_ok : createLineFromInputTokens W' exInput' List.length = .ok exLine' := rfl

theorem codedLine : Recoded coding exLine exLine' := by
  have := C131_create coding List.length codedInput
  rw [exLine_ok, exLine'_ok] at this
  exact this

/-- `all((attr_eq(&A), attr::<U>()))`, twice -/
theorem codedMatcher : Paired coding (fun p q => p.1 = q.1 ∧ coding.val (Ty.user 1) p.2 q.2)
    (X.seq2 (X.attrEq (W := W) (Ty.user 0) (['A'] : Str)) (X.attr (Ty.user 1)))
    (X.seq2 (X.attrEq (W := W') (Ty.user (0 : Nat)) ([65] : List Nat)) (X.attr (Ty.user (1 : Nat)))) :=
  .seq2 (.attrEq (ρ := coding) (Ty.user 0) (coding_eq 0 ['A'])) (.attr (ρ := coding) (Ty.user 1))

/-- a table for words, with strings and with codes -/
def wordTable : TextMatchAssignResolver W (Ty.user 3) :=
  .new _ (fun s => if s = ['P','a','y'] then some [(['v'] : Str)] else none)
def wordTable' : TextMatchAssignResolver W' (Ty.user (3 : Nat)) :=
  .new _ (fun s => if s = ['P','a','y'] then some [([118] : List Nat)] else none)

theorem codedTable : StageRel coding (.table wordTable) (.table wordTable') := by
  refine .table (ρ := coding) (Ty.user 3) rfl (fun s => ?_)
  show AllRel _ (Option.getD (if s = ['P','a','y'] then some [(['v'] : Str)] else none) [])
    (Option.getD (if s = ['P','a','y'] then some [([118] : List Nat)] else none) [])
  split
  · exact .cons rfl .nil
  · exact .nil

end Demo

/-- C131 on strings kept as code points: the search finds the custom token's attribute after the text of the other; both
find one thing. -/
example : (∃ f f', Demo.exLine.find (X.seq2 (X.attrEq (W := Demo.W) (Ty.user 0) (['A'] : Str)) (X.attr (Ty.user 1))) = .ok [f] ∧
    Demo.exLine'.find (X.seq2 (X.attrEq (W := Demo.W') (Ty.user (0 : Nat)) ([65] : List Nat)) (X.attr (Ty.user (1 : Nat)))) =
      .ok [f'] ∧ f.found.2 = (['L'] : Str) ∧ f'.found.2 = ([76] : List Nat)) ∧
    SameOutcome (AllRel (fun f f' => f.range = f'.range ∧ f.found.1 = f'.found.1 ∧ Demo.coding.val (Ty.user 1) f.found.2 f'.found.2))
      (Demo.exLine.find (X.seq2 (X.attrEq (W := Demo.W) (Ty.user 0) (['A'] : Str)) (X.attr (Ty.user 1))))
      (Demo.exLine'.find (X.seq2 (X.attrEq (W := Demo.W') (Ty.user (0 : Nat)) ([65] : List Nat)) (X.attr (Ty.user (1 : Nat))))) :=
  ⟨⟨_, _, rfl, rfl, rfl, rfl⟩, C131_find Demo.coding Demo.codedLine Demo.codedMatcher⟩

/-- a pipeline with a table, parts of speech, keywords, clauses and amounts, on both -/
example (k : ClauseKeywordResolver) (a : AmountResolver) :
    SameOutcome (Recoded Demo.coding)
      (runAll Demo.exLine [(1, (Stage.table Demo.wordTable).resolver), (2, Stage.pos.resolver),
        (3, (Stage.keywords k).resolver), (4, Stage.clauses.resolver), (5, (Stage.amounts a).resolver)])
      (runAll Demo.exLine' [(1, (Stage.table Demo.wordTable').resolver), (2, Stage.pos.resolver),
        (3, (Stage.keywords k).resolver), (4, Stage.clauses.resolver), (5, (Stage.amounts a).resolver)]) :=
  C131_pipeline Demo.coding Demo.codedLine
    (.cons (C131_library _ Demo.codedTable) (.cons (C131_library _ .pos) (.cons (C131_library _ (.keywords k))
      (.cons (C131_library _ .clauses) (.cons (C131_library _ (.amounts a)) .nil)))))

/-- the table assigns its word, and both lines display the same -/
example : ∃ l l', runAll Demo.exLine [(1, (Stage.table Demo.wordTable).resolver)] = .ok l ∧
    runAll Demo.exLine' [(1, (Stage.table Demo.wordTable').resolver)] = .ok l' ∧
    l.query (Ty.user 3) = .ok [((0, 0), ['P','a','y'], [(['v'] : Str)])] ∧
    shownWith l' ([Ty.user 0, Ty.user 3].map Demo.coding.ty) = shownWith l [Ty.user 0, Ty.user 3] := by
  refine ⟨_, _, rfl, rfl, rfl, ?_⟩
  refine C131_display Demo.coding (C131_pipeline Demo.coding Demo.codedLine
    (.cons (a := ((1 : Nat), (Stage.table Demo.wordTable).resolver)) (b := ((1 : Nat), (Stage.table Demo.wordTable').resolver))
      (C131_library _ Demo.codedTable) .nil)) _ ?_
  intro k hk v v' hv
  simp only [List.mem_cons, List.not_mem_nil, or_false] at hk
  have : ∀ (s : Str) (n : List Nat), n = s.map Char.toNat → (['"'] ++ s ++ ['"'] : Str) = ['"'] ++ n.map Char.ofNat ++ ['"'] := by
    rintro s _ rfl
    simp [List.map_map, Function.comp_def, Char.ofNat_toNat]
  rcases hk with rfl | rfl
  · exact this v v' hv
  · exact this v v' hv

/-! ### values that stand for each other without being equal to the same things -/
namespace Demo

/-- attribute types with a single value -/
def Units : Types where
  Key := Nat
  decKey := inferInstance
  UserVal := fun _ => Unit
  userEq := fun _ _ _ => true
  userDbg := fun _ _ => ['(', ')']

/-- every value is forgotten -/
def forget : Recoding W Units where
  key := id
  inj := fun _ _ h => h
  rel := fun _ _ _ => True

abbrev W'' : World := W.retype Units

def exInput'' : List (InputToken W'') :=
  [.Text ['P','a','y',' ','1','2','a','b',',',' '] [AnyAttribute.new (W := W'') (Ty.user (0 : Nat)) ()],
   .Custom 3 [AnyAttribute.new (W := W'') (Ty.user (1 : Nat)) (), AnyAttribute.new (W := W'') (Ty.user (0 : Nat)) ()],
   .Text ['1','_','0'] []]

theorem forgottenInput : AllRel (InputRel forget) exInput exInput'' :=
  .cons (.text _ (.cons (.new (ρ := forget) (Ty.user 0) trivial) .nil))
    (.cons (.custom 3 (.cons (.new (ρ := forget) (Ty.user 1) trivial) (.cons (.new (ρ := forget) (Ty.user 0) trivial) .nil)))
      (.cons (.text _ .nil) .nil))

def exLine'' : LLLine W'' := getOk ⟨[], ⟨TypeIdToMany.empty, [], [], HMap.empty⟩⟩ (createLineFromInputTokens W'' exInput'' List.length)

theorem exLine''_ok : createLineFromInputTokens W'' exInput'' List.length = .ok exLine'' := rfl

theorem forgottenLine : Recoded forget exLine exLine'' := by
  have := C131_create forget List.length forgottenInput
  rw [exLine_ok, exLine''_ok] at this
  exact this

end Demo

/-- C131 without values: `x::attr` finds something at the same places, whatever the values are. -/
example (k : Nat) (d : Dir) : SameOutcome (AllRel (AtSame fun _ _ => True)) ((X.attr (Ty.user (W := Demo.W) k)).go d Demo.exLine)
    ((X.attr (W := Demo.W'') (Ty.user k)).go d Demo.exLine'') :=
  C131_matchers Demo.forget Demo.forgottenLine (.attr (ρ := Demo.forget) (Ty.user k)) d

/-- C131: the condition on `attr_eq` is needed. Values that stand for each other, but are equal to other things, are
found at other places. -/
theorem C131_eq_needed : ∃ (v : Val (Ty.user (W := Demo.W) 0)) (v' : Val (Demo.forget.ty (Ty.user 0))),
    Recoded Demo.forget Demo.exLine Demo.exLine'' ∧ Demo.forget.val (Ty.user 0) v v' ∧
    (X.attrEq (Ty.user 0) v).go (.fwd 0) Demo.exLine = .ok [] ∧
    ∃ i, (X.attrEq (Demo.forget.ty (Ty.user 0)) v').go (.fwd 0) Demo.exLine'' = .ok [((), i)] :=
  ⟨(['Z'] : Str), (), Demo.forgottenLine, trivial, rfl, _, rfl⟩

/-- C131: the condition on `Debug` is needed for the display. -/
theorem C131_debug_needed : Recoded Demo.forget Demo.exLine Demo.exLine'' ∧
    shownWith Demo.exLine'' ([Ty.user 1].map Demo.forget.ty) ≠ shownWith Demo.exLine [Ty.user 1] := by
  refine ⟨Demo.forgottenLine, ?_⟩
  have h1 : ∃ s, shownWith Demo.exLine'' ([Ty.user 1].map Demo.forget.ty) = .ok s ∧ s.getLast? = some ')' := ⟨_, rfl, rfl⟩
  have h2 : ∃ s, shownWith Demo.exLine [Ty.user 1] = .ok s ∧ s.getLast? = some '"' := ⟨_, rfl, rfl⟩
  obtain ⟨s, e, hs⟩ := h1
  obtain ⟨s', e', hs'⟩ := h2
  intro h
  rw [e, e'] at h
  cases h
  rw [hs] at hs'
  cases hs'

example := C131_run Demo.coding Demo.codedLine (C131_library _ Demo.codedTable) 1 2
example := C131_query Demo.coding Demo.codedLine (Ty.user 1)

end LNlp
