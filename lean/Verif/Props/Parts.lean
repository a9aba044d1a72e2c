import Verif.Lemmas.PartsRun
import Verif.Props.Beside
import Verif.Props.Edit
/- C156: pipelines on lines put together from two parts. -/
namespace LNlp
variable {W : World}

/-- C156: a pipeline of resolvers that do not cross the cut between two parts runs on the whole exactly if it runs on both
parts. Then the finished line has the tokens and attributes of the finished parts, those of the second moved behind the
first, and its rendering is the two renderings side by side. -/
theorem C156_pipeline {size : Str → Nat} {xs ys : List (InputToken W)} {l lx ly : LLLine W}
    (wf : ∀ t ∈ xs ++ ys, t.WF) (ok : createLineFromInputTokens W (xs ++ ys) size = .ok l)
    (okx : createLineFromInputTokens W xs size = .ok lx) (oky : createLineFromInputTokens W ys size = .ok ly)
    (nx : xs ≠ []) (ny : ys ≠ []) {ss : List (Stage W)} (fresh : FreshTypes (xs ++ ys) ss)
    (cut : ∀ s ∈ ss, s.Cut lx (creationHistory W size xs) ly (creationHistory W size ys)) (p px py : Nat → Nat) :
    ((∃ l', runAll l (runsAt p ss) = .ok l') ↔
      (∃ lx', runAll lx (runsAt px ss) = .ok lx') ∧ ∃ ly', runAll ly (runsAt py ss) = .ok ly') ∧
    ∀ l' lx' ly', runAll l (runsAt p ss) = .ok l' → runAll lx (runsAt px ss) = .ok lx' → runAll ly (runsAt py ss) = .ok ly' →
      TokensBeside l' lx' ly' ∧ (∀ k, (k = .char ∨ k = .textTag → NoCustom k (xs ++ ys)) → QueryBeside l' lx' ly' k) ∧
      (AdditiveWidth W → ∀ ks : List (Ty W), (∀ k ∈ ks, k = .char ∨ k = .textTag → NoCustom k (xs ++ ys)) →
        RenderedBeside l' lx' ly' ks) := by
  have P := inParts_create wf ok okx oky nx ny
  have fr : ∀ s ∈ ss, s.resolver.attr ≠ .char ∧ s.resolver.attr ≠ .textTag ∧
      ofType s.resolver.attr (creationHistory W size ys) = [] := fun s hs =>
    have f := fresh.2 s hs
    ⟨f.1, f.2.1, ofType_create_new f.1 f.2.1 (fun t ht => f.2.2 t (by simp [ht]))⟩
  rcases P.runs ss fresh.1 fr cut p px py with ⟨l', lx', ly', h', hx', hy', r, rx, ry, P'⟩ | ⟨⟨e, he⟩, hxy⟩
  · refine ⟨⟨fun _ => ⟨⟨lx', rx⟩, ⟨ly', ry⟩⟩, fun _ => ⟨l', r⟩⟩, fun a b c ha hb hc => ?_⟩
    cases r.symm.trans ha
    cases rx.symm.trans hb
    cases ry.symm.trans hc
    have hh := P'.hl.spec
    have hhx := P'.hlx.spec
    have hhy := P'.hly.spec
    have q := fun k hk => queryBeside_of_history hh.1 hhx.1 hhy.1 hh.2 hhx.2 hhy.2 P'.tokens (P'.types k hk)
    exact ⟨P'.tokens, q, fun L ks hk => C155_parts hh.1 hhx.1 hhy.1 hh.2 hhx.2 hhy.2 L P'.nex P'.ney P'.tokens
      (fun k hm => q k (hk k hm))⟩
  · refine ⟨⟨fun ⟨l', h⟩ => (by rw [he] at h; cases h), fun ⟨⟨lx', h1⟩, ⟨ly', h2⟩⟩ => ?_⟩, fun a b c ha => (by rw [he] at ha; cases ha)⟩
    rcases hxy with ⟨e, h⟩ | ⟨e, h⟩
    · rw [h] at h1; cases h1
    · rw [h] at h2; cases h2

/-- C156 for a text with a word boundary between two parts. -/
theorem C156_text (L : SplitLaws W) (S : SplitStable W) {a b : Str} (na : a ≠ []) (nb : b ≠ []) (brk : WordBreak W a b)
    (fits : utf8Len (a ++ b) < W.usizeBound) {ss : List (Stage W)} (fresh : FreshTypes ([] : List (InputToken W)) ss)
    (cut : ∀ la lb, createLineFromString W a = .ok la → createLineFromString W b = .ok lb → ∀ s ∈ ss,
      s.Cut la (creationHistory W utf8Len [.Text a []]) lb (creationHistory W utf8Len [.Text b []])) (p pa pb : Nat → Nat) :
    ((∃ l l', createLineFromString W (a ++ b) = .ok l ∧ runAll l (runsAt p ss) = .ok l') ↔
      (∃ la la', createLineFromString W a = .ok la ∧ runAll la (runsAt pa ss) = .ok la') ∧
      ∃ lb lb', createLineFromString W b = .ok lb ∧ runAll lb (runsAt pb ss) = .ok lb') ∧
    ∀ l la lb l' la' lb', createLineFromString W (a ++ b) = .ok l → createLineFromString W a = .ok la →
      createLineFromString W b = .ok lb → runAll l (runsAt p ss) = .ok l' → runAll la (runsAt pa ss) = .ok la' →
      runAll lb (runsAt pb ss) = .ok lb' →
      TokensBeside l' la' lb' ∧ (∀ k, QueryBeside l' la' lb' k) ∧ (AdditiveWidth W → ∀ ks, RenderedBeside l' la' lb' ks) := by
  have wf : ∀ t ∈ [InputToken.Text (W := W) a []] ++ [.Text b []], t.WF := by
    intro t ht x hx
    simp only [List.cons_append, List.nil_append, List.mem_cons, List.not_mem_nil, or_false] at ht
    rcases ht with rfl | rfl <;> cases hx
  have plain : ∀ k : Ty W, NoCustom k ([InputToken.Text a []] ++ [.Text b []]) := by
    intro k t ht x hx
    simp only [List.cons_append, List.nil_append, List.mem_cons, List.not_mem_nil, or_false] at ht
    rcases ht with rfl | rfl <;> cases hx
  have fresh' : FreshTypes ([InputToken.Text (W := W) a []] ++ [.Text b []]) ss :=
    ⟨fresh.1, fun s hs => ⟨(fresh.2 s hs).1, (fresh.2 s hs).2.1, plain _⟩⟩
  have both : (∃ l, createLineFromString W (a ++ b) = .ok l) ↔
      (∃ la, createLineFromString W a = .ok la) ∧ ∃ lb, createLineFromString W b = .ok lb := by
    have c := C153_parts L S brk fits
    have t : ∀ {s : Str}, s ≠ [] → ((∃ T, TokensIn W s T) ↔ ∃ l, createLineFromString W s = .ok l) := by
      intro s hs
      constructor
      · rintro ⟨T, ⟨e, _⟩ | ⟨l, h, _⟩⟩
        · exact absurd e hs
        · exact ⟨l, h⟩
      · rintro ⟨l, h⟩
        exact ⟨_, .inr ⟨l, h, rfl⟩⟩
    rw [← t (by simp [na]), ← t na, ← t nb]
    constructor
    · rintro ⟨T, hT⟩
      obtain ⟨A, B, hA, hB, _⟩ := (c T).1 hT
      exact ⟨⟨A, hA⟩, ⟨B, hB⟩⟩
    · rintro ⟨⟨A, hA⟩, ⟨B, hB⟩⟩
      exact ⟨_, (c _).2 ⟨A, B, hA, hB, rfl⟩⟩
  have main := fun {l la lb : LLLine W} (ok : createLineFromString W (a ++ b) = .ok l) (oka : createLineFromString W a = .ok la)
      (okb : createLineFromString W b = .ok lb) =>
    C156_pipeline (size := utf8Len) wf ((create_break L S na nb brk l).1 ok) oka okb (by simp) (by simp) fresh'
      (cut la lb oka okb) p pa pb
  constructor
  · constructor
    · rintro ⟨l, l', ok, r⟩
      obtain ⟨⟨la, oka⟩, ⟨lb, okb⟩⟩ := both.1 ⟨l, ok⟩
      obtain ⟨⟨la', ra⟩, ⟨lb', rb⟩⟩ := (main ok oka okb).1.1 ⟨l', r⟩
      exact ⟨⟨la, la', oka, ra⟩, ⟨lb, lb', okb, rb⟩⟩
    · rintro ⟨⟨la, la', oka, ra⟩, ⟨lb, lb', okb, rb⟩⟩
      obtain ⟨l, ok⟩ := both.2 ⟨⟨la, oka⟩, ⟨lb, okb⟩⟩
      obtain ⟨l', r⟩ := (main ok oka okb).1.2 ⟨⟨la', ra⟩, ⟨lb', rb⟩⟩
      exact ⟨l, l', ok, r⟩
  · intro l la lb l' la' lb' ok oka okb r ra rb
    obtain ⟨h1, h2, h3⟩ := (main ok oka okb).2 l' la' lb' r ra rb
    exact ⟨h1, fun k => h2 k (fun _ => plain k), fun A ks => h3 A ks (fun k _ _ => plain k)⟩

/-- the stages: parts of speech, clause keywords, and amounts -/
def Demo.partStages : List (Stage Demo.W) := [.pos, .keywords Demo.kws, .amounts .english]

theorem Demo.partStages_fresh (input : List (InputToken Demo.W)) (plain : ∀ k, NoCustom k input) : FreshTypes input Demo.partStages := by
  refine ⟨?_, ?_⟩
  · show List.Pairwise (· ≠ ·) [(Ty.tag : Ty Demo.W), .clauseKeyword, .amount]
    simp
  · intro s hs
    simp only [Demo.partStages, List.mem_cons, List.not_mem_nil, or_false] at hs
    rcases hs with rfl | rfl | rfl <;> exact ⟨(by intro h; cases h), (by intro h; cases h), plain _⟩

example := C156_pipeline Demo.priceWF (size := utf8Len) rfl rfl rfl (by decide) (by decide)
  (Demo.partStages_fresh _ Demo.pricePlain) (by
    intro s hs
    simp only [Demo.partStages, List.mem_cons, List.not_mem_nil, or_false] at hs
    rcases hs with rfl | rfl | rfl
    · trivial
    · trivial
    · refine .inr ⟨⟨?_, ?_, ?_⟩, ⟨_, .head _, rfl⟩⟩
      · intro t ht
        have : TextTag.NATN ∈ [TextTag.SPACE] := ht.2
        revert this; decide
      · rintro ⟨c, hc, hd⟩
        have : c ∈ [' '] := hc
        rw [List.mem_singleton.1 this] at hd
        revert hd; decide
      · intro hd
        have : '.' ∈ [' '] := hd
        revert this; decide) id id id

/-- the text `I pay 5 now`, cut before the second blank -/
example := C156_text Demo.splitLaws Demo.splitStable (a := "I pay".toList) (b := " 5 now".toList) (by decide) (by decide)
  Demo.editBreak (by decide) (Demo.partStages_fresh _ (fun k t ht => by cases ht)) (by
    intro la lb oka okb s hs
    simp only [Demo.partStages, List.mem_cons, List.not_mem_nil, or_false] at hs
    rcases hs with rfl | rfl | rfl
    · trivial
    · trivial
    · refine .inr ⟨⟨?_, ?_, ?_⟩, ⟨_, .head _, rfl⟩⟩
      · intro t ht
        have : TextTag.NATN ∈ [TextTag.SPACE] := ht.2
        revert this; decide
      · rintro ⟨c, hc, hd⟩
        have : c ∈ [' '] := hc
        rw [List.mem_singleton.1 this] at hd
        revert hd; decide
      · intro hd
        have : '.' ∈ [' '] := hd
        revert this; decide) id id id

/-- C156 also for stages that assign the same type -/
def C156_same_type_claim : Prop := ∀ (W : World) (size : Str → Nat) (xs ys : List (InputToken W)) (l lx ly l' lx' ly' : LLLine W)
  (ss : List (Stage W)) (k : Ty W), createLineFromInputTokens W (xs ++ ys) size = .ok l →
  createLineFromInputTokens W xs size = .ok lx → createLineFromInputTokens W ys size = .ok ly →
  (∀ t ∈ xs ++ ys, t.attrList = []) → (∀ s ∈ ss, ∃ t : TextMatchAssignResolver W k, s = .table t) →
  runAll l (runsAt id ss) = .ok l' → runAll lx (runsAt id ss) = .ok lx' → runAll ly (runsAt id ss) = .ok ly' →
  QueryBeside l' lx' ly' k

def Demo.tableNow : TextMatchAssignResolver Demo.W (Ty.user 5) :=
  .newCaseInsensitive (W := Demo.W) (Ty.user 5) [(['n', 'o', 'w'], [(['n'] : Str)])]
def Demo.nowX : List (InputToken Demo.W) := [.Text ['n', 'o', 'w'] []]
def Demo.payY : List (InputToken Demo.W) := [.Text ['p', 'a', 'y'] []]
def Demo.twoTables : List (Stage Demo.W) := [.table Demo.table, .table Demo.tableNow]
def Demo.made (input : List (InputToken Demo.W)) : LLLine Demo.W :=
  Demo.getOk Demo.emptyLine (createLineFromInputTokens Demo.W input utf8Len)
def Demo.tabled (input : List (InputToken Demo.W)) : LLLine Demo.W :=
  Demo.getOk Demo.emptyLine (runAll (Demo.made input) (runsAt id Demo.twoTables))
theorem Demo.getOk_eq {α : Type} {d : α} {x : R α} (h : (match x with | .ok _ => true | .error _ => false) = true) :
    x = .ok (Demo.getOk d x) := by
  cases x with
  | ok a => rfl
  | error e => cases h

/-- C156 needs different types: what a second table of the same type finds in the first part is listed behind what the
first table found in the second part. -/
theorem C156_same_type_false : ¬ C156_same_type_claim := by
  intro H
  have h := H Demo.W utf8Len Demo.nowX Demo.payY (Demo.made _) (Demo.made _) (Demo.made _) (Demo.tabled (Demo.nowX ++ Demo.payY)) (Demo.tabled Demo.nowX)
    (Demo.tabled Demo.payY) Demo.twoTables (Ty.user 5) (Demo.getOk_eq rfl) (Demo.getOk_eq rfl) (Demo.getOk_eq rfl) (by
      intro t ht
      simp only [Demo.nowX, Demo.payY, List.cons_append, List.nil_append, List.mem_cons, List.not_mem_nil, or_false] at ht
      rcases ht with rfl | rfl <;> rfl) (by
      intro s hs
      simp only [Demo.twoTables, List.mem_cons, List.not_mem_nil, or_false] at hs
      rcases hs with rfl | rfl <;> exact ⟨_, rfl⟩) (Demo.getOk_eq rfl) (Demo.getOk_eq rfl) (Demo.getOk_eq rfl)
  have e : queried (Demo.tabled (Demo.nowX ++ Demo.payY)) (Ty.user 5) =
      [((1, 1), ['p', 'a', 'y'], [(['p'] : Str), ['q']]), ((0, 0), ['n', 'o', 'w'], [(['n'] : Str)])] := rfl
  have e1 : queried (Demo.tabled Demo.nowX) (Ty.user 5) = [((0, 0), ['n', 'o', 'w'], [(['n'] : Str)])] := rfl
  unfold QueryBeside at h
  rw [e, e1] at h
  have := congrArg (fun x => (x.head?).map (fun y => y.1)) h
  revert this
  decide

end LNlp
