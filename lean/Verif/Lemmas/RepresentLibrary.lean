import Verif.Lemmas.RepresentRun
import Verif.Lemmas.ProgramCareful
/- The resolvers of the library treat recoded values alike (C131). -/
namespace LNlp
variable {W : World} {T : Types} {ρ : Recoding W T}

/-! ### the library's own types stay themselves -/

theorem eqAlike_textTag (ρ : Recoding W T) (v : TextTag) : EqAlike ρ .textTag v v := by
  intro a a' h
  cases (show a = a' from h)
  rfl

theorem eqAlike_chars (ρ : Recoding W T) (cs : List Char) : AllRel (EqAlike' ρ .char) cs cs :=
  AllRel.refl (S := fun (a b : Char) => EqAlike' ρ .char a b) (fun v a a' h => by cases (show a = a' from h); rfl) cs

theorem paired_textTag (ρ : Recoding W T) (v : TextTag) :
    Paired ρ Eq (X.attrEq (W := W) .textTag v) (X.attrEq (W := W.retype T) .textTag v) :=
  Paired.attrEq .textTag (eqAlike_textTag ρ v)

theorem paired_chars (ρ : Recoding W T) (cs : List Char) :
    Paired ρ (fun (a b : Char) => a = b) (charMatcher W cs) (charMatcher (W.retype T) cs) :=
  Paired.tokenHasAny .char (eqAlike_chars ρ cs)

theorem paired_kw (ρ : Recoding W T) :
    Paired ρ (fun (a b : ClauseKeyword) => a = b) (kwMatcher W) (kwMatcher (W.retype T)) :=
  Paired.attr .clauseKeyword

theorem paired_natn (ρ : Recoding W T) :
    Paired ρ (fun (p q : Unit × Str) => p.1 = q.1 ∧ p.2 = q.2) (natnText W) (natnText (W.retype T)) :=
  Paired.all2 (paired_textTag ρ _) Paired.tokenText

theorem paired_delim (ρ : Recoding W T) :
    Paired ρ (AnyOf2Rel (fun (a b : ClauseKeyword) => a = b) Eq) (clauseDelimiter W) (clauseDelimiter (W.retype T)) :=
  Paired.anyOf2 (Paired.attr .clauseKeyword) (paired_textTag ρ _)

theorem allRel_pairs {α β : Type} {xs ys : List (α × β)} (h : AllRel (fun p q => p.1 = q.1 ∧ p.2 = q.2) xs ys) : xs = ys :=
  (h.imp (S' := Eq) (fun _ _ h => Prod.ext h.1 h.2)).eq

/-! ### programs that finish what they found -/

theorem finishFound_rel {α α' V V' : Type} {Q : α → α' → Prop} {S : V → V' → Prop} {f : α → List V} {g : α' → List V'}
    (hf : ∀ a a', Q a a' → AllRel S (f a) (g a')) (n : Nat) {outs outs'} (h : AllRel Q outs outs') :
    AllRel (fun p q => p.1 = q.1 ∧ S p.2 q.2) (finishFound n f outs) (finishFound n g outs') := by
  have key : ∀ m, AllRel (fun p q => p.1 = q.1 ∧ S p.2 q.2)
      ((outs.zipIdx m).flatMap (fun p => (f p.1).map (fun v => (n + p.2, v))))
      ((outs'.zipIdx m).flatMap (fun p => (g p.1).map (fun v => (n + p.2, v)))) := by
    induction h with
    | nil => intro m; exact .nil
    | cons a _ ih =>
      intro m
      simp only [List.zipIdx_cons, List.flatMap_cons]
      exact ((hf _ _ a).map (fun v v' hv => ⟨rfl, hv⟩)).append (ih (m + 1))
  exact key 0

theorem findProg_rel {Out Out' V V' : Type} {Q : Out → Out' → Prop} {S : V → V' → Prop} {m : XMatch W Out}
    {m' : XMatch (W.retype T) Out'} (hm : Paired ρ Q m m') {f : Out → List V} {g : Out' → List V'}
    (hf : ∀ a a', Q a a' → AllRel S (f a) (g a')) (x : LRange) : ApiRel ρ S (findProg m f x) (findProg m' g x) :=
  .call (.findBy 0 hm) (fun _ _ _ h => .finish (finishFound_rel hf 1 h))

/-! ### clauses -/

theorem sameFinish {V : Type} (acc : List (Nat × V)) :
    AllRel (fun (p q : Nat × V) => p.1 = q.1 ∧ p.2 = q.2) acc acc := AllRel.refl (fun _ => ⟨rfl, rfl⟩) acc

theorem clauseLoop_rel : ∀ (hs : List Nat) (n : Nat) (found : Bool) (acc : List (Nat × Clause)),
    ApiRel ρ (fun (a b : Clause) => a = b) (clauseLoop W n hs found acc) (clauseLoop (W.retype T) n hs found acc)
  | [], _, _, acc => by
    simp only [clauseLoop]
    exact .finish (sameFinish acc)
  | h :: hs, n, found, acc => by
    simp only [clauseLoop]
    refine .call (.trimSelection h (paired_textTag ρ _) true true) (fun rs _ _ _ => ?_)
    cases rs with
    | nil => exact clauseLoop_rel hs _ _ _
    | cons r rs =>
      refine .call (.matchBackwards h (paired_kw ρ)) (fun rs2 outs outs' ho => ?_)
      cases AllRel.eq ho
      cases outs with
      | nil => exact clauseLoop_rel hs _ _ _
      | cons o _ => cases o <;> exact clauseLoop_rel hs _ _ _

theorem clauseOne_rel : ApiRel ρ (fun (a b : Clause) => a = b) (clauseOne W) (clauseOne (W.retype T)) := by
  refine .call (.trimSelection 1 (paired_textTag ρ _) true true) (fun rs _ _ _ => ?_)
  cases rs with
  | nil => exact .finish .nil
  | cons r rs =>
    refine .call (.matchBackwards 1 (paired_kw ρ)) (fun rs2 outs outs' ho => ?_)
    cases AllRel.eq ho
    cases outs with
    | nil => exact .finish (sameFinish _)
    | cons o _ => cases o <;> exact .finish (sameFinish _)

theorem clauseProg_rel (x : LRange) :
    ApiRel ρ (fun (a b : Clause) => a = b) (clauseProg W x) (clauseProg (W.retype T) x) := by
  refine .call (.splitBy 0 (paired_delim ρ)) (fun rs _ _ _ => ?_)
  rcases rs with _ | ⟨r, _ | ⟨r', rs⟩⟩
  · exact clauseLoop_rel _ _ _ _
  · exact clauseOne_rel
  · exact clauseLoop_rel _ _ _ _

/-! ### amounts -/

abbrev AmountRel (ρ : Recoding W T) (p : Api W W.Decimal) (p' : Api (W.retype T) (W.retype T).Decimal) : Prop :=
  ApiRel ρ (fun (a : W.Decimal) (b : W.Decimal) => a = b) p p'

theorem delimP_rel (r : AmountResolver) : ∀ (fuel n h : Nat) (num : Str) (k : AmountK W) (k' : AmountK (W.retype T)),
    (∀ n h num o, AmountRel ρ (k n h num o) (k' n h num o)) →
    AmountRel ρ (delimP r fuel n h num k) (delimP r fuel n h num k')
  | 0, _, _, _, _, _, _ => .panic _
  | fuel + 1, n, h, num, k, k', hk => by
    simp only [delimP]
    refine .call (.matchForwards h (paired_chars ρ _)) (fun rs _ _ _ => ?_)
    cases rs with
    | nil => exact hk _ _ _ _
    | cons r0 rs =>
      refine .call (.matchForwards n (paired_natn ρ)) (fun rs2 outs outs' ho => ?_)
      cases allRel_pairs ho
      rcases outs with _ | ⟨⟨_, text⟩, outs⟩
      · exact hk _ _ _ _
      · exact delimP_rel r fuel _ _ _ k k' hk

theorem decP_rel (r : AmountResolver) (n h : Nat) (num : Str) (o : Option Nat) {k : AmountK W} {k' : AmountK (W.retype T)}
    (hk : ∀ n h num o, AmountRel ρ (k n h num o) (k' n h num o)) :
    AmountRel ρ (decP r n h num o k) (decP r n h num o k') := by
  cases o with
  | some g => exact hk _ _ _ _
  | none =>
    refine .call (.matchForwards h (paired_chars ρ _)) (fun rs _ _ _ => ?_)
    cases rs with
    | nil =>
      refine .call (.matchForwards h (paired_natn ρ)) (fun rs2 outs outs' ho => ?_)
      cases allRel_pairs ho
      rcases outs with _ | ⟨⟨_, text⟩, outs⟩
      · exact hk _ _ _ _
      · exact hk _ _ _ _
    | cons r0 rs =>
      refine .call (.matchForwards n (paired_natn ρ)) (fun rs2 outs outs' ho => ?_)
      cases allRel_pairs ho
      rcases outs with _ | ⟨⟨_, text⟩, outs⟩
      · exact hk _ _ _ _
      · exact hk _ _ _ _

theorem outerP_rel (r : AmountResolver) (inner : Nat) : ∀ (fuel n h : Nat) (acc : List (Nat × W.Decimal)),
    AmountRel ρ (outerP (W := W) r inner fuel n h acc) (outerP (W := W.retype T) r inner fuel n h acc)
  | 0, _, _, _ => .panic _
  | fuel + 1, n, h, acc => by
    simp only [outerP]
    refine .call (.findBy h (paired_natn ρ)) (fun rs outs outs' ho => ?_)
    cases allRel_pairs ho
    rcases outs with _ | ⟨⟨_, text⟩, outs⟩
    · exact .finish (sameFinish acc)
    refine delimP_rel r _ _ _ _ _ _ (fun n1 h1 num1 o1 => decP_rel r _ _ _ _ (fun n2 h2 num2 o2 => ?_))
    unfold amountNext
    cases hp : W.parseDecimal num2 with
    | none =>
      rw [show (W.retype T).parseDecimal num2 = none from hp]
      exact .panic _
    | some d =>
      rw [show (W.retype T).parseDecimal num2 = some d from hp]
      refine .call (.splitWith h h2) (fun rs bs bs' hb => ?_)
      cases hb
      rcases bs with ⟨_ | _, _ | _⟩
      · exact .finish (sameFinish _)
      · exact outerP_rel r inner fuel _ _ _
      · exact .finish (sameFinish _)
      · exact outerP_rel r inner fuel _ _ _

/-! ### resolvers -/

theorem resolverRel_of {r : Resolver W} {r' : Resolver (W.retype T)} {k : Ty W}
    {go : LLSelection W → R (List (LLCursorAssignment (Val k)))}
    {go' : LLSelection (W.retype T) → R (List (LLCursorAssignment (Val (ρ.ty k))))}
    (er : r = ⟨k, fun sel => okMap (fun as => (as, false)) (go sel)⟩)
    (er' : r' = ⟨ρ.ty k, fun sel => okMap (fun as => (as, false)) (go' sel)⟩)
    (p : LRange → Api W (Val k)) (p' : LRange → Api (W.retype T) (Val (ρ.ty k)))
    (same : ∀ x, ApiRel ρ (ρ.val k) (p x) (p' x))
    (h : ∀ (l : LLLine W) (ptr : Nat), l.ll_tokens ≠ [] →
      go (wholeLine l ptr) = (p (wholeLine l ptr).range).run (wholeLine l ptr).ll_line [(wholeLine l ptr).range])
    (h' : ∀ (l : LLLine (W.retype T)) (ptr : Nat), l.ll_tokens ≠ [] →
      go' (wholeLine l ptr) = (p' (wholeLine l ptr).range).run (wholeLine l ptr).ll_line [(wholeLine l ptr).range]) :
    ResolverRel ρ r r' := by
  subst er er'
  refine .mk k p p' same (fun l ptr ne => ?_) (fun l ptr ne => ?_)
  · rw [h l ptr ne]
    simp only [apiResolver]
    cases (p (wholeLine l ptr).range).run (wholeLine l ptr).ll_line [(wholeLine l ptr).range] <;> rfl
  · rw [h' l ptr ne]
    simp only [apiResolver]
    cases (p' (wholeLine l ptr).range).run (wholeLine l ptr).ll_line [(wholeLine l ptr).range] <;> rfl

theorem tableResolver_eq {k : Ty W} (t : TextMatchAssignResolver W k) :
    t.resolver = ⟨k, fun sel => okMap (fun as => (as, false)) (t.go sel)⟩ := by
  simp only [TextMatchAssignResolver.resolver]
  congr 1; funext sel; cases t.go sel <;> rfl

theorem posResolver_eq (W : World) :
    posTagResolver W = ⟨.tag, fun sel => okMap (fun as => (as, false)) (posTagGo sel)⟩ := by
  simp only [posTagResolver]
  congr 1; funext sel; cases posTagGo sel <;> rfl

theorem keywordResolver_eq (W : World) (r : ClauseKeywordResolver) :
    r.resolver W = ⟨.clauseKeyword, fun sel => okMap (fun as => (as, false)) (r.go sel)⟩ := by
  simp only [ClauseKeywordResolver.resolver]
  congr 1; funext sel; cases r.go sel <;> rfl

theorem clauseResolver_eq (W : World) :
    clauseResolver W = ⟨.clause, fun sel => okMap (fun as => (as, false)) (clauseGo sel)⟩ := by
  simp only [clauseResolver]
  congr 1; funext sel; cases clauseGo sel <;> rfl

theorem amountResolver_eq (W : World) (r : AmountResolver) :
    r.resolver W = ⟨.amount, fun sel => okMap (fun as => (as, false)) (r.go sel)⟩ := by
  simp only [AmountResolver.resolver]
  congr 1; funext sel; cases r.go sel <;> rfl

theorem stage_rel {st : Stage W} {st' : Stage (W.retype T)} (h : StageRel ρ st st') :
    ResolverRel ρ st.resolver st'.resolver := by
  cases h with
  | table k hc hl =>
    rename_i t t'
    refine resolverRel_of (tableResolver_eq t) (tableResolver_eq t') (tableProg t) (tableProg t') (fun x => ?_)
      (fun l ptr _ => table_prog t _) (fun l ptr _ => table_prog t' _)
    refine findProg_rel Paired.tokenText (fun a a' e => ?_) x
    subst e
    rw [← hc]
    cases t.case_sensitive with
    | true => simpa only [if_true] using hl a
    | false => exact hl (W.toLowercase a)
  | pos =>
    refine resolverRel_of (k := .tag) (posResolver_eq W) (posResolver_eq (W.retype T)) (posProg W) (posProg (W.retype T)) (fun x => ?_)
      (fun l ptr _ => pos_prog _) (fun l ptr _ => pos_prog _)
    refine findProg_rel (Paired.all2 (paired_textTag ρ _) Paired.tokenText) (fun a a' e => ?_) x
    obtain ⟨a1, a2⟩ := a
    obtain ⟨b1, b2⟩ := a'
    cases (show a2 = b2 from e.2)
    exact AllRel.rfl' (α := W.Tag) _
  | keywords r =>
    refine resolverRel_of (k := .clauseKeyword) (keywordResolver_eq W r) (keywordResolver_eq (W.retype T) r) (keywordProg W r)
      (keywordProg (W.retype T) r) (fun x => ?_) (fun l ptr _ => keywords_prog r _) (fun l ptr _ => keywords_prog r _)
    refine findProg_rel Paired.tokenText (fun a a' e => ?_) x
    subst e
    exact AllRel.rfl' (α := ClauseKeyword) _
  | clauses =>
    exact resolverRel_of (k := .clause) (clauseResolver_eq W) (clauseResolver_eq (W.retype T)) (clauseProg W)
      (clauseProg (W.retype T)) clauseProg_rel (fun l ptr _ => clause_prog _) (fun l ptr _ => clause_prog _)
  | amounts r =>
    exact resolverRel_of (k := .amount) (amountResolver_eq W r) (amountResolver_eq (W.retype T) r) (amountProg W r)
      (amountProg (W.retype T) r) (fun x => outerP_rel r _ _ _ _ _) (fun l ptr ne => amount_prog r l ptr ne)
      (fun l ptr ne => amount_prog r l ptr ne)

/-! ### the resolvers of the currency test -/

theorem symbol_rel {k : Ty W} {usd euro : Val k} {usd' euro' : Val (ρ.ty k)} (hu : ρ.val k usd usd')
    (he : ρ.val k euro euro') :
    ResolverRel ρ (currencySymbolResolver usd euro) (currencySymbolResolver usd' euro') := by
  refine resolverRel_of (go := currencySymbolGo usd euro) (go' := currencySymbolGo usd' euro') ?_ ?_ (symbolProg usd euro)
    (symbolProg usd' euro') (fun x => ?_) (fun l ptr _ => symbol_prog _ _ _) (fun l ptr _ => symbol_prog _ _ _)
  · simp only [currencySymbolResolver]
    congr 1; funext sel; cases currencySymbolGo usd euro sel <;> rfl
  · simp only [currencySymbolResolver]
    congr 1; funext sel; cases currencySymbolGo usd' euro' sel <;> rfl
  refine .call (.findBy 0 (paired_chars ρ _)) (fun rs outs outs' ho => ?_)
  cases AllRel.eq (α := Char) ho
  split
  · refine .finish (finishFound_rel (Q := Eq) (fun a a' e => ?_) 1 (AllRel.rfl' _))
    subst e
    split
    · exact .cons hu .nil
    · exact .cons he .nil
  · exact .panic _

theorem money_rel {kSym kAmt k : Ty W} {mk : Val kSym → Val kAmt → Val k}
    {mk' : Val (ρ.ty kSym) → Val (ρ.ty kAmt) → Val (ρ.ty k)}
    (hm : ∀ a a' b b', ρ.val kSym a a' → ρ.val kAmt b b' → ρ.val k (mk a b) (mk' a' b')) :
    ResolverRel ρ (currencyAmountResolver mk) (currencyAmountResolver mk') := by
  refine resolverRel_of (go := currencyAmountGo mk) (go' := currencyAmountGo mk') ?_ ?_ (moneyProg mk) (moneyProg mk')
    (fun x => ?_) (fun l ptr _ => money_prog _ _) (fun l ptr _ => money_prog _ _)
  · simp only [currencyAmountResolver]
    congr 1; funext sel; cases currencyAmountGo mk sel <;> rfl
  · simp only [currencyAmountResolver]
    congr 1; funext sel; cases currencyAmountGo mk' sel <;> rfl
  exact .call (.findBoth 0 (Paired.seq2 (Paired.attr kSym) (Paired.attr kAmt))) (fun _ _ _ h =>
    .finish (finishFound_rel (fun a a' e => .cons (hm _ _ _ _ e.1 e.2) .nil) 1 h))

end LNlp
