import Verif.Lemmas.RepresentLibrary
import Verif.Lemmas.DisplayProps
/- Finding, querying and showing under a recoding of the attribute values. -/
namespace LNlp
variable {W : World} {T : Types} {ρ : Recoding W T}

theorem find_rel {l : LLLine W} {l' : LLLine (W.retype T)} (ha : Recoded ρ l l') {Out Out' : Type} {S : Out → Out' → Prop}
    {m : XMatch W Out} {m' : XMatch (W.retype T) Out'} (hm : Paired ρ S m m') :
    SameOutcome (AllRel (fun f f' => f.range = f'.range ∧ S f.found f'.found)) (l.find m) (l'.find m') := by
  have tw := ha.twins
  have an := paired_answers tw hm
  unfold LLLine.find
  rw [tw.toks]
  refine flatMapR_rel (S := Eq) (fun i _ e => ?_) (AllRel.rfl' _)
  subst e
  rcases (an (.fwd i)).either with ⟨e, h1, h2⟩ | ⟨a, b, h1, h2, h⟩
  · simp only [h1, h2]; exact rfl
  simp only [h1, h2]
  refine mapR_rel (fun p q hpq => ?_) h
  simp only [LLLine.posStartAt, LLLine.posEndAt, tw.toks, ← hpq.2]
  cases l.ll_tokens[i]? with
  | none => exact rfl
  | some t =>
    cases l.ll_tokens[p.2]? with
    | none => exact rfl
    | some t' => exact ⟨rfl, hpq.1⟩

theorem query_rel {l : LLLine W} {l' : LLLine (W.retype T)} (ha : Recoded ρ l l') (k : Ty W) :
    SameOutcome (AllRel (fun x x' => x.1 = x'.1 ∧ x.2.1 = x'.2.1 ∧ AllRel (ρ.val k) x.2.2 x'.2.2)) (l.query k)
      (l'.query (ρ.ty k)) := by
  obtain ⟨h, h', r, r', ht, hr⟩ := ha
  rw [rep_query_gen r.rep, rep_query_gen r'.rep, ht, rangesOf_rel hr]
  refine mapR_rel (S := Eq) (fun x _ e => ?_) (AllRel.rfl' _)
  subst e
  cases sliceIncl l.ll_tokens x.1 x.2 with
  | error e => exact rfl
  | ok toks => exact ⟨rfl, rfl, valuesOf_rel hr k x⟩

theorem displays_rel {l : LLLine W} {l' : LLLine (W.retype T)} {h h'} (r : Rep l h) (r' : Rep l' h')
    (hr : AllRel (RecRel ρ) h h') : ∀ (ks : List (Ty W)),
    (∀ k ∈ ks, ∀ v v', ρ.val k v v' → valDbg k v = valDbg (ρ.ty k) v') → ∀ inc,
    ∃ out, foldR (fun (d : LLLineDisplay W) k => d.with k) ⟨l, inc⟩ ks = .ok ⟨l, out⟩ ∧
      foldR (fun (d : LLLineDisplay (W.retype T)) k => d.with k) ⟨l', inc⟩ (ks.map ρ.ty) = .ok ⟨l', out⟩
  | [], _, inc => ⟨inc, rfl, rfl⟩
  | k :: ks, hd, inc => by
    have e1 := rep_include (d := ⟨l, inc⟩) r k
    have e2 := rep_include (d := ⟨l', inc⟩) r' (ρ.ty k)
    have : ∀ x, (valuesOf k x h).map (valDbg k) = (valuesOf (ρ.ty k) x h').map (valDbg (ρ.ty k)) := fun x =>
      (valuesOf_rel hr k x).map_eq (hd k (by simp))
    simp only [rangesOf_rel hr, ← this] at e2
    simp only [List.map_cons, foldR, LLLineDisplay.with, e1, e2]
    exact displays_rel r r' hr ks (fun k' hk => hd k' (by simp [hk])) _

theorem fmt_retype {l : LLLine W} {l' : LLLine (W.retype T)} (ht : l'.ll_tokens = l.ll_tokens) (out : List (LRange × Str)) :
    LLLineDisplay.fmt ⟨l', out⟩ = LLLineDisplay.fmt ⟨l, out⟩ := by
  have : ∀ toks st, List.foldl (HeaderSt.step (W.retype T)) st toks = List.foldl (HeaderSt.step W) st toks := fun _ _ => rfl
  unfold LLLineDisplay.fmt
  simp only [ht]
  rfl

theorem shown_rel {l : LLLine W} {l' : LLLine (W.retype T)} (ha : Recoded ρ l l') (ks : List (Ty W))
    (hd : ∀ k ∈ ks, ∀ v v', ρ.val k v v' → valDbg k v = valDbg (ρ.ty k) v') :
    shownWith l' (ks.map ρ.ty) = shownWith l ks := by
  obtain ⟨h, h', r, r', ht, hr⟩ := ha
  obtain ⟨out, e1, e2⟩ := displays_rel r.rep r'.rep hr ks hd []
  unfold shownWith displayWith
  simp only [LLLineDisplay.new, e1, e2, fmt_retype ht]

theorem runAll_rel {l : LLLine W} {l' : LLLine (W.retype T)} (ha : Recoded ρ l l') {rs : List (Nat × Resolver W)}
    {rs' : List (Nat × Resolver (W.retype T))} (hr : AllRel (fun p q => ResolverRel ρ p.2 q.2) rs rs') :
    SameOutcome (Recoded ρ) (runAll l rs) (runAll l' rs') := by
  induction hr generalizing l l' with
  | nil => exact ha
  | @cons p q _ _ hpq _ ih =>
    simp only [runAll]
    rcases (run_rel ha hpq p.1 q.1).either with ⟨e, h1, h2⟩ | ⟨a, b, h1, h2, h⟩
    · simp only [h1, h2]; exact rfl
    · simp only [h1, h2]; exact ih h

end LNlp
