import Verif.Spec.Stateful
import Verif.Props.Match
/- Helper lemmas about dialogs with code of the user. -/
namespace LNlp
variable {W : World}

namespace Dialog
variable {Q : Type} {A : Q → Type} {α β γ : Type}

theorem bind_eq (m : Dialog Q A α) (f : α → Dialog Q A β) : (m >>= f) = m.bind f := rfl
theorem pure_eq (a : α) : (pure a : Dialog Q A α) = .done a := rfl

/-! ### user code that is a function -/

theorem eval_bind (g : (q : Q) → A q) (f : α → Dialog Q A β) : ∀ m : Dialog Q A α,
    (m.bind f).eval g = (m.eval g).bind (fun a => (f a).eval g)
  | .done _ => rfl
  | .panic _ => rfl
  | .ask q next => eval_bind g f (next (g q))

theorem eval_lift (g : (q : Q) → A q) (r : R α) : (lift r : Dialog Q A α).eval g = r := by cases r <;> rfl

theorem trace_bind (g : (q : Q) → A q) (f : α → Dialog Q A β) : ∀ m : Dialog Q A α,
    (m.bind f).trace g = m.trace g ++ (match m.eval g with | .ok a => (f a).trace g | .error _ => [])
  | .done _ => rfl
  | .panic _ => rfl
  | .ask q next => by
    simp only [Dialog.bind, trace, eval, List.cons_append]
    rw [trace_bind g f (next (g q))]

theorem trace_bind_ok (g : (q : Q) → A q) (f : α → Dialog Q A β) {m : Dialog Q A α} {a : α} (h : m.eval g = .ok a) :
    (m.bind f).trace g = m.trace g ++ (f a).trace g := by rw [trace_bind, h]

theorem trace_lift (g : (q : Q) → A q) (r : R α) : (lift r : Dialog Q A α).trace g = [] := by cases r <;> rfl

theorem flatMapD_eval (g : (q : Q) → A q) {f : α → Dialog Q A (List β)} {f' : α → R (List β)}
    (h : ∀ x, (f x).eval g = f' x) : ∀ xs, (flatMapD f xs).eval g = flatMapR f' xs
  | [] => rfl
  | x :: xs => by
    simp only [flatMapD, flatMapR, bind_eq, pure_eq, eval_bind, h, flatMapD_eval g h xs]
    cases f' x with
    | error e => rfl
    | ok ys => cases flatMapR f' xs <;> rfl

theorem mapD_eval (g : (q : Q) → A q) {f : α → Dialog Q A β} {f' : α → R β}
    (h : ∀ x, (f x).eval g = f' x) : ∀ xs, (mapD f xs).eval g = mapR f' xs
  | [] => rfl
  | x :: xs => by
    simp only [mapD, mapR, bind_eq, pure_eq, eval_bind, h, mapD_eval g h xs]
    cases f' x with
    | error e => rfl
    | ok ys => cases mapR f' xs <;> rfl

theorem filterD_eval (g : (q : Q) → A q) {test : α → Dialog Q A Bool} {t : α → Bool} (f : α → β)
    (h : ∀ x, (test x).eval g = .ok (t x)) : ∀ xs,
    (filterD test f xs).eval g = .ok (xs.filterMap (fun x => if t x then some (f x) else none))
  | [] => rfl
  | x :: xs => by
    simp only [filterD, bind_eq, pure_eq, eval_bind, h, filterD_eval g f h xs, Except.bind, eval]
    cases hx : t x <;> simp [hx]

theorem anyD_eval (g : (q : Q) → A q) {test : α → Dialog Q A Bool} {t : α → Bool}
    (h : ∀ x, (test x).eval g = .ok (t x)) : ∀ xs, (anyD test xs).eval g = .ok (xs.any t)
  | [] => rfl
  | x :: xs => by
    simp only [anyD, bind_eq, pure_eq, eval_bind, h, Except.bind]
    cases hx : t x
    · simp [anyD_eval g h xs, hx]
    · simp [eval, hx]

/-! ### the questions asked -/

theorem flatMapD_trace (g : (q : Q) → A q) {f : α → Dialog Q A (List β)} : ∀ (xs : List α),
    (∀ x ∈ xs, ∃ ys, (f x).eval g = .ok ys) → (flatMapD f xs).trace g = xs.flatMap (fun x => (f x).trace g)
  | [], _ => rfl
  | x :: xs, h => by
    obtain ⟨ys, hy⟩ := h x (by simp)
    have ih := flatMapD_trace g xs (fun x hx => h x (List.mem_cons_of_mem _ hx))
    simp only [flatMapD, bind_eq, pure_eq]
    rw [trace_bind_ok g _ hy, trace_bind, ih]
    cases (flatMapD f xs).eval g <;> simp [trace]

theorem filterD_trace (g : (q : Q) → A q) {test : α → Dialog Q A Bool} {t : α → Bool} (f : α → β)
    (h : ∀ x, (test x).eval g = .ok (t x)) : ∀ xs, (filterD test f xs).trace g = xs.flatMap (fun x => (test x).trace g)
  | [] => rfl
  | x :: xs => by
    have ih := filterD_trace g f h xs
    simp only [filterD, bind_eq, pure_eq]
    rw [trace_bind_ok g _ (h x), trace_bind_ok g _ (filterD_eval g f h xs), ih]
    simp [trace]

theorem anyD_trace (g : (q : Q) → A q) {test : α → Dialog Q A Bool} {t : α → Bool}
    (h : ∀ x, (test x).eval g = .ok (t x)) : ∀ xs, (anyD test xs).trace g = (upTo t xs).flatMap (fun x => (test x).trace g)
  | [] => rfl
  | x :: xs => by
    simp only [anyD, bind_eq, pure_eq]
    rw [trace_bind_ok g _ (h x)]
    cases hx : t x
    · simp [upTo, hx, anyD_trace g h xs]
    · simp [upTo, hx, trace]

/-! ### user code that is not a function -/

theorem answersAll_nil (o : Oracle Q A) (asked : List Q) : AnswersAll o asked [] := fun a q b e => by simp at e

theorem answersAll_cons {o : Oracle Q A} {asked qs : List Q} {q : Q} :
    AnswersAll o asked (q :: qs) ↔ (∃ x, o asked q = some x) ∧ AnswersAll o (asked ++ [q]) qs := by
  constructor
  · intro h
    refine ⟨by simpa using h [] q qs rfl, fun a q' b e => ?_⟩
    simpa using h (q :: a) q' b (by rw [e]; rfl)
  · rintro ⟨h1, h2⟩ a q' b e
    cases a with
    | nil =>
      simp only [List.nil_append, List.cons.injEq] at e
      obtain ⟨rfl, _⟩ := e
      simpa using h1
    | cons x a =>
      simp only [List.cons_append, List.cons.injEq] at e
      obtain ⟨rfl, e⟩ := e
      simpa using h2 a q' b e

theorem run_follows {o : Oracle Q A} {f : (q : Q) → A q} (hf : AnswersLike o f) : ∀ (d : Dialog Q A α) (asked : List Q),
    (AnswersAll o asked (d.trace f) ∧ d.run o asked = (asked ++ d.trace f, (d.eval f).mapError Stop.code)) ∨
    ∃ a q, PanicsAt o asked (d.trace f) a q ∧ d.run o asked = (asked ++ a ++ [q], .error .callback)
  | .done a, asked => .inl ⟨answersAll_nil _ _, by simp [run, trace, eval, Except.mapError]⟩
  | .panic a, asked => .inl ⟨answersAll_nil _ _, by simp [run, trace, eval, Except.mapError]⟩
  | .ask q next, asked => by
    simp only [run, trace, eval]
    cases h : o asked q with
    | none => exact .inr ⟨[], q, ⟨answersAll_nil _ _, by simpa using h, by simp⟩, by simp⟩
    | some x =>
      obtain rfl := hf asked q x h
      rcases run_follows hf (next (f q)) (asked ++ [q]) with ⟨h1, h2⟩ | ⟨a, q', ⟨h1, h2, h3⟩, h4⟩
      · exact .inl ⟨answersAll_cons.2 ⟨⟨_, h⟩, h1⟩, by simp only; rw [h2]; simp⟩
      · refine .inr ⟨q :: a, q', ⟨answersAll_cons.2 ⟨⟨_, h⟩, h1⟩, by simpa using h2, ?_⟩, by simp only; rw [h4]; simp⟩
        obtain ⟨b, hb⟩ := h3
        exact ⟨b, by rw [← hb]; simp⟩

/-- every oracle: all questions but perhaps the last are answered; the last is not exactly if its panic ended the dialog -/
theorem run_stops (o : Oracle Q A) : ∀ (d : Dialog Q A α) (asked : List Q), ∃ new, (d.run o asked).1 = asked ++ new ∧
    ((AnswersAll o asked new ∧ (d.run o asked).2 ≠ .error .callback) ∨
      ∃ a q, new = a ++ [q] ∧ AnswersAll o asked a ∧ o (asked ++ a) q = none ∧ (d.run o asked).2 = .error .callback)
  | .done a, asked => ⟨[], by simp [run], .inl ⟨answersAll_nil _ _, by simp [run]⟩⟩
  | .panic a, asked => ⟨[], by simp [run], .inl ⟨answersAll_nil _ _, by simp [run]⟩⟩
  | .ask q next, asked => by
    simp only [run]
    cases h : o asked q with
    | none => exact ⟨[q], rfl, .inr ⟨[], q, rfl, answersAll_nil _ _, by simpa using h, rfl⟩⟩
    | some x =>
      obtain ⟨new, h1, h2⟩ := run_stops o (next x) (asked ++ [q])
      refine ⟨q :: new, by simp [h1], ?_⟩
      rcases h2 with ⟨h2, h3⟩ | ⟨a, q', rfl, h3, h4, h5⟩
      · exact .inl ⟨answersAll_cons.2 ⟨⟨_, h⟩, h2⟩, h3⟩
      · exact .inr ⟨q :: a, q', rfl, answersAll_cons.2 ⟨⟨_, h⟩, h3⟩, by simpa using h4, h5⟩

theorem run_bind (o : Oracle Q A) (f : α → Dialog Q A β) : ∀ (m : Dialog Q A α) (asked : List Q),
    (m.bind f).run o asked = match m.run o asked with
      | (asked', .ok a) => (f a).run o asked'
      | (asked', .error e) => (asked', .error e)
  | .done _, _ => rfl
  | .panic _, _ => rfl
  | .ask q next, asked => by
    simp only [Dialog.bind, run]
    cases o asked q with
    | none => rfl
    | some x => exact run_bind o f (next x) _

/-! ### whatever is answered -/

theorem always_run {P : α → Prop} {E : Panic → Prop} (o : Oracle Q A) : ∀ (d : Dialog Q A α) (asked : List Q),
    d.Always P E → (∀ a, (d.run o asked).2 = .ok a → P a) ∧ ∀ p, (d.run o asked).2 = .error (.code p) → E p
  | .done a, asked, h => ⟨fun b e => (by cases e; exact h), fun p e => (by cases e)⟩
  | .panic p, asked, h => ⟨fun b e => (by cases e), fun p e => (by cases e; exact h)⟩
  | .ask q next, asked, h => by
    simp only [run]
    cases o asked q with
    | none => exact ⟨fun a e => (by cases e), fun p e => (by cases e)⟩
    | some x => exact always_run o (next x) _ (h x)

theorem always_bind {P : β → Prop} {P0 : α → Prop} {E : Panic → Prop} {f : α → Dialog Q A β} :
    ∀ {m : Dialog Q A α}, m.Always P0 E → (∀ a, P0 a → (f a).Always P E) → (m.bind f).Always P E
  | .done a, h, hf => hf a h
  | .panic _, h, _ => h
  | .ask q next, h, hf => fun a => always_bind (h a) hf

theorem always_mono {P P' : α → Prop} {E E' : Panic → Prop} (hP : ∀ a, P a → P' a) (hE : ∀ p, E p → E' p) :
    ∀ {m : Dialog Q A α}, m.Always P E → m.Always P' E'
  | .done a, h => hP a h
  | .panic p, h => hE p h
  | .ask _ _, h => fun a => always_mono hP hE (h a)

theorem always_lift {P : α → Prop} {E : Panic → Prop} {r : R α} (h1 : ∀ a, r = .ok a → P a) (h2 : ∀ p, r = .error p → E p) :
    (lift r : Dialog Q A α).Always P E := by
  cases r with
  | ok a => exact h1 a rfl
  | error p => exact h2 p rfl

theorem always_flatMapD {P : β → Prop} {E : Panic → Prop} {f : α → Dialog Q A (List β)} : ∀ {xs : List α},
    (∀ x ∈ xs, (f x).Always (fun ys => ∀ y ∈ ys, P y) E) → (flatMapD f xs).Always (fun ys => ∀ y ∈ ys, P y) E
  | [], _ => fun y hy => by cases hy
  | x :: xs, h => by
    simp only [flatMapD, bind_eq, pure_eq]
    refine always_bind (h x (by simp)) (fun ys hys => always_bind (always_flatMapD (fun x hx => h x (List.mem_cons_of_mem _ hx)))
      (fun zs hzs => ?_))
    intro y hy
    rcases List.mem_append.1 hy with hy | hy
    · exact hys y hy
    · exact hzs y hy

theorem always_filterD {P : β → Prop} {E : Panic → Prop} {test : α → Dialog Q A Bool} {f : α → β} : ∀ {xs : List α},
    (∀ x ∈ xs, P (f x)) → (∀ x, (test x).Always (fun _ => True) E) → (filterD test f xs).Always (fun ys => ∀ y ∈ ys, P y) E
  | [], _, _ => fun y hy => by cases hy
  | x :: xs, h, ht => by
    simp only [filterD, bind_eq, pure_eq]
    refine always_bind (ht x) (fun b _ => always_bind (always_filterD (fun x hx => h x (List.mem_cons_of_mem _ hx)) ht)
      (fun zs hzs => ?_))
    intro y hy
    cases b
    · exact hzs y hy
    · rcases List.mem_cons.1 hy with rfl | hy
      · exact h x (by simp)
      · exact hzs y hy

theorem always_anyD {E : Panic → Prop} {test : α → Dialog Q A Bool} (ht : ∀ x, (test x).Always (fun _ => True) E) :
    ∀ {xs : List α}, (anyD test xs).Always (fun _ => True) E
  | [] => trivial
  | x :: xs => by
    simp only [anyD, bind_eq, pure_eq]
    refine always_bind (ht x) (fun b _ => ?_)
    cases b
    · exact always_anyD ht
    · exact trivial

end Dialog

open Dialog
section
variable {U : Type} {Own : U → Type} {Out : Type}

theorem askEq_eval (own : (u : U) → Own u) (k : Ty W) (a b : Val k) :
    (askEq (Own := Own) k a b).eval (answers W own) = .ok (valEq k a b) := rfl

theorem setContains_eval (own : (u : U) → Own u) (k : Ty W) (set : List (Val k)) (v : Val k) :
    (setContainsD (Own := Own) k set v).eval (answers W own) = .ok (setContains k set v) :=
  anyD_eval _ (fun s => askEq_eval own k s v) set

theorem goAfter_eval (own : (u : U) → Own u) {md : XMatchD W Own Out} {m : XMatch W Out} {l : LLLine W}
    (h : ∀ d, (md.go d l).eval (answers W own) = m.go d l) (d : Dir) (i : Nat) :
    (XD.goAfter md d i l).eval (answers W own) = X.goAfter m d i l := by
  simp only [XD.goAfter, X.goAfter]
  cases d.after i l with
  | none => rfl
  | some d' => exact h d'

theorem twin_eval (own : (u : U) → Own u) {md : XMatchD W Own Out} {m : XMatch W Out} (h : Twin own md m) (d : Dir)
    (l : LLLine W) : (md.go d l).eval (answers W own) = m.go d l := by
  induction h generalizing d with
  | attr k => exact eval_lift _ _
  | tokenText => exact eval_lift _ _
  | attrEq k v =>
    simp only [XD.attrEq, X.attrEq]
    cases d with
    | fwd i =>
      simp only [Dir.attrEqD, Dir.attrEq]
      cases l.attrs.starts_at[i]? with
      | none => rfl
      | some m =>
        refine flatMapD_eval _ (fun range => ?_) _
        simp only [bind_eq, eval_bind, eval_lift]
        cases l.valuesAt k range with
        | error e => rfl
        | ok vs => exact filterD_eval _ _ (fun val => askEq_eval own k val v) vs
    | bwd i =>
      simp only [Dir.attrEqD, Dir.attrEq]
      cases l.attrs.ends_at[i]? with
      | none => rfl
      | some m =>
        refine flatMapD_eval _ (fun range => ?_) _
        simp only [bind_eq, eval_bind, eval_lift]
        cases l.valuesAt k range with
        | error e => rfl
        | ok vs => exact filterD_eval _ _ (fun val => askEq_eval own k val v) vs
  | tokenHasAny k set =>
    simp only [XD.tokenHasAny, X.tokenHasAny]
    cases d with
    | fwd i =>
      simp only [Dir.tokenAttrOneOfD, Dir.tokenAttrOneOf]
      cases l.attrs.values.get? (i, i) with
      | none => rfl
      | some b =>
        simp only [bind_eq, eval_bind, eval_lift]
        cases b.get k with
        | error e => rfl
        | ok vs => exact filterD_eval _ _ (fun val => setContains_eval own k set val) vs
    | bwd i =>
      simp only [Dir.tokenAttrOneOfD, Dir.tokenAttrOneOf]
      cases l.attrs.ends_at[i]? with
      | none => rfl
      | some m =>
        refine flatMapD_eval _ (fun range => ?_) _
        simp only [bind_eq, eval_bind, eval_lift]
        cases l.valuesAt k range with
        | error e => rfl
        | ok vs => exact filterD_eval _ _ (fun val => setContains_eval own k set val) vs
  | all2 _ _ iha ihb =>
    simp only [XD.all2, X.all2, bind_eq, pure_eq, eval_bind, iha, ihb]
    cases XMatch.go _ d l with
    | error e => rfl
    | ok bs => simp only [Except.bind]; cases XMatch.go _ d l <;> rfl
  | all3 _ _ _ iha ihb ihc =>
    simp only [XD.all3, X.all3, bind_eq, pure_eq, eval_bind, iha, ihb, ihc]
    cases XMatch.go _ d l with
    | error e => rfl
    | ok bs =>
      simp only [Except.bind]
      cases XMatch.go _ d l with
      | error e => rfl
      | ok cs => simp only; cases XMatch.go _ d l <;> rfl
  | anyOf2 _ _ iha ihb =>
    simp only [XD.anyOf2, X.anyOf2, bind_eq, pure_eq, eval_bind, iha]
    cases XMatch.go _ d l with
    | error e => rfl
    | ok as =>
      simp only [Except.bind]
      cases as.isEmpty with
      | false => rfl
      | true =>
        simp only [Bool.not_true, Bool.false_eq_true, if_false, eval_bind, ihb]
        cases XMatch.go _ d l <;> rfl
  | anyOf3 _ _ _ iha ihb ihc =>
    simp only [XD.anyOf3, X.anyOf3, bind_eq, pure_eq, eval_bind, iha]
    cases XMatch.go _ d l with
    | error e => rfl
    | ok as =>
      simp only [Except.bind]
      cases as.isEmpty with
      | false => rfl
      | true =>
        simp only [Bool.not_true, Bool.false_eq_true, if_false, eval_bind, ihb]
        cases XMatch.go _ d l with
        | error e => rfl
        | ok bs =>
          simp only [Except.bind]
          cases bs.isEmpty with
          | false => rfl
          | true =>
            simp only [Bool.not_true, Bool.false_eq_true, if_false, eval_bind, ihc]
            cases XMatch.go _ d l <;> rfl
  | seq2 _ _ iha ihb =>
    simp only [XD.seq2, X.seq2, bind_eq, pure_eq, eval_bind, iha]
    cases XMatch.go _ d l with
    | error e => rfl
    | ok as =>
      refine flatMapD_eval _ (fun pa => ?_) _
      simp only [eval_bind, goAfter_eval own ihb]
      cases X.goAfter _ d pa.2 l <;> rfl
  | seq3 _ _ _ iha ihb ihc =>
    simp only [XD.seq3, X.seq3, bind_eq, pure_eq, eval_bind, iha]
    cases XMatch.go _ d l with
    | error e => rfl
    | ok as =>
      refine flatMapD_eval _ (fun pa => ?_) _
      simp only [eval_bind, goAfter_eval own ihb]
      cases X.goAfter _ d pa.2 l with
      | error e => rfl
      | ok bs =>
        refine flatMapD_eval _ (fun pb => ?_) _
        simp only [eval_bind, goAfter_eval own ihc]
        cases X.goAfter _ d pb.2 l <;> rfl
  | user md => rfl

end

end LNlp
namespace LNlp
open Dialog
variable {W : World}
namespace Dialog
variable {Q : Type} {A : Q → Type} {α β γ : Type}

theorem bind_assoc (f : α → Dialog Q A β) (g : β → Dialog Q A γ) : ∀ m : Dialog Q A α,
    (m.bind f).bind g = m.bind (fun a => (f a).bind g)
  | .done _ => rfl
  | .panic _ => rfl
  | .ask q next => by
    simp only [Dialog.bind]
    congr 1
    funext a
    exact bind_assoc f g (next a)

theorem bind_done : ∀ m : Dialog Q A α, m.bind .done = m
  | .done _ => rfl
  | .panic _ => rfl
  | .ask q next => by
    simp only [Dialog.bind]
    congr 1
    funext a
    exact bind_done (next a)

theorem filterD_append (test : α → Dialog Q A Bool) (f : α → β) (ys : List α) : ∀ xs : List α,
    filterD test f (xs ++ ys) = (filterD test f xs).bind (fun a => (filterD test f ys).bind (fun b => .done (a ++ b)))
  | [] => by simp only [List.nil_append, filterD, pure_eq, Dialog.bind, bind_done]
  | x :: xs => by
    simp only [List.cons_append, filterD, bind_eq, pure_eq, bind_assoc, Dialog.bind, filterD_append test f ys xs]
    congr 1
    funext b
    cases b <;> simp

theorem filterD_map (test : β → Dialog Q A Bool) (f : β → γ) (g : α → β) : ∀ xs : List α,
    filterD test f (xs.map g) = filterD (fun x => test (g x)) (fun x => f (g x)) xs
  | [] => rfl
  | x :: xs => by simp only [List.map_cons, filterD, filterD_map test f g xs]

/-- filtering range by range is filtering all values -/
theorem flatMapD_filterD (test : β → Dialog Q A Bool) (f : β → γ) {r : α → R (List β)} : ∀ {xs : List α} {vs : List β},
    flatMapR r xs = .ok vs →
    flatMapD (fun x => (lift (r x)).bind (filterD test f)) xs = filterD test f vs
  | [], vs, h => by cases h; rfl
  | x :: xs, vs, h => by
    simp only [flatMapR] at h
    cases hx : r x with
    | error e => rw [hx] at h; cases h
    | ok ys =>
      rw [hx] at h
      cases hs : flatMapR r xs with
      | error e => simp only [hs] at h; cases h
      | ok zs =>
        simp only [hs] at h
        cases h
        rw [filterD_append, flatMapD, flatMapD_filterD test f hs, hx]
        rfl

end Dialog

section
variable {U : Type} {Own : U → Type} {Out : Type}

theorem valuesAt_map {l : LLLine W} {k : Ty W} {g : Val k → Val k × Nat} {r : LRange} :
    (match l.valuesAt k r with
      | .error e => .error e
      | .ok vs => .ok (vs.map g) : R (List (Val k × Nat))) = (l.valuesAt k r).map (fun vs => vs.map g) := by
  cases l.valuesAt k r <;> rfl

/-- `attr_eq` compares what `attr` finds -/
theorem attrEqD_eq {d : Dir} {k : Ty W} {l : LLLine W} {vs : List (Val k × Nat)} (h : d.attr k l = .ok vs) (v : Val k) :
    d.attrEqD (Own := Own) k v l = filterD (fun p => askEq k p.1 v) (fun p => ((), p.2)) vs := by
  cases d with
  | fwd i =>
    simp only [Dir.attr] at h
    simp only [Dir.attrEqD]
    cases hm : l.attrs.starts_at[i]? with
    | none => rw [hm] at h; cases h
    | some m =>
      rw [hm] at h
      simp only at h
      rw [← flatMapD_filterD _ _ h]
      simp only [bind_eq]
      congr 1
      funext range
      cases l.valuesAt k range with
      | error e => rfl
      | ok ws => simp only [Except.map, lift, Dialog.bind, filterD_map]
  | bwd i =>
    simp only [Dir.attr] at h
    simp only [Dir.attrEqD]
    cases hm : l.attrs.ends_at[i]? with
    | none => rw [hm] at h; cases h
    | some m =>
      rw [hm] at h
      simp only at h
      rw [← flatMapD_filterD _ _ h]
      simp only [bind_eq]
      congr 1
      funext range
      cases l.valuesAt k range with
      | error e => rfl
      | ok ws => simp only [Except.map, lift, Dialog.bind, filterD_map]

/-- `token_has_any` backwards tests what `attr` finds -/
theorem oneOfD_bwd {i : Nat} {k : Ty W} {l : LLLine W} {vs : List (Val k × Nat)} (h : (Dir.bwd i).attr k l = .ok vs)
    (set : List (Val k)) :
    (Dir.bwd i).tokenAttrOneOfD (Own := Own) k set l = filterD (fun p => setContainsD k set p.1) id vs := by
  simp only [Dir.attr] at h
  simp only [Dir.tokenAttrOneOfD]
  cases hm : l.attrs.ends_at[i]? with
  | none => rw [hm] at h; cases h
  | some m =>
    rw [hm] at h
    simp only at h
    rw [← flatMapD_filterD _ _ h]
    simp only [bind_eq]
    congr 1
    funext range
    cases l.valuesAt k range with
    | error e => rfl
    | ok ws => simp only [Except.map, lift, Dialog.bind, filterD_map, id]

/-- comparing the found values with `v` one after the other -/
def compareAll (Own : U → Type) {k : Ty W} (v : Val k) (vs : List (Val k × Nat)) : Talk W Own (List (Unit × Nat)) :=
  filterD (fun p => askEq k p.1 v) (fun p => ((), p.2)) vs

theorem run_ask_none {α : Type} {o : Oracle (Quest W U) (Quest.Answer Own)} {q : Quest W U} {next : q.Answer Own → Talk W Own α}
    {asked : List (Quest W U)} (h : o asked q = none) :
    Dialog.run o (.ask q next) asked = (asked ++ [q], .error .callback) := by
  simp only [run, h]

theorem run_ask_some {α : Type} {o : Oracle (Quest W U) (Quest.Answer Own)} {q : Quest W U} {next : q.Answer Own → Talk W Own α}
    {asked : List (Quest W U)} {a : q.Answer Own} (h : o asked q = some a) :
    Dialog.run o (.ask q next) asked = (next a).run o (asked ++ [q]) := by
  simp only [run, h]

theorem compareAll_cons (o : Oracle (Quest W U) (Quest.Answer Own)) {k : Ty W} (v w : Val k) (e : Nat)
    (vs : List (Val k × Nat)) (asked : List (Quest W U)) :
    (o asked (Quest.eq k w v) = none →
      (compareAll Own v ((w, e) :: vs)).run o asked = (asked ++ [Quest.eq k w v], .error .callback)) ∧
    ∀ b : Bool, o asked (Quest.eq k w v) = some b →
      (∀ asked' e', (compareAll Own v vs).run o (asked ++ [Quest.eq k w v]) = (asked', .error e') →
        (compareAll Own v ((w, e) :: vs)).run o asked = (asked', .error e')) ∧
      ∀ asked' zs, (compareAll Own v vs).run o (asked ++ [Quest.eq k w v]) = (asked', .ok zs) →
        (compareAll Own v ((w, e) :: vs)).run o asked = (asked', .ok (if b then ((), e) :: zs else zs)) := by
  have e1 : compareAll Own v ((w, e) :: vs) = .ask (Quest.eq k w v) (fun b : Bool => (compareAll Own v vs).bind (fun zs =>
      .done (if b then ((), e) :: zs else zs))) := rfl
  rw [e1]
  refine ⟨fun h => ?_, fun b h => ⟨fun asked' e' h' => ?_, fun asked' zs h' => ?_⟩⟩
  · exact run_ask_none h
  · refine (run_ask_some h).trans ((run_bind o _ (compareAll Own v vs) _).trans ?_)
    rw [h']
  · refine (run_ask_some h).trans ((run_bind o _ (compareAll Own v vs) _).trans ?_)
    rw [h']
    rfl

/-- what one comparison after the other gives, with any `PartialEq` -/
theorem filterEq_run (o : Oracle (Quest W U) (Quest.Answer Own)) {k : Ty W} (v : Val k) :
    ∀ (vs : List (Val k × Nat)) (asked : List (Quest W U)),
    (∃ bs : List Bool, bs.length = vs.length ∧
      (∀ (n : Nat) (w : Val k) (e : Nat) (b : Bool), vs[n]? = some (w, e) → bs[n]? = some b →
        o (asked ++ (vs.take n).map (fun p => Quest.eq k p.1 v)) (Quest.eq k w v) = some b) ∧
      (compareAll Own v vs).run o asked =
        (asked ++ vs.map (fun p => Quest.eq k p.1 v),
          .ok (((vs.zip bs).filter (fun x => x.2)).map (fun x => ((), x.1.2))))) ∨
    ∃ a q, PanicsAt o asked (vs.map (fun p => Quest.eq k p.1 v)) a q ∧
      (compareAll Own v vs).run o asked = (asked ++ a ++ [q], .error .callback)
  | [], asked => .inl ⟨[], rfl, fun n w e b h => by simp at h, by simp [compareAll, filterD, pure_eq, run]⟩
  | (w, e) :: vs, asked => by
    obtain ⟨c1, c2⟩ := compareAll_cons o v w e vs asked
    simp only [List.map_cons]
    cases h : o asked (Quest.eq k w v) with
    | none =>
      refine .inr ⟨[], Quest.eq k w v, ⟨answersAll_nil _ _, by rw [List.append_nil]; exact h, by simp⟩, ?_⟩
      rw [c1 h]; simp
    | some x =>
      revert h; revert x
      show ∀ b : Bool, _ → _
      intro b h
      obtain ⟨c2, c3⟩ := c2 b h
      rcases filterEq_run o v vs (asked ++ [Quest.eq k w v]) with ⟨bs, h1, h2, h3⟩ | ⟨a, q, ⟨h1, h2, h3⟩, h4⟩
      · left
        refine ⟨b :: bs, by simp [h1], fun n w' e' b' hn hb => ?_, ?_⟩
        · cases n with
          | zero =>
            simp only [List.getElem?_cons_zero, Option.some.injEq, Prod.mk.injEq] at hn hb
            obtain ⟨⟨rfl, _⟩, rfl⟩ := And.intro hn hb
            rw [List.take_zero, List.map_nil, List.append_nil]
            exact h
          | succ n =>
            simp only [List.getElem?_cons_succ] at hn hb
            have := h2 n w' e' b' hn hb
            rw [List.append_assoc] at this
            exact this
        · rw [c3 _ _ h3]
          simp only [List.append_assoc, List.cons_append, List.nil_append, List.zip_cons_cons, List.filter_cons]
          cases b <;> simp
      · right
        refine ⟨Quest.eq k w v :: a, q, ⟨answersAll_cons.2 ⟨⟨_, h⟩, h1⟩, ?_, ?_⟩, ?_⟩
        · rw [List.append_assoc] at h2; exact h2
        · obtain ⟨c, hc⟩ := h3
          exact ⟨c, by rw [← hc]; simp⟩
        · rw [c2 _ _ h4]; simp

end
end LNlp
