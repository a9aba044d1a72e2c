import Verif.Lemmas.StoreProps
import Verif.Spec.Match
import Verif.Spec.Store
/- Helper lemmas about matchers and their combinators. -/
namespace LNlp
variable {W : World} {α β γ : Type}

theorem flatMapR_error {α β : Type} {f : α → R (List β)} {e : Panic} :
    ∀ {l : List α}, flatMapR f l = .error e → ∃ x ∈ l, f x = .error e := by
  intro l h
  induction l with
  | nil => simp [flatMapR] at h
  | cons x xs ih =>
    cases hx : f x with
    | error e' =>
      simp only [flatMapR, hx, Except.error.injEq] at h
      subst h; exact ⟨x, by simp, hx⟩
    | ok ys =>
      cases hxs : flatMapR f xs with
      | error e' =>
        simp only [flatMapR, hx, hxs, Except.error.injEq] at h
        subst h
        obtain ⟨y, hy, hh⟩ := ih hxs
        exact ⟨y, by simp [hy], hh⟩
      | ok zs => simp [flatMapR, hx, hxs] at h

theorem flatMapR_congr {α β : Type} {f g : α → R (List β)} :
    ∀ {l : List α}, (∀ x ∈ l, f x = g x) → flatMapR f l = flatMapR g l := by
  intro l h
  induction l with
  | nil => rfl
  | cons x xs ih =>
    simp only [flatMapR, h x (by simp), ih (fun y hy => h y (by simp [hy]))]

/-- the list of a successful result, `[]` for a panic -/
def okD {α : Type} : R (List α) → List α
  | .ok a => a
  | .error _ => []

theorem okD_of {α : Type} {x : R (List α)} {a : List α} (h : x = .ok a) : okD x = a := by subst h; rfl

theorem flatMapR_ok_iff {α β : Type} {f : α → R (List β)} {l : List α} {out : List β} :
    flatMapR f l = .ok out ↔ (∀ x ∈ l, ∃ ys, f x = .ok ys) ∧ out = l.flatMap (fun x => okD (f x)) := by
  constructor
  · intro h
    obtain ⟨g, hg, rfl⟩ := flatMapR_inv h
    refine ⟨fun x hx => ⟨_, hg x hx⟩, ?_⟩
    clear h
    induction l with
    | nil => rfl
    | cons x xs ih =>
      simp only [List.flatMap_cons]
      rw [ih (fun y hy => hg y (by simp [hy])), hg x (by simp)]; rfl
  · rintro ⟨h, rfl⟩
    apply flatMapR_ok
    intro x hx
    obtain ⟨ys, hy⟩ := h x hx
    rw [hy]; rfl

/-! ### directions -/

theorem after_iff {d d' : Dir} {idx : Nat} {l : LLLine W} :
    d.after idx l = some d' ↔ d.Next idx l d' := by
  cases d with
  | fwd i =>
    simp only [Dir.after, Dir.Next]
    split
    · next h => simp only [Option.some.injEq]; exact ⟨fun e => ⟨e.symm, h⟩, fun e => e.1.symm⟩
    · next h => simp only [reduceCtorEq, false_iff, not_and]; exact fun _ => h
  | bwd i =>
    simp only [Dir.after, Dir.Next]
    cases idx with
    | zero => simp
    | succ n =>
      simp only [gt_iff_lt, Nat.zero_lt_succ, if_true, Nat.add_sub_cancel, Option.some.injEq]
      constructor
      · intro e; exact ⟨n, rfl, e.symm⟩
      · rintro ⟨j, hj, rfl⟩
        have : j = n := by omega
        rw [this]

/-- `after` depends on the direction only through its kind -/
theorem after_after {d d' : Dir} {idx : Nat} {l : LLLine W} (h : d.after idx l = some d') (j : Nat) :
    d'.after j l = d.after j l := by
  cases d with
  | fwd i =>
    obtain ⟨rfl, _⟩ := after_iff.1 h; rfl
  | bwd i =>
    obtain ⟨n, _, rfl⟩ := after_iff.1 h; rfl

/-! ### combinators: when they succeed -/

theorem all2_ok_iff {a : XMatch W α} {b : XMatch W β} {d : Dir} {l : LLLine W}
    {out : List ((α × β) × Nat)} : (X.all2 a b).go d l = .ok out ↔
    ∃ as bs, a.go d l = .ok as ∧ b.go d l = .ok bs ∧
      out = as.flatMap (fun pa => bs.filterMap (fun pb =>
          if pa.2 = pb.2 then some ((pa.1, pb.1), pa.2) else none)) := by
  simp only [X.all2]
  cases hb : b.go d l with
  | error e => simp
  | ok bs =>
    cases ha : a.go d l with
    | error e => simp
    | ok as => simp [eq_comm]

theorem all2_error {a : XMatch W α} {b : XMatch W β} {d : Dir} {l : LLLine W} {e : Panic}
    (h : (X.all2 a b).go d l = .error e) : a.go d l = .error e ∨ b.go d l = .error e := by
  simp only [X.all2] at h
  cases hb : b.go d l with
  | error e' => simp only [hb, Except.error.injEq] at h; subst h; exact Or.inr rfl
  | ok bs =>
    cases ha : a.go d l with
    | error e' => simp only [hb, ha, Except.error.injEq] at h; subst h; exact Or.inl rfl
    | ok as => simp [hb, ha] at h

theorem all3_ok_iff {a : XMatch W α} {b : XMatch W β} {c : XMatch W γ} {d : Dir} {l : LLLine W}
    {out : List ((α × β × γ) × Nat)} : (X.all3 a b c).go d l = .ok out ↔
    ∃ as bs cs, a.go d l = .ok as ∧ b.go d l = .ok bs ∧ c.go d l = .ok cs ∧
      out = as.flatMap (fun pa => bs.flatMap (fun pb => cs.filterMap (fun pc =>
            if pa.2 = pb.2 ∧ pa.2 = pc.2 then some ((pa.1, pb.1, pc.1), pa.2) else none))) := by
  simp only [X.all3]
  cases hb : b.go d l with
  | error e => simp
  | ok bs =>
    cases hc : c.go d l with
    | error e => simp
    | ok cs =>
      cases ha : a.go d l with
      | error e => simp
      | ok as => simp [eq_comm]

theorem all3_error {a : XMatch W α} {b : XMatch W β} {c : XMatch W γ} {d : Dir} {l : LLLine W}
    {e : Panic} (h : (X.all3 a b c).go d l = .error e) :
    a.go d l = .error e ∨ b.go d l = .error e ∨ c.go d l = .error e := by
  simp only [X.all3] at h
  cases hb : b.go d l with
  | error e' => simp only [hb, Except.error.injEq] at h; subst h; exact Or.inr (Or.inl rfl)
  | ok bs =>
    cases hc : c.go d l with
    | error e' => simp only [hb, hc, Except.error.injEq] at h; subst h; exact Or.inr (Or.inr rfl)
    | ok cs =>
      cases ha : a.go d l with
      | error e' => simp only [hb, hc, ha, Except.error.injEq] at h; subst h; exact Or.inl rfl
      | ok as => simp [hb, hc, ha] at h

theorem anyOf2_ok_iff {a : XMatch W α} {b : XMatch W β} {d : Dir} {l : LLLine W}
    {out : List (AnyOf2 α β × Nat)} : (X.anyOf2 a b).go d l = .ok out ↔
    ∃ as, a.go d l = .ok as ∧
      ((as ≠ [] ∧ out = as.map (fun p => (AnyOf2.A p.1, p.2))) ∨
       (as = [] ∧ ∃ bs, b.go d l = .ok bs ∧ out = bs.map (fun p => (AnyOf2.B p.1, p.2)))) := by
  simp only [X.anyOf2]
  cases ha : a.go d l with
  | error e => simp
  | ok as =>
    cases as with
    | nil =>
      cases hb : b.go d l with
      | error e => simp
      | ok bs => simp [eq_comm]
    | cons x xs => simp [eq_comm]

theorem anyOf2_error {a : XMatch W α} {b : XMatch W β} {d : Dir} {l : LLLine W} {e : Panic}
    (h : (X.anyOf2 a b).go d l = .error e) : a.go d l = .error e ∨ b.go d l = .error e := by
  simp only [X.anyOf2] at h
  cases ha : a.go d l with
  | error e' => simp only [ha, Except.error.injEq] at h; subst h; exact Or.inl rfl
  | ok as =>
    cases as with
    | nil =>
      cases hb : b.go d l with
      | error e' => simp [ha, hb] at h; subst h; exact Or.inr rfl
      | ok bs => simp [ha, hb] at h
    | cons x xs => simp [ha] at h

/-- relabelling of nested choices -/
def AnyOf2.to3 : AnyOf2 α (AnyOf2 β γ) → AnyOf3 α β γ
  | .A a => .A a
  | .B (.A b) => .B b
  | .B (.B c) => .C c

theorem anyOf3_eq (a : XMatch W α) (b : XMatch W β) (c : XMatch W γ) (d : Dir) (l : LLLine W) :
    (X.anyOf3 a b c).go d l =
      (match (X.anyOf2 a (X.anyOf2 b c)).go d l with
      | .error e => .error e
      | .ok out => .ok (out.map (fun p => (p.1.to3, p.2)))) := by
  simp only [X.anyOf3, X.anyOf2]
  cases a.go d l with
  | error e => rfl
  | ok as =>
    cases as with
    | cons x xs => simp [AnyOf2.to3, Function.comp_def]
    | nil =>
      cases b.go d l with
      | error e => rfl
      | ok bs =>
        cases bs with
        | cons x xs => simp [AnyOf2.to3, Function.comp_def]
        | nil =>
          cases c.go d l with
          | error e => rfl
          | ok cs => simp [AnyOf2.to3, Function.comp_def]

theorem goAfter_ok_iff {m : XMatch W α} {d : Dir} {idx : Nat} {l : LLLine W} {out : List (α × Nat)} :
    X.goAfter m d idx l = .ok out ↔
      (∀ d', d.Next idx l d' → m.go d' l = .ok out) ∧ ((¬ ∃ d', d.Next idx l d') → out = []) := by
  simp only [X.goAfter]
  cases ha : d.after idx l with
  | none =>
    have hn : ¬ ∃ d', d.Next idx l d' := by
      rintro ⟨d', h⟩; rw [after_iff.2 h] at ha; cases ha
    simp only [Except.ok.injEq]
    constructor
    · rintro rfl; exact ⟨fun d' h => absurd ⟨d', h⟩ hn, fun _ => rfl⟩
    · intro h; exact (h.2 hn).symm
  | some d1 =>
    have h1 := after_iff.1 ha
    constructor
    · intro h
      refine ⟨?_, fun hn => absurd ⟨d1, h1⟩ hn⟩
      intro d' h'
      rw [after_iff.2 h'] at ha
      cases ha; exact h
    · intro h; exact h.1 d1 h1

theorem mem_goAfter {m : XMatch W α} {d : Dir} {idx : Nat} {l : LLLine W} {out : List (α × Nat)}
    (h : X.goAfter m d idx l = .ok out) {p : α × Nat} :
    p ∈ out ↔ ∃ d' bs, d.Next idx l d' ∧ m.go d' l = .ok bs ∧ p ∈ bs := by
  obtain ⟨h1, h2⟩ := goAfter_ok_iff.1 h
  constructor
  · intro hp
    by_cases hn : ∃ d', d.Next idx l d'
    · obtain ⟨d', h'⟩ := hn
      exact ⟨d', out, h', h1 d' h', hp⟩
    · rw [h2 hn] at hp; cases hp
  · rintro ⟨d', bs, h', hb, hp⟩
    rw [h1 d' h'] at hb
    cases hb; exact hp

theorem goAfter_error_iff {m : XMatch W α} {d : Dir} {idx : Nat} {l : LLLine W} {e : Panic} :
    X.goAfter m d idx l = .error e ↔ ∃ d', d.Next idx l d' ∧ m.go d' l = .error e := by
  simp only [X.goAfter]
  cases ha : d.after idx l with
  | none =>
    simp only [reduceCtorEq, false_iff]
    rintro ⟨d', h, _⟩; rw [after_iff.2 h] at ha; cases ha
  | some d1 =>
    constructor
    · intro h; exact ⟨d1, after_iff.1 ha, h⟩
    · rintro ⟨d', h, hm⟩
      rw [after_iff.2 h] at ha; cases ha; exact hm

theorem seq2_ok_iff {a : XMatch W α} {b : XMatch W β} {d : Dir} {l : LLLine W}
    {out : List ((α × β) × Nat)} : (X.seq2 a b).go d l = .ok out ↔
    ∃ as, a.go d l = .ok as ∧ (∀ pa ∈ as, ∃ bs, X.goAfter b d pa.2 l = .ok bs) ∧
      out = as.flatMap (fun pa => (okD (X.goAfter b d pa.2 l)).map (fun pb => ((pa.1, pb.1), pb.2))) := by
  simp only [X.seq2]
  cases ha : a.go d l with
  | error e => simp
  | ok as =>
    simp only [Except.ok.injEq, exists_eq_left', flatMapR_ok_iff]
    have e1 : (∀ x ∈ as, ∃ ys, ((match X.goAfter b d x.2 l with
        | .error e => .error e
        | .ok bs => .ok (bs.map (fun pb => ((x.1, pb.1), pb.2)))) : R (List ((α × β) × Nat))) = .ok ys) ↔
        ∀ pa ∈ as, ∃ bs, X.goAfter b d pa.2 l = .ok bs := by
      apply forall_congr'; intro x
      apply forall_congr'; intro hx
      cases X.goAfter b d x.2 l <;> simp
    have e2 : (fun x : α × Nat => okD (match X.goAfter b d x.2 l with
        | .error e => .error e
        | .ok bs => (.ok (bs.map (fun pb => ((x.1, pb.1), pb.2))) : R (List ((α × β) × Nat))))) =
        fun pa => (okD (X.goAfter b d pa.2 l)).map (fun pb => ((pa.1, pb.1), pb.2)) := by
      funext x
      cases X.goAfter b d x.2 l <;> simp [okD]
    rw [← e1, ← e2]
    exact Iff.rfl

theorem mem_seq2 {a : XMatch W α} {b : XMatch W β} {d : Dir} {l : LLLine W}
    {out : List ((α × β) × Nat)} (h : (X.seq2 a b).go d l = .ok out) {x : α} {y : β} {j : Nat} :
    ((x, y), j) ∈ out ↔ ∃ as m d' bs, a.go d l = .ok as ∧ (x, m) ∈ as ∧ d.Next m l d' ∧
      b.go d' l = .ok bs ∧ (y, j) ∈ bs := by
  obtain ⟨as, ha, hok, rfl⟩ := seq2_ok_iff.1 h
  rw [List.mem_flatMap]
  constructor
  · rintro ⟨pa, hpa, hm⟩
    obtain ⟨bs, hbs⟩ := hok pa hpa
    rw [okD_of hbs, List.mem_map] at hm
    obtain ⟨pb, hpb, he⟩ := hm
    obtain ⟨⟨rfl, rfl⟩, rfl⟩ : (pa.1 = x ∧ pb.1 = y) ∧ pb.2 = j := by simpa using he
    obtain ⟨d', bs', hn, hg, hp⟩ := (mem_goAfter hbs).1 hpb
    exact ⟨as, pa.2, d', bs', ha, hpa, hn, hg, hp⟩
  · rintro ⟨as', m, d', bs, ha', hx, hn, hb, hy⟩
    rw [ha] at ha'; cases ha'
    refine ⟨(x, m), hx, ?_⟩
    obtain ⟨bs', hbs'⟩ := hok (x, m) hx
    rw [okD_of hbs', List.mem_map]
    exact ⟨(y, j), (mem_goAfter hbs').2 ⟨d', bs, hn, hb, hy⟩, rfl⟩

theorem seq2_error {a : XMatch W α} {b : XMatch W β} {d : Dir} {l : LLLine W} {e : Panic}
    (h : (X.seq2 a b).go d l = .error e) : a.go d l = .error e ∨
      ∃ as pa d', a.go d l = .ok as ∧ pa ∈ as ∧ d.Next pa.2 l d' ∧ b.go d' l = .error e := by
  simp only [X.seq2] at h
  cases ha : a.go d l with
  | error e' => simp only [ha, Except.error.injEq] at h; subst h; exact Or.inl rfl
  | ok as =>
    right
    simp only [ha] at h
    obtain ⟨pa, hpa, hh⟩ := flatMapR_error h
    cases hb : X.goAfter b d pa.2 l with
    | ok bs => simp [hb] at hh
    | error e' =>
      simp only [hb, Except.error.injEq] at hh
      subst hh
      obtain ⟨d', hn, hm⟩ := goAfter_error_iff.1 hb
      exact ⟨as, pa, d', rfl, hpa, hn, hm⟩

theorem flatMapR_flatMapR {α β γ : Type} (f : α → R (List β)) (g : β → γ) (l : List α) :
    flatMapR (fun x => match f x with
      | .error e => .error e
      | .ok ys => .ok (ys.map g)) l =
    (match flatMapR f l with
      | .error e => .error e
      | .ok ys => .ok (ys.map g)) := by
  induction l with
  | nil => rfl
  | cons x xs ih =>
    simp only [flatMapR, ih]
    cases f x with
    | error e => rfl
    | ok ys =>
      cases flatMapR f xs with
      | error e => rfl
      | ok zs => simp

/-- three-part sequences are nested two-part sequences -/
theorem seq3_eq (a : XMatch W α) (b : XMatch W β) (c : XMatch W γ) :
    X.seq3 a b c = X.seq2 a (X.seq2 b c) := by
  unfold X.seq3
  rw [X.seq2]
  congr 1
  funext d l
  cases ha : a.go d l with
  | error e => rfl
  | ok as =>
    simp only
    apply flatMapR_congr
    intro pa _
    simp only [X.goAfter]
    cases hd : d.after pa.2 l with
    | none => rfl
    | some d' =>
      simp only [X.seq2]
      cases hb : b.go d' l with
      | error e => rfl
      | ok bs =>
        simp only [X.goAfter, after_after hd]
        refine Eq.trans ?_ ((flatMapR_flatMapR (fun pb : β × Nat => (match X.goAfter c d pb.2 l with
          | .error e => .error e
          | .ok bs => .ok (bs.map (fun pc => ((pb.1, pc.1), pc.2))) : R (List ((β × γ) × Nat))))
          (fun pb => ((pa.1, pb.1), pb.2)) bs).trans ?_)
        · apply flatMapR_congr
          intro pb _
          simp only [X.goAfter]
          cases d.after pb.2 l with
          | none => simp
          | some d2 =>
            simp only
            cases c.go d2 l with
            | error e => rfl
            | ok cs => simp [Function.comp_def]
        · simp only [X.goAfter]
          generalize flatMapR _ bs = z
          cases z <;> rfl

/-- three-part conjunctions have the results of nested two-part ones -/
theorem all3_ok_eq (a : XMatch W α) (b : XMatch W β) (c : XMatch W γ) (d : Dir) (l : LLLine W)
    (out : List ((α × β × γ) × Nat)) : (X.all3 a b c).go d l = .ok out ↔
      (X.all2 a (X.all2 b c)).go d l = .ok out := by
  rw [all3_ok_iff, all2_ok_iff]
  have key : ∀ (as : List (α × Nat)) (bs : List (β × Nat)) (cs : List (γ × Nat)),
      as.flatMap (fun pa => bs.flatMap (fun pb => cs.filterMap (fun pc =>
            if pa.2 = pb.2 ∧ pa.2 = pc.2 then some ((pa.1, pb.1, pc.1), pa.2) else none))) =
      as.flatMap (fun pa => (bs.flatMap (fun pb => cs.filterMap (fun pc =>
          if pb.2 = pc.2 then some ((pb.1, pc.1), pb.2) else none))).filterMap (fun pb =>
          if pa.2 = pb.2 then some ((pa.1, pb.1), pa.2) else none)) := by
    intro as bs cs
    congr 1; funext pa
    induction bs with
    | nil => rfl
    | cons pb bs ih =>
      simp only [List.flatMap_cons, List.filterMap_append, ih]
      congr 1
      rw [List.filterMap_filterMap]
      congr 1; funext pc
      by_cases h1 : pb.2 = pc.2 <;> by_cases h2 : pa.2 = pb.2 <;> simp [h1, h2]
      all_goals (intro h; omega)
  constructor
  · rintro ⟨as, bs, cs, ha, hb, hc, rfl⟩
    exact ⟨as, _, ha, all2_ok_iff.2 ⟨bs, cs, hb, hc, rfl⟩, key as bs cs⟩
  · rintro ⟨as, bcs, ha, hbc, rfl⟩
    obtain ⟨bs, cs, hb, hc, rfl⟩ := all2_ok_iff.1 hbc
    exact ⟨as, bs, cs, ha, hb, hc, (key as bs cs).symm⟩

theorem mem_all2 {a : XMatch W α} {b : XMatch W β} {d : Dir} {l : LLLine W}
    {out : List ((α × β) × Nat)} (h : (X.all2 a b).go d l = .ok out) {x : α} {y : β} {j : Nat} :
    ((x, y), j) ∈ out ↔ ∃ as bs, a.go d l = .ok as ∧ b.go d l = .ok bs ∧ (x, j) ∈ as ∧ (y, j) ∈ bs := by
  obtain ⟨as, bs, ha, hb, rfl⟩ := all2_ok_iff.1 h
  simp only [List.mem_flatMap, List.mem_filterMap]
  constructor
  · rintro ⟨pa, hpa, pb, hpb, he⟩
    split at he
    · next hj =>
      obtain ⟨⟨rfl, rfl⟩, rfl⟩ : (pa.1 = x ∧ pb.1 = y) ∧ pa.2 = j := by simpa using he
      exact ⟨as, bs, ha, hb, hpa, by rw [hj]; exact hpb⟩
    · cases he
  · rintro ⟨as', bs', ha', hb', hx, hy⟩
    rw [ha] at ha'; rw [hb] at hb'; cases ha'; cases hb'
    exact ⟨(x, j), hx, (y, j), hy, by simp⟩

/-! ### matcher expressions on represented lines -/

theorem mem_oneOf_list {k : Ty W} {h : History W} {q : Val k → Bool} {f : LRange → Nat} {p : LRange → Prop}
    [DecidablePred p] {β : Type} {g : Val k → β} {z : β} {j : Nat} :
    (z, j) ∈ ((rangesOf k h).filter (fun r => decide (p r))).flatMap
      (fun r => ((valuesOf k r h).filter q).map (fun v => (g v, f r))) ↔
    ∃ r v, p r ∧ f r = j ∧ q v = true ∧ g v = z ∧ (⟨k, r, v⟩ : Rec W) ∈ h := by
  simp only [List.mem_flatMap, List.mem_filter, decide_eq_true_eq, List.mem_map, Prod.mk.injEq]
  constructor
  · rintro ⟨r, ⟨_, hp⟩, v', ⟨hv, hq⟩, rfl, rfl⟩
    exact ⟨r, v', hp, rfl, hq, rfl, mem_valuesOf.1 hv⟩
  · rintro ⟨r, v, hp, rfl, hq, rfl, hm⟩
    exact ⟨r, ⟨mem_rangesOf.2 ⟨v, hm⟩, hp⟩, v, ⟨mem_valuesOf.2 hm, hq⟩, rfl, rfl⟩

theorem textToken_fwd (l : LLLine W) (i : Nat) : (X.tokenText (W := W)).go (.fwd i) l =
    match l.ll_tokens[i]? with
    | none => .error .textOob
    | some t => match t.token with
      | .Text s _ => .ok [(s, i)]
      | .Value => .ok [] := by
  simp only [X.tokenText, Dir.textToken]
  cases l.ll_tokens[i]? with
  | none => rfl
  | some t => cases h : t.token <;> simp [h]

theorem textToken_bwd (l : LLLine W) (i : Nat) : (X.tokenText (W := W)).go (.bwd i) l =
    match l.ll_tokens[i]? with
    | none => .ok []
    | some t => match t.token with
      | .Text s _ => .ok [(s, i)]
      | .Value => .ok [] := by
  simp only [X.tokenText, Dir.textToken]
  cases l.ll_tokens[i]? with
  | none => rfl
  | some t => cases h : t.token <;> simp [h]

/-- `j` lies at or after the start, in the direction of matching -/
def Dir.RightWay : Dir → Nat → Prop
  | .fwd i, j => i ≤ j
  | .bwd i, j => j ≤ i

theorem next_rightWay {d d' : Dir} {m j : Nat} {l : LLLine W} (hn : d.Next m l d')
    (h1 : d.RightWay m) (h2 : d'.RightWay j) : d.RightWay j := by
  cases d with
  | fwd i =>
    obtain ⟨rfl, _⟩ := hn
    simp only [Dir.RightWay] at *; omega
  | bwd i =>
    obtain ⟨n, rfl, rfl⟩ := hn
    simp only [Dir.RightWay] at *; omega

/-! ### matchers of the user -/

theorem userTree_ends {I : Type} {A : I → Type} {Out : Type} {P : Nat → Prop} (part : (i : I) → XMatch W (A i))
    (t : UserTree A Out) (d : Dir) (l : LLLine W)
    (hp : ∀ i rs, (part i).go d l = .ok rs → ∀ x ∈ rs, P x.2) : ∀ seen, (∀ e ∈ seen, P e) →
    ∀ out, t.run part d l seen = .ok out → ∀ r ∈ out, P r.2 := by
  induction t with
  | answer o =>
    intro seen hs out hg r hr
    simp only [UserTree.run, Except.ok.injEq] at hg
    subst hg
    obtain ⟨x, _, hx⟩ := List.mem_filterMap.1 hr
    cases he : seen[x.2]? with
    | none => rw [he] at hx; cases hx
    | some e =>
      rw [he] at hx
      simp only [Option.map_some, Option.some.injEq] at hx
      subst hx
      exact hs e (List.mem_of_getElem? he)
  | ask i next ih =>
    intro seen hs out hg r hr
    simp only [UserTree.run] at hg
    cases hq : (part i).go d l with
    | error e => rw [hq] at hg; cases hg
    | ok rs =>
      rw [hq] at hg
      refine ih _ _ _ (fun e he => ?_) out hg r hr
      rcases List.mem_append.1 he with h | h
      · exact hs e h
      · obtain ⟨x, hx, rfl⟩ := List.mem_map.1 h
        exact hp i rs hq x hx

theorem userTree_error {I : Type} {A : I → Type} {Out : Type} (part : (i : I) → XMatch W (A i)) (d : Dir) (l : LLLine W)
    (t : UserTree A Out) : ∀ seen e, t.run part d l seen = .error e → ∃ i, (part i).go d l = .error e := by
  induction t with
  | answer o => intro seen e hg; simp [UserTree.run] at hg
  | ask i next ih =>
    intro seen e hg
    simp only [UserTree.run] at hg
    cases hq : (part i).go d l with
    | error e' => rw [hq] at hg; cases hg; exact ⟨i, hq⟩
    | ok rs => rw [hq] at hg; exact ih _ _ _ _ hg

theorem userTree_keeps {I : Type} {A : I → Type} {Out : Type} (part : (i : I) → XMatch W (A i)) (d : Dir) (l l' : LLLine W)
    (t : UserTree A Out) (hp : ∀ i rs, (part i).go d l = .ok rs → (part i).go d l' = .ok rs) :
    ∀ seen out, t.run part d l seen = .ok out → t.run part d l' seen = .ok out := by
  induction t with
  | answer o => intro seen out hg; exact hg
  | ask i next ih =>
    intro seen out hg
    simp only [UserTree.run] at hg ⊢
    cases hq : (part i).go d l with
    | error e' => rw [hq] at hg; cases hg
    | ok rs => rw [hq] at hg; rw [hp i rs hq]; exact ih _ _ _ _ hg

/-- where results of matcher expressions end -/
theorem built_results {T : Ty W → Prop} {has : Bool} {Out : Type} {m : XMatch W Out}
    (hb : Built T has m) {l : LLLine W} {h : History W} (rep : Rep l h) (ord : Prop)
    (ho : ord → Ordered h) : ∀ d out, m.go d l = .ok out → ∀ r ∈ out,
      r.2 < l.ll_tokens.length ∧ (ord → d.RightWay r.2) := by
  induction hb with
  | attr k t =>
    intro d out hg r hr
    obtain ⟨v, j⟩ := r
    change d.attr k l = .ok out at hg
    cases d with
    | fwd i =>
      by_cases hi : i < l.ll_tokens.length
      · rw [rep_attr_fwd rep k hi] at hg
        cases hg
        obtain ⟨r, hp, rfl, hm⟩ := (mem_attr_list (p := fun r => r.1 = i) (f := fun r => r.2)).1 hr
        refine ⟨(rep.bounds _ hm).2, fun hord => ?_⟩
        have := ho hord _ hm
        simp only [Dir.RightWay] at *; omega
      · rw [(rep_attr_oob rep k hi).1] at hg; cases hg
    | bwd i =>
      by_cases hi : i < l.ll_tokens.length
      · rw [rep_attr_bwd rep k hi] at hg
        cases hg
        obtain ⟨r, hp, rfl, hm⟩ := (mem_attr_list (p := fun r => r.2 = i) (f := fun r => r.1)).1 hr
        refine ⟨(rep.bounds _ hm).1, fun hord => ?_⟩
        have := ho hord _ hm
        simp only [Dir.RightWay] at *; omega
      · rw [(rep_attr_oob rep k hi).2] at hg; cases hg
  | attrEq k t v =>
    intro d out hg r hr
    obtain ⟨u, j⟩ := r
    change d.attrEq k v l = .ok out at hg
    cases d with
    | fwd i =>
      by_cases hi : i < l.ll_tokens.length
      · rw [rep_attrEq_fwd rep k v hi] at hg
        cases hg
        obtain ⟨r, w, hp, rfl, _, _, hm⟩ := (mem_oneOf_list (p := fun r => r.1 = i) (f := fun r => r.2)
          (g := fun _ => ())).1 hr
        refine ⟨(rep.bounds _ hm).2, fun hord => ?_⟩
        have := ho hord _ hm
        simp only [Dir.RightWay] at *; omega
      · rw [(rep_attrEq_oob rep k v hi).1] at hg; cases hg
    | bwd i =>
      by_cases hi : i < l.ll_tokens.length
      · rw [rep_attrEq_bwd rep k v hi] at hg
        cases hg
        obtain ⟨r, w, hp, rfl, _, _, hm⟩ := (mem_oneOf_list (p := fun r => r.2 = i) (f := fun r => r.1)
          (g := fun _ => ())).1 hr
        refine ⟨(rep.bounds _ hm).1, fun hord => ?_⟩
        have := ho hord _ hm
        simp only [Dir.RightWay] at *; omega
      · rw [(rep_attrEq_oob rep k v hi).2] at hg; cases hg
  | tokenHasAny k t hh set =>
    intro d out hg r hr
    obtain ⟨u, j⟩ := r
    change d.tokenAttrOneOf k set l = .ok out at hg
    cases d with
    | fwd i =>
      rw [rep_oneOf_fwd rep] at hg
      split at hg
      · next hx =>
        cases hg
        obtain ⟨x, hx, hr2⟩ := hx
        have hb := rep.bounds x hx
        rw [hr2] at hb
        simp only [List.mem_map, Prod.mk.injEq] at hr
        obtain ⟨_, _, _, rfl⟩ := hr
        exact ⟨hb.1, fun _ => Nat.le_refl _⟩
      · cases hg
    | bwd i =>
      by_cases hi : i < l.ll_tokens.length
      · rw [rep_oneOf_bwd rep k set hi] at hg
        cases hg
        obtain ⟨r, w, hp, rfl, _, _, hm⟩ := (mem_oneOf_list (p := fun r => r.2 = i) (f := fun r => r.1)
          (g := id)).1 hr
        refine ⟨(rep.bounds _ hm).1, fun hord => ?_⟩
        have := ho hord _ hm
        simp only [Dir.RightWay] at *; omega
      · rw [rep_oneOf_bwd_oob rep k set hi] at hg; cases hg
  | tokenText =>
    intro d out hg r hr
    have key : ∀ i, d = .fwd i ∨ d = .bwd i → r.2 = i ∧ i < l.ll_tokens.length := by
      intro i hd
      cases ht : l.ll_tokens[i]? with
      | none =>
        rcases hd with rfl | rfl
        · rw [textToken_fwd, ht] at hg; cases hg
        · rw [textToken_bwd, ht] at hg; cases hg; cases hr
      | some t =>
        have hi : i < l.ll_tokens.length := (List.getElem?_eq_some_iff.1 ht).1
        refine ⟨?_, hi⟩
        rcases hd with rfl | rfl
        · rw [textToken_fwd, ht] at hg
          simp only at hg
          cases h2 : t.token <;> rw [h2] at hg <;> simp only at hg <;> cases hg
          · simp at hr; simp [hr]
          · cases hr
        · rw [textToken_bwd, ht] at hg
          simp only at hg
          cases h2 : t.token <;> rw [h2] at hg <;> simp only at hg <;> cases hg
          · simp at hr; simp [hr]
          · cases hr
    cases d with
    | fwd i => obtain ⟨e, hi⟩ := key i (Or.inl rfl); rw [e]; exact ⟨hi, fun _ => Nat.le_refl _⟩
    | bwd i => obtain ⟨e, hi⟩ := key i (Or.inr rfl); rw [e]; exact ⟨hi, fun _ => Nat.le_refl _⟩
  | all2 _ _ iha ihb =>
    intro d out hg r hr
    obtain ⟨⟨x, y⟩, j⟩ := r
    obtain ⟨as, bs, ha, hb, hx, hy⟩ := (mem_all2 hg).1 hr
    exact iha d as ha _ hx
  | all3 _ _ _ iha ihb ihc =>
    intro d out hg r hr
    rw [all3_ok_eq] at hg
    obtain ⟨⟨x, y⟩, j⟩ := r
    obtain ⟨as, bs, ha, hb, hx, hy⟩ := (mem_all2 hg).1 hr
    exact iha d as ha _ hx
  | anyOf2 _ _ iha ihb =>
    intro d out hg r hr
    obtain ⟨as, ha, h | h⟩ := anyOf2_ok_iff.1 hg
    · obtain ⟨_, rfl⟩ := h
      obtain ⟨p, hp, rfl⟩ := List.mem_map.1 hr
      exact iha d as ha p hp
    · obtain ⟨_, bs, hb, rfl⟩ := h
      obtain ⟨p, hp, rfl⟩ := List.mem_map.1 hr
      exact ihb d bs hb p hp
  | @anyOf3 α β γ a b c _ _ _ iha ihb ihc =>
    intro d out hg r hr
    rw [anyOf3_eq] at hg
    cases hq : (X.anyOf2 a (X.anyOf2 b c)).go d l with
    | error e => rw [hq] at hg; cases hg
    | ok out' =>
      rw [hq] at hg
      cases hg
      obtain ⟨p, hp, rfl⟩ := List.mem_map.1 hr
      obtain ⟨as, ha, h | h⟩ := anyOf2_ok_iff.1 hq
      · obtain ⟨_, rfl⟩ := h
        obtain ⟨p1, hp1, rfl⟩ := List.mem_map.1 hp
        exact iha d as ha p1 hp1
      · obtain ⟨_, bs, hb, rfl⟩ := h
        obtain ⟨p1, hp1, rfl⟩ := List.mem_map.1 hp
        obtain ⟨as, ha, h | h⟩ := anyOf2_ok_iff.1 hb
        · obtain ⟨_, rfl⟩ := h
          obtain ⟨p2, hp2, rfl⟩ := List.mem_map.1 hp1
          exact ihb d as ha p2 hp2
        · obtain ⟨_, cs, hc, rfl⟩ := h
          obtain ⟨p2, hp2, rfl⟩ := List.mem_map.1 hp1
          exact ihc d cs hc p2 hp2
  | seq2 _ _ iha ihb =>
    intro d out hg r hr
    obtain ⟨⟨x, y⟩, j⟩ := r
    obtain ⟨as, m, d', bs, ha, hx, hn, hb, hy⟩ := (mem_seq2 hg).1 hr
    have h1 := iha d as ha _ hx
    have h2 := ihb d' bs hb _ hy
    exact ⟨h2.1, fun hord => next_rightWay hn (h1.2 hord) (h2.2 hord)⟩
  | seq3 _ _ _ iha ihb ihc =>
    intro d out hg r hr
    rw [seq3_eq] at hg
    obtain ⟨⟨x, y, z⟩, j⟩ := r
    obtain ⟨as, m, d', bs, ha, hx, hn, hb, hy⟩ := (mem_seq2 hg).1 hr
    obtain ⟨cs, m2, d2, ds, hc, hy2, hn2, hd, hz⟩ := (mem_seq2 hb).1 hy
    have h1 := iha d as ha _ hx
    have h2 := ihb d' cs hc _ hy2
    have h3 := ihc d2 ds hd _ hz
    exact ⟨h3.1, fun hord => next_rightWay hn (h1.2 hord)
      (next_rightWay hn2 (h2.2 hord) (h3.2 hord))⟩
  | user part t _ ih =>
    intro d out hg r hr
    refine userTree_ends (P := fun e => e < l.ll_tokens.length ∧ (ord → d.RightWay e)) part t d l
      (fun i rs h x hx => ih i d rs h x hx) [] (by simp) out hg r hr
  | recursive f _ _ ih => exact fun d out hg r hr => ih _ d out hg r hr

theorem next_at {d d' : Dir} {m : Nat} {l : LLLine W} (hn : d.Next m l d')
    (hm : m < l.ll_tokens.length) : d'.at < l.ll_tokens.length := by
  cases d with
  | fwd i => obtain ⟨rfl, h⟩ := hn; exact h
  | bwd i => obtain ⟨n, rfl, rfl⟩ := hn; simp only [Dir.at]; omega

theorem next_fwd {d d' : Dir} {m : Nat} {l : LLLine W} (hn : d.Next m l d')
    (h : ∃ i, d' = .fwd i) : ∃ i, d = .fwd i := by
  cases d with
  | fwd i => exact ⟨i, rfl⟩
  | bwd i =>
    obtain ⟨n, _, rfl⟩ := hn
    obtain ⟨j, hj⟩ := h; cases hj

/-- the only panic of a matcher expression at a token of the line -/
theorem built_error {T : Ty W → Prop} {has : Bool} {Out : Type} {m : XMatch W Out}
    (hb : Built T has m) {l : LLLine W} {h : History W} (rep : Rep l h) :
    ∀ d e, d.at < l.ll_tokens.length → m.go d l = .error e →
      e = .noTokenAttrs ∧ has = true ∧ (∃ i, d = .fwd i) ∧
        ∃ p, p < l.ll_tokens.length ∧ ∀ x ∈ h, x.range ≠ (p, p) := by
  have lift2 : ∀ {d d' : Dir} {m : Nat} {e : Panic}, d.Next m l d' →
      (e = .noTokenAttrs ∧ has = true ∧ (∃ i, d' = .fwd i) ∧
        ∃ p, p < l.ll_tokens.length ∧ ∀ x ∈ h, x.range ≠ (p, p)) →
      (e = .noTokenAttrs ∧ has = true ∧ (∃ i, d = .fwd i) ∧
        ∃ p, p < l.ll_tokens.length ∧ ∀ x ∈ h, x.range ≠ (p, p)) := by
    rintro d d' m e hn ⟨h1, h2, h3, h4⟩
    exact ⟨h1, h2, next_fwd hn h3, h4⟩
  induction hb with
  | attr k t =>
    intro d e hi hg
    change d.attr k l = _ at hg
    cases d with
    | fwd i => rw [rep_attr_fwd (i := i) rep k hi] at hg; cases hg
    | bwd i => rw [rep_attr_bwd (i := i) rep k hi] at hg; cases hg
  | attrEq k t v =>
    intro d e hi hg
    change d.attrEq k v l = _ at hg
    cases d with
    | fwd i => rw [rep_attrEq_fwd (i := i) rep k v hi] at hg; cases hg
    | bwd i => rw [rep_attrEq_bwd (i := i) rep k v hi] at hg; cases hg
  | tokenHasAny k t hh set =>
    intro d e hi hg
    change d.tokenAttrOneOf k set l = _ at hg
    cases d with
    | fwd i =>
      rw [rep_oneOf_fwd rep] at hg
      split at hg
      · cases hg
      · next hn =>
        cases hg
        exact ⟨rfl, hh, ⟨i, rfl⟩, i, hi, fun x hx hr => hn ⟨x, hx, hr⟩⟩
    | bwd i => rw [rep_oneOf_bwd (i := i) rep k set hi] at hg; cases hg
  | tokenText =>
    intro d e hi hg
    cases d with
    | fwd i =>
      have hi' : i < l.ll_tokens.length := hi
      rw [textToken_fwd, List.getElem?_eq_getElem hi'] at hg
      simp only at hg
      cases h2 : (l.ll_tokens[i]'hi').token <;> rw [h2] at hg <;> cases hg
    | bwd i =>
      have hi' : i < l.ll_tokens.length := hi
      rw [textToken_bwd, List.getElem?_eq_getElem hi'] at hg
      simp only at hg
      cases h2 : (l.ll_tokens[i]'hi').token <;> rw [h2] at hg <;> cases hg
  | all2 _ _ iha ihb =>
    intro d e hi hg
    rcases all2_error hg with h | h
    · exact iha d e hi h
    · exact ihb d e hi h
  | all3 _ _ _ iha ihb ihc =>
    intro d e hi hg
    rcases all3_error hg with h | h | h
    · exact iha d e hi h
    · exact ihb d e hi h
    · exact ihc d e hi h
  | anyOf2 _ _ iha ihb =>
    intro d e hi hg
    rcases anyOf2_error hg with h | h
    · exact iha d e hi h
    · exact ihb d e hi h
  | @anyOf3 α β γ a b c _ _ _ iha ihb ihc =>
    intro d e hi hg
    rw [anyOf3_eq] at hg
    cases hq : (X.anyOf2 a (X.anyOf2 b c)).go d l with
    | ok out => rw [hq] at hg; cases hg
    | error e' =>
      rw [hq] at hg
      cases hg
      rcases anyOf2_error hq with h | h
      · exact iha d _ hi h
      · rcases anyOf2_error h with h | h
        · exact ihb d _ hi h
        · exact ihc d _ hi h
  | seq2 ba bb iha ihb =>
    intro d e hi hg
    rcases seq2_error hg with h | ⟨as, pa, d', ha, hpa, hn, hb⟩
    · exact iha d e hi h
    · have := (built_results ba rep False (fun h => h.elim) d as ha pa hpa).1
      exact lift2 hn (ihb d' e (next_at hn this) hb)
  | seq3 ba bb bc iha ihb ihc =>
    intro d e hi hg
    rw [seq3_eq] at hg
    rcases seq2_error hg with h | ⟨as, pa, d', ha, hpa, hn, hb⟩
    · exact iha d e hi h
    · have h1 := (built_results ba rep False (fun h => h.elim) d as ha pa hpa).1
      have hi' := next_at hn h1
      rcases seq2_error hb with h | ⟨bs, pb, d2, hb', hpb, hn2, hc⟩
      · exact lift2 hn (ihb d' e hi' h)
      · have h2 := (built_results bb rep False (fun h => h.elim) d' bs hb' pb hpb).1
        exact lift2 hn (lift2 hn2 (ihc d2 e (next_at hn2 h2) hc))
  | user part t _ ih =>
    intro d e hi hg
    obtain ⟨i, h⟩ := userTree_error part d l t [] e hg
    exact ih i d e hi h
  | recursive f _ _ ih => exact fun d e hi hg => ih _ d e hi hg

/-- matcher expressions are monotone: results survive any change of the line that keeps the tokens
and the results of their leaves -/
theorem built_mono {T : Ty W → Prop} {has : Bool} {Out : Type} {m : XMatch W Out}
    (hb : Built T has m) {l l' : LLLine W} (ht : l'.ll_tokens = l.ll_tokens)
    (h1 : ∀ k, T k → ∀ d, (X.attr k).go d l' = (X.attr k).go d l)
    (h2 : ∀ k, T k → ∀ v d, (X.attrEq k v).go d l' = (X.attrEq k v).go d l)
    (h3 : ∀ k, T k → ∀ set d out, (X.tokenHasAny k set).go d l = .ok out →
      (X.tokenHasAny k set).go d l' = .ok out) :
    ∀ d out, m.go d l = .ok out → m.go d l' = .ok out := by
  have hN : ∀ d idx d', Dir.Next d idx l' d' ↔ Dir.Next d idx l d' := by
    intro d idx d'
    cases d <;> simp [Dir.Next, ht]
  have hseq : ∀ {α β : Type} {a : XMatch W α} {b : XMatch W β},
      (∀ d out, a.go d l = .ok out → a.go d l' = .ok out) →
      (∀ d out, b.go d l = .ok out → b.go d l' = .ok out) →
      ∀ d out, (X.seq2 a b).go d l = .ok out → (X.seq2 a b).go d l' = .ok out := by
    intro α β a b iha ihb d out hg
    have after : ∀ idx bs, X.goAfter b d idx l = .ok bs → X.goAfter b d idx l' = .ok bs := by
      intro idx bs h
      rw [goAfter_ok_iff] at h ⊢
      refine ⟨fun d' hn => ihb _ _ (h.1 d' ((hN d idx d').1 hn)), fun hn => h.2 ?_⟩
      rintro ⟨d', h'⟩; exact hn ⟨d', (hN d idx d').2 h'⟩
    obtain ⟨as, ha, hok, rfl⟩ := seq2_ok_iff.1 hg
    rw [seq2_ok_iff]
    refine ⟨as, iha _ _ ha, ?_, ?_⟩
    · intro pa hpa
      obtain ⟨bs, hb⟩ := hok pa hpa
      exact ⟨bs, after _ _ hb⟩
    · have : ∀ as : List (α × Nat), (∀ pa ∈ as, ∃ bs, X.goAfter b d pa.2 l = .ok bs) →
          as.flatMap (fun pa => (okD (X.goAfter b d pa.2 l)).map (fun pb => ((pa.1, pb.1), pb.2))) =
          as.flatMap (fun pa => (okD (X.goAfter b d pa.2 l')).map (fun pb => ((pa.1, pb.1), pb.2))) := by
        intro as
        induction as with
        | nil => intro _; rfl
        | cons pa as ih =>
          intro hh
          obtain ⟨bs, hb⟩ := hh pa (by simp)
          simp only [List.flatMap_cons]
          rw [ih (fun p hp => hh p (by simp [hp])), hb, after _ _ hb]
      exact this as hok
  have hany : ∀ {α β : Type} {a : XMatch W α} {b : XMatch W β},
      (∀ d out, a.go d l = .ok out → a.go d l' = .ok out) →
      (∀ d out, b.go d l = .ok out → b.go d l' = .ok out) →
      ∀ d out, (X.anyOf2 a b).go d l = .ok out → (X.anyOf2 a b).go d l' = .ok out := by
    intro α β a b iha ihb d out hg
    rw [anyOf2_ok_iff] at hg ⊢
    obtain ⟨as, ha, h | h⟩ := hg
    · exact ⟨as, iha _ _ ha, Or.inl h⟩
    · obtain ⟨e, bs, hb, ho⟩ := h
      exact ⟨as, iha _ _ ha, Or.inr ⟨e, bs, ihb _ _ hb, ho⟩⟩
  have hall : ∀ {α β : Type} {a : XMatch W α} {b : XMatch W β},
      (∀ d out, a.go d l = .ok out → a.go d l' = .ok out) →
      (∀ d out, b.go d l = .ok out → b.go d l' = .ok out) →
      ∀ d out, (X.all2 a b).go d l = .ok out → (X.all2 a b).go d l' = .ok out := by
    intro α β a b iha ihb d out hg
    rw [all2_ok_iff] at hg ⊢
    obtain ⟨as, bs, ha, hb, ho⟩ := hg
    exact ⟨as, bs, iha _ _ ha, ihb _ _ hb, ho⟩
  induction hb with
  | attr k t => intro d out hg; rw [h1 k t]; exact hg
  | attrEq k t v => intro d out hg; rw [h2 k t]; exact hg
  | tokenHasAny k t hh set => intro d out hg; exact h3 k t set d out hg
  | tokenText =>
    intro d out hg
    cases d with
    | fwd i => rw [textToken_fwd] at hg ⊢; rw [ht]; exact hg
    | bwd i => rw [textToken_bwd] at hg ⊢; rw [ht]; exact hg
  | all2 _ _ iha ihb => exact hall iha ihb
  | all3 _ _ _ iha ihb ihc =>
    intro d out hg
    rw [all3_ok_eq] at hg ⊢
    exact hall iha (hall ihb ihc) d out hg
  | anyOf2 _ _ iha ihb => exact hany iha ihb
  | @anyOf3 α β γ a b c _ _ _ iha ihb ihc =>
    intro d out hg
    rw [anyOf3_eq] at hg ⊢
    cases hq : (X.anyOf2 a (X.anyOf2 b c)).go d l with
    | error e => rw [hq] at hg; cases hg
    | ok o =>
      rw [hany iha (hany ihb ihc) d o hq]
      rw [hq] at hg
      exact hg
  | seq2 _ _ iha ihb => exact hseq iha ihb
  | seq3 _ _ _ iha ihb ihc =>
    intro d out hg
    rw [seq3_eq] at hg ⊢
    exact hseq iha (hseq ihb ihc) d out hg
  | user part t _ ih =>
    intro d out hg
    exact userTree_keeps part d _ _ t (fun i rs h => ih i d rs h) [] out hg
  | recursive f _ _ ih =>
    intro d out hg
    simp only [X.limit, ht] at hg ⊢
    exact ih _ d out hg

theorem Mirrored.built {Out Out' : Type} {m : XMatch W Out} {m' : XMatch W Out'} {f : Out → Out'}
    (h : Mirrored m m' f) : Built (fun _ => True) false m ∧ Built (fun _ => True) false m' := by
  induction h with
  | attr k => exact ⟨.attr k trivial, .attr k trivial⟩
  | attrEq k v => exact ⟨.attrEq k trivial v, .attrEq k trivial v⟩
  | tokenText => exact ⟨.tokenText, .tokenText⟩
  | all2 _ _ iha ihb => exact ⟨.all2 iha.1 ihb.1, .all2 iha.2 ihb.2⟩
  | all3 _ _ _ iha ihb ihc => exact ⟨.all3 iha.1 ihb.1 ihc.1, .all3 iha.2 ihb.2 ihc.2⟩
  | seq2 _ _ iha ihb => exact ⟨.seq2 iha.1 ihb.1, .seq2 ihb.2 iha.2⟩
  | seq3 _ _ _ iha ihb ihc => exact ⟨.seq3 iha.1 ihb.1 ihc.1, .seq3 ihc.2 ihb.2 iha.2⟩

theorem built_false_ok {T : Ty W → Prop} {Out : Type} {m : XMatch W Out}
    (hb : Built T false m) {l : LLLine W} {h : History W} (rep : Rep l h) (d : Dir)
    (hi : d.at < l.ll_tokens.length) : ∃ out, m.go d l = .ok out := by
  cases hg : m.go d l with
  | ok out => exact ⟨out, rfl⟩
  | error e => exact absurd (built_error hb rep d e hi hg).2.1 (by simp)

/-- `m` yields `x` ending at `j` -/
def Yields {Out : Type} (m : XMatch W Out) (d : Dir) (l : LLLine W) (x : Out) (j : Nat) : Prop :=
  ∃ out, m.go d l = .ok out ∧ (x, j) ∈ out

theorem yields_all2 {a : XMatch W α} {b : XMatch W β} {d : Dir} {l : LLLine W} {x : α} {y : β} {j : Nat} :
    Yields (X.all2 a b) d l (x, y) j ↔ Yields a d l x j ∧ Yields b d l y j := by
  constructor
  · rintro ⟨out, hg, hm⟩
    obtain ⟨as, bs, ha, hb, hx, hy⟩ := (mem_all2 hg).1 hm
    exact ⟨⟨as, ha, hx⟩, ⟨bs, hb, hy⟩⟩
  · rintro ⟨⟨as, ha, hx⟩, ⟨bs, hb, hy⟩⟩
    have hg := all2_ok_iff.2 ⟨as, bs, ha, hb, rfl⟩
    exact ⟨_, hg, (mem_all2 hg).2 ⟨as, bs, ha, hb, hx, hy⟩⟩

theorem yields_all3 {a : XMatch W α} {b : XMatch W β} {c : XMatch W γ} {d : Dir} {l : LLLine W}
    {p : α × β × γ} {j : Nat} :
    Yields (X.all3 a b c) d l p j ↔ Yields (X.all2 a (X.all2 b c)) d l p j := by
  simp only [Yields, all3_ok_eq]

theorem yields_seq2 {a : XMatch W α} {b : XMatch W β} {d : Dir} {l : LLLine W} {x : α} {y : β} {j : Nat}
    (hok : ∃ out, (X.seq2 a b).go d l = .ok out) :
    Yields (X.seq2 a b) d l (x, y) j ↔ ∃ m d', Yields a d l x m ∧ d.Next m l d' ∧ Yields b d' l y j := by
  constructor
  · rintro ⟨out, hg, hm⟩
    obtain ⟨as, m, d', bs, ha, hx, hn, hb, hy⟩ := (mem_seq2 hg).1 hm
    exact ⟨m, d', ⟨as, ha, hx⟩, hn, ⟨bs, hb, hy⟩⟩
  · rintro ⟨m, d', ⟨as, ha, hx⟩, hn, ⟨bs, hb, hy⟩⟩
    obtain ⟨out, hg⟩ := hok
    exact ⟨out, hg, (mem_seq2 hg).2 ⟨as, m, d', bs, ha, hx, hn, hb, hy⟩⟩

theorem mirror_seq {l : LLLine W} {α α' β β' : Type} {a : XMatch W α} {a' : XMatch W α'}
    {f : α → α'} {b : XMatch W β} {b' : XMatch W β'} {g : β → β'}
    (ok1 : ∀ i, i < l.ll_tokens.length → ∃ out, (X.seq2 a b).go (.fwd i) l = .ok out)
    (ok2 : ∀ i, i < l.ll_tokens.length → ∃ out, (X.seq2 b' a').go (.bwd i) l = .ok out)
    (bdb : ∀ d y j, Yields b' d l y j → j < l.ll_tokens.length)
    (bda : ∀ d x j, Yields a d l x j → j < l.ll_tokens.length)
    (iha : ∀ i j, i < l.ll_tokens.length → j < l.ll_tokens.length → ∀ y,
      Yields a' (.bwd j) l y i ↔ ∃ x, f x = y ∧ Yields a (.fwd i) l x j)
    (ihb : ∀ i j, i < l.ll_tokens.length → j < l.ll_tokens.length → ∀ y,
      Yields b' (.bwd j) l y i ↔ ∃ x, g x = y ∧ Yields b (.fwd i) l x j) :
    ∀ i j, i < l.ll_tokens.length → j < l.ll_tokens.length → ∀ y,
      Yields (X.seq2 b' a') (.bwd j) l y i ↔
        ∃ x : α × β, (g x.2, f x.1) = y ∧ Yields (X.seq2 a b) (.fwd i) l x j := by
  intro i j hi hj y
  obtain ⟨y1, y2⟩ := y
  rw [yields_seq2 (ok2 j hj)]
  constructor
  · rintro ⟨m, d', h1, ⟨n, rfl, rfl⟩, h2⟩
    have hm := bdb _ _ _ h1
    obtain ⟨x2, rfl, h1'⟩ := (ihb (n + 1) j hm hj y1).1 h1
    obtain ⟨x1, rfl, h2'⟩ := (iha i n hi (by omega) y2).1 h2
    exact ⟨(x1, x2), rfl, (yields_seq2 (ok1 i hi)).2 ⟨n, .fwd (n + 1), h2', ⟨rfl, hm⟩, h1'⟩⟩
  · rintro ⟨⟨x1, x2⟩, he, hy⟩
    obtain ⟨rfl, rfl⟩ : g x2 = y1 ∧ f x1 = y2 := by simpa using he
    obtain ⟨m, d', h1, ⟨rfl, hm⟩, h2⟩ := (yields_seq2 (ok1 i hi)).1 hy
    exact ⟨m + 1, .bwd m, (ihb (m + 1) j hm hj _).2 ⟨x2, rfl, h2⟩, ⟨m, rfl, rfl⟩,
      (iha i m hi (bda _ _ _ h1) _).2 ⟨x1, rfl, h1⟩⟩

theorem mirror {Out Out' : Type} {m : XMatch W Out} {m' : XMatch W Out'} {f : Out → Out'}
    (hm : Mirrored m m' f) {l : LLLine W} {h : History W} (rep : Rep l h) :
    ∀ i j, i < l.ll_tokens.length → j < l.ll_tokens.length → ∀ y,
      Yields m' (.bwd j) l y i ↔ ∃ x, f x = y ∧ Yields m (.fwd i) l x j := by
  have bound : ∀ {T : Ty W → Prop} {has : Bool} {Out : Type} {m : XMatch W Out}, Built T has m →
      ∀ d y j, Yields m d l y j → j < l.ll_tokens.length := by
    rintro T has Out m hb d y j ⟨out, hg, hm⟩
    exact (built_results hb rep False (fun h => h.elim) d out hg _ hm).1
  induction hm with
  | attr k =>
    intro i j hi hj y
    simp only [id_eq, exists_eq_left, Yields]
    rw [show (X.attr k).go (.bwd j) l = _ from rep_attr_bwd rep k hj,
      show (X.attr k).go (.fwd i) l = _ from rep_attr_fwd rep k hi]
    simp only [Except.ok.injEq, exists_eq_left']
    rw [mem_attr_list (p := fun r => r.2 = j) (f := fun r => r.1),
      mem_attr_list (p := fun r => r.1 = i) (f := fun r => r.2)]
    constructor
    · rintro ⟨⟨a, b⟩, rfl, rfl, hm⟩; exact ⟨(a, b), rfl, rfl, hm⟩
    · rintro ⟨⟨a, b⟩, rfl, rfl, hm⟩; exact ⟨(a, b), rfl, rfl, hm⟩
  | attrEq k v =>
    intro i j hi hj y
    rw [show (∃ x, id x = y ∧ Yields (X.attrEq k v) (.fwd i) l x j) ↔
      Yields (X.attrEq k v) (.fwd i) l y j from
      ⟨by rintro ⟨x, rfl, h⟩; exact h, fun h => ⟨y, rfl, h⟩⟩]
    simp only [Yields]
    rw [show (X.attrEq k v).go (.bwd j) l = _ from rep_attrEq_bwd rep k v hj,
      show (X.attrEq k v).go (.fwd i) l = _ from rep_attrEq_fwd rep k v hi]
    simp only [Except.ok.injEq, exists_eq_left']
    rw [mem_oneOf_list (p := fun r => r.2 = j) (f := fun r => r.1) (g := fun _ => ()),
      mem_oneOf_list (p := fun r => r.1 = i) (f := fun r => r.2) (g := fun _ => ())]
    constructor
    · rintro ⟨⟨a, b⟩, w, rfl, rfl, hm⟩; exact ⟨(a, b), w, rfl, rfl, hm⟩
    · rintro ⟨⟨a, b⟩, w, rfl, rfl, hm⟩; exact ⟨(a, b), w, rfl, rfl, hm⟩
  | tokenText =>
    intro i j hi hj y
    simp only [id_eq, exists_eq_left, Yields]
    rw [textToken_bwd, textToken_fwd, List.getElem?_eq_getElem hi, List.getElem?_eq_getElem hj]
    simp only
    by_cases e : i = j
    · subst e; exact Iff.rfl
    · constructor
      · rintro ⟨out, hg, hm⟩
        cases h2 : (l.ll_tokens[j]'hj).token <;> rw [h2] at hg <;> cases hg
        · simp at hm; exact absurd hm.2 e
        · cases hm
      · rintro ⟨out, hg, hm⟩
        cases h2 : (l.ll_tokens[i]'hi).token <;> rw [h2] at hg <;> cases hg
        · simp at hm; exact absurd hm.2.symm e
        · cases hm
  | all2 _ _ iha ihb =>
    intro i j hi hj y
    obtain ⟨y1, y2⟩ := y
    rw [yields_all2, iha i j hi hj, ihb i j hi hj]
    constructor
    · rintro ⟨⟨x1, rfl, h1⟩, ⟨x2, rfl, h2⟩⟩
      exact ⟨(x1, x2), rfl, yields_all2.2 ⟨h1, h2⟩⟩
    · rintro ⟨⟨x1, x2⟩, he, hy⟩
      simp only [Prod.mk.injEq] at he
      obtain ⟨rfl, rfl⟩ := he
      obtain ⟨h1, h2⟩ := yields_all2.1 hy
      exact ⟨⟨x1, rfl, h1⟩, ⟨x2, rfl, h2⟩⟩
  | all3 _ _ _ iha ihb ihc =>
    intro i j hi hj y
    obtain ⟨y1, y2, y3⟩ := y
    rw [yields_all3, yields_all2, yields_all2, iha i j hi hj, ihb i j hi hj, ihc i j hi hj]
    constructor
    · rintro ⟨⟨x1, rfl, h1⟩, ⟨x2, rfl, h2⟩, ⟨x3, rfl, h3⟩⟩
      exact ⟨(x1, x2, x3), rfl, yields_all3.2 (yields_all2.2 ⟨h1, yields_all2.2 ⟨h2, h3⟩⟩)⟩
    · rintro ⟨⟨x1, x2, x3⟩, he, hy⟩
      simp only [Prod.mk.injEq] at he
      obtain ⟨rfl, rfl, rfl⟩ := he
      obtain ⟨h1, h23⟩ := yields_all2.1 (yields_all3.1 hy)
      obtain ⟨h2, h3⟩ := yields_all2.1 h23
      exact ⟨⟨x1, rfl, h1⟩, ⟨x2, rfl, h2⟩, ⟨x3, rfl, h3⟩⟩
  | @seq2 α α' β β' a a' f b b' g ha hb iha ihb =>
    exact mirror_seq (fun i hi => built_false_ok (.seq2 ha.built.1 hb.built.1) rep _ hi)
      (fun i hi => built_false_ok (.seq2 hb.built.2 ha.built.2) rep _ hi)
      (bound hb.built.2) (bound ha.built.1) iha ihb
  | @seq3 α α' β β' γ γ' a a' f b b' g c c' k ha hb hc iha ihb ihc =>
    have okbc : ∀ i, i < l.ll_tokens.length → ∃ out, (X.seq2 b c).go (.fwd i) l = .ok out :=
      fun i hi => built_false_ok (.seq2 hb.built.1 hc.built.1) rep _ hi
    -- reversed: ((c' b') a'), but the code associates to the right
    intro i j hi hj y
    obtain ⟨y1, y2, y3⟩ := y
    rw [seq3_eq, seq3_eq]
    have o1 := built_false_ok (.seq2 ha.built.1 (.seq2 hb.built.1 hc.built.1)) rep (.fwd i) hi
    have o2 := built_false_ok (.seq2 hc.built.2 (.seq2 hb.built.2 ha.built.2)) rep (.bwd j) hj
    rw [yields_seq2 o2]
    constructor
    · rintro ⟨m, d', h1, ⟨n, rfl, rfl⟩, h23⟩
      have hm := bound hc.built.2 _ _ _ h1
      have hn : n < l.ll_tokens.length := by omega
      obtain ⟨m2, d2, h2, ⟨n2, rfl, rfl⟩, h3⟩ := (yields_seq2
        (built_false_ok (.seq2 hb.built.2 ha.built.2) rep (.bwd n) hn)).1 h23
      have hm2 := bound hb.built.2 _ _ _ h2
      obtain ⟨x3, rfl, h1'⟩ := (ihc (n + 1) j hm hj y1).1 h1
      obtain ⟨x2, rfl, h2'⟩ := (ihb (n2 + 1) n hm2 hn y2).1 h2
      obtain ⟨x1, rfl, h3'⟩ := (iha i n2 hi (by omega) y3).1 h3
      refine ⟨(x1, x2, x3), rfl, (yields_seq2 o1).2 ⟨n2, .fwd (n2 + 1), h3', ⟨rfl, hm2⟩, ?_⟩⟩
      exact (yields_seq2 (okbc _ hm2)).2 ⟨n, .fwd (n + 1), h2', ⟨rfl, hm⟩, h1'⟩
    · rintro ⟨⟨x1, x2, x3⟩, he, hy⟩
      obtain ⟨rfl, rfl, rfl⟩ : k x3 = y1 ∧ g x2 = y2 ∧ f x1 = y3 := by simpa using he
      obtain ⟨m, d', h1, ⟨rfl, hm⟩, h23⟩ := (yields_seq2 o1).1 hy
      obtain ⟨m2, d2, h2, ⟨rfl, hm2⟩, h3⟩ := (yields_seq2 (okbc _ hm)).1 h23
      have b1 := bound ha.built.1 _ _ _ h1
      have b2 := bound hb.built.1 _ _ _ h2
      refine ⟨m2 + 1, .bwd m2, (ihc (m2 + 1) j hm2 hj _).2 ⟨x3, rfl, h3⟩, ⟨m2, rfl, rfl⟩, ?_⟩
      refine (yields_seq2 (built_false_ok (.seq2 hb.built.2 ha.built.2) rep (.bwd m2) b2)).2
        ⟨m + 1, .bwd m, (ihb (m + 1) m2 hm b2 _).2 ⟨x2, rfl, h2⟩, ⟨m, rfl, rfl⟩,
          (iha i m hi b1 _).2 ⟨x1, rfl, h1⟩⟩

/-- text tokens of reachable lines always carry their tag on their own range -/
theorem text_token_record {l : LLLine W} {h : History W} (hr : Reachable l h) :
    ∀ (p : Nat) (t : LLToken) (s : Str) (tag : TextTag), l.ll_tokens[p]? = some t →
      t.token = .Text s tag → (⟨.textTag, (p, p), tag⟩ : Rec W) ∈ h := by
  induction hr with
  | create input size l wf ok =>
    intro p t s tag hp ht
    obtain ⟨_, htoks, _⟩ := create_inv wf ok
    have hmap : (input.flatMap (tokensOf W size)).map (·.1) = l.ll_tokens.map (·.token) := by
      rw [htoks, layoutM_tokens]
    rw [creationHistory, hmap]
    apply List.mem_append_left
    rw [builtinHistory, List.mem_flatMap]
    refine ⟨(t.token, p), ?_, ?_⟩
    · rw [List.mem_zipIdx_iff_getElem?]; simp [hp]
    · simp only [ht, builtinOf]; split <;> simp_all
  | run l h ptr r asgs leaked l' prev ne go ok ih =>
    intro p t s tag hp ht
    obtain ⟨_, _, _, _, rfl⟩ := run_inv ne ok
    exact List.mem_append_left _ (ih p t s tag hp ht)
  | runEmpty l h ptr r l' prev empty ok ih =>
    rw [run_empty empty] at ok
    cases ok
    exact ih

/-- among the results of one token, those that end at `j` come from exactly one range -/
theorem filter_ranges {β δ : Type} (vals : LRange → List δ) (g : δ → β) (p : LRange → Prop) [DecidablePred p]
    (f : LRange → Nat) (j : Nat) (r0 : LRange) (hu : ∀ r, (p r ∧ f r = j) ↔ r = r0) :
    ∀ (R : List LRange), R.Nodup → (r0 ∉ R → vals r0 = []) →
    ((R.filter (fun r => decide (p r))).flatMap (fun r => (vals r).map (fun v => (g v, f r)))).filter
      (fun q => decide (q.2 = j)) = (vals r0).map (fun v => (g v, j)) := by
  have hother : ∀ r, r ≠ r0 → p r → (((vals r).map (fun v => (g v, f r))).filter
      (fun q => decide (q.2 = j))) = [] := by
    intro r hr hp
    rw [List.filter_eq_nil_iff]
    intro q hq
    obtain ⟨v, _, rfl⟩ := List.mem_map.1 hq
    simp only [decide_eq_true_eq]
    exact fun h => hr ((hu r).1 ⟨hp, h⟩)
  have hnone : ∀ R : List LRange, r0 ∉ R →
      ((R.filter (fun r => decide (p r))).flatMap (fun r => (vals r).map (fun v => (g v, f r)))).filter
      (fun q => decide (q.2 = j)) = [] := by
    intro R
    induction R with
    | nil => intro _; rfl
    | cons r rs ih =>
      intro hn
      simp only [List.mem_cons, not_or] at hn
      rw [List.filter_cons]
      by_cases hp : p r
      · simp only [hp, decide_true, if_true, List.flatMap_cons, List.filter_append]
        rw [ih hn.2, hother r (fun e => hn.1 e.symm) hp]; rfl
      · simp only [hp, decide_false, Bool.false_eq_true, if_false]; exact ih hn.2
  intro R
  induction R with
  | nil => intro _ h; rw [h (by simp)]; rfl
  | cons r rs ih =>
    intro hn h
    simp only [List.nodup_cons] at hn
    by_cases e : r = r0
    · subst e
      obtain ⟨hp, hf⟩ := (hu r).2 rfl
      rw [List.filter_cons]
      simp only [hp, decide_true, if_true, List.flatMap_cons, List.filter_append]
      rw [hnone rs hn.1, List.append_nil]
      rw [List.filter_eq_self.2]
      · rw [hf]
      · intro q hq
        obtain ⟨v, _, rfl⟩ := List.mem_map.1 hq
        simp [hf]
    · have ih' := ih hn.2 (fun hm => h (by simp [hm, Ne.symm e]))
      rw [List.filter_cons]
      by_cases hp : p r
      · simp only [hp, decide_true, if_true, List.flatMap_cons, List.filter_append]
        rw [hother r e hp, ih']; rfl
      · simp only [hp, decide_false, Bool.false_eq_true, if_false]; exact ih'

theorem valuesOf_not_mem {k : Ty W} {h : History W} {r : LRange} (hn : r ∉ rangesOf k h) :
    valuesOf k r h = [] := by
  apply Classical.byContradiction
  intro hc
  exact hn (mem_rangesOf_iff_values.2 hc)

theorem flatMap_append_perm' {α β : Type} (l : List α) (f g : α → List β) :
    (l.flatMap f ++ l.flatMap g).Perm (l.flatMap (fun x => f x ++ g x)) := by
  induction l with
  | nil => exact .refl _
  | cons x xs ih =>
    simp only [List.flatMap_cons]
    refine List.Perm.trans ?_ (List.Perm.append_left (f x ++ g x) ih)
    simp only [List.append_assoc]
    apply List.Perm.append_left
    rw [← List.append_assoc, ← List.append_assoc]
    exact List.Perm.append_right _ List.perm_append_comm

/-- the order of two nested loops only permutes the results -/
theorem loops_perm {α β δ : Type} (f : α → β → Option δ) (bs : List β) : ∀ as : List α,
    (as.flatMap (fun a => bs.filterMap (f a))).Perm (bs.flatMap (fun b => as.filterMap (fun a => f a b))) := by
  intro as
  induction as with
  | nil =>
    simp only [List.flatMap_nil, List.filterMap_nil]
    induction bs with
    | nil => exact .refl _
    | cons b bs ih => simp only [List.flatMap_cons, List.nil_append]; exact ih
  | cons a as ih =>
    simp only [List.flatMap_cons]
    have h1 : bs.filterMap (f a) = bs.flatMap (fun b => (f a b).toList) := by
      clear ih
      induction bs with
      | nil => rfl
      | cons b bs ih =>
        simp only [List.filterMap_cons, List.flatMap_cons, ← ih]
        cases f a b <;> rfl
    have h2 : (fun b => (a :: as).filterMap (fun a => f a b)) =
        fun b => (f a b).toList ++ as.filterMap (fun a => f a b) := by
      funext b
      simp only [List.filterMap_cons]
      cases f a b <;> rfl
    rw [h1, h2]
    exact (List.Perm.append_left _ ih).trans (flatMap_append_perm' bs _ _)

theorem count_all2 {α β : Type} [DecidableEq α] [DecidableEq β] (bs : List (β × Nat)) (x : α) (y : β) (j : Nat) :
    ∀ as : List (α × Nat), (as.flatMap (fun pa => bs.filterMap (fun pb =>
          if pa.2 = pb.2 then some ((pa.1, pb.1), pa.2) else none))).count ((x, y), j) =
      as.count (x, j) * bs.count (y, j) := by
  intro as
  induction as with
  | nil => simp
  | cons pa as ih =>
    rw [List.flatMap_cons, List.count_append, ih, List.count_cons]
    have key : ∀ bs : List (β × Nat), (bs.filterMap (fun pb =>
        if pa.2 = pb.2 then some ((pa.1, pb.1), pa.2) else none)).count ((x, y), j) =
        if pa = (x, j) then bs.count (y, j) else 0 := by
      intro bs
      induction bs with
      | nil => simp
      | cons pb bs ihb =>
        rw [List.filterMap_cons]
        obtain ⟨a, ja⟩ := pa
        obtain ⟨b, jb⟩ := pb
        simp only
        by_cases e : ja = jb
        · subst e
          simp only [if_true, List.count_cons]
          simp only at ihb
          rw [ihb]
          by_cases e1 : (a, ja) = (x, j)
          · obtain ⟨rfl, rfl⟩ : a = x ∧ ja = j := by simpa using e1
            simp
          · have : ((a, b), ja) ≠ ((x, y), j) := by
              intro h; apply e1; simp at h ⊢; exact ⟨h.1.1, h.2⟩
            simp [e1, this]
        · simp only [e, if_false]
          simp only at ihb
          rw [ihb]
          by_cases e1 : (a, ja) = (x, j)
          · obtain ⟨rfl, rfl⟩ : a = x ∧ ja = j := by simpa using e1
            rw [List.count_cons]
            have : ¬ (jb = ja) := fun h => e h.symm
            simp [this]
          · simp [e1]
    rw [key bs]
    by_cases e : pa = (x, j)
    · simp [e, Nat.add_mul, Nat.add_comm]
    · simp [e]

end LNlp
