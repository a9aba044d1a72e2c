import Verif.Spec.Scan
import Verif.Lemmas.Refine
import Verif.Lemmas.Strata
import Verif.Lemmas.Layers
import Verif.Props.Select
/- Helper lemmas for Props/Scan.lean. -/
namespace LNlp
variable {W : World} {Out : Type}

theorem Leftmost.ends {m : XMatch W Out} {s : LLSelection W} (hs : s.Inside) (hw : WellBehaved s.ll_line.val m)
    {out : List (LLSelection W × Out)} (h : Leftmost m s out) {p : LLSelection W × Out} (hp : p ∈ out) :
    p.1.start_idx ≤ p.1.end_idx ∧ p.1.end_idx < s.ll_line.val.ll_tokens.length := by
  obtain ⟨rs, hg⟩ := h.first p hp
  exact hw.1 _ _ (by have := (h.starts p hp).2; have := hs.2; omega) hg _ List.mem_cons_self

theorem pairwise_either {α : Type} {R : α → α → Prop} : ∀ {xs : List α}, xs.Pairwise R → ∀ {x y}, x ∈ xs → y ∈ xs →
    x = y ∨ R x y ∨ R y x
  | a :: xs, h, x, y, hx, hy => by
    rw [List.pairwise_cons] at h
    rcases List.mem_cons.1 hx with ex | hx' <;> rcases List.mem_cons.1 hy with ey | hy'
    · exact .inl (ex.trans ey.symm)
    · exact .inr (.inl (ex ▸ h.1 _ hy'))
    · exact .inr (.inr (ey ▸ h.1 _ hx'))
    · exact pairwise_either h.2 hx' hy'

/-- the conditions leave one choice only -/
theorem Leftmost.unique {m : XMatch W Out} {s : LLSelection W} (hs : s.Inside) (hw : WellBehaved s.ll_line.val m)
    {out out' : List (LLSelection W × Out)} (h : Leftmost m s out) (h' : Leftmost m s out') : out = out' := by
  have half : ∀ {out out' : List (LLSelection W × Out)}, Leftmost m s out → Leftmost m s out' → ∀ (n : Nat),
      (∀ p : LLSelection W × Out, p.1.start_idx < n → (p ∈ out ↔ p ∈ out')) →
      ∀ p ∈ out, p.1.start_idx = n → p ∈ out' := by
    intro out out' h h' n ih p hp e
    obtain ⟨rs, hg⟩ := h.first p hp
    obtain ⟨q, hq, hqi⟩ := h'.covers _ _ _ (h.starts p hp) hg
    by_cases he : q.1.start_idx = p.1.start_idx
    · obtain ⟨rs', hg'⟩ := h'.first q hq
      rw [he, hg] at hg'
      have hc := (List.cons.inj (Except.ok.inj hg')).1
      have h1 : p.2 = q.2 := congrArg Prod.fst hc
      have h2 : p.1.end_idx = q.1.end_idx := congrArg Prod.snd hc
      have h3 : p.1.ll_line = q.1.ll_line := (h.line p hp).trans (h'.line q hq).symm
      have : p = q := by
        obtain ⟨⟨_, _, _⟩, _⟩ := p
        obtain ⟨⟨_, _, _⟩, _⟩ := q
        simp only at h1 h2 h3 he
        simp only [h1, h2, h3, he]
      rw [this]; exact hq
    · have hlt : q.1.start_idx < p.1.start_idx := by have := hqi.1; omega
      have hqo := (ih q (by omega)).2 hq
      have hp1 := h.ends hs hw hp
      have hq1 := hqi.2
      rcases pairwise_either h.apart hp hqo with e' | e' | e'
      · subst e'; exact absurd rfl he
      · have : p.1.end_idx < q.1.start_idx := e'; omega
      · have : q.1.end_idx < p.1.start_idx := e'; omega
  have same : ∀ n (p : LLSelection W × Out), p.1.start_idx = n → (p ∈ out ↔ p ∈ out') := by
    intro n
    induction n using Nat.strongRecOn with
    | ind n ih =>
      intro p hp
      exact ⟨fun hm => half h h' n (fun q hq => ih _ hq q rfl) p hm hp,
        fun hm => half h' h n (fun q hq => (ih _ hq q rfl).symm) p hm hp⟩
  have strict : ∀ {out : List (LLSelection W × Out)}, Leftmost m s out →
      out.Pairwise (fun p q => p.1.start_idx < q.1.start_idx) := fun {out} h =>
    h.apart.imp_of_mem (fun {p q} hp _ hpq => by
      have h1 := (h.ends hs hw hp).1
      have : p.1.end_idx < q.1.start_idx := hpq
      omega)
  exact sorted_ext (lt := fun p q : LLSelection W × Out => p.1.start_idx < q.1.start_idx)
    (fun _ => Nat.lt_irrefl _) (fun _ _ h => Nat.not_lt.2 (Nat.le_of_lt h)) (strict h) (strict h') (fun p => same _ p rfl)

/-- what the loop does, if the matcher does not panic in the selection -/
theorem scan_spec {m : XMatch W Out} : ∀ (n : Nat) {s : LLSelection W}, s.Inside → WellBehaved s.ll_line.val m →
    (∀ i, s.Has i → ∃ rs, m.go (.fwd i) s.ll_line.val = .ok rs) → s.count ≤ n →
    ∃ out pieces, scan m n s = .ok (some (out, pieces)) ∧ Leftmost m s out ∧ Between s out pieces
  | 0, s, hs, _, _, hn => by
    have := hs.1
    unfold LLSelection.count at hn
    omega
  | n + 1, s, hs, hw, hok, hn => by
    unfold scan
    obtain ⟨c1, c2, c3⟩ := C40_find_first_by s m
    cases hf : s.findFirstBy m with
    | error e =>
      obtain ⟨i, e', hi, he⟩ := c3.1 ⟨e, hf⟩
      obtain ⟨rs, hrs⟩ := hok i hi
      rw [hrs] at he
      cases he
    | ok o =>
      cases o with
      | none =>
        have h0 := c1.1 hf
        refine ⟨[], [s], rfl, ⟨by simp, by simp, by simp, List.Pairwise.nil, fun i r rs hi hg => ?_⟩, ⟨?_, ?_, ?_⟩⟩
        · rw [h0 i hi] at hg; cases hg
        · intro p hp
          cases List.mem_singleton.1 hp
          exact ⟨rfl, Nat.le_refl _, hs.1, Nat.le_refl _⟩
        · intro i hi
          simp [hi]
        · simp
      | some fx =>
        obtain ⟨f, x⟩ := fx
        obtain ⟨hl, hst, ⟨rs, hg⟩, hbefore⟩ := c2 f x hf
        have hend := hw.1 _ _ (by have := hst.2; have := hs.2; omega) hg _ List.mem_cons_self
        have hend1 : f.start_idx ≤ f.end_idx := hend.1
        simp only
        cases hsp : s.splitWith f with
        | error e =>
          have := (C46_split_with_panics_iff s f).1 ⟨e, hsp⟩
          rw [hl] at this
          exact absurd rfl this
        | ok ab =>
          obtain ⟨a, b⟩ := ab
          obtain ⟨s1, s2, s3, s4⟩ := C45_split_with s f a b hsp
          have ha : ∀ p ∈ a.toList, p.PartOf s ∧ ∀ i, p.Has i → s.Has i ∧ i < f.start_idx := by
            intro p hp
            have : a = some p := by cases a <;> simp_all
            exact ⟨s3 p (.inl this), fun i hi => (s1 i).1 ⟨p, this, hi⟩⟩
          have ha1 : ∀ i, (∃ p ∈ a.toList, p.Has i) ↔ s.Has i ∧ i < f.start_idx := by
            intro i
            rw [← s1 i]
            constructor
            · rintro ⟨p, hp, hi⟩
              exact ⟨p, by cases a <;> simp_all, hi⟩
            · rintro ⟨p, hp, hi⟩
              exact ⟨p, by simp [hp], hi⟩
          have hap : a.toList.Pairwise (fun p q => p.end_idx + 1 < q.start_idx) := by cases a <;> simp
          cases b with
          | none =>
            have hnone : ∀ i, s.Has i → i ≤ f.end_idx := fun i hi => by
              apply Classical.byContradiction
              intro hc
              obtain ⟨p, hp, _⟩ := (s2 i).2 ⟨hi, by omega⟩
              cases hp
            refine ⟨_, _, rfl, ⟨by simp [hl], by simpa using hst, ?_, by simp, ?_⟩, ⟨fun p hp => (ha p hp).1, ?_, hap⟩⟩
            · intro p hp
              cases List.mem_singleton.1 hp
              exact ⟨rs, hg⟩
            · intro i r rs' hi hg'
              refine ⟨_, List.mem_singleton.2 rfl, ?_, hnone i hi⟩
              apply Classical.byContradiction
              intro hc
              rw [hbefore i hi (by simp only at hc; omega)] at hg'
              cases hg'
            · intro i hi
              have hh := hnone i hi
              rw [ha1 i]
              simp only [List.mem_singleton, forall_eq, LLSelection.Has]
              constructor
              · intro h; omega
              · intro h; exact ⟨hi, by omega⟩
          | some b =>
            have hb : b.PartOf s := s3 b (.inr rfl)
            have hbi : ∀ i, b.Has i ↔ s.Has i ∧ f.end_idx < i := fun i => by
              rw [← s2 i]
              exact ⟨fun h => ⟨b, rfl, h⟩, fun ⟨p, hp, h⟩ => by cases hp; exact h⟩
            have hb0 := (hbi b.start_idx).1 ⟨Nat.le_refl _, hb.2.2.1⟩
            have hlt : b.count ≤ n := by
              have h1 := hst.1
              have h2 := hb.2.2.2
              unfold LLSelection.count at hn ⊢
              omega
            obtain ⟨out, ps, he, hL, hB⟩ := scan_spec n (inside_of_partOf hb hs) (by rw [hb.1]; exact hw)
              (fun i hi => by rw [hb.1]; exact hok i ((hbi i).1 hi).1) hlt
            simp only [he]
            refine ⟨_, _, rfl, ⟨?_, ?_, ?_, ?_, ?_⟩, ⟨?_, ?_, ?_⟩⟩
            · intro p hp
              rcases List.mem_cons.1 hp with rfl | hp
              · exact hl
              · exact (hL.line p hp).trans hb.1
            · intro p hp
              rcases List.mem_cons.1 hp with rfl | hp
              · exact hst
              · exact ((hbi _).1 (hL.starts p hp)).1
            · intro p hp
              rcases List.mem_cons.1 hp with rfl | hp
              · exact ⟨rs, hg⟩
              · have := hL.first p hp
                rw [hb.1] at this
                exact this
            · exact List.pairwise_cons.2 ⟨fun p hp => ((hbi _).1 (hL.starts p hp)).2, hL.apart⟩
            · intro i r rs' hi hg'
              by_cases hc : f.end_idx < i
              · obtain ⟨p, hp, hpi⟩ := hL.covers i r rs' ((hbi i).2 ⟨hi, hc⟩) (by rw [hb.1]; exact hg')
                exact ⟨p, List.mem_cons_of_mem _ hp, hpi⟩
              · refine ⟨_, List.mem_cons_self, ?_, Nat.not_lt.1 hc⟩
                apply Classical.byContradiction
                intro hc'
                rw [hbefore i hi (by simp only at hc'; omega)] at hg'
                cases hg'
            · intro p hp
              rcases List.mem_append.1 hp with hp | hp
              · exact (ha p hp).1
              · obtain ⟨q1, q2, q3, q4⟩ := hB.parts p hp
                obtain ⟨r1, r2, r3, r4⟩ := hb
                exact ⟨q1.trans r1, by omega, q3, by omega⟩
            · intro i hi
              have hq : ∀ q ∈ out, ∀ i, q.1.Has i → f.end_idx < i := fun q hq i hi => by
                have := ((hbi _).1 (hL.starts q hq)).2
                have := hi.1
                omega
              constructor
              · rintro ⟨p, hp, hpi⟩ q hqm
                rcases List.mem_append.1 hp with hp | hp
                · have h1 := ((ha p hp).2 i hpi).2
                  rcases List.mem_cons.1 hqm with rfl | hqm
                  · intro hc; have := hc.1; simp only at this; omega
                  · intro hc; have := hq q hqm i hc; omega
                · have hbI : b.Has i := by
                    obtain ⟨q1, q2, q3, q4⟩ := hB.parts p hp
                    have h1 := hpi.1
                    have h2 := hpi.2
                    exact ⟨by omega, by omega⟩
                  rcases List.mem_cons.1 hqm with rfl | hqm
                  · intro hc; have := hc.2; have := ((hbi i).1 hbI).2; simp only at *; omega
                  · exact (hB.rest i hbI).1 ⟨p, hp, hpi⟩ q hqm
              · intro hno
                by_cases h1 : i < f.start_idx
                · obtain ⟨p, hp, hpi⟩ := (ha1 i).2 ⟨hi, h1⟩
                  exact ⟨p, List.mem_append_left _ hp, hpi⟩
                · have h2 : f.end_idx < i := by
                    apply Classical.byContradiction
                    intro hc
                    exact hno _ List.mem_cons_self ⟨by simp only; omega, by simp only; omega⟩
                  obtain ⟨p, hp, hpi⟩ := (hB.rest i ((hbi i).2 ⟨hi, h2⟩)).2
                    (fun q hq => hno q (List.mem_cons_of_mem _ hq))
                  exact ⟨p, List.mem_append_right _ hp, hpi⟩
            · refine List.pairwise_append.2 ⟨hap, hB.longest, fun p hp q hq => ?_⟩
              have h1 := ((ha p hp).2 p.end_idx ⟨(ha p hp).1.2.2.1, Nat.le_refl _⟩).2
              have h2 := (hB.parts q hq).2.1
              have h3 := hb0.2
              omega

/-- it panics exactly if the matcher does, at a token of the selection -/
theorem scan_panics {m : XMatch W Out} (n : Nat) {s : LLSelection W} (hs : s.Inside) (hw : WellBehaved s.ll_line.val m) :
    (∃ e, scan m (n + 1) s = .error e) ↔ ∃ i e, s.Has i ∧ m.go (.fwd i) s.ll_line.val = .error e := by
  constructor
  · have key : ∀ (n : Nat) {s : LLSelection W}, s.Inside → WellBehaved s.ll_line.val m → ∀ e, scan m n s = .error e →
        ∃ i e, s.Has i ∧ m.go (.fwd i) s.ll_line.val = .error e := by
      intro n
      induction n with
      | zero => intro s _ _ e h; cases h
      | succ n ih =>
        intro s hs hw e h
        apply Classical.byContradiction
        intro hc
        have hok : ∀ i, s.Has i → ∃ rs, m.go (.fwd i) s.ll_line.val = .ok rs := fun i hi => by
          cases hg : m.go (.fwd i) s.ll_line.val with
          | error e => exact absurd ⟨i, e, hi, hg⟩ hc
          | ok rs => exact ⟨rs, rfl⟩
        unfold scan at h
        obtain ⟨c1, c2, c3⟩ := C40_find_first_by s m
        cases hf : s.findFirstBy m with
        | error e => exact hc (c3.1 ⟨e, hf⟩)
        | ok o =>
          rw [hf] at h
          cases o with
          | none => cases h
          | some fx =>
            obtain ⟨f, x⟩ := fx
            simp only at h
            cases hsp : s.splitWith f with
            | error e =>
              have := (C46_split_with_panics_iff s f).1 ⟨e, hsp⟩
              rw [(c2 f x hf).1] at this
              exact absurd rfl this
            | ok ab =>
              obtain ⟨a, b⟩ := ab
              rw [hsp] at h
              cases b with
              | none => cases h
              | some b =>
                have hb : b.PartOf s := (C45_split_with s f a _ hsp).2.2.1 b (.inr rfl)
                simp only at h
                cases hr : scan m n b with
                | error e =>
                  obtain ⟨i, e', hi, he⟩ := ih (inside_of_partOf hb hs) (by rw [hb.1]; exact hw) e hr
                  rw [hb.1] at he
                  obtain ⟨_, b1, b2, b3⟩ := hb
                  exact hc ⟨i, e', ⟨by have := hi.1; omega, by have := hi.2; omega⟩, he⟩
                | ok o =>
                  rw [hr] at h
                  cases o <;> cases h
    rintro ⟨e, h⟩
    exact key _ hs hw e h
  · intro h
    obtain ⟨e, he⟩ := (C40_find_first_by s m).2.2.2 h
    exact ⟨e, by unfold scan; rw [he]⟩

/-- members of `xs`, in the order of a key, are a sublist of anything in this order that has them -/
theorem sublist_of_keys {α : Type} (key : α → Nat) : ∀ {ys xs : List α}, xs.Pairwise (fun a b => key a < key b) →
    ys.Pairwise (fun a b => key a ≤ key b) → (∀ x ∈ xs, x ∈ ys) → xs.Sublist ys
  | [], [], _, _, _ => .slnil
  | [], x :: xs, _, _, h => absurd (h x List.mem_cons_self) (by simp)
  | y :: ys, [], _, _, _ => List.nil_sublist _
  | y :: ys, x :: xs, hx, hy, h => by
    have hx' := List.pairwise_cons.1 hx
    have hy' := List.pairwise_cons.1 hy
    rcases List.mem_cons.1 (h x List.mem_cons_self) with rfl | hm
    · refine (sublist_of_keys key hx'.2 hy'.2 (fun z hz => ?_)).cons_cons _
      rcases List.mem_cons.1 (h z (List.mem_cons_of_mem _ hz)) with rfl | hm
      · exact absurd (hx'.1 _ hz) (Nat.lt_irrefl _)
      · exact hm
    · refine (sublist_of_keys key hx hy'.2 (fun z hz => ?_)).cons _
      rcases List.mem_cons.1 hz with rfl | hz'
      · exact hm
      · rcases List.mem_cons.1 (h z hz) with rfl | hm'
        · have := hx'.1 _ hz'; have := hy'.1 _ hm; omega
        · exact hm'

/-- pieces are determined by their tokens -/
theorem pieces_ext {rc : Rc (LLLine W)} {xs ys : List (LLSelection W)}
    (hx : ∀ p ∈ xs, p.ll_line = rc ∧ p.start_idx ≤ p.end_idx) (hy : ∀ p ∈ ys, p.ll_line = rc ∧ p.start_idx ≤ p.end_idx)
    (ax : xs.Pairwise (fun p q => p.end_idx + 1 < q.start_idx)) (ay : ys.Pairwise (fun p q => p.end_idx + 1 < q.start_idx))
    (h : ∀ i, (∃ p ∈ xs, p.Has i) ↔ ∃ p ∈ ys, p.Has i) : xs = ys := by
  have half : ∀ {xs ys : List (LLSelection W)}, (∀ p ∈ xs, p.ll_line = rc ∧ p.start_idx ≤ p.end_idx) →
      (∀ p ∈ ys, p.ll_line = rc ∧ p.start_idx ≤ p.end_idx) →
      xs.Pairwise (fun p q => p.end_idx + 1 < q.start_idx) → ys.Pairwise (fun p q => p.end_idx + 1 < q.start_idx) →
      (∀ i, (∃ p ∈ xs, p.Has i) ↔ ∃ p ∈ ys, p.Has i) → ∀ p ∈ xs, p ∈ ys := by
    intro xs ys hx hy ax ay h p hp
    have hp1 := (hx p hp).2
    obtain ⟨q, hq, hqi⟩ := (h p.start_idx).1 ⟨p, hp, Nat.le_refl _, hp1⟩
    have h1 := hqi.1
    have h2 := hqi.2
    have e1 : q.start_idx = p.start_idx := by
      apply Classical.byContradiction
      intro hc
      obtain ⟨p', hp', hi⟩ := (h (p.start_idx - 1)).2 ⟨q, hq, by omega, by omega⟩
      have h3 := hi.1
      have h4 := hi.2
      rcases pairwise_either ax hp hp' with e | e | e
      · subst e; omega
      · omega
      · omega
    have e2 : q.end_idx = p.end_idx := by
      apply Classical.byContradiction
      intro hc
      by_cases hlt : p.end_idx < q.end_idx
      · obtain ⟨p', hp', hi⟩ := (h (p.end_idx + 1)).2 ⟨q, hq, by omega, by omega⟩
        have h3 := hi.1
        have h4 := hi.2
        rcases pairwise_either ax hp hp' with e | e | e
        · subst e; omega
        · omega
        · omega
      · obtain ⟨q', hq', hi⟩ := (h (q.end_idx + 1)).1 ⟨p, hp, by omega, by omega⟩
        have h3 := hi.1
        have h4 := hi.2
        rcases pairwise_either ay hq hq' with e | e | e
        · subst e; omega
        · omega
        · omega
    have e3 : q.ll_line = p.ll_line := (hy q hq).1.trans (hx p hp).1.symm
    have : q = p := by
      obtain ⟨_, _, _⟩ := p
      obtain ⟨_, _, _⟩ := q
      simp only at e1 e2 e3
      simp only [e1, e2, e3]
    rw [← this]; exact hq
  have strict : ∀ {xs : List (LLSelection W)}, (∀ p ∈ xs, p.ll_line = rc ∧ p.start_idx ≤ p.end_idx) →
      xs.Pairwise (fun p q => p.end_idx + 1 < q.start_idx) → xs.Pairwise (fun p q => p.start_idx < q.start_idx) :=
    fun {xs} hx ax => ax.imp_of_mem (fun {p q} hp _ h => by have := (hx p hp).2; omega)
  exact sorted_ext (lt := fun p q : LLSelection W => p.start_idx < q.start_idx)
    (fun _ => Nat.lt_irrefl _) (fun _ _ h => Nat.not_lt.2 (Nat.le_of_lt h)) (strict hx ax) (strict hy ay)
    (fun p => ⟨half hx hy ax ay h p, half hy hx ay ax (fun i => (h i).symm) p⟩)

/-- what is kept was obtained by the API -/
theorem scan_api {m : XMatch W Out} (hm : Builtin m) {s0 : LLSelection W} : ∀ (n : Nat) {s : LLSelection W}
    {out : List (LLSelection W × Out)} {pieces : List (LLSelection W)}, ApiSel (fun m => Builtin m) s0 s →
    scan m n s = .ok (some (out, pieces)) → ∀ p ∈ out, ApiSel (fun m => Builtin m) s0 p.1
  | 0, s, out, pieces, _, h => by cases h
  | n + 1, s, out, pieces, hs, h => by
    unfold scan at h
    cases hf : s.findFirstBy m with
    | error e => rw [hf] at h; cases h
    | ok o =>
      rw [hf] at h
      cases o with
      | none => cases h; simp
      | some fx =>
        obtain ⟨f, x⟩ := fx
        have hfa : ApiSel (fun m => Builtin m) s0 f := .findFirstBy hs hm hf
        simp only at h
        cases hsp : s.splitWith f with
        | error e => rw [hsp] at h; cases h
        | ok ab =>
          obtain ⟨a, b⟩ := ab
          rw [hsp] at h
          cases b with
          | none =>
            cases h
            intro p hp
            cases List.mem_singleton.1 hp
            exact hfa
          | some b =>
            simp only at h
            cases hr : scan m n b with
            | error e => rw [hr] at h; cases h
            | ok o =>
              rw [hr] at h
              cases o with
              | none => cases h
              | some op =>
                obtain ⟨out', ps⟩ := op
                cases h
                intro p hp
                rcases List.mem_cons.1 hp with rfl | hp
                · exact hfa
                · exact scan_api hm n (.splitWith hs hfa hsp (.inr rfl)) hr p hp

theorem firsts_nodup_eq {α : Type} [DecidableEq α] : ∀ {xs : List α}, xs.Nodup → firsts xs = xs
  | [], _ => rfl
  | x :: xs, h => by
    have h' := List.nodup_cons.1 h
    rw [firsts, firsts_nodup_eq h'.2, List.filter_eq_self.2]
    intro y hy
    simp only [ne_eq, decide_not, Bool.not_eq_true', decide_eq_false_iff_not]
    intro e
    exact h'.1 (e ▸ hy)

/-- attributes of a type given to different ranges, one each, where there were none -/
theorem fresh_lists {k : Ty W} {h : History W} (hn : ∀ x ∈ h, x.ty ≠ k) {ps : List (LRange × Val k)}
    (hd : (ps.map (·.1)).Nodup) :
    rangesOf k (h ++ ps.map (fun p => ⟨k, p.1, p.2⟩)) = ps.map (·.1) ∧
    ∀ p ∈ ps, valuesOf k p.1 (h ++ ps.map (fun p => ⟨k, p.1, p.2⟩)) = [p.2] := by
  constructor
  · unfold rangesOf
    rw [List.filter_append, List.filter_eq_nil_iff.2 (fun x hx => by simpa using hn x hx), List.nil_append,
      List.filter_eq_self.2 (fun x hx => by obtain ⟨p, _, rfl⟩ := List.mem_map.1 hx; simp), List.map_map]
    exact firsts_nodup_eq hd
  · have hv : ∀ p : LRange × Val k, Rec.valAs (⟨k, p.1, p.2⟩ : Rec W) k = some p.2 := fun p => by simp [Rec.valAs]
    intro p hp
    unfold valuesOf
    rw [List.filterMap_append, List.filterMap_eq_nil_iff.2 (fun x hx => by
      rw [Rec.valAs, dif_neg (hn x hx)]; simp), List.nil_append]
    revert p
    induction ps with
    | nil => simp
    | cons q ps ih =>
      have hd' := List.nodup_cons.1 (show (q.1 :: ps.map (·.1)).Nodup from hd)
      intro p hp
      rw [List.map_cons, List.filterMap_cons]
      rcases List.mem_cons.1 hp with rfl | hp
      · simp only [hv, if_true]
        rw [List.filterMap_eq_nil_iff.2]
        intro x hx
        obtain ⟨q, hq, rfl⟩ := List.mem_map.1 hx
        rw [if_neg]
        intro e
        exact hd'.1 (List.mem_map.2 ⟨q, hq, e⟩)
      · rw [if_neg (show ¬ q.1 = p.1 from fun e => hd'.1 (e ▸ List.mem_map.2 ⟨p, hp, rfl⟩))]
        exact ih hd'.2 p hp

end LNlp
