import Verif.Lemmas.AmountDet
import Verif.Lemmas.Plain
import Verif.Props.Tokenize
/- Amounts on lines: the assigned selections come from the selection API; amounts in terms of token texts. -/
namespace LNlp
variable {W : World} {r : AmountResolver} {h : History W}

/-! ### honesty -/

theorem groups_api {rc : Rc (LLLine W)} {s0 : LLSelection W} (rep : Rep rc.val h) {a e : Nat} {s : Str}
    (hg : Groups r rc.val h a e s) (ha : ApiSel (fun m => Builtin m) s0 (selOf rc a a)) :
    ApiSel (fun m => Builtin m) s0 (selOf rc a e) := by
  induction hg with
  | one => exact ha
  | @more e s t hg hd hn ih =>
    obtain ⟨hae, he⟩ := groups_le hg
    have hlt : e + 2 < rc.val.ll_tokens.length := numAt_lt hn
    have h1 : ApiSel (fun m => Builtin m) s0 (selOf rc a (e + 1)) := by
      rcases char_next rep r.delimiters hae he with ⟨ht, _⟩ | ⟨c, _, _, _, hm⟩ | ⟨_, hd', _⟩
      · obtain ⟨c, hc, _⟩ := hd
        exact absurd (fun _ => ⟨_, (mem_valuesOf (W := W) (k := .char) (v := c)).1 hc, rfl⟩) ht
      · exact .matchFirstForwards (m := X.tokenHasAny (W := W) .char r.delimiters) ih (.tokenHasAny _ trivial rfl _) hm
      · exact absurd hd hd'
    rcases num_next rep (a := a) (e := e + 1) (by omega) (by omega) with ⟨t', _, hm⟩ | ⟨hn', _⟩
    · exact .matchFirstForwards (m := natnText W) h1 (.all2 (.attrEq _ trivial _) .tokenText) hm
    · exact absurd hn (hn' t)

theorem step_api {rc : Rc (LLLine W)} {s0 : LLSelection W} (rep : Rep rc.val h) {a e : Nat} (set : List Char)
    (hae : a ≤ e) (he : e < rc.val.ll_tokens.length) (hd : ∃ c ∈ charsOn h (e + 1), c ∈ set)
    (ha : ApiSel (fun m => Builtin m) s0 (selOf rc a e)) : ApiSel (fun m => Builtin m) s0 (selOf rc a (e + 1)) := by
  rcases char_next rep set hae he with ⟨ht, _⟩ | ⟨c, _, _, _, hm⟩ | ⟨_, hd', _⟩
  · obtain ⟨c, hc, _⟩ := hd
    exact absurd (fun _ => ⟨_, (mem_valuesOf (W := W) (k := .char) (v := c)).1 hc, rfl⟩) ht
  · exact .matchFirstForwards (m := X.tokenHasAny (W := W) .char set) ha (.tokenHasAny _ trivial rfl _) hm
  · exact absurd hd hd'

theorem num_api {rc : Rc (LLLine W)} {s0 : LLSelection W} (rep : Rep rc.val h) {a e : Nat} {t : Str}
    (hae : a ≤ e) (hn : NumAt rc.val h (e + 1) t)
    (ha : ApiSel (fun m => Builtin m) s0 (selOf rc a e)) : ApiSel (fun m => Builtin m) s0 (selOf rc a (e + 1)) := by
  have := numAt_lt hn
  rcases num_next rep (a := a) (e := e) hae (by omega) with ⟨t', _, hm⟩ | ⟨hn', _⟩
  · exact .matchFirstForwards (m := natnText W) ha (.all2 (.attrEq _ trivial _) .tokenText) hm
  · exact absurd hn (hn' t)

theorem char_lt {l : LLLine W} (rep : Rep l h) {i : Nat} {set : List Char} (hd : ∃ c ∈ charsOn h i, c ∈ set) :
    i < l.ll_tokens.length := by
  obtain ⟨c, hc, _⟩ := hd
  exact (rep.bounds _ ((mem_valuesOf (W := W) (k := .char) (v := c)).1 hc)).1

theorem isAmount_api {rc : Rc (LLLine W)} {s0 : LLSelection W} (rep : Rep rc.val h) {a b next : Nat} {str : Str}
    (hi : IsAmount r rc.val h a b str next) (ha : ApiSel (fun m => Builtin m) s0 (selOf rc a a)) :
    ApiSel (fun m => Builtin m) s0 (selOf rc a b) ∧
    ∃ n, next = n + 1 ∧ a ≤ n ∧ ApiSel (fun m => Builtin m) s0 (selOf rc a n) := by
  obtain ⟨e, s, hg, _, he⟩ := hi
  have hge := groups_api rep hg ha
  obtain ⟨hae, hlt⟩ := groups_le hg
  cases he with
  | trailing hd _ => exact ⟨hge, b + 1, rfl, by omega, step_api rep r.delimiters hae hlt hd hge⟩
  | fraction _ hd hn =>
    have h1 := step_api rep [r.decimal] hae hlt (decAt_single.2 hd) hge
    have h2 := num_api rep (by omega) hn h1
    exact ⟨h2, e + 2, rfl, by omega, h2⟩
  | point _ hd _ => exact ⟨hge, b + 1, rfl, by omega, step_api rep [r.decimal] hae hlt (decAt_single.2 hd) hge⟩
  | adjacent _ _ hn => exact ⟨num_api rep hae hn hge, e + 1, rfl, by omega, num_api rep hae hn hge⟩
  | plain => exact ⟨hge, b, rfl, hae, hge⟩

theorem amounts_api {rc : Rc (LLLine W)} {s0 : LLSelection W} (rep : Rep rc.val h) {stop start : Nat}
    {out : List (LLCursorAssignment W.Decimal)} (hstop : stop < rc.val.ll_tokens.length)
    (ho : Amounts r rc.val h stop start out) :
    start ≤ stop → ApiSel (fun m => Builtin m) s0 (selOf rc start stop) →
    ∀ x ∈ out, ∃ s v, ApiSel (fun m => Builtin m) s0 s ∧ x = s.finishWithAttr v := by
  induction ho with
  | done => intro _ _ x hx; cases hx
  | @next start a b next str d rest hf hi hp ho ih =>
    intro hle hs x hx
    have hfirst : ApiSel (fun m => Builtin m) s0 (selOf rc a a) := by
      rcases num_first rep (a := start) hstop with ⟨i, t, hf', _, hm⟩ | ⟨hno, _⟩
      · obtain rfl := firstNum_unique hf hf'
        exact .findFirstBy (m := natnText W) hs (.all2 (.attrEq _ trivial _) .tokenText) hm
      · exact (firstNum_some hf hno).elim
    obtain ⟨hb, n, rfl, han, hn⟩ := isAmount_api rep hi hfirst
    rcases List.mem_cons.1 hx with rfl | hx
    · exact ⟨_, d, hb, rfl⟩
    · by_cases hc : n + 1 ≤ stop
      · have := hf.1
        obtain ⟨y, hy⟩ := split_right (rc := rc) (start := start) (stop := stop) (i := a) (next := n) (by omega)
        rw [if_pos hc] at hy
        exact ih hc (.splitWith hs hn hy (.inr rfl)) x hx
      · have := amounts_from ho x hx
        omega

theorem amount_honest (r : AmountResolver) {s : LLSelection W} (rep : Rep s.ll_line.val h) (hs : s.Inside)
    {out : List (LLCursorAssignment W.Decimal)} (ho : r.go s = .ok out) :
    ∀ x ∈ out, ∃ s' v, ApiSel (fun m => Builtin m) s s' ∧ x = s'.finishWithAttr v :=
  amounts_api (rc := s.ll_line) rep hs.2 ((outerDone_ok (go_done r rep hs)).1 ho) hs.1 .self

theorem amount_resolver (r : AmountResolver) {s : LLSelection W} {out : List (LLCursorAssignment W.Decimal)}
    (ho : r.go s = .ok out) : (r.resolver W).go s = .ok (out, false) := by
  show (match r.go s with | .ok as => .ok (as, false) | .error e => .error e : R _) = _
  rw [ho]
  rfl

theorem amount_resolver_error (r : AmountResolver) {s : LLSelection W} {p : Panic}
    (ho : r.go s = .error p) : (r.resolver W).go s = .error p := by
  show (match r.go s with | .ok as => .ok (as, false) | .error e => .error e : R _) = _
  rw [ho]
  rfl

/-! ### plain lines -/

theorem reach_natn {l : LLLine W} (hr : Reachable l h) : ∀ tok ∈ l.ll_tokens, ∀ s tag, tok.token = .Text s tag →
    (tag = .NATN ↔ s ≠ [] ∧ ∀ c ∈ s, IsDigit c) := by
  induction hr with
  | create input size l wf ok => exact C05_natn_iff_digits size input l wf ok
  | run l h ptr r asgs leaked l' prev ne go ok ih => rw [run_tokens ok]; exact ih
  | runEmpty l h ptr r l' prev e ok ih => rw [run_tokens ok]; exact ih

theorem plain_num {l : LLLine W} (hr : Reachable l h) (hp : PlainTags l h) {i : Nat} {t : Str} :
    NumAt l h i t ↔ textAt l i = some t ∧ t ≠ [] ∧ ∀ c ∈ t, IsDigit c := by
  have ht : tagsOn h i = (tagAt l i).toList := hp.1 i
  unfold NumAt
  rw [ht]
  unfold textAt tagAt
  cases he : l.ll_tokens[i]? with
  | none => simp
  | some tok =>
    have hmem : tok ∈ l.ll_tokens := List.mem_of_getElem? he
    cases hk : tok.token with
    | Value => simp [hk]
    | Text s tag =>
      have := reach_natn hr tok hmem s tag hk
      simp only [hk, Option.bind_some, Option.toList_some, List.mem_singleton, Option.some.injEq]
      constructor
      · rintro ⟨rfl, e⟩; exact ⟨rfl, this.1 e.symm⟩
      · rintro ⟨rfl, e⟩; exact ⟨rfl, (this.2 e).symm⟩

theorem plain_char {l : LLLine W} (hp : PlainChars l h) {i : Nat} {c : Char} :
    c ∈ charsOn h i ↔ textAt l i = some [c] := by
  have : charsOn h i = (charAt l i).toList := hp.1 i
  rw [this, charAt, Option.mem_toList]
  cases textAt l i with
  | none => simp
  | some t =>
    match t with
    | [] => simp
    | [d] => simp
    | d :: e :: t => simp

theorem plain_attr {l : LLLine W} (hp : PlainTags l h) {i : Nat} {t : Str} (ht : textAt l i = some t) : HasAttr h i := by
  have h1 : tagsOn h i = (tagAt l i).toList := hp.1 i
  unfold textAt at ht
  unfold tagAt at h1
  cases he : l.ll_tokens[i]? with
  | none => rw [he] at ht; cases ht
  | some tok =>
    rw [he] at ht h1
    cases hk : tok.token with
    | Value => rw [Option.bind_some, hk] at ht; cases ht
    | Text s tag =>
      rw [Option.bind_some, hk] at h1
      have : tag ∈ tagsOn h i := by rw [h1]; simp
      exact ⟨_, (mem_valuesOf (W := W) (k := .textTag) (v := tag)).1 this, rfl⟩

theorem plain_noconflict {l : LLLine W} (hr : Reachable l h) (hp : PlainTags l h) (hc : PlainChars l h) (nd : NoDigits r) :
    ∀ i t, NumAt l h i t → ¬ DelimAt r h i ∧ ¬ DecAt r h i := by
  intro i t hn
  obtain ⟨ht, _, hd⟩ := (plain_num hr hp).1 hn
  refine ⟨?_, ?_⟩
  · rintro ⟨c, h1, h2⟩
    rw [plain_char hc, ht] at h1
    obtain rfl := Option.some.inj h1
    exact nd.2 c h2 (hd c (by simp))
  · intro h1
    rw [DecAt, plain_char hc, ht] at h1
    obtain rfl := Option.some.inj h1
    exact nd.1 (hd _ (by simp))

theorem text_attr {l : LLLine W} (hr : Reachable l h) {i : Nat} {t : Str} (ht : textAt l i = some t) : HasAttr h i := by
  induction hr with
  | create input size l wf ok =>
    have htoks := C01_exact_tokens size input l wf ok
    unfold textAt at ht
    cases he : l.ll_tokens[i]? with
    | none => rw [he] at ht; cases ht
    | some tok =>
      have h1 : ((input.flatMap (tokensOf W size)).map (·.1))[i]? = some tok.token := by
        rw [← htoks, List.getElem?_map, he]; rfl
      rw [he, Option.bind_some] at ht
      cases hk : tok.token with
      | Value => rw [hk] at ht; cases ht
      | Text s tag =>
        rw [hk] at h1
        refine ⟨⟨.textTag, (i, i), tag⟩, ?_, rfl⟩
        rw [creationHistory, List.mem_append]
        left
        rw [builtinHistory, List.mem_flatMap]
        refine ⟨(.Text s tag, i), ?_, ?_⟩
        · rw [List.mem_zipIdx_iff_getElem?]; exact h1
        · unfold builtinOf
          split <;> simp_all
  | run l h ptr r asgs leaked l' prev ne go ok ih =>
    rw [textAt_tokens (run_tokens ok)] at ht
    obtain ⟨x, hx, hr⟩ := ih ht
    exact ⟨x, List.mem_append_left _ hx, hr⟩
  | runEmpty l h ptr r l' prev e ok ih =>
    rw [textAt_tokens (run_tokens ok)] at ht
    exact ih ht

theorem reads_groups {l : LLLine W} (hr : Reachable l h) (hp : PlainTags l h) (hc : PlainChars l h) {gs : List Str} {seps : List Char} (hrd : Reads l 0 gs seps) (hd : ∀ c ∈ seps, c ∈ r.delimiters) :
    Groups r l h 0 (2 * seps.length) gs.flatten := by
  obtain ⟨hl, h1, h2⟩ := hrd
  have := groups_of_list (r := r) (l := l) (h := h) (a := 0) seps.length gs hl
    (fun k hk => (plain_num hr hp).2 (h1 k hk))
    (fun k hk => ⟨seps[k], (plain_char hc).2 (h2 k (by omega)), hd _ (List.getElem_mem _)⟩)
  simpa using this

end LNlp
