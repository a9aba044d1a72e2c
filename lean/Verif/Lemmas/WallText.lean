import Verif.Lemmas.Wall
import Verif.Lemmas.Edit
import Verif.Props.Cut
import Verif.Props.Compose
import Verif.Props.Uax29
/- Texts cut at newlines, as lists of inputs. -/
namespace LNlp
variable {W : World}

/-- the texts that are not empty as inputs -/
def inputsOf (W : World) (ps : List Str) : List (InputToken W) := (ps.filter (fun p => !p.isEmpty)).map (.Text · [])

theorem inputsOf_append (ps qs : List Str) : inputsOf W (ps ++ qs) = inputsOf W ps ++ inputsOf W qs := by
  simp [inputsOf]

theorem inputsOf_wf (ps : List Str) : ∀ t ∈ inputsOf W ps, t.WF := by
  intro t ht
  obtain ⟨p, _, rfl⟩ := List.mem_map.1 ht
  exact string_wf p _ (by simp)

theorem inputsOf_size (L : SplitLaws W) : ∀ ps : List Str,
    totalSize ((inputsOf W ps).flatMap (tokensOf W utf8Len)) = utf8Len ps.flatten
  | [] => rfl
  | p :: ps => by
    have ih := inputsOf_size L ps
    cases p with
    | nil => simpa [inputsOf] using ih
    | cons c p =>
      have e : inputsOf W ((c :: p) :: ps) = .Text (c :: p) [] :: inputsOf W ps := rfl
      have h := totalSize_text L (c :: p)
      rw [e, List.flatMap_cons, List.flatten_cons, utf8Len_append, ← h, ← ih]
      simp [totalSize]

/-- a text is the line of its parts, if the boundaries of the parts are word boundaries -/
theorem create_inputsOf (L : SplitLaws W) (S : SplitStable W) {ps : List Str}
    (hs : W.splitWordBounds ps.flatten = ps.flatMap W.splitWordBounds) (ne : ps.flatten ≠ []) (l : LLLine W) :
    createLineFromString W ps.flatten = .ok l ↔ createLineFromInputTokens W (inputsOf W ps) utf8Len = .ok l := by
  have h := C113_parts L S utf8Len [] [] ps.flatten ((ps.filter (fun p => !p.isEmpty)).map W.splitWordBounds) (by
      rw [hs]
      clear hs ne
      induction ps with
      | nil => rfl
      | cons p ps ih =>
        cases p with
        | nil => simpa [(split_nil_iff L []).2 rfl] using ih
        | cons c p => simp only [List.isEmpty_cons, Bool.not_false, List.filter_cons_of_pos, List.map_cons, List.flatten_cons, ih, List.flatMap_cons])
    (by
      intro g hg
      obtain ⟨p, hp, rfl⟩ := List.mem_map.1 hg
      intro e
      rw [(split_nil_iff L p).1 e] at hp
      simp at hp) ne l
  rw [List.map_map] at h
  have e : (ps.filter (fun p => !p.isEmpty)).map ((fun g => InputToken.Text (W := W) g.flatten []) ∘ W.splitWordBounds) = inputsOf W ps := by
    refine List.map_congr_left fun p _ => ?_
    simp only [Function.comp, L.concat]
  rw [e, List.nil_append, List.append_nil] at h
  exact h.symm

/-- a line of a document with the lines before and after it -/
def docBefore (before : List Str) : List Str := before.flatMap (fun b => [b, ['\n']])
def docAfter (after : List Str) : List Str := after.flatMap (fun a => [['\n'], a])

theorem docBefore_flatten (before : List Str) : (docBefore before).flatten = (before.map (· ++ ['\n'])).flatten := by
  induction before with
  | nil => rfl
  | cons b bs ih =>
    have : docBefore (b :: bs) = b :: ['\n'] :: docBefore bs := rfl
    rw [this, List.flatten_cons, List.flatten_cons, ih]
    simp

theorem docAfter_flatten (s : Str) (after : List Str) : (s :: docAfter after).flatten = joinLines (s :: after) := by
  induction after generalizing s with
  | nil => simp [docAfter, joinLines]
  | cons a as ih =>
    have e : docAfter (a :: as) = ['\n'] :: a :: docAfter as := rfl
    rw [e, List.flatten_cons, List.flatten_cons, ih a]
    rfl

theorem doc_flatten (before : List Str) (s : Str) (after : List Str) :
    (docBefore before ++ s :: docAfter after).flatten = joinLines (before ++ s :: after) := by
  induction before with
  | nil => exact docAfter_flatten s after
  | cons b bs ih =>
    have e : docBefore (b :: bs) = b :: ['\n'] :: docBefore bs := rfl
    rw [e, List.cons_append, List.cons_append, List.flatten_cons, List.flatten_cons, ih]
    cases bs <;> rfl

variable {cls : Char → WBChar}

theorem split_newline (U : Uax29 W cls) (nl : (cls '\n').cls = .lf) {s : Str} (rest : Str)
    (hcr : ∀ d, s.getLast? = some d → (cls d).cls ≠ .cr) :
    W.splitWordBounds (s ++ '\n' :: rest) = W.splitWordBounds s ++ (W.splitWordBounds ['\n'] ++ W.splitWordBounds rest) := by
  obtain ⟨h1, h2⟩ := joinLines_break U nl rest hcr
  have L := C124_split_laws U
  have S := C124_split_stable U
  rw [(wordBreak_iff L S _ _).1 h1, show '\n' :: rest = ['\n'] ++ rest from rfl, (wordBreak_iff L S _ _).1 h2]

theorem docAfter_split (U : Uax29 W cls) (nl : (cls '\n').cls = .lf) (s : Str) (after : List Str)
    (cr : ∀ t ∈ s :: after, ∀ d, t.getLast? = some d → (cls d).cls ≠ .cr) :
    W.splitWordBounds (s :: docAfter after).flatten = (s :: docAfter after).flatMap W.splitWordBounds := by
  induction after generalizing s with
  | nil => simp [docAfter]
  | cons a as ih =>
    have e : docAfter (a :: as) = ['\n'] :: a :: docAfter as := rfl
    have := ih a (fun t ht => cr t (by simp only [List.mem_cons] at ht ⊢; exact .inr ht))
    rw [e, List.flatten_cons, List.flatten_cons, List.flatMap_cons, List.flatMap_cons, ← this]
    exact split_newline U nl _ (cr s (by simp))

theorem doc_split (U : Uax29 W cls) (nl : (cls '\n').cls = .lf) (before : List Str) (ps : List Str)
    (cr : ∀ t ∈ before, ∀ d, t.getLast? = some d → (cls d).cls ≠ .cr)
    (hp : W.splitWordBounds ps.flatten = ps.flatMap W.splitWordBounds) :
    W.splitWordBounds (docBefore before ++ ps).flatten = (docBefore before ++ ps).flatMap W.splitWordBounds := by
  induction before with
  | nil => exact hp
  | cons b bs ih =>
    have e : docBefore (b :: bs) = b :: ['\n'] :: docBefore bs := rfl
    have := ih (fun t ht => cr t (by simp [ht]))
    rw [e, List.cons_append, List.cons_append, List.flatten_cons, List.flatten_cons, List.flatMap_cons, List.flatMap_cons, ← this]
    exact split_newline U nl _ (cr b (by simp))

end LNlp
