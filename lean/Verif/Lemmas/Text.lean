import Verif.Py.Text
import Verif.Model.Message
import Verif.Spec.Lines
/-!
# Lemmas about text and lines
-/

namespace SyncStream
open Spec

/-- Completed lines and unfinished line, with `cur` read before. -/
def segFrom (cur : PyStr) : PyStr → List PyStr × PyStr
  | [] => ([], cur)
  | 13 :: 10 :: rest => (cur :: (segFrom [] rest).1, (segFrom [] rest).2)
  | c :: rest => if isBreak c then (cur :: (segFrom [] rest).1, (segFrom [] rest).2)
                 else segFrom (cur ++ [c]) rest

theorem isBreak_iff (c : Nat) : isBreak c = true ↔ c ∈ breakChars := by
  simp [isBreak, breakChars]
  omega

theorem isBreak_false_iff (c : Nat) : isBreak c = false ↔ c ∉ breakChars := by
  rw [← isBreak_iff]; simp

theorem noBreak_nil : NoBreak [] := by simp [NoBreak]

theorem noBreak_append {a b : PyStr} : NoBreak (a ++ b) ↔ NoBreak a ∧ NoBreak b := by
  simp only [NoBreak, List.mem_append]
  constructor
  · intro h; exact ⟨fun c hc => h c (Or.inl hc), fun c hc => h c (Or.inr hc)⟩
  · rintro ⟨h1, h2⟩ c (hc | hc)
    · exact h1 c hc
    · exact h2 c hc

theorem noBreak_singleton {c : Nat} : NoBreak [c] ↔ c ∉ breakChars := by
  simp [NoBreak]

theorem noBreak_cons {c : Nat} {s : PyStr} : NoBreak (c :: s) ↔ c ∉ breakChars ∧ NoBreak s := by
  simp [NoBreak]

@[simp] theorem segFrom_nil (cur : PyStr) : segFrom cur [] = ([], cur) := by simp [segFrom]

@[simp] theorem segFrom_crlf (cur rest : PyStr) :
    segFrom cur (13 :: 10 :: rest) = (cur :: (segFrom [] rest).1, (segFrom [] rest).2) := by
  simp [segFrom]

theorem segFrom_break (cur : PyStr) (c : Nat) (rest : PyStr) (hc : isBreak c = true)
    (h : ¬ (c = 13 ∧ rest.head? = some 10)) :
    segFrom cur (c :: rest) = (cur :: (segFrom [] rest).1, (segFrom [] rest).2) := by
  rw [segFrom.eq_def]
  split
  · simp_all
  · simp_all
  · rename_i h1 h2; simp_all

theorem segFrom_char (cur : PyStr) (c : Nat) (rest : PyStr) (hc : isBreak c = false) :
    segFrom cur (c :: rest) = segFrom (cur ++ [c]) rest := by
  rw [segFrom.eq_def]
  split
  · simp_all
  · rename_i h; injection h with h1 h2; subst h1; simp [isBreak] at hc
  · rename_i h1 h2; injection h2 with h3 h4; subst h3 h4; simp [hc]

theorem segFrom_noBreak (cur s : PyStr) (h : NoBreak s) : segFrom cur s = ([], cur ++ s) := by
  induction s generalizing cur with
  | nil => simp
  | cons c s ih =>
    rw [noBreak_cons, ← isBreak_false_iff] at h
    rw [segFrom_char _ _ _ h.1, ih _ h.2]; simp

theorem segFrom_prefix (cur a s : PyStr) (h : NoBreak a) :
    segFrom cur (a ++ s) = segFrom (cur ++ a) s := by
  induction a generalizing cur with
  | nil => simp
  | cons c a ih =>
    rw [noBreak_cons, ← isBreak_false_iff] at h
    rw [List.cons_append, segFrom_char _ _ _ h.1, ih _ h.2]; simp

theorem segFrom_eq_of_lines {t : PyStr} {ls : List PyStr} {r : PyStr} (h : Lines t ls r) :
    segFrom [] t = (ls, r) := by
  induction h with
  | unfinished rest h => simpa using segFrom_noBreak [] rest h
  | crlf line text lines rest h _ ih =>
    rw [List.append_assoc, segFrom_prefix _ _ _ h]; simp [ih]
  | single line c text lines rest h hc hne _ ih =>
    rw [List.append_assoc, segFrom_prefix _ _ _ h]
    simp only [List.nil_append, List.cons_append]
    rw [segFrom_break _ _ _ ((isBreak_iff c).2 hc) hne, ih]

theorem lines_segFrom (cur s : PyStr) (h : NoBreak cur) :
    Lines (cur ++ s) (segFrom cur s).1 (segFrom cur s).2 := by
  induction hn : s.length using Nat.strongRecOn generalizing s cur with
  | _ n ih =>
    match s with
    | [] => simpa using Lines.unfinished cur h
    | c :: rest =>
      by_cases hb : isBreak c = true
      · by_cases hcr : c = 13 ∧ rest.head? = some 10
        · obtain ⟨rfl, hh⟩ := hcr
          match rest, hh with
          | _ :: rest', hh =>
            simp only [List.head?_cons, Option.some.injEq] at hh
            subst hh
            simp only [segFrom_crlf]
            have := ih rest'.length (by simp at hn; omega) [] rest' noBreak_nil rfl
            simpa using Lines.crlf cur rest' _ _ h this
        · rw [segFrom_break _ _ _ hb hcr]
          have := ih rest.length (by simp at hn; omega) [] rest noBreak_nil rfl
          simpa using Lines.single cur c rest _ _ h ((isBreak_iff c).1 hb) hcr this
      · have hb' : isBreak c = false := by simpa using hb
        rw [segFrom_char _ _ _ hb']
        have := ih rest.length (by simp at hn; omega) (cur ++ [c]) rest
          (noBreak_append.2 ⟨h, noBreak_singleton.2 ((isBreak_false_iff c).1 hb')⟩) rfl
        simpa using this

theorem lines_total (t : PyStr) : ∃ ls r, Lines t ls r :=
  ⟨_, _, by simpa using lines_segFrom [] t noBreak_nil⟩

theorem lines_unique {t : PyStr} {ls ls' : List PyStr} {r r' : PyStr}
    (h : Lines t ls r) (h' : Lines t ls' r') : ls = ls' ∧ r = r' := by
  have h1 := segFrom_eq_of_lines h
  have h2 := segFrom_eq_of_lines h'
  rw [h1] at h2
  simpa using h2

theorem lines_noBreak {t : PyStr} {ls : List PyStr} {r : PyStr} (h : Lines t ls r) :
    (∀ l ∈ ls, NoBreak l) ∧ NoBreak r := by
  induction h with
  | unfinished rest h => simp [h]
  | crlf line text lines rest h _ ih => simp [h, ih]; exact ih.1
  | single line c text lines rest h hc hne _ ih => simp [h, ih]; exact ih.1

theorem lines_iff_segFrom (cur d : PyStr) (h : NoBreak cur) (ls : List PyStr) (r : PyStr) :
    Lines (cur ++ d) ls r ↔ segFrom cur d = (ls, r) := by
  constructor
  · intro hl
    have := segFrom_eq_of_lines hl
    rwa [segFrom_prefix _ _ _ h, List.nil_append] at this
  · intro he
    have := lines_segFrom cur d h
    rwa [he] at this

theorem segFrom_cur_noBreak (cur s : PyStr) (h : NoBreak cur) : NoBreak (segFrom cur s).2 :=
  (lines_noBreak (lines_segFrom cur s h)).2

/-- The first completed line takes the text read before. -/
theorem segFrom_cur (cur s : PyStr) :
    segFrom cur s = match segFrom [] s with
      | ([], r) => ([], cur ++ r)
      | (l :: ls, r) => ((cur ++ l) :: ls, r) := by
  suffices H : ∀ cur pre, segFrom (cur ++ pre) s = match segFrom pre s with
      | ([], r) => ([], cur ++ r)
      | (l :: ls, r) => ((cur ++ l) :: ls, r) by simpa using H cur []
  intro cur pre
  induction hn : s.length using Nat.strongRecOn generalizing s pre with
  | _ n ih =>
    match s with
    | [] => simp
    | c :: rest =>
      by_cases hb : isBreak c = true
      · by_cases hcr : c = 13 ∧ rest.head? = some 10
        · obtain ⟨rfl, hh⟩ := hcr
          match rest, hh with
          | _ :: rest', hh =>
            simp only [List.head?_cons, Option.some.injEq] at hh
            subst hh
            simp
        · rw [segFrom_break _ _ _ hb hcr, segFrom_break _ _ _ hb hcr]
      · have hb' : isBreak c = false := by simpa using hb
        rw [segFrom_char _ _ _ hb', segFrom_char _ _ _ hb', List.append_assoc]
        exact ih rest.length (by simp at hn; omega) rest _ rfl

@[simp] theorem splitlinesFrom_crlf (cur rest : PyStr) :
    splitlinesFrom cur (13 :: 10 :: rest) = cur :: splitlinesFrom [] rest := by
  simp [splitlinesFrom]

theorem splitlinesFrom_break (cur : PyStr) (c : Nat) (rest : PyStr) (hc : isBreak c = true)
    (h : ¬ (c = 13 ∧ rest.head? = some 10)) :
    splitlinesFrom cur (c :: rest) = cur :: splitlinesFrom [] rest := by
  rw [splitlinesFrom.eq_def]
  split
  · simp_all
  · simp_all
  · rename_i h1 h2; simp_all

theorem splitlinesFrom_char (cur : PyStr) (c : Nat) (rest : PyStr) (hc : isBreak c = false) :
    splitlinesFrom cur (c :: rest) = splitlinesFrom (cur ++ [c]) rest := by
  rw [splitlinesFrom.eq_def]
  split
  · simp_all
  · rename_i h; injection h with h1 h2; subst h1; simp [isBreak] at hc
  · rename_i h1 h2; injection h2 with h3 h4; subst h3 h4; simp [hc]

theorem splitlinesFrom_eq (cur s : PyStr) :
    splitlinesFrom cur s =
      (segFrom cur s).1 ++ (if (segFrom cur s).2 = [] then [] else [(segFrom cur s).2]) := by
  induction hn : s.length using Nat.strongRecOn generalizing s cur with
  | _ n ih =>
    match s with
    | [] => simp [splitlinesFrom]
    | c :: rest =>
      by_cases hb : isBreak c = true
      · by_cases hcr : c = 13 ∧ rest.head? = some 10
        · obtain ⟨rfl, hh⟩ := hcr
          match rest, hh with
          | _ :: rest', hh =>
            simp only [List.head?_cons, Option.some.injEq] at hh
            subst hh
            simp only [segFrom_crlf, splitlinesFrom_crlf, List.cons_append]
            rw [ih rest'.length (by simp at hn; omega) [] rest' rfl]
        · rw [segFrom_break _ _ _ hb hcr, splitlinesFrom_break _ _ _ hb hcr,
            ih rest.length (by simp at hn; omega) [] rest rfl]
          simp
      · have hb' : isBreak c = false := by simpa using hb
        rw [segFrom_char _ _ _ hb', splitlinesFrom_char _ _ _ hb',
          ih rest.length (by simp at hn; omega) _ rest rfl]

theorem splitlines_eq (s : PyStr) :
    splitlines s = (segFrom [] s).1 ++ (if (segFrom [] s).2 = [] then [] else [(segFrom [] s).2]) :=
  splitlinesFrom_eq [] s

theorem segFrom_append (cur a b : PyStr) (h : ¬ (a.getLast? = some 13 ∧ b.head? = some 10)) :
    segFrom cur (a ++ b) =
      ((segFrom cur a).1 ++ (segFrom (segFrom cur a).2 b).1, (segFrom (segFrom cur a).2 b).2) := by
  induction hn : a.length using Nat.strongRecOn generalizing a cur with
  | _ n ih =>
    match a with
    | [] => simp
    | c :: rest =>
      by_cases hb : isBreak c = true
      · by_cases hcr : c = 13 ∧ rest.head? = some 10
        · obtain ⟨rfl, hh⟩ := hcr
          match rest, hh with
          | _ :: rest', hh =>
            simp only [List.head?_cons, Option.some.injEq] at hh
            subst hh
            simp only [List.cons_append, segFrom_crlf]
            have := ih rest'.length (by simp at hn; omega) [] rest' (by
              intro hc; apply h
              refine ⟨?_, hc.2⟩
              cases rest' with
              | nil => simp at hc
              | cons x xs => simpa [List.getLast?_cons] using hc.1) rfl
            simp [this]
        · have hne : ¬ (c = 13 ∧ (rest ++ b).head? = some 10) := by
            rintro ⟨rfl, hh⟩
            cases rest with
            | nil => exact h ⟨by simp, by simpa using hh⟩
            | cons x xs => exact hcr ⟨rfl, by simpa using hh⟩
          rw [List.cons_append, segFrom_break _ _ _ hb hne, segFrom_break _ _ _ hb hcr]
          have := ih rest.length (by simp at hn; omega) [] rest (by
              intro hc; apply h
              refine ⟨?_, hc.2⟩
              cases rest with
              | nil => simp at hc
              | cons x xs => simpa [List.getLast?_cons] using hc.1) rfl
          simp [this]
      · have hb' : isBreak c = false := by simpa using hb
        rw [List.cons_append, segFrom_char _ _ _ hb', segFrom_char _ _ _ hb']
        apply ih rest.length (by simp at hn; omega) _ rest _ rfl
        intro hc; apply h
        refine ⟨?_, hc.2⟩
        cases rest with
        | nil => simp at hc
        | cons x xs => simpa [List.getLast?_cons] using hc.1

theorem segFrom_rest_nil_iff' (cur s : PyStr) :
    (segFrom cur s).2 = [] ↔
      (s = [] ∧ cur = []) ∨ ∃ c, s.getLast? = some c ∧ isBreak c = true := by
  induction hn : s.length using Nat.strongRecOn generalizing s cur with
  | _ n ih =>
    match s with
    | [] => simp
    | c :: rest =>
      by_cases hb : isBreak c = true
      · by_cases hcr : c = 13 ∧ rest.head? = some 10
        · obtain ⟨rfl, hh⟩ := hcr
          match rest, hh with
          | _ :: rest', hh =>
            simp only [List.head?_cons, Option.some.injEq] at hh
            subst hh
            simp only [segFrom_crlf]
            rw [ih rest'.length (by simp at hn; omega) [] rest' rfl]
            cases rest' with
            | nil => simp [isBreak]
            | cons x xs => simp [List.getLast?_cons]
        · rw [segFrom_break _ _ _ hb hcr]
          simp only
          rw [ih rest.length (by simp at hn; omega) [] rest rfl]
          cases rest with
          | nil => simp [hb]
          | cons x xs => simp [List.getLast?_cons]
      · have hb' : isBreak c = false := by simpa using hb
        rw [segFrom_char _ _ _ hb', ih rest.length (by simp at hn; omega) _ rest rfl]
        cases rest with
        | nil => simp [hb']
        | cons x xs => simp [List.getLast?_cons]

/-- The text after the last terminator is empty iff the text is empty or ends with one. -/
theorem segFrom_rest_nil_iff (s : PyStr) :
    (segFrom [] s).2 = [] ↔ s = [] ∨ ∃ c, s.getLast? = some c ∧ isBreak c = true := by
  simpa using segFrom_rest_nil_iff' [] s

theorem drop_length_sub_one (s : PyStr) (h : s ≠ []) :
    s.drop (s.length - 1) = [s.getLast h] := by
  rcases List.eq_nil_or_concat s with h' | ⟨l, x, rfl⟩
  · exact absurd h' h
  · simp

theorem splitlines_singleton (c : Nat) :
    splitlines [c] = if isBreak c then [[]] else [[c]] := by
  rw [splitlines_eq]
  by_cases hb : isBreak c = true
  · rw [segFrom_break _ _ _ hb (by simp)]; simp [hb]
  · have hb' : isBreak c = false := by simpa using hb
    rw [segFrom_char _ _ _ hb']; simp [hb']

theorem isEndLineBreak_iff (d : PyStr) :
    isEndLineBreak d = true ↔ ∃ c, d.getLast? = some c ∧ isBreak c = true := by
  unfold isEndLineBreak
  by_cases h : d = []
  · simp [h]
  · simp only [h, if_false]
    rw [drop_length_sub_one d h, splitlines_singleton, List.getLast?_eq_some_getLast h]
    by_cases hb : isBreak (d.getLast h) = true
    · simp [hb]
    · simp [hb]

/-- For a non-empty text, `is_end_line_break` tells whether nothing follows the last
terminator. -/
theorem isEndLineBreak_iff_rest (d : PyStr) (h : d ≠ []) :
    isEndLineBreak d = true ↔ (segFrom [] d).2 = [] := by
  rw [isEndLineBreak_iff, segFrom_rest_nil_iff]; simp [h]

/-- The list `message_lines` of `__write` after the correction for a final line break. -/
theorem splitlines_corrected (d : PyStr) (h : d ≠ []) :
    (if isEndLineBreak d then splitlines d ++ [[]] else splitlines d) =
      (segFrom [] d).1 ++ [(segFrom [] d).2] := by
  rw [splitlines_eq]
  by_cases hr : (segFrom [] d).2 = []
  · simp [(isEndLineBreak_iff_rest d h).2 hr, hr]
  · have : isEndLineBreak d = false := by
      rw [Bool.eq_false_iff]; intro hc; exact hr ((isEndLineBreak_iff_rest d h).1 hc)
    simp [this, hr]

end SyncStream
