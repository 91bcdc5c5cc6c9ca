import Verif.Lemmas.Text
/-!
# Properties C46, C47: `GroupedMessage`
-/

namespace SyncStream
open Spec

/-! ## C46 -/

/-- **C46** A serialised message is recognised. -/
theorem C46_recognised (g : GMsg) : isSerialized g.serialize = true := by
  rfl

/-- **C46** `deserialize` is a left inverse of `serialize`: same type, same data. -/
theorem C46_roundtrip (g : GMsg) : GMsg.deserialize g.serialize = .ok (.msg g) := by
  rfl

/-- **C46** Different messages have different serialisations. -/
theorem C46_injective (g h : GMsg) (e : g.serialize = h.serialize) : g = h := by
  have h1 := C46_roundtrip g
  rw [e, C46_roundtrip h] at h1
  cases h1; rfl

/-- **C46** Every object that is not a serialised message is returned unchanged. -/
theorem C46_foreign_unchanged (j : Json) (h : isSerialized j = false) :
    GMsg.deserialize j = .ok (.raw j) := by
  simp [GMsg.deserialize, h]

/-- **C46** What is recognised: exactly the mappings with a true `/is_syncsdata` and the string
`GroupedMessage` under `/type`. -/
theorem C46_recognised_iff (j : Json) : isSerialized j = true ↔
    ∃ l v, j = .obj l ∧ Json.lookup (lit "/is_syncsdata") l = some v ∧ v.truth = true ∧
      Json.lookup (lit "/type") l = some (.str (lit "GroupedMessage")) := by
  constructor
  · intro h
    cases j with
    | obj l =>
      simp only [isSerialized, Json.isMapping, Json.get, Bool.true_and, Bool.and_eq_true] at h
      obtain ⟨h1, h2⟩ := h
      refine ⟨l, ?_⟩
      cases hv : Json.lookup (lit "/is_syncsdata") l with
      | none => rw [hv] at h1; simp [Json.truth] at h1
      | some v =>
        rw [hv] at h1
        refine ⟨v, rfl, rfl, h1, ?_⟩
        cases ht : Json.lookup (lit "/type") l with
        | none => rw [ht] at h2; simp [Json.eqStr] at h2
        | some t =>
          rw [ht] at h2
          cases t <;> simp [Json.eqStr] at h2
          rw [h2]
    | _ => simp [isSerialized, Json.isMapping] at h
  · rintro ⟨l, v, rfl, h1, h2, h3⟩
    simp [isSerialized, Json.isMapping, Json.get, h1, h2, h3, Json.eqStr]

/-- A plain text, a number, a list and a mapping without the marks are foreign. -/
example : isSerialized (.str (lit "x")) = false ∧ isSerialized (.int 3) = false ∧
    isSerialized (.obj [(lit "type", .str (lit "error")), (lit "data", .arr [])]) = false := by
  decide +kernel

/-! ## C47 -/

/-- **C47** The type of a message: `warning` for warnings, `error` for other exceptions, `str` for
everything else. -/
theorem C47_type (a : MsgArg) : (GMsg.new a).type = .str (match a with
    | .exc e => if e.isWarning then lit "warning" else lit "error"
    | _ => lit "str") := by
  cases a with
  | exc e => cases h : e.isWarning <;> simp [GMsg.new, h]
  | _ => rfl

/-- **C47** The data of an exception message are the lines of the formatted traceback (a last line
without terminator included). -/
theorem C47_exception_lines (e : ExcObj) (ls : List PyStr) (r : PyStr)
    (h : Lines e.formatted.flatten ls r) :
    (GMsg.new (.exc e)).data = (ls ++ if r = [] then [] else [r]).map .str := by
  have hj : ∀ l : List PyStr, join [] l = l.flatten := by
    intro l
    induction l with
    | nil => rfl
    | cons p ps ih =>
      cases ps with
      | nil => simp [join]
      | cons q qs => simp only [join, List.append_nil, ih, List.flatten_cons]
  simp only [GMsg.new, hj, splitlines_eq]
  rw [segFrom_eq_of_lines h]

/-- **C47** No line of an exception message contains a line terminator. -/
theorem C47_exception_clean (e : ExcObj) : ∀ v ∈ (GMsg.new (.exc e)).data,
    ∃ s, v = .str s ∧ NoBreak s := by
  obtain ⟨ls, r, h⟩ := lines_total e.formatted.flatten
  rw [C47_exception_lines e ls r h]
  intro v hv
  obtain ⟨s, hs, rfl⟩ := List.mem_map.1 hv
  refine ⟨s, rfl, ?_⟩
  rcases List.mem_append.1 hs with hs | hs
  · exact (lines_noBreak h).1 s hs
  · split at hs
    · cases hs
    · rw [List.mem_singleton] at hs; rw [hs]; exact (lines_noBreak h).2

/-- Texts joined with `\n`, stated by recursion. -/
def joinedBy (sep : PyStr) : List PyStr → PyStr
  | [] => []
  | p :: ps => p ++ (ps.map (sep ++ ·)).flatten

theorem join_eq_joinedBy (sep : PyStr) (l : List PyStr) : join sep l = joinedBy sep l := by
  induction l with
  | nil => rfl
  | cons p ps ih =>
    cases ps with
    | nil => simp [join, joinedBy]
    | cons q qs => simp only [join, ih, joinedBy, List.map_cons, List.flatten_cons, List.append_assoc]

/-- **C47** `str(message)` joins the lines with `\n`, for every message made by the constructor. -/
theorem C47_str (a : MsgArg) : ∃ texts : List PyStr,
    (GMsg.new a).data = texts.map .str ∧
    (GMsg.new a).toStr = .ok (joinedBy (lit "\n") texts) := by
  have key : ∀ (t : Json) (texts : List PyStr),
      (GMsg.mk t (texts.map .str)).toStr = .ok (joinedBy (lit "\n") texts) := by
    intro t texts
    have hs : ∀ texts : List PyStr, GMsg.toStr.strs (texts.map .str) = some texts := by
      intro texts
      induction texts with
      | nil => rfl
      | cons x xs ih => simp [GMsg.toStr.strs, ih]
    simp only [GMsg.toStr, hs, join_eq_joinedBy]
  cases a with
  | none => exact ⟨[], rfl, rfl⟩
  | str s => exact ⟨[s], rfl, key _ [s]⟩
  | exc e => exact ⟨_, rfl, key _ _⟩
  | seq vals => exact ⟨vals, rfl, key _ vals⟩

/-- **C47** A plain string is one item, and `str()` gives it back (even with line breaks in it). -/
theorem C47_plain_string (s : PyStr) : (GMsg.new (.str s)).data = [.str s] ∧
    (GMsg.new (.str s)).toStr = .ok s := ⟨rfl, rfl⟩

/-- **C47** For an exception, `str(message)` is the formatted traceback with every terminator
replaced by `\n` and the last one dropped. -/
theorem C47_exception_text (e : ExcObj) (ls : List PyStr) (r : PyStr)
    (h : Lines e.formatted.flatten ls r) :
    (GMsg.new (.exc e)).toStr =
      .ok (joinedBy (lit "\n") (ls ++ if r = [] then [] else [r])) := by
  obtain ⟨texts, h1, h2⟩ := C47_str (.exc e)
  rw [C47_exception_lines e ls r h] at h1
  have : texts = ls ++ if r = [] then [] else [r] := by
    have inj : ∀ a b : List PyStr, a.map Json.str = b.map Json.str → a = b := by
      intro a
      induction a with
      | nil => intro b hb; cases b with | nil => rfl | cons => cases hb
      | cons x xs ih =>
        intro b hb
        cases b with
        | nil => cases hb
        | cons y ys =>
          simp only [List.map_cons, List.cons.injEq, Json.str.injEq] at hb
          rw [hb.1, ih ys hb.2]
    exact inj _ _ h1.symm
  rw [h2, this]

example : (GMsg.new (.exc { formatted := [lit "Traceback:\n", lit "  File x\n    f()\n",
      lit "ValueError: a\r\nb\n"] })).toStr =
    .ok (lit "Traceback:\n  File x\n    f()\nValueError: a\nb") := by rfl

end SyncStream
