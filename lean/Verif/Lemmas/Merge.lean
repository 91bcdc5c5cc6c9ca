import Verif.Spec.Merge
/-!
# Interleavings
-/

namespace SyncStream.Spec
variable {α : Type}

theorem merge_perm_count {streams : List (List α)} {out : List α} (h : Merge streams out)
    (p : α → Bool) : out.countP p = (streams.map (List.countP p)).sum := by
  induction h with
  | done streams h =>
    induction streams with
    | nil => simp
    | cons s ss ih =>
      have h1 := h s List.mem_cons_self
      subst h1
      simpa using ih fun s hs => h s (List.mem_cons_of_mem _ hs)
  | take streams i x rest out hi hm ih =>
    rw [List.countP_cons, ih]
    clear ih hm
    induction streams generalizing i with
    | nil => simp at hi
    | cons s ss ih =>
      cases i with
      | zero =>
        simp only [List.getElem?_cons_zero, Option.some.injEq] at hi
        subst hi
        simp only [List.set_cons_zero, List.map_cons, List.sum_cons, List.countP_cons]
        omega
      | succ i =>
        simp only [List.getElem?_cons_succ] at hi
        have := ih i hi
        simp only [List.set_cons_succ, List.map_cons, List.sum_cons]
        omega

theorem mem_of_set {streams : List (List α)} {i : Nat} {rest s : List α}
    (h : s ∈ streams.set i rest) : s ∈ streams ∨ s = rest := List.mem_or_eq_of_mem_set h

theorem merge_mem {streams : List (List α)} {out : List α} (h : Merge streams out) {x : α}
    (hx : x ∈ out) : ∃ s ∈ streams, x ∈ s := by
  induction h with
  | done => cases hx
  | take streams i y rest out hi _ ih =>
    rcases List.mem_cons.1 hx with rfl | hx
    · exact ⟨_, List.mem_of_getElem? hi, List.mem_cons_self⟩
    · obtain ⟨s, hs, hxs⟩ := ih hx
      rcases mem_of_set hs with h | rfl
      · exact ⟨s, h, hxs⟩
      · exact ⟨_, List.mem_of_getElem? hi, List.mem_cons_of_mem _ hxs⟩

/-- The entries of each stream occur in their order. -/
theorem merge_sublist {streams : List (List α)} {out : List α} (h : Merge streams out) :
    ∀ s ∈ streams, s.Sublist out := by
  induction h with
  | done streams h => intro s hs; rw [h s hs]; exact List.Sublist.refl _
  | take streams i x rest out hi _ ih =>
    intro s hs
    obtain ⟨j, hj⟩ := List.getElem?_of_mem hs
    by_cases hij : i = j
    · subst hij
      rw [hi] at hj
      cases hj
      have hlt : i < streams.length := by
        rcases Nat.lt_or_ge i streams.length with h | h
        · exact h
        · rw [List.getElem?_eq_none h] at hi; cases hi
      exact (ih rest (List.mem_of_getElem? (i := i) (by simp [hlt]))).cons_cons x
    · exact (ih s (List.mem_of_getElem? (i := j) (by rw [List.getElem?_set_ne hij]; exact hj))).cons x

/-- The last entry of an interleaving is the last entry of a stream. -/
theorem merge_last {streams : List (List α)} {out pre : List α} {x : α} (h : Merge streams out)
    (hx : out = pre ++ [x]) : ∃ s ∈ streams, ∃ t, s = t ++ [x] := by
  induction h generalizing pre with
  | done => simp at hx
  | take streams i y rest out hi hm ih =>
    have hlt : i < streams.length := by
      rcases Nat.lt_or_ge i streams.length with h | h
      · exact h
      · rw [List.getElem?_eq_none h] at hi; cases hi
    cases pre with
    | nil =>
      simp only [List.nil_append, List.cons.injEq] at hx
      obtain ⟨rfl, rfl⟩ := hx
      cases hm with
      | done _ h =>
        have := h rest (List.mem_of_getElem? (i := i) (by simp [hlt]))
        subst this
        exact ⟨_, List.mem_of_getElem? hi, [], rfl⟩
    | cons z pre =>
      simp only [List.cons_append, List.cons.injEq] at hx
      obtain ⟨rfl, rfl⟩ := hx
      obtain ⟨s, hs, t, ht⟩ := ih rfl
      rcases mem_of_set hs with h | rfl
      · exact ⟨s, h, t, ht⟩
      · exact ⟨_, List.mem_of_getElem? hi, y :: t, by rw [ht]; rfl⟩

/-- Entries appended to one stream can come last. -/
theorem merge_append {streams : List (List α)} {out : List α} (h : Merge streams out) (i : Nat)
    (s xs : List α) (hi : streams[i]? = some s) : Merge (streams.set i (s ++ xs)) (out ++ xs) := by
  induction h generalizing s with
  | done streams h =>
    have := h s (List.mem_of_getElem? hi)
    subst this
    simp only [List.nil_append]
    induction xs generalizing streams with
    | nil =>
      refine .done _ fun t ht => ?_
      rcases mem_of_set ht with h' | rfl
      · exact h t h'
      · rfl
    | cons x xs ih =>
      have hlt : i < streams.length := by
        rcases Nat.lt_or_ge i streams.length with h | h
        · exact h
        · rw [List.getElem?_eq_none h] at hi; cases hi
      refine .take _ i x xs xs (by simp [hlt]) ?_
      rw [List.set_set]
      exact ih streams h hi
  | take streams j y rest out hj _ ih =>
    by_cases hij : i = j
    · subst hij
      rw [hi] at hj
      cases hj
      have hlt : i < streams.length := by
        rcases Nat.lt_or_ge i streams.length with h | h
        · exact h
        · rw [List.getElem?_eq_none h] at hi; cases hi
      have := ih rest (by simp [hlt])
      rw [List.set_set] at this
      refine .take _ i y (rest ++ xs) _ (by simp [hlt]) ?_
      rw [List.set_set]
      exact this
    · have := ih s (by rw [List.getElem?_set_ne (Ne.symm hij)]; exact hi)
      rw [List.set_comm _ _ (Ne.symm hij)] at this
      exact .take _ j y rest _ (by rw [List.getElem?_set_ne hij]; exact hj) this

end SyncStream.Spec
