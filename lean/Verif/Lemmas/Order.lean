import Mathlib.Tactic.Convert
import Verif.Lemmas.Merge
import Verif.Lemmas.Observe
import Verif.Spec.Atomic
/-!
# The order of the effects
-/

namespace SyncStream
open Spec

/-- The streams of a number of threads. -/
theorem merge_range {γ : Type} {N i : Nat} {W : Nat → List γ} {out : List γ} (h : Merge ((List.range N).map W) out)
    (hi : i < N) (xs : List γ) : Merge ((List.range N).map (upd W i (W i ++ xs))) (out ++ xs) := by
  have := merge_append h i (W i) xs (by simp [hi])
  convert this using 1
  refine List.ext_getElem? fun j => ?_
  rw [List.getElem?_set]
  by_cases hj : i = j
  · subst hj; simp [hi]
  · simp only [if_neg hj, List.getElem?_map]
    cases h : (List.range N)[j]? with
    | none => rfl
    | some x =>
      have : x = j := by rw [List.getElem?_eq_some_iff] at h; obtain ⟨_, h⟩ := h; simpa using h.symm
      subst this
      simp [upd_other _ _ (Ne.symm hj)]

theorem merge_map {γ δ : Type} (f : γ → δ) {streams : List (List γ)} {out : List γ} (h : Merge streams out) :
    Merge (streams.map (·.map f)) (out.map f) := by
  induction h with
  | done streams h =>
    refine .done _ fun x hx => ?_
    obtain ⟨y, hy, rfl⟩ := List.mem_map.1 hx
    rw [h y hy]
    rfl
  | take streams i x rest out hi _ ih =>
    refine .take _ i (f x) (rest.map f) _ (by rw [List.getElem?_map, hi]; rfl) ?_
    rw [List.map_set] at ih
    exact ih

variable {A C R : Type} {spec : A → Nat → C → R → A → Prop}

/-- The calls `L`, with the threads and the results, one after the other. -/
inductive Path (spec : A → Nat → C → R → A → Prop) (s : A) : List (Nat × C × R) → A → Prop
  | nil : Path spec s [] s
  | snoc (L : List (Nat × C × R)) (i : Nat) (c : C) (r : R) (s' s'' : A) : Path spec s L s' → spec s' i c r s'' →
      Path spec s (L ++ [(i, c, r)]) s''

/-- What thread `i` does in `L`. -/
def partOf (i : Nat) (L : List (Nat × C × R)) : List (C × R) := (L.filter (·.1 = i)).map (·.2)

theorem partOf_snoc (i j : Nat) (x : C × R) (L : List (Nat × C × R)) :
    partOf i (L ++ [(j, x)]) = partOf i L ++ if j = i then [x] else [] := by
  unfold partOf
  rw [List.filter_append, List.map_append]
  congr 1
  by_cases h : j = i <;> simp [h]

/-- The call that has been started and has not taken effect. -/
def startedBy : Stat C R → List C
  | .called c => [c]
  | _ => []

/-- The result that has not been returned. -/
def owedBy : Stat C R → List R
  | .done r => [r]
  | _ => []

/-- What the atomic object has done can be put in one order. -/
theorem aexec_path {s0 : A} {tr : List (Ev C R)} {a : AConf A C R} (hx : AExec spec ⟨s0, fun _ => .idle⟩ tr a) :
    ∃ L, Path spec s0 L a.st ∧ ∀ i, callsBy i tr = (partOf i L).map (·.1) ++ startedBy (a.stat i) ∧
      (partOf i L).map (·.2) = retsBy i tr ++ owedBy (a.stat i) := by
  generalize h0 : (⟨s0, fun _ => .idle⟩ : AConf A C R) = a0 at hx
  induction hx with
  | nil => subst h0; exact ⟨[], .nil, fun _ => ⟨rfl, rfl⟩⟩
  | snoc a' a'' tr e _ h2 ih =>
    obtain ⟨L, h3, h4⟩ := ih
    cases h2 with
    | inv j c hj =>
      refine ⟨L, h3, fun i => ?_⟩
      show callsBy i (tr ++ [.inv j c]) = _ ++ startedBy (upd a'.stat j _ i) ∧ _ = retsBy i (tr ++ [.inv j c]) ++ owedBy (upd a'.stat j _ i)
      rw [callsBy_snoc_inv, retsBy_snoc_inv, (h4 i).1, (h4 i).2]
      by_cases hij : j = i
      · subst hij
        rw [if_pos rfl, upd_same, hj]
        simp [startedBy, owedBy]
      · rw [if_neg hij, upd_other _ _ (Ne.symm hij)]
        simp
    | ret j r hj =>
      refine ⟨L, h3, fun i => ?_⟩
      show callsBy i (tr ++ [.ret j r]) = _ ++ startedBy (upd a'.stat j _ i) ∧ _ = retsBy i (tr ++ [.ret j r]) ++ owedBy (upd a'.stat j _ i)
      rw [callsBy_snoc_ret, retsBy_snoc_ret, (h4 i).1, (h4 i).2]
      by_cases hij : j = i
      · subst hij
        rw [if_pos rfl, upd_same, hj]
        simp [startedBy, owedBy]
      · rw [if_neg hij, upd_other _ _ (Ne.symm hij)]
        simp
    | effect j c r st hj hsp =>
      refine ⟨L ++ [(j, c, r)], .snoc _ _ _ _ _ _ h3 hsp, fun i => ?_⟩
      show callsBy i (tr ++ []) = _ ++ startedBy (upd a'.stat j _ i) ∧ _ = retsBy i (tr ++ []) ++ owedBy (upd a'.stat j _ i)
      rw [List.append_nil, partOf_snoc, List.map_append, List.map_append, (h4 i).1, (h4 i).2]
      by_cases hij : j = i
      · subst hij
        rw [if_pos rfl, upd_same, hj]
        simp [startedBy, owedBy]
      · rw [if_neg hij, upd_other _ _ (Ne.symm hij)]
        simp

/-- An order interleaves what the threads do. -/
theorem path_merge {N : Nat} {s s' : A} {L : List (Nat × C × R)} (h : Path spec s L s')
    (hN : ∀ a i c r a', spec a i c r a' → i < N) : Merge ((List.range N).map fun i => partOf i L) (L.map (·.2)) := by
  induction h with
  | nil =>
    refine .done _ fun x hx => ?_
    obtain ⟨i, _, rfl⟩ := List.mem_map.1 hx
    rfl
  | snoc L i c r s' s'' _ h2 ih =>
    have := merge_range ih (hN _ _ _ _ _ h2) [(c, r)]
    rw [List.map_append]
    show Merge _ (L.map (·.2) ++ [(c, r)])
    convert this using 2
    funext j
    rw [partOf_snoc]
    by_cases hij : i = j
    · subst hij; simp [upd_same]
    · rw [if_neg hij, upd_other _ _ (Ne.symm hij), List.append_nil]

end SyncStream
