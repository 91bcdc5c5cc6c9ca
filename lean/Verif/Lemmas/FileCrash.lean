import Verif.Lemmas.FileRefine
import Verif.Spec.FileCrash
/-!
# Crashes during the rotation of the record files
-/

namespace SyncStream
open Spec

namespace FileBuf

theorem crash_appendChars {n t : PyStr} {s s' : FS} {c : PyStr} (hs : s n = some c)
    (h : Prog.Crash (File.appendChars n t) s s') : ∃ p, p <+: t ∧ s' = s.set n (some (c ++ p)) := by
  induction t generalizing s c with
  | nil =>
    refine ⟨[], List.prefix_rfl, ?_⟩
    cases h
    rw [List.append_nil, ← hs, FS.set_self]
  | cons x t ih =>
    cases h with
    | now => refine ⟨[], List.nil_prefix, ?_⟩; rw [List.append_nil, ← hs, FS.set_self]
    | act _ _ _ _ h =>
      obtain ⟨p, hp, rfl⟩ := ih (c := c ++ [x]) (by simp [hs]) h
      refine ⟨x :: p, by simpa using hp, ?_⟩
      rw [FS.set_set]; simp

theorem crash_writeText {env : FEnv} {n t : PyStr} {s s' : FS} {c : PyStr} (hs : s n = some c)
    (h : Prog.Crash (File.writeText env n t) s s') :
    ∃ p, p <+: writeNewlines env.crlf t ∧ s' = s.set n (some (c ++ p)) := by
  rw [File.writeText] at h
  split at h
  · rcases Prog.crash_bind h with h | ⟨_, s1, h1, h2⟩
    · exact crash_appendChars hs h
    · rw [File.appendChars_seq n _ s c hs] at h1
      cases h1
      rw [Prog.crash_pure h2]
      exact ⟨_, List.prefix_rfl, rfl⟩
  · refine ⟨[], List.nil_prefix, ?_⟩
    rw [Prog.crash_raise h, List.append_nil, ← hs, FS.set_self]

theorem crash_remove {n : PyStr} {s s' : FS} (h : Prog.Crash (File.remove n) s s') :
    s' = s ∨ s' = s.set n none := by
  cases h with
  | now => exact .inl rfl
  | act _ _ _ _ h =>
    right
    dsimp only at h
    split at h
    · cases h; rfl
    · rw [Prog.crash_raise h]

theorem crash_rename {a d : PyStr} {s s' : FS} {c : PyStr} (hs : s a = some c)
    (h : Prog.Crash (File.rename a d) s s') :
    s' = s ∨ s' = (s.set a none).set d (some c) := by
  cases h with
  | now => exact .inl rfl
  | act _ _ _ _ h =>
    right
    simp only [hs, Option.isSome_some, if_true] at h
    cases h; rfl

/-! ## The labels of the files during the rotation

`R` records are kept and move up by `nl`; there were `N` records. -/

/-- The labels when the records below `j` have not been moved yet. -/
def moveLab (R nl N j k : Nat) : Option Origin :=
  if k < j then some (.old k)
  else if j + nl ≤ k ∧ k < R + nl then some (.old (k - nl))
  else if k < R then none
  else if k < N then some (.old k) else none

theorem moveLab_once {R nl N j : Nat} (hnl : 1 ≤ nl) :
    KeptOnce R (moveLab R nl N j) := by
  intro i hi
  by_cases h : i < j
  · refine ⟨i, by simp [moveLab, h], fun k' hk => ?_⟩
    simp only [moveLab] at hk
    split at hk
    · simpa using hk
    · split at hk
      · simp only [Option.some.injEq, Origin.old.injEq] at hk; omega
      · split at hk
        · cases hk
        · split at hk
          · simp only [Option.some.injEq, Origin.old.injEq] at hk; omega
          · cases hk
  · refine ⟨i + nl, ?_, fun k' hk => ?_⟩
    · have h1 : ¬ i + nl < j := by omega
      have h2 : j + nl ≤ i + nl ∧ i + nl < R + nl := by omega
      simp only [moveLab, h1, h2, if_false, if_true, and_self]
      congr 2; omega
    · simp only [moveLab] at hk
      split at hk
      · simp only [Option.some.injEq, Origin.old.injEq] at hk; omega
      · split at hk
        · simp only [Option.some.injEq, Origin.old.injEq] at hk; omega
        · split at hk
          · cases hk
          · split at hk
            · simp only [Option.some.injEq, Origin.old.injEq] at hk; omega
            · cases hk

/-- Changing the label of a file that holds no kept record to something that is no kept record. -/
theorem keptOnce_update {R : Nat} {lab lab' : Nat → Option Origin} (n : Nat)
    (h : KeptOnce R lab) (h1 : ∀ i, i < R → lab n ≠ some (.old i))
    (h2 : ∀ i, i < R → lab' n ≠ some (.old i)) (h3 : ∀ k, k ≠ n → lab' k = lab k) :
    KeptOnce R lab' := by
  intro i hi
  obtain ⟨k, hk, hu⟩ := h i hi
  have hkn : k ≠ n := fun e => h1 i hi (e ▸ hk)
  refine ⟨k, by rw [h3 k hkn, hk], fun k' hk' => ?_⟩
  by_cases e : k' = n
  · exact absurd (e ▸ hk') (h2 i hi)
  · exact hu k' (by rw [← h3 k' e, hk'])

theorem crash_moveLoop {b : FileBuf} {rs lines : List PyStr} {R nl : Nat} (hnl : 1 ≤ nl)
    (j : Nat) (hj : j ≤ R) (s s' : FS)
    (hs : ∀ k, Explains rs lines (moveLab R nl rs.length j k) (s (b.logName k)))
    (h : Prog.Crash (moveLoop b nl j) s s') : CrashSafe b rs lines R s' := by
  induction j generalizing s with
  | zero =>
    rw [Prog.crash_pure h]
    exact ⟨_, hs, moveLab_once hnl⟩
  | succ n ih =>
    rw [moveLoop] at h
    have here : CrashSafe b rs lines R s := ⟨_, hs, moveLab_once hnl⟩
    -- the state after removing the target
    let s1 := s.set (b.logName (n + nl)) none
    have lab1 : ∀ k, Explains rs lines (if k = n + nl then none else moveLab R nl rs.length (n + 1) k)
        (s1 (b.logName k)) := by
      intro k
      by_cases hk : k = n + nl
      · simp only [hk, if_true, s1, FS.set_same]; exact .absent
      · simp only [hk, if_false, s1]
        rw [FS.set_other _ _ (by simp [hk])]; exact hs k
    have once1 : KeptOnce R (fun k => if k = n + nl then none else moveLab R nl rs.length (n + 1) k) := by
      refine keptOnce_update (n + nl) (moveLab_once (N := rs.length) (j := n + 1) hnl) ?_ ?_ ?_
      · intro i hi
        have h1 : ¬ n + nl < n + 1 := by omega
        have h2 : ¬ (n + 1 + nl ≤ n + nl ∧ n + nl < R + nl) := by omega
        simp only [moveLab, h1, h2, if_false]
        split
        · simp
        · split
          · simp only [ne_eq, Option.some.injEq, Origin.old.injEq]; omega
          · simp
      · intro i hi; simp
      · intro k hk; simp [hk]
    have safe1 : CrashSafe b rs lines R s1 := ⟨_, lab1, once1⟩
    -- the state after renaming
    obtain ⟨c, hc, hcr⟩ : ∃ c, s (b.logName n) = some c ∧ rs[n]? = some c := by
      have := hs n
      simp only [moveLab, Nat.lt_succ_self, if_true] at this
      generalize s (b.logName n) = v at this
      cases this with
      | old i c hi => exact ⟨c, rfl, hi⟩
    let s2 := (s.set (b.logName n) none).set (b.logName (n + nl)) (some c)
    have lab2 : ∀ k, Explains rs lines (moveLab R nl rs.length n k) (s2 (b.logName k)) := by
      intro k
      by_cases hk : k = n + nl
      · simp only [hk, s2, FS.set_same]
        have h1 : ¬ n + nl < n := by omega
        have h2 : n + nl ≤ n + nl ∧ n + nl < R + nl := by omega
        simp only [moveLab, h1, h2, if_false, and_self, if_true]
        exact .old _ c (by simpa using hcr)
      · simp only [s2]
        rw [FS.set_other _ _ (by simp [hk])]
        by_cases hk2 : k = n
        · subst hk2
          rw [FS.set_same]
          have h1 : ¬ (k + nl ≤ k ∧ k < R + nl) := by omega
          simp only [moveLab, Nat.lt_irrefl, h1, if_false, show k < R by omega, if_true]
          exact .absent
        · rw [FS.set_other _ _ (by simp [hk2])]
          have := hs k
          have e : moveLab R nl rs.length n k = moveLab R nl rs.length (n + 1) k := by
            simp only [moveLab]
            by_cases h1 : k < n
            · simp [h1, show k < n + 1 by omega]
            · have h2 : ¬ k < n + 1 := by omega
              simp only [h1, h2, if_false]
              by_cases h3 : n + 1 + nl ≤ k ∧ k < R + nl
              · rw [if_pos h3, if_pos (by omega)]
              · rw [if_neg h3, if_neg (by omega)]
          rw [e]; exact this
    have safe2 : CrashSafe b rs lines R s2 := ⟨_, lab2, moveLab_once hnl⟩
    rcases Prog.crash_bind h with h | ⟨a, s0, h1, h⟩
    · -- during isfile
      cases h with
      | now => exact here
      | act _ _ _ _ h => cases h; exact here
    · rw [File.isfile_seq] at h1
      cases h1
      by_cases hsome : (s (b.logName (n + nl))).isSome = true
      · -- the target exists
        simp only [hsome, if_true] at h
        rcases Prog.crash_bind h with h | ⟨_, s0, h1, h⟩
        · rcases crash_remove h with rfl | rfl
          · exact here
          · exact safe1
        · obtain ⟨d, hd⟩ := Option.isSome_iff_exists.1 hsome
          rw [File.remove_seq hd] at h1
          cases h1
          have hren : s1 (b.logName n) = some c := by
            simp only [s1]; rw [FS.set_other _ _ (by simp; omega), hc]
          have e12 : (s1.set (b.logName n) none).set (b.logName (n + nl)) (some c) = s2 := by
            funext m
            simp only [s1, s2, FS.set]
            by_cases h3 : m = b.logName (n + nl) <;> simp [h3]
          rcases Prog.crash_bind h with h | ⟨_, s0, h1, h⟩
          · rcases crash_rename hren h with rfl | rfl
            · exact safe1
            · rw [e12]; exact safe2
          · rw [File.rename_seq hren] at h1
            cases h1
            rw [e12] at h
            exact ih (by omega) s2 lab2 h
      · simp only [hsome] at h
        rcases Prog.crash_bind h with h | ⟨_, s0, h1, h⟩
        · rcases crash_rename hc h with rfl | rfl
          · exact here
          · exact safe2
        · rw [File.rename_seq hc] at h1
          cases h1
          exact ih (by omega) s2 lab2 h

/-- Labels in the writing loop: no file below `m` holds a kept record. -/
theorem crash_writeLoop {env : FEnv} {b : FileBuf} {rs lines : List PyStr} {R : Nat}
    (todo done : List PyStr) (htd : lines = (done ++ todo).map (writeNewlines env.crlf))
    (lab : Nat → Option Origin) (s s' : FS)
    (hs : ∀ k, Explains rs lines (lab k) (s (b.logName k))) (ho : KeptOnce R lab)
    (hfree : ∀ k, k < todo.length → ∀ i, i < R → lab k ≠ some (.old i))
    (h : Prog.Crash (writeLoop env b todo) s s') : CrashSafe b rs lines R s' := by
  induction todo generalizing s lab done with
  | nil => rw [Prog.crash_pure h]; exact ⟨lab, hs, ho⟩
  | cons l ls ih =>
    rw [writeLoop] at h
    have here : CrashSafe b rs lines R s := ⟨lab, hs, ho⟩
    let lab1 : Nat → Option Origin := fun k => if k = ls.length then some (.new done.length) else lab k
    have once1 : KeptOnce R lab1 :=
      keptOnce_update ls.length ho (hfree ls.length (by simp)) (fun i _ => by simp [lab1])
        (fun k hk => by simp [lab1, hk])
    have hget : lines[done.length]? = some (writeNewlines env.crlf l) := by
      rw [htd]; simp
    have lab_pre : ∀ p, p <+: writeNewlines env.crlf l → ∀ k,
        Explains rs lines (lab1 k) ((s.set (b.logName ls.length) (some p)) (b.logName k)) := by
      intro p hp k
      by_cases hk : k = ls.length
      · simp only [lab1, hk, if_true, FS.set_same]; exact .new _ _ _ hget hp
      · simp only [lab1, hk, if_false]
        rw [FS.set_other _ _ (by simp [hk])]; exact hs k
    rcases Prog.crash_bind h with h | ⟨_, s0, h1, h⟩
    · cases h with
      | now => exact here
      | act _ _ _ _ h => cases h; exact ⟨lab1, lab_pre [] List.nil_prefix, once1⟩
    · rw [File.openW_seq] at h1
      cases h1
      rcases Prog.crash_bind h with h | ⟨_, s0, h1, h⟩
      · obtain ⟨p, hp, rfl⟩ := crash_writeText (FS.set_same _ _ _) h
        rw [FS.set_set]
        exact ⟨lab1, lab_pre _ (by simpa using hp), once1⟩
      · cases he : l.all env.encodable with
        | false => rw [File.writeText_seq_error he] at h1; cases h1
        | true =>
          rw [File.writeText_seq (FS.set_same _ _ _) he] at h1
          cases h1
          rw [FS.set_set] at h
          refine ih (done ++ [l]) (by simp [htd]) lab1 _
            (lab_pre _ (by simp)) once1 ?_ h
          intro k hk i hi
          have : k ≠ ls.length := by omega
          simp only [lab1, this, if_false]
          exact hfree k (by simp; omega) i hi

/-- What a crash during `__update_records` may leave: every file holds an old record or a beginning
of one of the new lines, and every record to be kept is in exactly one file. -/
theorem crash_updateRecords {env : FEnv} {b : FileBuf} {lines rs : List PyStr} {s s' : FS}
    (hm : 1 ≤ b.maxlen) (hs : Holds b s rs) (hr : rs.length ≤ b.maxlen)
    (h : Prog.Crash (updateRecords env b lines) s s') :
    CrashSafe b rs ((lastN b.maxlen lines).map (writeNewlines env.crlf))
      (min rs.length (b.maxlen - (lastN b.maxlen lines).length)) s' := by
  have h := Prog.crash_withLock h
  have start : ∀ new : List PyStr, CrashSafe b rs new
      (min rs.length (b.maxlen - (lastN b.maxlen lines).length)) s := by
    intro new
    refine ⟨fun k => if k < rs.length then some (.old k) else none, fun k => ?_, fun i hi => ?_⟩
    · rw [hs k]
      by_cases hk : k < rs.length
      · simp only [hk, if_true, getElem?_pos]; exact .old _ _ (by simp [hk])
      · simp only [hk, if_false]
        rw [List.getElem?_eq_none (by omega)]; exact .absent
    · refine ⟨i, by simp [show i < rs.length by omega], fun k' hk => ?_⟩
      dsimp only at hk
      split at hk
      · simpa using hk
      · cases hk
  by_cases hlen : lines.length ≤ 0
  · simp only [hlen, if_true] at h
    rw [Prog.crash_pure h]; exact start _
  simp only [hlen, if_false] at h
  have hnew : (if lines.length ≥ b.maxlen then lines.drop (lines.length - b.maxlen) else lines) =
      lastN b.maxlen lines := by
    split
    · rfl
    · simp [lastN, show lines.length - b.maxlen = 0 by omega]
  have hnl : 1 ≤ (lastN b.maxlen lines).length := by
    simp only [lastN, List.length_drop]; omega
  rw [hnew] at h
  generalize lastN b.maxlen lines = new at *
  rcases Prog.crash_bind h with h | ⟨_, s0, h1, h⟩
  · cases h with
    | now => exact start _
    | act _ _ _ _ h => cases h; exact start _
  · rw [File.listdir_seq] at h1
    cases h1
    have hcnt : countFrom b (fun n => (s n).isSome) 0 b.maxlen = rs.length := by
      have := count_holds hs b.maxlen
      rw [count] at this; rw [this]; omega
    rw [hcnt] at h
    generalize hR : min rs.length (b.maxlen - new.length) = R at *
    have hlab : ∀ k, Explains rs (new.map (writeNewlines env.crlf))
        (moveLab R new.length rs.length R k) (s (b.logName k)) := by
      intro k
      rw [hs k]
      simp only [moveLab]
      by_cases hk : k < R
      · simp only [hk, if_true]
        have : k < rs.length := by omega
        simp only [this, getElem?_pos]; exact .old _ _ (by simp [this])
      · have h2 : ¬ (R + new.length ≤ k ∧ k < R + new.length) := by omega
        simp only [hk, h2, if_false]
        by_cases hk : k < rs.length
        · simp only [hk, if_true, getElem?_pos]; exact .old _ _ (by simp [hk])
        · simp only [hk, if_false]
          rw [List.getElem?_eq_none (by omega)]; exact .absent
    rcases Prog.crash_bind h with h | ⟨_, s1, h1, h⟩
    · exact crash_moveLoop hnl R (Nat.le_refl _) s s' hlab h
    · obtain ⟨s1', e1, v1, f1⟩ := moveLoop_seq b new.length hnl R s (fun k hk => by
        rw [hs k]; simp; omega)
      rw [e1] at h1
      cases h1
      refine crash_writeLoop new [] (by simp) (moveLab R new.length rs.length 0) s1 s' ?_
        (moveLab_once hnl) ?_ h
      · intro k
        rw [v1 k]
        by_cases hk : new.length ≤ k ∧ k < R + new.length
        · rw [if_pos hk, hs]
          have h2 : 0 + new.length ≤ k ∧ k < R + new.length := by omega
          simp only [moveLab, Nat.not_lt_zero, h2, if_false, and_self, if_true]
          have : k - new.length < rs.length := by omega
          simp only [this, getElem?_pos]; exact .old _ _ (by simp [this])
        · rw [if_neg hk]
          have h2 : ¬ (0 + new.length ≤ k ∧ k < R + new.length) := by omega
          simp only [moveLab, Nat.not_lt_zero, h2, if_false]
          by_cases hk : k < R
          · simp only [hk, if_true]; exact .absent
          · simp only [hk, if_false]
            rw [hs k]
            by_cases hk : k < rs.length
            · simp only [hk, if_true, getElem?_pos]; exact .old _ _ (by simp [hk])
            · simp only [hk, if_false]
              rw [List.getElem?_eq_none (by omega)]; exact .absent
      · intro k hk i hi
        have h2 : ¬ (0 + new.length ≤ k ∧ k < R + new.length) := by omega
        simp only [moveLab, Nat.not_lt_zero, h2, if_false]
        split
        · simp
        · split
          · simp only [ne_eq, Option.some.injEq, Origin.old.injEq]; omega
          · simp

/-- The same record files. -/
theorem CrashSafe.congr {b : FileBuf} {rs lines : List PyStr} {R : Nat} {s s' : FS}
    (h : CrashSafe b rs lines R s) (he : ∀ m, m ≠ b.tmpName → s' m = s m) :
    CrashSafe b rs lines R s' := by
  obtain ⟨lab, h1, h2⟩ := h
  exact ⟨lab, fun k => by rw [he _ (logName_ne_tmpName b b k)]; exact h1 k, h2⟩

theorem crash_getLastLine {b : FileBuf} {s s' : FS} (h : Prog.Crash (getLastLine b) s s') :
    s' = s := by
  have h := Prog.crash_withLock h
  rcases Prog.crash_bind h with h | ⟨_, s1, h1, h⟩
  · cases h with
    | now => rfl
    | act _ _ _ _ h => cases h; rfl
  · rw [File.isfile_seq] at h1
    cases h1
    split at h
    · cases h with
      | now => rfl
      | act _ _ _ _ h =>
        dsimp only at h
        split at h
        · rw [Prog.crash_raise h]; rfl
        · cases h; rfl
    · exact Prog.crash_pure h

theorem crash_cleanLastLine {b : FileBuf} {s s' : FS} (h : Prog.Crash (cleanLastLine b) s s') :
    s' = s ∨ s' = s.set b.tmpName (some []) := by
  have h := Prog.crash_withLock h
  cases h with
  | now => exact .inl rfl
  | act _ _ _ _ h => cases h; exact .inr rfl

theorem crash_writeLastLine {env : FEnv} {b : FileBuf} {line : PyStr} {s s' : FS}
    (h : Prog.Crash (writeLastLine env b line) s s') :
    s' = s ∨ ∃ p, p <+: writeNewlines env.crlf line ∧
      s' = s.set b.tmpName (some ((s b.tmpName).getD [] ++ p)) := by
  have h := Prog.crash_withLock h
  rcases Prog.crash_bind h with h | ⟨_, s1, h1, h⟩
  · cases h with
    | now => exact .inl rfl
    | act _ _ _ _ h =>
      have h := Prog.crash_pure h
      right
      refine ⟨[], List.nil_prefix, ?_⟩
      have e := File.openA_seq b.tmpName s
      simp only [File.openA, Prog.seq, Prod.mk.injEq, true_and] at e
      rw [List.append_nil, ← e]; exact h
  · rw [File.openA_seq] at h1
    cases h1
    obtain ⟨p, hp, rfl⟩ := crash_writeText (FS.set_same _ _ _) h
    exact .inr ⟨p, hp, by rw [FS.set_set]⟩

/-- `__write`, with the text already divided into lines. -/
def writeShape (env : FEnv) (b : FileBuf) : List PyStr × PyStr → FProg Nat
  | ([], r) => if r = [] then pure 0 else writeLastLine env b r
  | (l :: ls, r) =>
    getLastLine b >>= fun last =>
    updateRecords env b ((last ++ l) :: ls) >>= fun _ =>
    cleanLastLine b >>= fun _ =>
    if l :: ls = [[]] ∧ r = [] then pure 1 else writeLastLine env b r

theorem writeCore_shape (env : FEnv) (b : FileBuf) (d : PyStr) :
    writeCore env b d = writeShape env b (segFrom [] d) := by
  unfold writeCore
  by_cases hd0 : d = []
  · subst hd0
    simp [splitlines_eq, isEndLineBreak, writeShape]
  have hcorr := splitlines_corrected d hd0
  have hsp := splitlines_eq d
  generalize hls : (segFrom [] d).1 = ls at *
  generalize hrr : (segFrom [] d).2 = r at *
  have hseg : segFrom [] d = (ls, r) := by rw [← hls, ← hrr]
  rw [hseg]
  by_cases hlone : (splitlines d).length = 1 ∧ (splitlines d).head? = some []
  · have hr0 : r = [] ∧ ls = [[]] := by
      rw [hsp] at hlone
      by_cases hrr : r = []
      · simp [hrr] at hlone
        refine ⟨hrr, ?_⟩
        match ls, hlone with
        | [x], hl => simpa using hl.2
      · simp [hrr] at hlone
        exfalso
        match ls, hlone with
        | [], hl => simp [hrr] at hl
    obtain ⟨rfl, rfl⟩ := hr0
    simp only [hlone, and_self, if_true, writeShape, parseLines, List.append_nil]
  · simp only [hlone, if_false]
    have hnl : ¬ (ls = [[]] ∧ r = []) := by
      rintro ⟨h1, h2⟩
      apply hlone
      rw [hsp, h1, h2]; simp
    rw [hcorr]
    have hlen : (if isEndLineBreak d = true then (splitlines d).length + 1
        else (splitlines d).length) = ls.length + 1 := by
      have := congrArg List.length hcorr
      rw [List.length_append] at this
      split at this
      · simpa [*] using this
      · simpa [*] using this
    rw [hlen]
    cases ls with
    | nil =>
      have hr : r ≠ [] := by
        rintro rfl
        have h2 := lines_segFrom [] d noBreak_nil
        rw [hseg] at h2
        cases h2 with
        | unfinished _ _ => exact hd0 rfl
      simp [writeShape, hr]
    | cons l ls =>
      have : ls.length + 1 + 1 > 1 := by omega
      simp only [List.length_cons, this, if_true, writeShape, hnl, if_false, parseLines]
      congr 1
      funext last
      have e : (last ++ ((l :: ls) ++ [r]).headD []) :: ((l :: ls) ++ [r]).tail =
          ((last ++ l) :: ls) ++ [r] := by simp
      have e1' : ((last ++ l) :: ls ++ [r]).getLastD [] = r := by
        rw [List.getLastD_eq_getLast?, List.getLast?_concat]; rfl
      have e2' : ((last ++ l) :: ls ++ [r]).dropLast = (last ++ l) :: ls := by
        rw [List.dropLast_append_of_ne_nil (by simp)]; simp
      rw [e, e1', e2']

/-- A crash during `__update_records` leaves the other files alone. -/
theorem crash_updateRecords_frame {env : FEnv} {b : FileBuf} {lines : List PyStr} {s s' : FS}
    (h : Prog.Crash (updateRecords env b lines) s s') : Frame b s s' := by
  have move : ∀ nl j s s', Prog.Crash (moveLoop b nl j) s s' → Frame b s s' := by
    intro nl j
    induction j with
    | zero => intro s s' h; rw [Prog.crash_pure h]; exact Frame.refl b s
    | succ n ih =>
      intro s s' h
      rw [moveLoop] at h
      have ren : ∀ s s' : FS, Prog.Crash (do
          File.rename (b.logName n) (b.logName (n + nl))
          moveLoop b nl n) s s' → Frame b s s' := by
        intro s s' h
        have fr : ∀ s : FS, Frame b s (match s (b.logName n) with
            | none => s
            | some c => (s.set (b.logName n) none).set (b.logName (n + nl)) (some c)) := by
          intro s
          split
          · exact Frame.refl b s
          · exact (Frame.set b s n none).trans (Frame.set b _ _ _)
        rcases Prog.crash_bind h with h | ⟨_, s1, h1, h⟩
        · cases h with
          | now => exact Frame.refl b s
          | act _ _ _ _ h =>
            dsimp only at h
            split at h
            · rw [Prog.crash_pure h]; exact fr s
            · rw [Prog.crash_raise h]; exact fr s
        · have : s1 = (match s (b.logName n) with
            | none => s
            | some c => (s.set (b.logName n) none).set (b.logName (n + nl)) (some c)) := by
            simp only [File.rename, Prog.seq] at h1
            split at h1
            · simp only [Prog.seq_ret, Prod.mk.injEq] at h1; exact h1.2.symm
            · simp at h1
          exact (this ▸ fr s).trans (ih s1 s' h)
      rcases Prog.crash_bind h with h | ⟨a, s1, h1, h⟩
      · cases h with
        | now => exact Frame.refl b s
        | act _ _ _ _ h => cases h; exact Frame.refl b s
      · rw [File.isfile_seq] at h1
        cases h1
        split at h
        · rename_i hsome
          obtain ⟨d, hd⟩ := Option.isSome_iff_exists.1 hsome
          rcases Prog.crash_bind h with h | ⟨_, s1, h1, h⟩
          · rcases crash_remove h with rfl | rfl
            · exact Frame.refl b _
            · exact Frame.set b s _ _
          · rw [File.remove_seq hd] at h1
            cases h1
            exact (Frame.set b s _ _).trans (ren _ _ h)
        · exact ren _ _ h
  have write : ∀ ls s s', Prog.Crash (writeLoop env b ls) s s' → Frame b s s' := by
    intro ls
    induction ls with
    | nil => intro s s' h; rw [Prog.crash_pure h]; exact Frame.refl b s
    | cons l ls ih =>
      intro s s' h
      rw [writeLoop] at h
      rcases Prog.crash_bind h with h | ⟨_, s1, h1, h⟩
      · cases h with
        | now => exact Frame.refl b s
        | act _ _ _ _ h => cases h; exact Frame.set b s _ _
      · rw [File.openW_seq] at h1
        cases h1
        rcases Prog.crash_bind h with h | ⟨_, s1, h1, h⟩
        · obtain ⟨p, _, rfl⟩ := crash_writeText (FS.set_same _ _ _) h
          rw [FS.set_set]; exact Frame.set b s _ _
        · cases he : l.all env.encodable with
          | false => rw [File.writeText_seq_error he] at h1; cases h1
          | true =>
            rw [File.writeText_seq (FS.set_same _ _ _) he] at h1
            cases h1
            rw [FS.set_set] at h
            exact (Frame.set b s _ _).trans (ih _ _ h)
  have h := Prog.crash_withLock h
  by_cases hlen : lines.length ≤ 0
  · simp only [hlen, if_true] at h
    rw [Prog.crash_pure h]; exact Frame.refl b s
  simp only [hlen, if_false] at h
  rcases Prog.crash_bind h with h | ⟨_, s0, h1, h⟩
  · cases h with
    | now => exact Frame.refl b s
    | act _ _ _ _ h => cases h; exact Frame.refl b s
  · rw [File.listdir_seq] at h1
    cases h1
    rcases Prog.crash_bind h with h | ⟨_, s1, h1, h⟩
    · exact move _ _ _ _ h
    · exact (move _ _ _ _ (Prog.crash_end_of h1)).trans (write _ _ _ h)

/-- What a crash during `__write` may leave: the record files as after a crash during
`__update_records`, and either the unfinished line is still there, or the rotation is complete. -/
theorem crash_writeCore {env : FEnv} {b : FileBuf} {d part : PyStr} {s s' : FS}
    (ht : Tmp b s part) (hn : NoBreak part) (h : Prog.Crash (writeCore env b d) s s') :
    ∃ s1, Prog.Crash (updateRecords env b (segFrom part d).1) s s1 ∧
      (∀ m, m ≠ b.tmpName → s' m = s1 m) ∧
      ((∃ t, Tmp b s' t ∧ part <+: t ∧
          ((segFrom part d).1 = [] → t <+: (segFrom part d).2) ∧
          ((segFrom part d).1 ≠ [] → t = part)) ∨
        ((segFrom part d).1 ≠ [] ∧
          (updateRecords env b (segFrom part d).1).seq s = (.ok (), s1) ∧
          ∃ t, Tmp b s' t ∧ t <+: (segFrom part d).2)) := by
  have hlines := lines_noBreak (lines_segFrom part d hn)
  have hcur := segFrom_cur part d
  rw [writeCore_shape] at h
  generalize segFrom [] d = seg at *
  obtain ⟨ls, r⟩ := seg
  cases ls with
  | nil =>
    have hseg2 : segFrom part d = ([], part ++ r) := hcur
    rw [hseg2] at hlines ⊢
    have hr : NoBreak r := (noBreak_append.1 hlines.2).2
    have key : ∀ p, p <+: r → Tmp b s' (part ++ p) → (∀ m, m ≠ b.tmpName → s' m = s m) →
        ∃ s1, Prog.Crash (updateRecords env b []) s s1 ∧
          (∀ m, m ≠ b.tmpName → s' m = s1 m) ∧
          ((∃ t, Tmp b s' t ∧ part <+: t ∧ (([] : List PyStr) = [] → t <+: part ++ r) ∧
              (([] : List PyStr) ≠ [] → t = part)) ∨
            (([] : List PyStr) ≠ [] ∧ (updateRecords env b []).seq s = (.ok (), s1) ∧
              ∃ t, Tmp b s' t ∧ t <+: part ++ r)) := by
      intro p hp h1 h2
      exact ⟨s, .now _ _, h2, .inl ⟨part ++ p, h1, List.prefix_append _ _,
        fun _ => by rw [List.prefix_append_right_inj]; exact hp, fun he => absurd rfl he⟩⟩
    simp only [writeShape] at h
    split at h
    · have := Prog.crash_pure h
      subst this
      exact key [] List.nil_prefix (by simpa using ht) fun _ _ => rfl
    · rcases crash_writeLastLine h with rfl | ⟨p, hp, rfl⟩
      · exact key [] List.nil_prefix (by simpa using ht) fun _ _ => rfl
      · rw [writeNewlines_noBreak _ hr] at hp
        refine key p hp ?_ fun m hm => FS.set_other _ _ hm
        rw [Tmp, FS.set_same, ht]; rfl
  | cons l ls =>
    have hseg2 : segFrom part d = ((part ++ l) :: ls, r) := hcur
    rw [hseg2] at hlines ⊢
    simp only [writeShape] at h
    have early : ∀ s1, Prog.Crash (updateRecords env b ((part ++ l) :: ls)) s s1 → s' = s1 →
        ∃ s1, Prog.Crash (updateRecords env b ((part ++ l) :: ls)) s s1 ∧
          (∀ m, m ≠ b.tmpName → s' m = s1 m) ∧
          ((∃ t, Tmp b s' t ∧ part <+: t ∧ ((part ++ l) :: ls = [] → t <+: r) ∧
              ((part ++ l) :: ls ≠ [] → t = part)) ∨
            ((part ++ l) :: ls ≠ [] ∧
              (updateRecords env b ((part ++ l) :: ls)).seq s = (.ok (), s1) ∧
              ∃ t, Tmp b s' t ∧ t <+: r)) := by
      rintro s1 hcr rfl
      refine ⟨s', hcr, fun _ _ => rfl, .inl ⟨part, ?_, List.prefix_rfl, fun he => by simp at he,
        fun _ => rfl⟩⟩
      rw [Tmp, (crash_updateRecords_frame hcr).tmp]; exact ht
    rcases Prog.crash_bind h with h | ⟨_, s1, h1, h⟩
    · rw [crash_getLastLine h] at early ⊢
      exact early s (.now _ _) rfl
    rw [getLastLine_seq, lastLine_tmp ht hn] at h1
    cases h1
    rcases Prog.crash_bind h with h | ⟨_, s1, h1, h⟩
    · exact early s' h rfl
    have hc1 := Prog.crash_end (updateRecords env b ((part ++ l) :: ls)) s
    rw [h1] at hc1
    have late : ∀ t, t <+: r → Tmp b s' t → (∀ m, m ≠ b.tmpName → s' m = s1 m) →
        ∃ s1, Prog.Crash (updateRecords env b ((part ++ l) :: ls)) s s1 ∧
          (∀ m, m ≠ b.tmpName → s' m = s1 m) ∧
          ((∃ t, Tmp b s' t ∧ part <+: t ∧ ((part ++ l) :: ls = [] → t <+: r) ∧
              ((part ++ l) :: ls ≠ [] → t = part)) ∨
            ((part ++ l) :: ls ≠ [] ∧
              (updateRecords env b ((part ++ l) :: ls)).seq s = (.ok (), s1) ∧
              ∃ t, Tmp b s' t ∧ t <+: r)) := by
      intro t h2 h3 h4
      exact ⟨s1, hc1, h4, .inr ⟨by simp, h1, t, h3, h2⟩⟩
    rcases Prog.crash_bind h with h | ⟨_, s2, h2, h⟩
    · rcases crash_cleanLastLine h with rfl | rfl
      · exact early s' hc1 rfl
      · exact late [] List.nil_prefix (by simp [Tmp]) fun m hm => FS.set_other _ _ hm
    · rw [cleanLastLine_seq] at h2
      cases h2
      split at h
      · rw [Prog.crash_pure h] at late ⊢
        exact late [] List.nil_prefix (by simp [Tmp]) fun m hm => FS.set_other _ _ hm
      · rcases crash_writeLastLine h with rfl | ⟨p, hp, rfl⟩
        · exact late [] List.nil_prefix (by simp [Tmp]) fun m hm => FS.set_other _ _ hm
        · rw [writeNewlines_noBreak _ hlines.2] at hp
          refine late p hp (by simp [Tmp]) fun m hm => ?_
          rw [FS.set_other _ _ hm, FS.set_other _ _ hm]

end FileBuf
end SyncStream
