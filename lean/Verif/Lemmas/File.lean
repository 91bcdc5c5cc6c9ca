import Verif.Model.File
import Verif.Lemmas.Prog
import Verif.Lemmas.LineBuffer
/-!
# Lemmas on the file model: names, newline translation, primitive operations, rotation
-/

namespace SyncStream
open Spec

/-! ## Decimal numbers and file names -/

theorem digits_fuel (f g n : Nat) (hf : n ≤ f) (hg : n ≤ g) : digits f n = digits g n := by
  induction f generalizing g n with
  | zero =>
    have : n = 0 := by omega
    subst this
    cases g <;> rfl
  | succ f ih =>
    cases g with
    | zero =>
      have : n = 0 := by omega
      subst this; rfl
    | succ g =>
      simp only [digits]
      split
      · rfl
      · rw [ih g (n / 10) (by omega) (by omega)]

theorem dec_lt {n : Nat} (h : n < 10) : dec n = [48 + n] := by
  unfold dec; cases n <;> simp [digits, h]

theorem dec_ge {n : Nat} (h : ¬ n < 10) : dec n = dec (n / 10) ++ [48 + n % 10] := by
  unfold dec
  cases n with
  | zero => omega
  | succ n =>
    simp only [digits, h, if_false]
    rw [digits_fuel n ((n + 1) / 10) ((n + 1) / 10) (by omega) (by omega)]

theorem dec_ne_nil (n : Nat) : dec n ≠ [] := by
  by_cases h : n < 10
  · simp [dec_lt h]
  · simp [dec_ge h]

theorem dec_digits (n : Nat) : ∀ c ∈ dec n, 48 ≤ c ∧ c ≤ 57 := by
  induction n using Nat.strongRecOn with
  | ind n ih =>
    intro c hc
    by_cases h : n < 10
    · rw [dec_lt h] at hc; simp at hc; omega
    · rw [dec_ge h] at hc
      simp only [List.mem_append, List.mem_singleton] at hc
      rcases hc with hc | hc
      · exact ih (n / 10) (by omega) c hc
      · omega

theorem append_singleton_inj {α : Type} {l l' : List α} {a a' : α} (h : l ++ [a] = l' ++ [a']) :
    l = l' ∧ a = a' := by
  have h1 := congrArg List.reverse h
  simp at h1
  exact ⟨h1.2, h1.1⟩

theorem dec_inj {m n : Nat} (h : dec m = dec n) : m = n := by
  induction m using Nat.strongRecOn generalizing n with
  | ind m ih =>
    by_cases hm : m < 10 <;> by_cases hn : n < 10
    · rw [dec_lt hm, dec_lt hn] at h; simp at h; exact h
    · rw [dec_lt hm, dec_ge hn] at h
      have h1 := congrArg List.length h
      have h2 := List.length_pos_iff.mpr (dec_ne_nil (n / 10))
      simp at h1; exact absurd h1 (dec_ne_nil _)
    · rw [dec_ge hm, dec_lt hn] at h
      have h1 := congrArg List.length h
      simp at h1; exact absurd h1 (dec_ne_nil _)
    · rw [dec_ge hm, dec_ge hn] at h
      obtain ⟨h1, h2⟩ := append_singleton_inj h
      have := ih (m / 10) (by omega) h1
      omega

/-- Two names that end in a dash and a text without dashes. -/
theorem dash_inj {a b x y : PyStr} (hx : (45 : Nat) ∉ x) (hy : (45 : Nat) ∉ y)
    (h : a ++ 45 :: x = b ++ 45 :: y) : a = b ∧ x = y := by
  rcases List.append_eq_append_iff.mp h with ⟨w, hb, hw⟩ | ⟨w, ha, hw⟩
  · cases w with
    | nil => simp at hw hb; exact ⟨hb.symm, hw⟩
    | cons c w =>
      rw [List.cons_append] at hw
      injection hw with _ h2
      exact absurd (h2 ▸ List.mem_append_right _ (List.mem_cons_self ..)) hx
  · cases w with
    | nil => simp at hw ha; exact ⟨ha, hw.symm⟩
    | cons c w =>
      rw [List.cons_append] at hw
      injection hw with _ h2
      exact absurd (h2 ▸ List.mem_append_right _ (List.mem_cons_self ..)) hy

theorem dec_no_dash (n : Nat) : (45 : Nat) ∉ dec n := fun h => by
  have := dec_digits n 45 h; omega

namespace FileBuf

theorem logName_eq (b : FileBuf) (n : Nat) : b.logName n = (b.name ++ 45 :: dec n) ++ lit ".log" := by
  simp [logName, show lit "-" = [45] from rfl]

theorem tmpName_eq (b : FileBuf) : b.tmpName = (b.name ++ 45 :: b.tmpId) ++ lit ".tmp" := by
  simp [tmpName, show lit "-" = [45] from rfl]

theorem logName_inj' {b b' : FileBuf} {m n : Nat} (h : b.logName m = b'.logName n) :
    b.name = b'.name ∧ m = n := by
  rw [logName_eq, logName_eq] at h
  have h := List.append_cancel_right h
  have ⟨h1, h2⟩ := dash_inj (dec_no_dash m) (dec_no_dash n) h
  exact ⟨h1, dec_inj h2⟩

@[simp] theorem logName_inj {b : FileBuf} {m n : Nat} : b.logName m = b.logName n ↔ m = n :=
  ⟨fun h => (logName_inj' h).2, fun h => h ▸ rfl⟩

theorem suffix_ne {a b : PyStr} : a ++ lit ".log" ≠ b ++ lit ".tmp" := by
  intro h
  have h1 := congrArg List.reverse h
  have e1 : lit ".log" = [46, 108, 111, 103] := rfl
  have e2 : lit ".tmp" = [46, 116, 109, 112] := rfl
  rw [e1, e2] at h1
  simp at h1

theorem logName_ne_tmpName (b b' : FileBuf) (n : Nat) : b.logName n ≠ b'.tmpName := by
  rw [logName_eq, tmpName_eq]; exact suffix_ne

theorem tmpName_ne_logName (b b' : FileBuf) (n : Nat) : b'.tmpName ≠ b.logName n :=
  fun h => logName_ne_tmpName b b' n h.symm

end FileBuf

/-! ## Directories -/

@[simp] theorem FS.set_same (s : FS) (n : PyStr) (v : Option PyStr) : s.set n v n = v := by
  simp [FS.set]

theorem FS.set_other (s : FS) {n m : PyStr} (v : Option PyStr) (h : m ≠ n) : s.set n v m = s m := by
  simp [FS.set, h]

theorem FS.set_self (s : FS) (n : PyStr) : s.set n (s n) = s := by
  funext m; by_cases h : m = n <;> simp [FS.set, h]

theorem FS.set_set (s : FS) (n : PyStr) (v w : Option PyStr) : (s.set n v).set n w = s.set n w := by
  funext m; by_cases h : m = n <;> simp [FS.set, h]

/-- Only the record files of `b` differ. -/
def Frame (b : FileBuf) (s s' : FS) : Prop := ∀ m, (∀ k, m ≠ b.logName k) → s' m = s m

theorem Frame.refl (b : FileBuf) (s : FS) : Frame b s s := fun _ _ => rfl

theorem Frame.trans {b : FileBuf} {s s' s'' : FS} (h : Frame b s s') (h' : Frame b s' s'') :
    Frame b s s'' := fun m hm => (h' m hm).trans (h m hm)

theorem Frame.set (b : FileBuf) (s : FS) (k : Nat) (v : Option PyStr) :
    Frame b s (s.set (b.logName k) v) := fun _ hm => FS.set_other s v (hm k)

theorem Frame.tmp {b b' : FileBuf} {s s' : FS} (h : Frame b s s') : s' b'.tmpName = s b'.tmpName :=
  h _ fun k => FileBuf.tmpName_ne_logName b b' k

/-! ## Newline translation -/

theorem writeNewlines_append (crlf : Bool) (s t : PyStr) :
    writeNewlines crlf (s ++ t) = writeNewlines crlf s ++ writeNewlines crlf t := by
  induction s with
  | nil => rfl
  | cons c s ih => simp [writeNewlines, ih]

theorem univNewlines_cons {c : Nat} (h : c ≠ 13) (s : PyStr) :
    univNewlines (c :: s) = c :: univNewlines s := by
  rw [univNewlines]
  · simp [h]
  · intro rest h1 h2; exact h h1

/-- A text without carriage returns survives being written and read. -/
theorem univ_write (crlf : Bool) (s : PyStr) (h : (13 : Nat) ∉ s) :
    univNewlines (writeNewlines crlf s) = s := by
  induction s with
  | nil => rfl
  | cons c s ih =>
    simp only [List.mem_cons, not_or] at h
    have hc : c ≠ 13 := fun e => h.1 e.symm
    simp only [writeNewlines]
    by_cases h10 : c = 10 ∧ crlf = true
    · simp only [h10, and_self, if_true, List.cons_append, List.nil_append]
      have : univNewlines (13 :: 10 :: writeNewlines true s) = 10 :: univNewlines (writeNewlines true s) := rfl
      rw [this]
      have := ih h.2
      rw [h10.2] at this
      rw [this]
    · simp only [h10, if_false, List.cons_append, List.nil_append]
      rw [univNewlines_cons hc, ih h.2]

theorem writeNewlines_eq_nil {crlf : Bool} {s : PyStr} : writeNewlines crlf s = [] ↔ s = [] := by
  cases s with
  | nil => simp [writeNewlines]
  | cons c s => simp only [writeNewlines]; split <;> simp

/-! ## Primitive operations, uninterrupted -/

namespace File

@[simp] theorem isfile_seq (n : PyStr) (s : FS) : (isfile n).seq s = (.ok (s n).isSome, s) := rfl

@[simp] theorem listdir_seq (s : FS) : listdir.seq s = (.ok (fun n => (s n).isSome), s) := rfl

@[simp] theorem openW_seq (n : PyStr) (s : FS) : (openW n).seq s = (.ok (), s.set n (some [])) := rfl

@[simp] theorem openA_seq (n : PyStr) (s : FS) :
    (openA n).seq s = (.ok (), s.set n (some ((s n).getD []))) := by
  simp only [openA, Prog.seq]
  cases h : s n with
  | none => simp
  | some c => simp only [Option.isSome_some, if_true, Option.getD_some]; rw [← h, FS.set_self]

theorem remove_seq {n : PyStr} {s : FS} {c : PyStr} (h : s n = some c) :
    (remove n).seq s = (.ok (), s.set n none) := by
  simp [remove, Prog.seq, h]

theorem rename_seq {a b : PyStr} {s : FS} {c : PyStr} (h : s a = some c) :
    (rename a b).seq s = (.ok (), (s.set a none).set b (some c)) := by
  simp [rename, Prog.seq, h]

theorem readText_seq {n : PyStr} {s : FS} {c : PyStr} (h : s n = some c) :
    (readText n).seq s = (.ok (univNewlines c), s) := by
  simp [readText, Prog.seq, h]

theorem appendChars_seq (n t : PyStr) (s : FS) (c : PyStr) (h : s n = some c) :
    (appendChars n t).seq s = (.ok (), s.set n (some (c ++ t))) := by
  induction t generalizing s c with
  | nil => simp only [appendChars, Prog.seq, List.append_nil]; rw [← h, FS.set_self]
  | cons x t ih =>
    simp only [appendChars, Prog.seq]
    rw [ih _ (c ++ [x]) (by simp [h]), FS.set_set]
    simp

theorem writeText_seq {env : FEnv} {n t : PyStr} {s : FS} {c : PyStr} (h : s n = some c)
    (he : t.all env.encodable = true) :
    (writeText env n t).seq s = (.ok t.length, s.set n (some (c ++ writeNewlines env.crlf t))) := by
  simp only [writeText, he, if_true]
  rw [Prog.seq_bind_ok (appendChars_seq n _ s c h)]
  rfl

theorem writeText_seq_error {env : FEnv} {n t : PyStr} {s : FS}
    (he : t.all env.encodable = false) :
    (writeText env n t).seq s = (.error .unicodeEncodeError, s) := by
  simp only [writeText, he]
  rfl

end File

/-! ## The rotation of the record files -/

namespace FileBuf

theorem moveStep_seq {b : FileBuf} {nl n : Nat} {s : FS} {c : PyStr} (hnl : 1 ≤ nl)
    (h : s (b.logName n) = some c) (rest : FProg Unit) :
    ∃ s', (do
        if ← File.isfile (b.logName (n + nl)) then File.remove (b.logName (n + nl))
        File.rename (b.logName n) (b.logName (n + nl))
        rest : FProg Unit).seq s = rest.seq s' ∧
      (∀ k, s' (b.logName k) =
        if k = n + nl then some c else if k = n then none else s (b.logName k)) ∧
      Frame b s s' := by
  refine ⟨(s.set (b.logName n) none).set (b.logName (n + nl)) (some c), ?_, ?_, ?_⟩
  · rw [Prog.seq_bind_ok (File.isfile_seq _ _)]
    cases hx : s (b.logName (n + nl)) with
    | none =>
      simp only [Option.isSome_none, Bool.false_eq_true, if_false]
      rw [Prog.seq_bind_ok (File.rename_seq h)]
    | some d =>
      simp only [Option.isSome_some, if_true]
      rw [Prog.seq_bind_ok (File.remove_seq hx)]
      have h2 : (s.set (b.logName (n + nl)) none) (b.logName n) = some c := by
        rw [FS.set_other _ _ (by simp; omega), h]
      rw [Prog.seq_bind_ok (File.rename_seq h2)]
      congr 1
      funext m
      simp only [FS.set]
      by_cases h3 : m = b.logName (n + nl) <;> simp [h3]
  · intro k
    simp only [FS.set, logName_inj]
  · exact (Frame.set b s n none).trans (Frame.set b _ _ _)

/-- The renaming loop: the first `j` records move up by `nl`. -/
theorem moveLoop_seq (b : FileBuf) (nl : Nat) (hnl : 1 ≤ nl) (j : Nat) (s : FS)
    (h : ∀ k, k < j → (s (b.logName k)).isSome = true) :
    ∃ s', (moveLoop b nl j).seq s = (.ok (), s') ∧
      (∀ k, s' (b.logName k) =
        if nl ≤ k ∧ k < j + nl then s (b.logName (k - nl))
        else if k < j then none else s (b.logName k)) ∧
      Frame b s s' := by
  induction j generalizing s with
  | zero =>
    refine ⟨s, rfl, fun k => ?_, Frame.refl b s⟩
    rw [if_neg (by omega), if_neg (by omega)]
  | succ n ih =>
    obtain ⟨c, hc⟩ := Option.isSome_iff_exists.mp (h n (by omega))
    obtain ⟨s1, he, hv, hf⟩ := moveStep_seq (b := b) hnl hc (moveLoop b nl n)
    obtain ⟨s2, he2, hv2, hf2⟩ := ih s1 (fun k hk => by
      rw [hv k]
      have h1 : k ≠ n + nl := by omega
      have h2 : k ≠ n := by omega
      simp [h1, h2, h k (by omega)])
    refine ⟨s2, ?_, fun k => ?_, hf.trans hf2⟩
    · rw [moveLoop]; exact he.trans he2
    · rw [hv2 k]
      by_cases h1 : nl ≤ k ∧ k < n + nl
      · have h2 : nl ≤ k ∧ k < n + 1 + nl := by omega
        rw [if_pos h1, if_pos h2, hv]
        have h3 : k - nl ≠ n + nl := by omega
        have h4 : k - nl ≠ n := by omega
        simp [h3, h4]
      · rw [if_neg h1]
        by_cases h2 : nl ≤ k ∧ k < n + 1 + nl
        · have h3 : k = n + nl := by omega
          subst h3
          rw [if_neg (by omega), if_pos h2, hv]
          simp [hc]
        · rw [if_neg h2, hv]
          by_cases h3 : k < n
          · simp [h3, show k < n + 1 by omega]
          · by_cases h4 : k = n
            · have : nl ≠ 0 := by omega
              simp [h4, this]
            · have h5 : k ≠ n + nl := by omega
              simp [h3, h4, h5, show ¬ k < n + 1 by omega]

/-- The writing loop. -/
theorem writeLoop_seq (env : FEnv) (b : FileBuf) (lines : List PyStr) (s : FS)
    (he : ∀ l ∈ lines, l.all env.encodable = true) :
    ∃ s', (writeLoop env b lines).seq s = (.ok (), s') ∧
      (∀ k, s' (b.logName k) =
        if k < lines.length then (lines.reverse[k]?).map (writeNewlines env.crlf)
        else s (b.logName k)) ∧
      Frame b s s' := by
  induction lines generalizing s with
  | nil => exact ⟨s, rfl, fun k => by simp, Frame.refl b s⟩
  | cons l ls ih =>
    let s1 := s.set (b.logName ls.length) (some (writeNewlines env.crlf l))
    obtain ⟨s2, he2, hv2, hf2⟩ := ih s1 (fun x hx => he x (List.mem_cons_of_mem _ hx))
    refine ⟨s2, ?_, fun k => ?_, (Frame.set b s ls.length _).trans hf2⟩
    · rw [writeLoop, Prog.seq_bind_ok (File.openW_seq _ _),
        Prog.seq_bind_ok (File.writeText_seq (FS.set_same _ _ _) (he l (List.mem_cons_self ..))),
        FS.set_set]
      exact he2
    · rw [hv2 k]
      by_cases h1 : k < ls.length
      · have h2 : k < (l :: ls).length := by simp; omega
        rw [if_pos h1, if_pos h2]
        simp [List.getElem?_append, h1]
      · rw [if_neg h1]
        by_cases h2 : k = ls.length
        · subst h2
          simp [s1]
        · have h3 : ¬ k < (l :: ls).length := by simp; omega
          rw [if_neg h3]
          exact FS.set_other _ _ (by simp [h2])

/-! ## Counting and reading -/

/-- The number of consecutive record files from number 0 on, at most `limit`. -/
theorem countFrom_spec (b : FileBuf) (files : PyStr → Bool) (n limit : Nat) :
    let c := countFrom b files n limit
    c ≤ limit ∧ (∀ k, k < c → files (b.logName (n + k)) = true) ∧
      (c < limit → files (b.logName (n + c)) = false) := by
  induction limit generalizing n with
  | zero => simp [countFrom]
  | succ l ih =>
    simp only [countFrom]
    by_cases h : files (b.logName n) = true
    · rw [if_pos h]
      obtain ⟨h1, h2, h3⟩ := ih (n + 1)
      refine ⟨by omega, fun k hk => ?_, fun hl => ?_⟩
      · cases k with
        | zero => exact h
        | succ k =>
          have := h2 k (by omega)
          rwa [show n + 1 + k = n + (k + 1) by omega] at this
      · have := h3 (by omega)
        rwa [show n + 1 + countFrom b files (n + 1) l = n + (countFrom b files (n + 1) l + 1) by omega] at this
    · rw [if_neg h]
      exact ⟨by omega, fun k hk => absurd hk (by omega), fun _ => by simpa using h⟩

theorem countFrom_unique {b : FileBuf} {files : PyStr → Bool} {limit c : Nat} (h1 : c ≤ limit)
    (h2 : ∀ k, k < c → files (b.logName k) = true)
    (h3 : c < limit → files (b.logName c) = false) : countFrom b files 0 limit = c := by
  obtain ⟨g1, g2, g3⟩ := countFrom_spec b files 0 limit
  simp only [Nat.zero_add] at g2 g3
  generalize countFrom b files 0 limit = d at *
  rcases Nat.lt_trichotomy d c with h | h | h
  · have := h2 d h; rw [g3 (by omega)] at this; cases this
  · exact h
  · have := g2 c h; rw [h3 (by omega)] at this; cases this

/-- The number of record files a process with the limit `limit` counts. -/
def count (b : FileBuf) (s : FS) (limit : Nat) : Nat := countFrom b (fun n => (s n).isSome) 0 limit

theorem count_le (b : FileBuf) (s : FS) (limit : Nat) : count b s limit ≤ limit :=
  (countFrom_spec b _ 0 limit).1

theorem count_some (b : FileBuf) (s : FS) (limit : Nat) {k : Nat} (h : k < count b s limit) :
    (s (b.logName k)).isSome = true := by
  have := (countFrom_spec b (fun n => (s n).isSome) 0 limit).2.1 k h
  simpa using this

theorem count_mono (b : FileBuf) (s : FS) (limit m : Nat) (h : m ≤ limit) :
    count b s m = min m (count b s limit) := by
  obtain ⟨g1, g2, g3⟩ := countFrom_spec b (fun n => (s n).isSome) 0 limit
  simp only [Nat.zero_add] at g2 g3
  apply countFrom_unique
  · omega
  · intro k hk; exact g2 k (by simp only [count] at hk; omega)
  · intro hlt
    have : min m (count b s limit) = countFrom b (fun n => (s n).isSome) 0 limit := by
      simp only [count] at *; omega
    rw [this]
    apply g3
    simp only [count] at *; omega

/-- The contents of the first `n` record files, oldest first, as read. -/
def records (b : FileBuf) (s : FS) : Nat → List PyStr
  | 0 => []
  | n + 1 => univNewlines ((s (b.logName n)).getD []) :: records b s n

theorem records_length (b : FileBuf) (s : FS) (n : Nat) : (records b s n).length = n := by
  induction n with
  | zero => rfl
  | succ n ih => simp [records, ih]

theorem readLoop_seq (b : FileBuf) (n : Nat) (s : FS)
    (h : ∀ k, k < n → (s (b.logName k)).isSome = true) :
    (readLoop b n).seq s = (.ok (records b s n), s) := by
  induction n with
  | zero => rfl
  | succ n ih =>
    obtain ⟨c, hc⟩ := Option.isSome_iff_exists.mp (h n (by omega))
    rw [readLoop, Prog.seq_bind_ok (File.readText_seq hc),
      Prog.seq_bind_ok (ih fun k hk => h k (by omega))]
    simp [records, hc]

/-- The unfinished line of the process, as read. -/
def lastLine (b : FileBuf) (s : FS) : PyStr := univNewlines ((s b.tmpName).getD [])

theorem getLastLine_seq (b : FileBuf) (s : FS) : (getLastLine b).seq s = (.ok (lastLine b s), s) := by
  rw [getLastLine, Prog.seq_withLock, Prog.seq_bind_ok (File.isfile_seq _ _)]
  cases h : s b.tmpName with
  | none => simp [lastLine, h, univNewlines]
  | some c =>
    simp only [Option.isSome_some, if_true]
    rw [File.readText_seq h]
    simp [lastLine, h]

theorem cleanLastLine_seq (b : FileBuf) (s : FS) :
    (cleanLastLine b).seq s = (.ok (), s.set b.tmpName (some [])) := by
  rw [cleanLastLine, Prog.seq_withLock]; rfl

theorem writeLastLine_seq (env : FEnv) (b : FileBuf) (line : PyStr) (s : FS)
    (he : line.all env.encodable = true) :
    (writeLastLine env b line).seq s = (.ok line.length,
      s.set b.tmpName (some ((s b.tmpName).getD [] ++ writeNewlines env.crlf line))) := by
  rw [writeLastLine, Prog.seq_withLock, Prog.seq_bind_ok (File.openA_seq _ _),
    File.writeText_seq (FS.set_same _ _ _) he, FS.set_set]

/-- What `__update_records` does to the record files, in every directory. -/
theorem updateRecords_seq (env : FEnv) (b : FileBuf) (lines : List PyStr) (s : FS)
    (hm : 1 ≤ b.maxlen) (hne : lines ≠ []) (he : ∀ l ∈ lines, l.all env.encodable = true) :
    ∃ s', (updateRecords env b lines).seq s = (.ok (), s') ∧
      (∀ k, s' (b.logName k) =
        let new := lastN b.maxlen lines
        if k < new.length then (new.reverse[k]?).map (writeNewlines env.crlf)
        else if k < new.length + min (count b s b.maxlen) (b.maxlen - new.length)
          then s (b.logName (k - new.length))
        else s (b.logName k)) ∧
      Frame b s s' := by
  have hlen : ¬ lines.length ≤ 0 := by
    have := List.length_pos_iff.mpr hne; omega
  have hnew : (if lines.length ≥ b.maxlen then lines.drop (lines.length - b.maxlen) else lines) =
      lastN b.maxlen lines := by
    split
    · rfl
    · simp [lastN, show lines.length - b.maxlen = 0 by omega]
  have hnl : 1 ≤ (lastN b.maxlen lines).length := by
    simp only [lastN, List.length_drop]; omega
  generalize hN : lastN b.maxlen lines = new at *
  have hne : ∀ l ∈ new, l.all env.encodable = true := fun l hl => he l (by
    rw [← hN] at hl; exact List.mem_of_mem_drop hl)
  obtain ⟨s1, he1, hv1, hf1⟩ := moveLoop_seq b new.length hnl
    (min (count b s b.maxlen) (b.maxlen - new.length)) s
    (fun k hk => count_some b s b.maxlen (by omega))
  obtain ⟨s2, he2, hv2, hf2⟩ := writeLoop_seq env b new s1 hne
  refine ⟨s2, ?_, fun k => ?_, hf1.trans hf2⟩
  · rw [updateRecords, Prog.seq_withLock]
    simp only [hlen, if_false, hnew]
    rw [Prog.seq_bind_ok (File.listdir_seq _)]
    exact (Prog.seq_bind_ok he1).trans he2
  · rw [hv2 k]
    by_cases h1 : k < new.length
    · simp [h1]
    · simp only [h1, if_false]
      rw [hv1 k]
      by_cases h2 : k < new.length + min (count b s b.maxlen) (b.maxlen - new.length)
      · rw [if_pos (by omega), if_pos h2]
      · rw [if_neg (by omega), if_neg h2, if_neg (by omega)]

theorem updateRecords_nil (env : FEnv) (b : FileBuf) (s : FS) :
    (updateRecords env b []).seq s = (.ok (), s) := by
  rw [updateRecords, Prog.seq_withLock]; rfl

/-! ## Records as a list -/

/-- The record files hold exactly the list `rs` (as stored), newest first. -/
def Holds (b : FileBuf) (s : FS) (rs : List PyStr) : Prop := ∀ k, s (b.logName k) = rs[k]?

theorem count_holds {b : FileBuf} {s : FS} {rs : List PyStr} (h : Holds b s rs) (limit : Nat) :
    count b s limit = min limit rs.length := by
  apply countFrom_unique
  · omega
  · intro k hk; rw [h k]; simp; omega
  · intro hlt; rw [h]; simp; omega

theorem records_holds {b : FileBuf} {s : FS} {rs : List PyStr} (h : Holds b s rs) {n : Nat}
    (hn : n ≤ rs.length) : records b s n = ((rs.take n).map univNewlines).reverse := by
  induction n with
  | zero => simp [records]
  | succ n ih =>
    have hlt : n < rs.length := by omega
    rw [records, ih (by omega), h n, List.take_add_one]
    simp only [hlt, getElem?_pos, Option.getD_some, Option.toList_some, List.map_append,
      List.map_cons, List.map_nil, List.reverse_append, List.reverse_cons, List.reverse_nil,
      List.nil_append, List.cons_append]

theorem updateRecords_holds (env : FEnv) (b : FileBuf) (lines : List PyStr) (s : FS)
    (rs : List PyStr) (hm : 1 ≤ b.maxlen) (he : ∀ l ∈ lines, l.all env.encodable = true)
    (h : Holds b s rs) (hr : rs.length ≤ b.maxlen) :
    ∃ s', (updateRecords env b lines).seq s = (.ok (), s') ∧
      Holds b s' (((lines.map (writeNewlines env.crlf)).reverse ++ rs).take b.maxlen) ∧
      Frame b s s' := by
  by_cases hne : lines = []
  · subst hne
    refine ⟨s, updateRecords_nil env b s, ?_, Frame.refl b s⟩
    simp [List.take_of_length_le hr]; exact h
  obtain ⟨s', h1, h2, h3⟩ := updateRecords_seq env b lines s hm hne he
  refine ⟨s', h1, fun k => ?_, h3⟩
  rw [h2 k]
  have hlen : (lastN b.maxlen lines).length = min b.maxlen lines.length := by
    simp only [lastN, List.length_drop]; omega
  have hpos := List.length_pos_iff.mpr hne
  simp only [hlen, count_holds h]
  rw [List.getElem?_take]
  by_cases hk : k < min b.maxlen lines.length
  · rw [if_pos hk, if_pos (by omega)]
    have : (lastN b.maxlen lines).reverse[k]? = lines.reverse[k]? := by
      rw [lastN, List.reverse_drop, List.getElem?_take, if_pos (by omega)]
    rw [this, List.getElem?_append_left (by simp; omega), ← List.map_reverse, List.getElem?_map]
  · rw [if_neg hk]
    by_cases h4 : k < b.maxlen
    · rw [if_pos h4, List.getElem?_append_right (by simp; omega)]
      simp only [List.length_reverse, List.length_map]
      split
      · rw [h, show min b.maxlen lines.length = lines.length by omega]
      · rw [h, List.getElem?_eq_none (by omega), List.getElem?_eq_none (by omega)]
    · rw [if_neg h4, if_neg (by omega), h, List.getElem?_eq_none (by omega)]

/-! ## Texts without line terminators are stored as they are -/

theorem noBreak_ne {t : PyStr} (h : NoBreak t) : (13 : Nat) ∉ t ∧ (10 : Nat) ∉ t :=
  ⟨fun hc => h _ hc (by decide), fun hc => h _ hc (by decide)⟩

theorem writeNewlines_noBreak (crlf : Bool) {t : PyStr} (h : NoBreak t) :
    writeNewlines crlf t = t := by
  induction t with
  | nil => rfl
  | cons c t ih =>
    have ⟨h1, h2⟩ := noBreak_cons.1 h
    have hc : ¬ (c = 10 ∧ crlf = true) := fun hc => h1 (hc.1 ▸ by decide)
    rw [writeNewlines, if_neg hc, ih h2]; rfl

theorem univNewlines_noBreak {t : PyStr} (h : NoBreak t) : univNewlines t = t := by
  have := univ_write false t (noBreak_ne h).1
  rwa [writeNewlines_noBreak false h] at this

theorem all_encodable_append {env : FEnv} {a b : PyStr} :
    (a ++ b).all env.encodable = true ↔ a.all env.encodable = true ∧ b.all env.encodable = true := by
  rw [List.all_append, Bool.and_eq_true]

/-- The lines of encodable texts are encodable. -/
theorem segFrom_encodable (env : FEnv) (cur d : PyStr) (hc : cur.all env.encodable = true)
    (hd : d.all env.encodable = true) :
    (∀ l ∈ (segFrom cur d).1, l.all env.encodable = true) ∧
      (segFrom cur d).2.all env.encodable = true := by
  fun_induction segFrom cur d with
  | case1 cur => exact ⟨by simp, hc⟩
  | case2 cur rest ih =>
    simp only [List.all_cons, Bool.and_eq_true] at hd
    obtain ⟨h1, h2⟩ := ih (by simp) hd.2.2
    refine ⟨fun l hl => ?_, h2⟩
    rcases List.mem_cons.1 hl with rfl | hl
    · exact hc
    · exact h1 l hl
  | case3 cur c rest h hb ih =>
    simp only [List.all_cons, Bool.and_eq_true] at hd
    obtain ⟨h1, h2⟩ := ih (by simp) hd.2
    refine ⟨fun l hl => ?_, h2⟩
    rcases List.mem_cons.1 hl with rfl | hl
    · exact hc
    · exact h1 l hl
  | case4 cur c rest h hb ih =>
    simp only [List.all_cons, Bool.and_eq_true] at hd
    exact ih (by rw [all_encodable_append]; exact ⟨hc, by simp [hd.1]⟩) hd.2

/-! ## The methods, uninterrupted -/

/-- Only the record files and the temporary file of `b` differ. -/
def Frame2 (b : FileBuf) (s s' : FS) : Prop :=
  ∀ m, (∀ k, m ≠ b.logName k) → m ≠ b.tmpName → s' m = s m

theorem Frame2.refl (b : FileBuf) (s : FS) : Frame2 b s s := fun _ _ _ => rfl

theorem Frame2.trans {b : FileBuf} {s s' s'' : FS} (h : Frame2 b s s') (h' : Frame2 b s' s'') :
    Frame2 b s s'' := fun m hm ht => (h' m hm ht).trans (h m hm ht)

theorem _root_.SyncStream.Frame.two {b : FileBuf} {s s' : FS} (h : Frame b s s') : Frame2 b s s' :=
  fun m hm _ => h m hm

theorem Frame2.tmp (b : FileBuf) (s : FS) (v : Option PyStr) : Frame2 b s (s.set b.tmpName v) :=
  fun _ _ ht => FS.set_other s v ht

theorem Holds.set_tmp {b b' : FileBuf} {s : FS} {rs : List PyStr} (h : Holds b s rs)
    (v : Option PyStr) : Holds b (s.set b'.tmpName v) rs := fun k => by
  rw [FS.set_other _ _ (logName_ne_tmpName b b' k), h k]

/-- The unfinished line in the temporary file. -/
def Tmp (b : FileBuf) (s : FS) (part : PyStr) : Prop := (s b.tmpName).getD [] = part

theorem lastLine_tmp {b : FileBuf} {s : FS} {part : PyStr} (h : Tmp b s part) (hn : NoBreak part) :
    lastLine b s = part := by
  rw [lastLine, h, univNewlines_noBreak hn]

/-- What `__write` does, in terms of the lines of the text. -/
theorem writeCore_holds (env : FEnv) (b : FileBuf) (d : PyStr) (s : FS) (part : PyStr)
    (rs : List PyStr) (hm : 1 ≤ b.maxlen) (ht : Tmp b s part) (hn : NoBreak part)
    (hp : part.all env.encodable = true) (hd : d.all env.encodable = true)
    (h : Holds b s rs) (hr : rs.length ≤ b.maxlen) :
    ∃ s', (writeCore env b d).seq s = (.ok (LineBuf.writeRet d), s') ∧
      Holds b s' (((segFrom part d).1.reverse ++ rs).take b.maxlen) ∧
      Tmp b s' (segFrom part d).2 ∧ Frame2 b s s' := by
  have hlines := lines_noBreak (lines_segFrom part d hn)
  have henc := segFrom_encodable env part d hp hd
  have hmap : ((segFrom part d).1.map (writeNewlines env.crlf)) = (segFrom part d).1 := by
    have := List.map_congr_left (f := writeNewlines env.crlf) (g := id)
      (fun l hl => writeNewlines_noBreak env.crlf (hlines.1 l hl))
    rw [this]; simp
  unfold writeCore
  by_cases hd0 : d = []
  · subst hd0
    refine ⟨s, ?_, ?_, by simpa using ht, Frame2.refl b s⟩
    · simp [splitlines_eq, isEndLineBreak, LineBuf.writeRet]
    · simpa [List.take_of_length_le hr] using h
  have hcorr := splitlines_corrected d hd0
  have hsp := splitlines_eq d
  have hcur := segFrom_cur part d
  generalize hls : (segFrom [] d).1 = ls at *
  generalize hrr : (segFrom [] d).2 = r at *
  have hseg : segFrom [] d = (ls, r) := by rw [← hls, ← hrr]
  rw [hseg] at hcur
  by_cases hlone : (splitlines d).length = 1 ∧ (splitlines d).head? = some []
  · have hr0 : r = [] ∧ ls = [[]] := by
      rw [hsp] at hlone
      by_cases hrr : r = []
      · simp [hrr] at hlone
        refine ⟨hrr, ?_⟩
        match ls, hlone with
        | [x], hl => simpa using hl.2
      · simp [hrr] at hlone
        exfalso
        match ls, hlone with
        | [], hl => simp [hrr] at hl
    obtain ⟨rfl, rfl⟩ := hr0
    simp only [hlone, and_self, if_true]
    have hseg2 : segFrom part d = ([part], []) := by simpa using hcur
    rw [hseg2] at hlines henc ⊢
    obtain ⟨s1, e1, h1, f1⟩ := updateRecords_holds env b [part] s rs hm henc.1 h hr
    refine ⟨s1.set b.tmpName (some []), ?_, ?_, by simp [Tmp], f1.two.trans (Frame2.tmp b s1 _)⟩
    · rw [Prog.seq_bind_ok (getLastLine_seq b s), lastLine_tmp ht hn, parseLines,
        Prog.seq_bind_ok e1, Prog.seq_bind_ok (cleanLastLine_seq b s1)]
      simp [LineBuf.writeRet, hls, hrr]
    · apply Holds.set_tmp
      rw [hseg2] at hmap
      simpa [writeNewlines_noBreak env.crlf hn] using h1
  · simp only [hlone, if_false]
    have hret : LineBuf.writeRet d = r.length := by
      unfold LineBuf.writeRet
      rw [hls, hrr, if_neg]
      rintro ⟨h1, h2⟩
      apply hlone
      rw [hsp, h1, h2]; simp
    rw [hcorr]
    have hlen : (if isEndLineBreak d = true then (splitlines d).length + 1
        else (splitlines d).length) = ls.length + 1 := by
      have := congrArg List.length hcorr
      rw [List.length_append] at this
      split at this
      · simpa [*] using this
      · simpa [*] using this
    rw [hlen]
    cases ls with
    | nil =>
      have hseg2 : segFrom part d = ([], part ++ r) := by simpa using hcur
      rw [hseg2] at hlines henc ⊢
      have hre := (all_encodable_append.1 henc.2).2
      have hrn := (noBreak_append.1 hlines.2).2
      refine ⟨s.set b.tmpName (some (part ++ r)), ?_, ?_, by simp [Tmp], Frame2.tmp b s _⟩
      · simp only [List.length_nil, Nat.zero_add, gt_iff_lt, Nat.lt_irrefl, if_false, if_true,
          List.nil_append, List.headD_cons]
        rw [writeLastLine_seq env b r s hre, hret, ht, writeNewlines_noBreak _ hrn]
      · apply Holds.set_tmp
        simpa [List.take_of_length_le hr] using h
    | cons l ls =>
      have hseg2 : segFrom part d = ((part ++ l) :: ls, r) := by simpa using hcur
      rw [hseg2] at hlines henc hmap ⊢
      obtain ⟨s1, e1, h1, f1⟩ := updateRecords_holds env b ((part ++ l) :: ls) s rs hm henc.1 h hr
      simp only at hmap
      rw [hmap] at h1
      refine ⟨(s1.set b.tmpName (some [])).set b.tmpName (some r), ?_, ?_, by simp [Tmp],
        (f1.two.trans (Frame2.tmp b s1 _)).trans (Frame2.tmp b _ _)⟩
      · have : ls.length + 1 + 1 > 1 := by omega
        simp only [List.length_cons, this, if_true]
        rw [Prog.seq_bind_ok (getLastLine_seq b s), lastLine_tmp ht hn]
        have e : (part ++ ((l :: ls) ++ [r]).headD []) :: ((l :: ls) ++ [r]).tail =
            ((part ++ l) :: ls) ++ [r] := by simp
        have e1' : ((part ++ l) :: ls ++ [r]).getLastD [] = r := by
          rw [List.getLastD_eq_getLast?, List.getLast?_concat]; rfl
        have e2' : ((part ++ l) :: ls ++ [r]).dropLast = (part ++ l) :: ls := by
          rw [List.dropLast_append_of_ne_nil (by simp)]; simp
        rw [e, e1', e2', parseLines, Prog.seq_bind_ok e1,
          Prog.seq_bind_ok (cleanLastLine_seq b s1), writeLastLine_seq env b r _ henc.2, hret,
          writeNewlines_noBreak _ hlines.2]
        simp
      · exact (h1.set_tmp _).set_tmp _

theorem newLine_holds (env : FEnv) (b : FileBuf) (s : FS) (part : PyStr)
    (rs : List PyStr) (hm : 1 ≤ b.maxlen) (ht : Tmp b s part) (hn : NoBreak part)
    (hp : part.all env.encodable = true) (hnl : env.encodable 10 = true)
    (h : Holds b s rs) (hr : rs.length ≤ b.maxlen) (ho : b.closed = false) :
    ∃ s', (newLine env b).seq s = (.ok (), s') ∧
      Holds b s' (if part = [] then rs else (part :: rs).take b.maxlen) ∧
      Tmp b s' [] ∧ Frame2 b s s' := by
  rw [newLine]
  simp only [ho, Bool.false_eq_true, if_false]
  rw [Prog.seq_bind_ok (getLastLine_seq b s), lastLine_tmp ht hn]
  by_cases hpart : part = []
  · subst hpart
    exact ⟨s, by simp, by simpa using h, ht, Frame2.refl b s⟩
  · obtain ⟨s1, e1, h1, t1, f1⟩ := writeCore_holds env b (lit "\n") s part rs hm ht hn hp
      (by show (env.encodable 10 && true) = true; simp [hnl]) h hr
    have e : segFrom part (lit "\n") = ([part], []) := by
      show segFrom part [10] = _
      rw [segFrom_break _ _ _ (by decide) (by simp)]; simp
    rw [e] at h1 t1
    refine ⟨s1, ?_, by simpa [hpart] using h1, t1, f1⟩
    simp only [hpart, ne_eq, not_false_eq_true, if_true]
    rw [Prog.seq_bind_ok e1]; rfl

end FileBuf
end SyncStream
