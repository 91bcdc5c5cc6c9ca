import Verif.Props.File
/-!
# Properties of file mode when a process dies, or a text cannot be encoded
-/

namespace SyncStream

open Spec FileBuf

/-- The lines that a call adds to the records, if it is finished. -/
inductive Completes : FLog → FCall → List PyStr → Prop
  | write (l : FLog) (d : PyStr) (ls : List PyStr) (r : PyStr) : l.closed = false →
      Lines (l.part ++ d) ls r → Completes l (.write d) ls
  | writeClosed (l : FLog) (d : PyStr) : l.closed = true → Completes l (.write d) []
  | newLine (l : FLog) (c : FCall) : c = .newLine ∨ c = .close none ∨ c = .exit none →
      l.closed = false → l.part ≠ [] → Completes l c [l.part]
  | newLineNone (l : FLog) (c : FCall) : c = .newLine ∨ c = .close none ∨ c = .exit none →
      l.closed = true ∨ l.part = [] → Completes l c []
  | exc (l : FLog) (c : FCall) (e : ExcObj) (t : PyStr) :
      c = .sendExc e ∨ c = .close (some e) ∨ c = .exit (some e) →
      l.closed = false → FLog.ExcText e t → Completes l c [t]
  | excClosed (l : FLog) (c : FCall) (e : ExcObj) :
      c = .sendExc e ∨ c = .close (some e) ∨ c = .exit (some e) →
      l.closed = true → Completes l c []
  | other (l : FLog) (c : FCall) : c = .len ∨ c = .maxlen ∨ c = .flush ∨ c = .closed ∨
      c = .readable ∨ c = .writable ∨ (∃ n, c = .read n) → Completes l c []

/-! ## Programs that change nothing -/

/-- The program never changes the state. -/
def Silent {α : Type} (p : FProg α) : Prop := ∀ s s', Prog.Crash p s s' → s' = s

theorem Silent.pure {α : Type} (a : α) : Silent (Pure.pure a : FProg α) :=
  fun _ _ h => Prog.crash_pure h

theorem Silent.raise {α : Type} (e : Exc) : Silent (.raise e : FProg α) :=
  fun _ _ h => Prog.crash_raise h

theorem Silent.bind {α β : Type} {p : FProg α} {g : α → FProg β} (hp : Silent p)
    (hg : ∀ a, Silent (g a)) : Silent (p >>= g) := by
  intro s s' h
  rcases Prog.crash_bind h with h | ⟨a, s1, h1, h2⟩
  · exact hp _ _ h
  · rw [hg a _ _ h2]; exact hp _ _ (Prog.crash_end_of h1)

theorem Silent.withLock {α : Type} {p : FProg α} (hp : Silent p) (l : PyStr) (w : Bool) :
    Silent (p.withLock l w) := fun _ _ h => hp _ _ (Prog.crash_withLock h)

theorem Silent.outcome {α : Type} {p : FProg α} (hp : Silent p) : Silent p.outcome :=
  fun _ _ h => hp _ _ (Prog.crash_outcome h)

theorem Silent.act {α : Type} {k : FS → FProg α} (hk : ∀ s, Silent (k s)) : Silent (.act id k) := by
  intro s s' h
  cases h with
  | now => rfl
  | act _ _ _ _ h => exact hk s _ _ h

theorem Silent.ite {α : Type} {c : Prop} [Decidable c] {p q : FProg α} (hp : Silent p)
    (hq : Silent q) : Silent (if c then p else q) := by
  split <;> assumption

theorem silent_getLastLine (b : FileBuf) : Silent (getLastLine b) := fun _ _ h => crash_getLastLine h

theorem silent_readText (n : PyStr) : Silent (File.readText n) :=
  Silent.act fun s => by split <;> first | exact Silent.raise _ | exact Silent.pure _

theorem silent_readable (b : FileBuf) : Silent (readable b) :=
  Silent.withLock (Silent.withLock (Silent.pure _) _ _) _ _

theorem silent_writable (b : FileBuf) : Silent (writable b) :=
  Silent.withLock (Silent.withLock (Silent.pure _) _ _) _ _

theorem silent_listdir : Silent File.listdir := Silent.act fun _ => Silent.pure _

theorem silent_readLoop (b : FileBuf) (n : Nat) : Silent (readLoop b n) := by
  induction n with
  | zero => exact Silent.pure _
  | succ n ih => exact Silent.bind (silent_readText _) fun _ => Silent.bind ih fun _ => Silent.pure _

theorem silent_read (b : FileBuf) (size : Option Int) : Silent (FileBuf.read b size) := by
  refine Silent.bind (silent_readable b) fun r => ?_
  refine Silent.ite (Silent.raise _) (Silent.ite (Silent.pure _) ?_)
  refine Silent.bind (silent_getLastLine b) fun last => Silent.withLock ?_ _ _
  exact Silent.bind silent_listdir fun _ => Silent.bind (silent_readLoop _ _) fun _ => Silent.pure _

theorem silent_len (b : FileBuf) : Silent (len b) :=
  Silent.bind (Silent.withLock (Silent.bind silent_listdir fun _ => Silent.pure _) _ _) fun _ =>
    Silent.bind (silent_getLastLine b) fun _ => Silent.pure _

/-! ## C31 -/

/-- The records of `l` as they are stored, newest first. -/
def stored (env : FEnv) (l : FLog) : List PyStr :=
  ((lastN l.cap l.done).map (writeNewlines env.crlf)).reverse

theorem crashSafe_same {env : FEnv} {b : FileBuf} {s : FS} {l : FLog} (h : FRep env b s l)
    (new : List PyStr) (R : Nat) (hR : R ≤ (stored env l).length) :
    CrashSafe b (stored env l) new R s := by
  refine ⟨fun k => if k < (stored env l).length then some (.old k) else none, fun k => ?_, ?_⟩
  · rw [h.recs k]
    show Explains _ _ (if k < (stored env l).length then _ else _) (stored env l)[k]?
    by_cases hk : k < (stored env l).length
    · rw [if_pos hk, List.getElem?_eq_getElem hk]
      exact .old k _ (List.getElem?_eq_getElem hk)
    · rw [if_neg hk, List.getElem?_eq_none (by omega)]
      exact .absent
  · intro i hi
    refine ⟨i, if_pos (by omega), fun k hk => ?_⟩
    dsimp only at hk
    split at hk
    · cases hk; rfl
    · cases hk

/-- **C31** If the process dies at any moment of any call but `clear()` (also while a text that cannot
be encoded is written), then: every record file holds an old record intact, or a beginning of a line
that the call was adding; and each of the records that the finished call would have kept – the newest
`maxlen` minus the number of new lines – is intact in exactly one record file. -/
theorem C31_crash_safe (env : FEnv) (hnl : env.encodable 10 = true) (b : FileBuf) (s : FS) (l : FLog)
    (h : After env b s l) (c : FCall) (hc : c ≠ .clear) (new : List PyStr) (hnew : Completes l c new)
    (s' : FS) (hcr : Prog.Crash (call env b c) s s') :
    CrashSafe b (stored env l) ((lastN l.cap new).map (writeNewlines env.crlf))
      (min (lastN l.cap l.done).length (l.cap - (lastN l.cap new).length)) s' := by
  have hr := h.rep hnl
  have hcap := hr.cap
  have hpos := hr.pos
  have hcl := hr.closed
  have hlen : (stored env l).length = (lastN l.cap l.done).length := by simp [stored]
  have same : ∀ R, R ≤ (lastN l.cap l.done).length →
      CrashSafe b (stored env l) ((lastN l.cap new).map (writeNewlines env.crlf)) R s :=
    fun R hR => crashSafe_same hr _ R (by omega)
  have silent : Silent (call env b c) → CrashSafe b (stored env l)
      ((lastN l.cap new).map (writeNewlines env.crlf))
      (min (lastN l.cap l.done).length (l.cap - (lastN l.cap new).length)) s' := by
    intro hs
    rw [hs _ _ hcr]
    exact same _ (by omega)
  have upd : ∀ lines s1, new = lines → Prog.Crash (updateRecords env b lines) s s1 →
      (∀ m, m ≠ b.tmpName → s' m = s1 m) → CrashSafe b (stored env l)
      ((lastN l.cap new).map (writeNewlines env.crlf))
      (min (lastN l.cap l.done).length (l.cap - (lastN l.cap new).length)) s' := by
    rintro lines s1 rfl h1 h2
    have := crash_updateRecords (by omega) hr.recs hr.recs_le h1
    rw [hcap] at this
    have e : (stored env l).length = (lastN l.cap l.done).length := hlen
    rw [← e]
    exact this.congr h2
  have newLineCase : (l.closed = false → l.part ≠ [] → new = [l.part]) →
      Prog.Crash (newLine env b) s s' → CrashSafe b (stored env l)
      ((lastN l.cap new).map (writeNewlines env.crlf))
      (min (lastN l.cap l.done).length (l.cap - (lastN l.cap new).length)) s' := by
    intro hn hcr
    rw [newLine] at hcr
    by_cases ho : b.closed = true
    · rw [if_pos ho] at hcr
      rw [Prog.crash_pure hcr]; exact same _ (by omega)
    · rw [if_neg ho] at hcr
      have ho : b.closed = false := by simpa using ho
      rcases Prog.crash_bind hcr with hcr | ⟨a, s1, h1, hcr⟩
      · rw [crash_getLastLine hcr]; exact same _ (by omega)
      · rw [getLastLine_seq, hr.last] at h1
        cases h1
        by_cases hp : l.part = []
        · rw [if_neg (by simp [hp])] at hcr
          rw [Prog.crash_pure hcr]; exact same _ (by omega)
        · rw [if_pos hp] at hcr
          have hcr := Prog.crash_bind_silent (fun _ _ _ h => Prog.crash_pure h) hcr
          obtain ⟨s1, g1, g2, _⟩ := crash_writeCore hr.tmp hr.partClean hcr
          refine upd _ s1 ?_ g1 g2
          rw [hn (by rw [← hcl, ho]) hp]
          have hl := lines_segFrom l.part (lit "\n") hr.partClean
          have hl' : Lines (l.part ++ lit "\n") [l.part] [] := by
            have := Lines.single l.part 10 [] [] [] hr.partClean (by decide) (by decide)
              (.unfinished [] noBreak_nil)
            rw [List.append_nil] at this
            exact this
          exact (lines_unique hl' hl).1
  have excCase : ∀ e, (∀ t, l.closed = false → FLog.ExcText e t → new = [t]) →
      Prog.Crash (sendExc env b e) s s' → CrashSafe b (stored env l)
      ((lastN l.cap new).map (writeNewlines env.crlf))
      (min (lastN l.cap l.done).length (l.cap - (lastN l.cap new).length)) s' := by
    intro e hn hcr
    rw [sendExc] at hcr
    by_cases ho : b.closed = true
    · rw [if_pos ho] at hcr
      rw [Prog.crash_pure hcr]; exact same _ (by omega)
    · rw [if_neg ho] at hcr
      have ho : b.closed = false := by simpa using ho
      obtain ⟨t, ht⟩ := excText_exists e
      rw [excText_toStr ht] at hcr
      exact upd [t] s' (hn t (by rw [← hcl, ho]) ht) hcr fun _ _ => rfl
  have endNew : ∀ c, (c = .newLine ∨ c = .close none ∨ c = .exit none) → Completes l c new →
      l.closed = false → l.part ≠ [] → new = [l.part] := by
    intro c hc hnew ho hp
    rcases hc with rfl | rfl | rfl <;> cases hnew with
    | newLine => rfl
    | newLineNone _ _ hx => rcases hx with hx | hx; · rw [ho] at hx; cases hx
                            · exact absurd hx hp
    | exc _ e t hx => simp at hx
    | excClosed _ e hx => simp at hx
    | other _ hx => simp at hx
  have excNew : ∀ c e, (c = .sendExc e ∨ c = .close (some e) ∨ c = .exit (some e)) →
      Completes l c new → ∀ t, l.closed = false → FLog.ExcText e t → new = [t] := by
    intro c e hc hnew t ho ht
    rcases hc with rfl | rfl | rfl <;> cases hnew with
    | newLine _ hx => simp at hx
    | newLineNone _ hx => simp at hx
    | exc _ e' t' hx _ ht' =>
      simp at hx; subst hx
      rw [excText_unique ht ht']
    | excClosed _ e hx hcc => rw [ho] at hcc; cases hcc
    | other _ hx => simp at hx
  cases c with
  | write d =>
    have hcr := Prog.crash_outcome (Prog.crash_bind_silent (fun _ _ _ h => Prog.crash_pure h) hcr)
    rw [write] at hcr
    rcases Prog.crash_bind hcr with hcr | ⟨a, s1, h1, hcr⟩
    · rw [silent_writable b _ _ hcr]; exact same _ (by omega)
    · have : (writable b).seq s = (.ok (!b.closed), s) := by
        rw [writable, Prog.seq_withLock, Prog.seq_withLock]; rfl
      rw [this] at h1
      cases h1
      cases ho : b.closed with
      | true =>
        rw [if_pos (by simp [ho])] at hcr
        rw [Prog.crash_raise hcr]; exact same _ (by omega)
      | false =>
        rw [if_neg (by simp [ho])] at hcr
        obtain ⟨s1, g1, g2, _⟩ := crash_writeCore hr.tmp hr.partClean hcr
        refine upd _ s1 ?_ g1 g2
        cases hnew with
        | write _ ls r _ hl => exact (lines_unique hl (lines_segFrom _ _ hr.partClean)).1
        | writeClosed _ hx => rw [← hcl, ho] at hx; cases hx
        | newLine _ hx => simp at hx
        | newLineNone _ hx => simp at hx
        | exc _ e t hx => simp at hx
        | excClosed _ e hx => simp at hx
        | other _ hx => simp at hx
  | newLine =>
    exact newLineCase (endNew _ (.inl rfl) hnew)
      (Prog.crash_outcome (Prog.crash_bind_silent (fun _ _ _ h => Prog.crash_pure h) hcr))
  | sendExc e =>
    exact excCase e (excNew _ e (.inl rfl) hnew)
      (Prog.crash_outcome (Prog.crash_bind_silent (fun _ _ _ h => Prog.crash_pure h) hcr))
  | close x =>
    have hcr := Prog.crash_outcome (Prog.crash_bind_silent (fun a _ _ h => by
      cases a <;> exact Prog.crash_pure h) hcr)
    cases x with
    | none =>
      exact newLineCase (endNew _ (.inr (.inl rfl)) hnew)
        (Prog.crash_bind_silent (fun _ _ _ h => Prog.crash_pure h) hcr)
    | some e =>
      exact excCase e (excNew _ e (.inr (.inl rfl)) hnew)
        (Prog.crash_bind_silent (fun _ _ _ h => Prog.crash_pure h) hcr)
  | exit x =>
    have hcr := Prog.crash_outcome (Prog.crash_bind_silent (fun _ _ _ h => Prog.crash_pure h) hcr)
    cases x with
    | none => exact newLineCase (endNew _ (.inr (.inr rfl)) hnew) hcr
    | some e => exact excCase e (excNew _ e (.inr (.inr rfl)) hnew) hcr
  | clear => exact absurd rfl hc
  | read n => exact silent (Silent.bind (silent_read b n).outcome fun _ => Silent.pure _)
  | len => exact silent (Silent.bind (silent_len b).outcome fun _ => Silent.pure _)
  | readable => exact silent (Silent.bind (silent_readable b).outcome fun _ => Silent.pure _)
  | writable => exact silent (Silent.bind (silent_writable b).outcome fun _ => Silent.pure _)
  | maxlen => exact silent (Silent.pure _)
  | flush => exact silent (Silent.pure _)
  | closed => exact silent (Silent.pure _)

/-- **C31** `Completes` says what it should: a finished call adds just these texts to the log. -/
theorem C31_completes (l l' : FLog) (c : FCall) (r : Ret) (new : List PyStr) (hc : c ≠ .clear)
    (h : FLog.Step l c r l') (hn : Completes l c new) : l'.done = l.done ++ new := by
  have fin : l.part ≠ [] → l.finish.done = l.done ++ [l.part] := by
    intro hp; simp [FLog.finish, hp]
  have fin' : l.part = [] → l.finish.done = l.done := by
    intro hp; simp [FLog.finish, hp]
  cases hn with
  | write d ls r ho hl =>
    cases h with
    | write _ ls' r' n _ hl' _ => rw [(lines_unique hl hl').1]
    | writeClosed _ hx => rw [ho] at hx; cases hx
  | writeClosed d hx =>
    cases h with
    | write _ _ _ _ ho => rw [ho] at hx; cases hx
    | writeClosed => simp
  | newLine _ hcc ho hp =>
    rcases hcc with rfl | rfl | rfl <;> cases h <;> simp_all
  | newLineNone _ hcc hx =>
    rcases hcc with rfl | rfl | rfl <;> cases h <;> simp_all
  | exc _ e t hcc ho ht =>
    rcases hcc with rfl | rfl | rfl <;> cases h
    all_goals first
      | (rename_i t' _ ht'; rw [excText_unique ht ht'])
      | (rename_i hx; rw [ho] at hx; cases hx)
  | excClosed _ e hcc hx =>
    rcases hcc with rfl | rfl | rfl <;> cases h
    all_goals first
      | (simp; done)
      | (rename_i ho _; rw [ho] at hx; cases hx)
  | other _ hcc =>
    rcases hcc with rfl | rfl | rfl | rfl | rfl | rfl | ⟨n, rfl⟩ <;> cases h <;> simp

/-- **C31** And every call but `clear()` completes some list of texts. -/
theorem C31_completes_total (l : FLog) (c : FCall) (hc : c ≠ .clear) : ∃ new, Completes l c new := by
  have nl : ∀ c, (c = .newLine ∨ c = .close none ∨ c = .exit none) → ∃ new, Completes l c new := by
    intro c hc
    by_cases h : l.closed = true ∨ l.part = []
    · exact ⟨_, .newLineNone l c hc h⟩
    · simp only [not_or, Bool.not_eq_true] at h
      exact ⟨_, .newLine l c hc h.1 h.2⟩
  have ex : ∀ c e, (c = .sendExc e ∨ c = .close (some e) ∨ c = .exit (some e)) →
      ∃ new, Completes l c new := by
    intro c e hc
    cases ho : l.closed with
    | true => exact ⟨_, .excClosed l c e hc ho⟩
    | false =>
      obtain ⟨t, ht⟩ := excText_exists e
      exact ⟨_, .exc l c e t hc ho ht⟩
  cases c with
  | write d =>
    cases ho : l.closed with
    | true => exact ⟨_, .writeClosed l d ho⟩
    | false =>
      obtain ⟨ls, r, hl⟩ := lines_total (l.part ++ d)
      exact ⟨_, .write l d ls r ho hl⟩
  | newLine => exact nl _ (by simp)
  | sendExc e => exact ex _ e (by simp)
  | close x => cases x with
    | none => exact nl _ (by simp)
    | some e => exact ex _ e (by simp)
  | exit x => cases x with
    | none => exact nl _ (by simp)
    | some e => exact ex _ e (by simp)
  | clear => exact absurd rfl hc
  | _ => exact ⟨[], .other l _ (by simp)⟩

/-! ## C32 -/

/-- A crash in `__update_records` is a crash in `write`. -/
theorem crash_write_of {env : FEnv} {b : FileBuf} {d part : PyStr} {s s' : FS} (ht : Tmp b s part)
    (hn : NoBreak part) (ho : b.closed = false) (hne : (segFrom part d).1 ≠ [])
    (h : Prog.Crash (updateRecords env b (segFrom part d).1) s s') :
    Prog.Crash (write env b d) s s' := by
  have hw : (writable b).seq s = (.ok true, s) := by
    rw [writable, Prog.seq_withLock, Prog.seq_withLock]; simp [ho]
  refine Prog.crash_bind_right hw ?_
  rw [if_neg (by simp), writeCore_shape]
  have hcur := segFrom_cur part d
  generalize segFrom [] d = seg at *
  obtain ⟨ls, r⟩ := seg
  cases ls with
  | nil => exact absurd (congrArg Prod.fst hcur) hne
  | cons x xs =>
    have hseg : segFrom part d = ((part ++ x) :: xs, r) := hcur
    rw [hseg] at h
    refine Prog.crash_bind_right ((getLastLine_seq b s).trans (by rw [lastLine_tmp ht hn])) ?_
    exact Prog.crash_bind_left h

/-- `__update_records` after the renaming loop. -/
theorem updateRecords_moved {env : FEnv} {b : FileBuf} {lines : List PyStr} (s : FS)
    (hm : 1 ≤ b.maxlen) (hne : lines ≠ []) :
    ∃ s1, (∀ k, s1 (b.logName k) =
        if (lastN b.maxlen lines).length ≤ k ∧ k < min (count b s b.maxlen)
            (b.maxlen - (lastN b.maxlen lines).length) + (lastN b.maxlen lines).length
          then s (b.logName (k - (lastN b.maxlen lines).length))
        else if k < min (count b s b.maxlen) (b.maxlen - (lastN b.maxlen lines).length) then none
        else s (b.logName k)) ∧ Frame b s s1 ∧
      (∀ s', Prog.Crash (writeLoop env b (lastN b.maxlen lines)) s1 s' →
        Prog.Crash (updateRecords env b lines) s s') ∧
      (updateRecords env b lines).seq s = (writeLoop env b (lastN b.maxlen lines)).seq s1 := by
  have hlen : ¬ lines.length ≤ 0 := by
    have := List.length_pos_iff.mpr hne; omega
  have hnew : (if lines.length ≥ b.maxlen then lines.drop (lines.length - b.maxlen) else lines) =
      lastN b.maxlen lines := by
    split
    · rfl
    · simp [lastN, show lines.length - b.maxlen = 0 by omega]
  have hnl : 1 ≤ (lastN b.maxlen lines).length := by
    simp only [lastN, List.length_drop]; omega
  obtain ⟨s1, he1, hv1, hf1⟩ := moveLoop_seq b (lastN b.maxlen lines).length hnl
    (min (count b s b.maxlen) (b.maxlen - (lastN b.maxlen lines).length)) s
    (fun k hk => count_some b s b.maxlen (by omega))
  refine ⟨s1, hv1, hf1, fun s' h => ?_, ?_⟩
  · rw [updateRecords]
    apply Prog.crash_withLock_of
    simp only [hlen, if_false, hnew]
    exact Prog.crash_bind_right (File.listdir_seq s) (Prog.crash_bind_right he1 h)
  · rw [updateRecords, Prog.seq_withLock]
    simp only [hlen, if_false, hnew]
    rw [Prog.seq_bind_ok (File.listdir_seq _)]
    exact Prog.seq_bind_ok he1

/-- Only the newest `maxlen` of the lines matter. -/
theorem updateRecords_lastN (env : FEnv) (b : FileBuf) (lines : List PyStr) (hm : 1 ≤ b.maxlen) :
    updateRecords env b lines = updateRecords env b (lastN b.maxlen lines) := by
  by_cases hlen : lines.length ≤ b.maxlen
  · rw [lastN, show lines.length - b.maxlen = 0 by omega, List.drop_zero]
  · have h1 : (lastN b.maxlen lines).length = b.maxlen := by rw [length_lastN]; omega
    unfold updateRecords
    have e1 : ¬ lines.length ≤ 0 := by omega
    have e2 : ¬ (lastN b.maxlen lines).length ≤ 0 := by omega
    have e3 : lines.length ≥ b.maxlen := by omega
    have e4 : (lastN b.maxlen lines).length ≥ b.maxlen := by omega
    have e5 : (lastN b.maxlen lines).drop ((lastN b.maxlen lines).length - b.maxlen) =
        lines.drop (lines.length - b.maxlen) := by
      rw [h1, Nat.sub_self, List.drop_zero]; rfl
    simp only [e1, e2, e3, e4, e5, if_true, if_false]

theorem logName_congr {b b' : FileBuf} (h : b'.name = b.name) (k : Nat) :
    b'.logName k = b.logName k := by simp [logName, h]

theorem Frame.tmp' {b b' : FileBuf} {s s' : FS} (h : Frame b s s') : s' b'.tmpName = s b'.tmpName :=
  h _ fun k => tmpName_ne_logName b b' k

/-- What a reader without an unfinished line of its own sees if there is no file number 0. -/
theorem read_nothing {b : FileBuf} {s : FS} (ho : b.closed = false) (h0 : s (b.logName 0) = none)
    (ht : s b.tmpName = none) : (FileBuf.read b none).seq s = (.ok [], s) := by
  have hl : lastLine b s = [] := by simp [lastLine, ht, univNewlines]
  have hc : ∀ n, count b s n = 0 := by
    intro n
    cases n with
    | zero => rfl
    | succ n => simp [count, countFrom, h0]
  rw [read_seq b s none ho, hl]
  simp [hc, records]

/-- What a reader without an unfinished line of its own sees. -/
theorem read_holds {b : FileBuf} {s : FS} {rs : List PyStr} (ho : b.closed = false)
    (hr : Holds b s rs) (hle : rs.length ≤ b.maxlen) (ht : s b.tmpName = none) :
    (FileBuf.read b none).seq s = (.ok (rs.map univNewlines).reverse, s) := by
  have hl : lastLine b s = [] := by simp [lastLine, ht, univNewlines]
  rw [read_seq b s none ho, hl]
  simp only [ne_eq, not_true_eq_false, if_false, Option.any_none, Bool.false_eq_true,
    List.append_nil]
  rw [count_holds hr, records_holds hr (by omega), List.take_of_length_le (by omega)]

/-- What a second process reads: the newest records, if it has no unfinished line of its own. -/
theorem other_reads {env : FEnv} {b : FileBuf} {s : FS} {l : FLog} (h : FRep env b s l)
    (b' : FileBuf) (hn : b'.name = b.name) (hm : b'.maxlen = b.maxlen) (ho : b'.closed = false)
    (ht : s b'.tmpName = none) : (FileBuf.read b' none).seq s = (.ok (lastN l.cap l.done), s) := by
  have hr : Holds b' s ((lastN l.cap l.done).map (writeNewlines env.crlf)).reverse := by
    intro k; rw [logName_congr hn]; exact h.recs k
  rw [read_holds ho hr (by have := h.recs_le; omega) ht]
  simp only [List.map_reverse, List.reverse_reverse, List.map_map]
  congr 2
  conv => rhs; rw [← List.map_id (lastN l.cap l.done)]
  exact List.map_congr_left fun x hx => univ_write _ _ (h.noCr x (mem_of_mem_lastN hx))

/-- **C32** Violated: whenever there are records and a write completes fewer than `maxlen` lines, the
process may die so that another process, which could read all the records before, reads nothing. -/
theorem C32_hidden_violated (env : FEnv) (hnl : env.encodable 10 = true) (b : FileBuf) (s : FS)
    (l : FLog) (h : After env b s l) (ho : b.closed = false) (d : PyStr) (ls : List PyStr) (r : PyStr)
    (hl : Lines (l.part ++ d) ls r) (hne : ls ≠ []) (hlt : ls.length < l.cap) (hd : l.done ≠ [])
    (b' : FileBuf) (hn : b'.name = b.name) (hm : b'.maxlen = b.maxlen) (ho' : b'.closed = false)
    (ht : s b'.tmpName = none) :
    (read b' none).seq s = (.ok (lastN l.cap l.done), s) ∧
    ∃ s', Prog.Crash (write env b d) s s' ∧ (read b' none).seq s' = (.ok [], s') := by
  have hr := h.rep hnl
  have hcap := hr.cap
  have hpos := hr.pos
  refine ⟨other_reads hr b' hn hm ho' ht, ?_⟩
  have hseg : (segFrom l.part d).1 = ls := (lines_unique (lines_segFrom _ _ hr.partClean) hl).1
  obtain ⟨s1, v1, f1, c1, _⟩ := updateRecords_moved (env := env) (b := b) (lines := ls) s (by omega) hne
  have hnewlen : (lastN b.maxlen ls).length = ls.length := by rw [length_lastN]; omega
  refine ⟨s1, crash_write_of hr.tmp hr.partClean ho (by rw [hseg]; exact hne)
    (by rw [hseg]; exact c1 s1 (.now _ _)), ?_⟩
  apply read_nothing ho'
  · rw [logName_congr hn, v1 0, hnewlen, hr.count]
    have h1 := List.length_pos_iff.mpr hne
    have h2 := List.length_pos_iff.mpr hd
    have h3 := length_lastN l.cap l.done
    rw [if_neg (by omega), if_pos (by omega)]
  · rw [f1.tmp']; exact ht

/-- **C32** Violated: a crash can leave an empty record that nobody wrote, after the kept ones. -/
theorem C32_empty_record_violated (env : FEnv) (hnl : env.encodable 10 = true) (b : FileBuf) (s : FS)
    (l : FLog) (h : After env b s l) (ho : b.closed = false) (d x r : PyStr)
    (hl : Lines (l.part ++ d) [x] r)
    (b' : FileBuf) (hn : b'.name = b.name) (hm : b'.maxlen = b.maxlen) (ho' : b'.closed = false)
    (ht : s b'.tmpName = none) :
    ∃ s', Prog.Crash (write env b d) s s' ∧
      (read b' none).seq s' = (.ok (lastN l.cap (l.done ++ [[]])), s') := by
  have hr := h.rep hnl
  have hcap := hr.cap
  have hpos := hr.pos
  have hseg : (segFrom l.part d).1 = [x] := (lines_unique (lines_segFrom _ _ hr.partClean) hl).1
  obtain ⟨s1, v1, f1, c1, _⟩ := updateRecords_moved (env := env) (b := b) (lines := [x]) s
    (by omega) (by simp)
  have hlast : lastN b.maxlen [x] = [x] := by
    simp only [lastN, List.length_singleton, show 1 - b.maxlen = 0 by omega, List.drop_zero]
  rw [hlast] at v1 c1
  have hc := count_holds hr.recs b.maxlen
  have hle := hr.recs_le
  have hlen := length_lastN l.cap l.done
  refine ⟨FS.set s1 (b.logName 0) (some []), crash_write_of hr.tmp hr.partClean ho (by simp [hseg])
    (by rw [hseg]; exact c1 _ (.act _ _ _ _ (.now _ _))), ?_⟩
  have hh : Holds b' (FS.set s1 (b.logName 0) (some []))
      (([] :: ((lastN l.cap l.done).map (writeNewlines env.crlf)).reverse).take b.maxlen) := by
    intro k
    rw [logName_congr hn, List.getElem?_take]
    cases k with
    | zero => simp; omega
    | succ k =>
      rw [FS.set_other _ _ (by simp), v1 (k + 1), hc]
      simp only [List.length_singleton, List.length_reverse, List.length_map] at hle ⊢
      simp only [List.getElem?_cons_succ, Nat.add_sub_cancel]
      by_cases hk : k + 1 < b.maxlen
      · rw [if_pos hk]
        by_cases hk2 : k < (lastN l.cap l.done).length
        · rw [if_pos (by omega), hr.recs k]
        · rw [if_neg (by omega), if_neg (by omega), hr.recs (k + 1),
            List.getElem?_eq_none (by simp; omega), List.getElem?_eq_none (by simp; omega)]
      · rw [if_neg hk, if_neg (by omega), if_neg (by omega), hr.recs (k + 1),
          List.getElem?_eq_none (by simp; omega)]
  rw [read_holds ho' hh (by rw [List.length_take]; omega)
    (by rw [FS.set_other _ _ (tmpName_ne_logName b b' 0), f1.tmp']; exact ht)]
  congr 2
  have e := take_rev_lastN l.cap [([] : PyStr)] (l.done.map (writeNewlines env.crlf))
  rw [map_lastN, hcap]
  simp only [List.reverse_singleton, List.singleton_append] at e
  rw [e, List.map_reverse, List.reverse_reverse]
  rw [map_lastN, List.map_append, List.map_map]
  congr 1
  simp only [List.map_singleton]
  congr 1
  conv => rhs; rw [← List.map_id l.done]
  exact List.map_congr_left fun y hy => univ_write _ _ (hr.noCr y hy)

/-- **C32** Violated: if the process dies after its lines are stored but before the unfinished line is
emptied, the text acknowledged before is shown twice to a process with the same tmp id. -/
theorem C32_shown_twice_violated (env : FEnv) (hnl : env.encodable 10 = true) (b : FileBuf) (s : FS)
    (l : FLog) (h : After env b s l) (ho : b.closed = false) (d : PyStr)
    (henc : d.all env.encodable = true) (ls : List PyStr) (r : PyStr)
    (hl : Lines (l.part ++ d) ls r) (hne : ls ≠ []) (hp : l.part ≠ []) :
    ∃ s', Prog.Crash (write env b d) s s' ∧
      (read b none).seq s' = (.ok (lastN l.cap (l.done ++ ls ++ [l.part])), s') := by
  have hr := h.rep hnl
  have hcap := hr.cap
  have hpos := hr.pos
  have hlines := lines_noBreak hl
  have hseg : (segFrom l.part d).1 = ls := (lines_unique (lines_segFrom _ _ hr.partClean) hl).1
  have he := (segFrom_encodable env l.part d hr.partEnc henc).1
  rw [hseg] at he
  obtain ⟨s1, e1, h1, f1⟩ := updateRecords_holds env b ls s _ (by omega) he hr.recs hr.recs_le
  refine ⟨s1, crash_write_of hr.tmp hr.partClean ho (by rw [hseg]; exact hne)
    (by rw [hseg]; exact Prog.crash_end_of e1), ?_⟩
  have hr1 : FRep env b s1 { l with done := l.done ++ ls, part := l.part } :=
    hr.complete h1 (by rw [Tmp, f1.tmp]; exact hr.tmp) hr.partClean hr.partEnc
      fun x hx => (noBreak_ne (hlines.1 x hx)).1
  rw [hr1.read ho none]
  simp [FLog.view, FLog.all, hp]

/-- **C32** Text acknowledged by an earlier write is never lost by a crash of a later one: either the
unfinished line is still in the temporary file (possibly with more text), or the record files are
as after the whole completed rotation, whose first new line begins with that text.  Missing from
the full claim: the violations above. -/
theorem C32_text_kept_partial (env : FEnv) (hnl : env.encodable 10 = true) (b : FileBuf) (s : FS)
    (l : FLog) (h : After env b s l) (ho : b.closed = false) (d : PyStr)
    (ls : List PyStr) (r : PyStr) (hl : Lines (l.part ++ d) ls r) (s' : FS)
    (hcr : Prog.Crash (write env b d) s s') :
    (∃ t, (s' b.tmpName).getD [] = t ∧ l.part <+: t ∧ t <+: l.part ++ d) ∨
    (∃ x xs, ls = x :: xs ∧ l.part <+: x ∧
      ∀ k, s' (b.logName k) = ((ls.reverse ++ stored env l).take l.cap)[k]?) := by
  have hr := h.rep hnl
  have hcap := hr.cap
  have hpos := hr.pos
  have hlines := lines_noBreak hl
  have hseg' := lines_unique (lines_segFrom l.part d hr.partClean) hl
  rw [write] at hcr
  rcases Prog.crash_bind hcr with hcr | ⟨a, s1, h1, hcr⟩
  · rw [silent_writable b _ _ hcr]
    exact .inl ⟨_, rfl, by rw [hr.tmp]; exact List.prefix_rfl, by rw [hr.tmp]; exact List.prefix_append _ _⟩
  · have : (writable b).seq s = (.ok (!b.closed), s) := by
      rw [writable, Prog.seq_withLock, Prog.seq_withLock]; rfl
    rw [this] at h1
    cases h1
    rw [if_neg (by simp [ho])] at hcr
    obtain ⟨s1, g1, g2, g3⟩ := crash_writeCore hr.tmp hr.partClean hcr
    rw [hseg'.1, hseg'.2] at g3
    rw [hseg'.1] at g1
    rcases g3 with ⟨t, g4, g5, g6, g7⟩ | ⟨g4, g5, _⟩
    · left
      refine ⟨t, g4, g5, ?_⟩
      cases hls : ls with
      | nil =>
        rw [hls] at hl
        have hr' : r = l.part ++ d := by
          generalize l.part ++ d = q at hl
          cases hl; rfl
        rw [← hr']; exact g6 hls
      | cons x xs => rw [g7 (by rw [hls]; simp)]; exact List.prefix_append _ _
    · right
      have hcur := segFrom_cur l.part d
      generalize segFrom [] d = seg at hcur
      obtain ⟨ls0, r0⟩ := seg
      cases ls0 with
      | nil =>
        have := congrArg Prod.fst hcur
        rw [hseg'.1] at this; exact absurd this g4
      | cons x xs =>
        have hx : ls = (l.part ++ x) :: xs := by
          rw [← hseg'.1]; exact congrArg Prod.fst hcur
        refine ⟨l.part ++ x, xs, hx, List.prefix_append _ _, fun k => ?_⟩
        have henc : ∀ y ∈ lastN b.maxlen ls, y.all env.encodable = true := by
          have key : ∀ (lines : List PyStr) (s s1 : FS),
              (writeLoop env b lines).seq s = (.ok (), s1) →
              ∀ y ∈ lines, y.all env.encodable = true := by
            intro lines
            induction lines with
            | nil => intro _ _ _ y hy; cases hy
            | cons z zs ih =>
              intro s s1 hs y hy
              rw [writeLoop] at hs
              by_cases hz : z.all env.encodable = true
              · rcases List.mem_cons.1 hy with rfl | hy
                · exact hz
                · rw [Prog.seq_bind_ok (File.openW_seq _ _)] at hs
                  cases hw : (File.writeText env (b.logName zs.length) z).seq
                      (FS.set s (b.logName zs.length) (some [])) with
                  | mk q s2 =>
                    cases q with
                    | error e => rw [Prog.seq_bind_error hw] at hs; cases hs
                    | ok n => rw [Prog.seq_bind_ok hw] at hs; exact ih _ _ hs y hy
              · rw [Prog.seq_bind_ok (File.openW_seq _ _)] at hs
                rw [Prog.seq_bind_error (e := .unicodeEncodeError)
                  (s' := FS.set s (b.logName zs.length) (some []))
                  (by rw [File.writeText, if_neg hz]; rfl)] at hs
                cases hs
          obtain ⟨s2, _, _, _, e2⟩ := updateRecords_moved (env := env) (b := b) (lines := ls) s
            (by omega) g4
          rw [g5] at e2
          exact key _ _ _ e2.symm
        rw [updateRecords_lastN env b ls (by omega)] at g5
        obtain ⟨s3, e3, h3, _⟩ := updateRecords_holds env b (lastN b.maxlen ls) s _ (by omega) henc
          hr.recs hr.recs_le
        rw [g5] at e3
        cases e3
        rw [g2 _ (logName_ne_tmpName b b k), h3 k]
        have hmap : (lastN b.maxlen ls).map (writeNewlines env.crlf) = lastN b.maxlen ls := by
          conv => rhs; rw [← List.map_id (lastN b.maxlen ls)]
          exact List.map_congr_left fun y hy =>
            writeNewlines_noBreak _ (hlines.1 y (mem_of_mem_lastN hy))
        rw [hmap, hcap]
        show _ = (List.take l.cap (ls.reverse ++ stored env l))[k]?
        congr 1
        rw [lastN, ← List.take_reverse, List.take_append, List.take_append, List.take_take,
          List.length_take, List.length_reverse]
        simp only [Nat.min_self]
        congr 2
        omega

/-- `read_nothing` and the others are about real situations: two processes with the tmp ids 7 and 8;
the first one dies after renaming. -/
example : ∃ s', Prog.Crash (write {} exBuf (lit "b\n")) (run {} [.write (lit "a\n")] exBuf emptyFS).2.2 s' ∧
    (read { exBuf with tmpId := lit "8" } none).seq s' = (.ok [], s') := by
  have h : After {} exBuf (run {} [.write (lit "a\n")] exBuf emptyFS).2.2
      { cap := 2, done := [lit "a"] } := by
    refine ⟨exBuf, emptyFS, [.write (lit "a\n")], by decide, rfl, ⟨fun _ => rfl, rfl⟩, ?_, ?_, rfl⟩
    · intro c hc
      rw [List.mem_singleton] at hc
      subst hc; rfl
    · have hl : Lines (lit "a\n") [lit "a"] [] :=
        .single (lit "a") 10 [] [] [] (by decide +kernel) (by decide) (by decide)
          (.unfinished [] noBreak_nil)
      exact .cons _ _ _ _ _ _ _ (.write _ _ [lit "a"] [] 0 rfl hl ⟨_, _, hl, rfl⟩) (.nil _)
  exact (C32_hidden_violated {} rfl exBuf _ _ h rfl (lit "b\n") [lit "b"] []
    (.single (lit "b") 10 [] [] [] (by decide +kernel) (by decide) (by decide)
      (.unfinished [] noBreak_nil)) (by simp) (by decide) (by simp)
    { exBuf with tmpId := lit "8" } rfl rfl rfl rfl).2

/-! ## C36 -/

/-- The writing loop when a line cannot be encoded: it stops with an empty file for that line. -/
theorem writeLoop_bad (env : FEnv) (b : FileBuf) (pre : List PyStr) (bad : PyStr)
    (post : List PyStr) (s : FS) (hpre : ∀ y ∈ pre, y.all env.encodable = true)
    (hbad : bad.all env.encodable = false) :
    ∃ s', (writeLoop env b (pre ++ bad :: post)).seq s = (.error .unicodeEncodeError, s') ∧
      (∀ k, k < post.length → s' (b.logName k) = s (b.logName k)) ∧
      s' (b.logName post.length) = some [] ∧ Frame b s s' := by
  induction pre generalizing s with
  | nil =>
    refine ⟨FS.set s (b.logName post.length) (some []), ?_, fun k hk => ?_, by simp,
      Frame.set b s _ _⟩
    · rw [List.nil_append, writeLoop, Prog.seq_bind_ok (File.openW_seq _ _)]
      exact Prog.seq_bind_error (by rw [File.writeText, if_neg (by simp [hbad])]; rfl)
    · rw [FS.set_other]; simp; omega
  | cons y ys ih =>
    have hy := hpre y (List.mem_cons_self ..)
    obtain ⟨s', h1, h2, h3, h4⟩ := ih
      (FS.set s (b.logName (ys ++ bad :: post).length) (some (writeNewlines env.crlf y)))
      fun z hz => hpre z (List.mem_cons_of_mem _ hz)
    refine ⟨s', ?_, fun k hk => ?_, h3, (Frame.set b s _ _).trans h4⟩
    · rw [List.cons_append, writeLoop, Prog.seq_bind_ok (File.openW_seq _ _),
        Prog.seq_bind_ok (File.writeText_seq (FS.set_same _ _ _) hy), FS.set_set]
      exact h1
    · rw [h2 k hk, FS.set_other]; simp; omega

/-- **C36** Violated: if, among fewer than `maxlen` lines that a write completes, one that is not the
last cannot be encoded, then after the `UnicodeEncodeError` no record is visible any more. -/
theorem C36_violated (env : FEnv) (hnl : env.encodable 10 = true) (b : FileBuf) (s : FS)
    (l : FLog) (h : After env b s l) (ho : b.closed = false) (d : PyStr)
    (pre : List PyStr) (bad : PyStr) (post : List PyStr) (r : PyStr)
    (hl : Lines (l.part ++ d) (pre ++ bad :: post) r)
    (hpre : ∀ y ∈ pre, y.all env.encodable = true) (hbad : bad.all env.encodable = false)
    (hpost : post ≠ []) (hlt : (pre ++ bad :: post).length < l.cap) (hd : l.done ≠ [])
    (b' : FileBuf) (hn : b'.name = b.name) (hm : b'.maxlen = b.maxlen) (ho' : b'.closed = false)
    (ht : s b'.tmpName = none) :
    (read b' none).seq s = (.ok (lastN l.cap l.done), s) ∧
    ∃ s', (write env b d).seq s = (.error .unicodeEncodeError, s') ∧
      (read b' none).seq s' = (.ok [], s') := by
  have hr := h.rep hnl
  have hcap := hr.cap
  have hpos := hr.pos
  refine ⟨other_reads hr b' hn hm ho' ht, ?_⟩
  generalize hls : pre ++ bad :: post = ls at *
  have hne : ls ≠ [] := by rw [← hls]; simp
  have hseg : (segFrom l.part d).1 = ls := (lines_unique (lines_segFrom _ _ hr.partClean) hl).1
  obtain ⟨s1, v1, f1, c1, e1⟩ := updateRecords_moved (env := env) (b := b) (lines := ls) s (by omega) hne
  have hnewlen : (lastN b.maxlen ls).length = ls.length := by rw [length_lastN]; omega
  have hlast : lastN b.maxlen ls = ls := by
    rw [lastN, show ls.length - b.maxlen = 0 by omega, List.drop_zero]
  obtain ⟨s2, e2, v2, _, f2⟩ := writeLoop_bad env b pre bad post s1 hpre hbad
  rw [hls] at e2
  rw [hlast] at e1
  have hp := List.length_pos_iff.mpr hpost
  refine ⟨s2, ?_, ?_⟩
  · have hw : (writable b).seq s = (.ok true, s) := by
      rw [writable, Prog.seq_withLock, Prog.seq_withLock]; simp [ho]
    rw [write, Prog.seq_bind_ok hw, if_neg (by simp), writeCore_shape]
    have hcur := segFrom_cur l.part d
    generalize segFrom [] d = seg at *
    obtain ⟨ls0, r0⟩ := seg
    cases ls0 with
    | nil => exact absurd ((congrArg Prod.fst hcur).symm.trans hseg).symm hne
    | cons x xs =>
      have hx : (l.part ++ x) :: xs = ls := by rw [← hseg]; exact (congrArg Prod.fst hcur).symm
      simp only [writeShape]
      rw [Prog.seq_bind_ok ((getLastLine_seq b s).trans (by rw [hr.last])), hx]
      exact Prog.seq_bind_error (e1.trans e2)
  · apply read_nothing ho'
    · rw [logName_congr hn, v2 0 hp, v1 0, hnewlen, hr.count]
      have h1 := List.length_pos_iff.mpr hne
      have h2 := List.length_pos_iff.mpr hd
      have h3 := length_lastN l.cap l.done
      rw [if_neg (by omega), if_pos (by omega)]
    · rw [f2.tmp', f1.tmp']; exact ht

/-- **C36** What remains true: after every call that raises `UnicodeEncodeError` – or ends in any other
way – the records to be kept are intact, each in exactly one record file.  Missing from the full
claim: that `read()` finds them, see `C36_violated`. -/
theorem C36_records_intact_partial (env : FEnv) (hnl : env.encodable 10 = true) (b : FileBuf) (s : FS)
    (l : FLog) (h : After env b s l) (c : FCall) (hc : c ≠ .clear) (new : List PyStr)
    (hnew : Completes l c new) :
    CrashSafe b (stored env l) ((lastN l.cap new).map (writeNewlines env.crlf))
      (min (lastN l.cap l.done).length (l.cap - (lastN l.cap new).length))
      ((call env b c).seq s).2 :=
  C31_crash_safe env hnl b s l h c hc new hnew _ (Prog.crash_end _ _)

/-- **C36** If the text completes no line, the claim holds: after the `UnicodeEncodeError` the records
and the unfinished line are as before. -/
theorem C36_unfinished_partial (env : FEnv) (hnl : env.encodable 10 = true) (b : FileBuf) (s : FS)
    (l : FLog) (h : After env b s l) (ho : b.closed = false) (d : PyStr) (hd : NoBreak d)
    (hbad : d.all env.encodable = false) :
    ∃ s', (write env b d).seq s = (.error .unicodeEncodeError, s') ∧
      (read b none).seq s' = (.ok l.view, s') ∧ ∀ k, s' (b.logName k) = s (b.logName k) := by
  have hr := h.rep hnl
  have hseg : segFrom [] d = ([], d) := by
    have := lines_unique (lines_segFrom [] d noBreak_nil) (Lines.unfinished d hd)
    exact Prod.ext this.1 this.2
  have hne : d ≠ [] := by rintro rfl; simp at hbad
  refine ⟨FS.set s b.tmpName (some ((s b.tmpName).getD [])), ?_, ?_, fun k => ?_⟩
  · have hw : (writable b).seq s = (.ok true, s) := by
      rw [writable, Prog.seq_withLock, Prog.seq_withLock]; simp [ho]
    rw [write, Prog.seq_bind_ok hw, if_neg (by simp), writeCore_shape, hseg]
    simp only [writeShape, hne, if_false]
    rw [writeLastLine, Prog.seq_withLock, Prog.seq_bind_ok (File.openA_seq _ _), File.writeText,
      if_neg (by simp [hbad])]
    rfl
  · have hr' : FRep env b (FS.set s b.tmpName (some ((s b.tmpName).getD []))) l :=
      { hr with
        recs := fun k => by rw [FS.set_other _ _ (logName_ne_tmpName b b k)]; exact hr.recs k
        tmp := by rw [Tmp, FS.set_same]; exact hr.tmp }
    exact hr'.read ho none
  · rw [FS.set_other _ _ (logName_ne_tmpName b b k)]

/-- An encoding that has no character above 255: the records `a` and `b` disappear; and with a single
bad line an empty record appears and `a` is lost. -/
example :
    (run { encodable := fun c => c < 256 } [.write (lit "a\nb\n"), .write (lit "€\nc\n"), .read none]
      { exBuf with maxlen := 4 } emptyFS).1 = [.nat 0, .exc .unicodeEncodeError, .items []] ∧
    (run { encodable := fun c => c < 256 } [.write (lit "a\nb\n"), .write (lit "€\n"), .read none]
      exBuf emptyFS).1 = [.nat 0, .exc .unicodeEncodeError, .items [.str (lit "b"), .str []]] :=
  ⟨by rfl, by rfl⟩

end SyncStream
