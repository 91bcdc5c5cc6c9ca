import Verif.Lemmas.FileCrash
import Verif.Props.LineBuffer
/-!
# Properties of file mode, one process at a time
-/

namespace SyncStream

open Spec FileBuf

/-- The directory has no record file of `b` and no unfinished line of it. -/
def Fresh (b : FileBuf) (s : FS) : Prop := (∀ k, s (b.logName k) = none) ∧ s b.tmpName = none

/-- `b` and the directory `s` are what a history of calls by one process leads to, from a new buffer
in a directory with no leftovers; `l` is the abstract buffer after the same history (`CallOk`: the
texts can be encoded, and `clear()` is used only if the name has no pattern characters). -/
def After (env : FEnv) (b : FileBuf) (s : FS) (l : FLog) : Prop :=
  ∃ b0 s0 cs, 1 ≤ b0.maxlen ∧ b0.closed = false ∧ Fresh b0 s0 ∧ (∀ c ∈ cs, CallOk env b0 c) ∧
    FLog.Steps { cap := b0.maxlen } cs (run env cs b0 s0).1 l ∧ (run env cs b0 s0).2 = (b, s)

theorem fresh_rep {env : FEnv} {b : FileBuf} {s : FS} (hm : 1 ≤ b.maxlen) (ho : b.closed = false)
    (hf : Fresh b s) : FRep env b s { cap := b.maxlen } where
  cap := rfl
  pos := hm
  closed := ho
  recs := fun k => by rw [hf.1 k]; simp [lastN]
  tmp := by simp [Tmp, hf.2]
  partClean := noBreak_nil
  partEnc := rfl
  noCr := by simp

theorem fsteps_unique {l l1 l2 : FLog} {cs : List FCall} {r1 r2 : List Ret}
    (h1 : FLog.Steps l cs r1 l1) (h2 : FLog.Steps l cs r2 l2) : r1 = r2 ∧ l1 = l2 := by
  induction h1 generalizing r2 l2 with
  | nil => cases h2; exact ⟨rfl, rfl⟩
  | cons _ _ _ _ _ _ _ hs _ ih =>
    cases h2 with
    | cons _ _ _ _ _ _ _ hs' hss' =>
      obtain ⟨rfl, rfl⟩ := fstep_unique hs hs'
      obtain ⟨rfl, rfl⟩ := ih hss'
      exact ⟨rfl, rfl⟩

theorem After.rep {env : FEnv} (hnl : env.encodable 10 = true) {b : FileBuf} {s : FS} {l : FLog}
    (h : After env b s l) : FRep env b s l := by
  obtain ⟨b0, s0, cs, hm, ho, hf, hc, hst, hrun⟩ := h
  obtain ⟨l', h1, h2, _⟩ := run_frefines env hnl cs b0 s0 _ (fresh_rep hm ho hf) hc
  obtain ⟨_, rfl⟩ := fsteps_unique hst h1
  rw [hrun] at h2
  exact h2

/-! ## C29 -/

/-- **C29** For every history of calls by one process in a directory without leftovers, every call
returns what the abstract buffer says. -/
theorem C29_history_refines (env : FEnv) (hnl : env.encodable 10 = true) (b : FileBuf)
    (hm : 1 ≤ b.maxlen) (ho : b.closed = false) (s : FS) (hf : Fresh b s) (cs : List FCall)
    (hc : ∀ c ∈ cs, CallOk env b c) :
    ∃ l, FLog.Steps { cap := b.maxlen } cs (run env cs b s).1 l := by
  obtain ⟨l', h1, _⟩ := run_frefines env hnl cs b s _ (fresh_rep hm ho hf) hc
  exact ⟨l', h1⟩

/-- **C29** The abstract file buffer determines every result. -/
theorem C29_log_deterministic {l l1 l2 : FLog} {cs : List FCall} {r1 r2 : List Ret}
    (h1 : FLog.Steps l cs r1 l1) (h2 : FLog.Steps l cs r2 l2) : r1 = r2 ∧ l1 = l2 :=
  fsteps_unique h1 h2

/-- The calls that a `LineFileBuffer` and a `LineBuffer` are compared on: a call of the one and the
same call of the other. -/
inductive SameCall : FCall → Call → Prop
  | write (d : PyStr) : SameCall (.write d) (.write d)
  | newLine : SameCall .newLine .newLine
  | read (n : Option Int) : SameCall (.read n) (.read n)
  | maxlen : SameCall .maxlen .maxlen
  | clear : SameCall .clear .clear
  | flush : SameCall .flush .flush
  | closed : SameCall .closed .closed
  | readable : SameCall .readable .readable
  | writable : SameCall .writable .writable

/-- The same call, call by call. -/
inductive SameCalls : List FCall → List Call → Prop
  | nil : SameCalls [] []
  | cons {c : FCall} {c' : Call} {cs : List FCall} {cs' : List Call} :
      SameCall c c' → SameCalls cs cs' → SameCalls (c :: cs) (c' :: cs')

theorem same_step {c : FCall} {c' : Call} (hs : SameCall c c') {fl fl' : FLog} {l l' : Log}
    {r r' : Ret} (h1 : FLog.Step fl c r fl') (h2 : Log.Step l c' r' l')
    (hcap : l.cap = fl.cap) (hd : l.done = fl.done.map .str) (hp : l.part = fl.part)
    (ho : fl.closed = false) (ho' : l.closed = false) :
    r = r' ∧ l'.cap = fl'.cap ∧ l'.done = fl'.done.map .str ∧ l'.part = fl'.part ∧
      fl'.closed = false ∧ l'.closed = false := by
  have hview : l.view = fl.view.map .str := by
    simp only [Log.view, FLog.view, Log.all, FLog.all, hcap, hd, hp]
    rw [map_lastN, List.map_append]
    split <;> simp
  cases hs with
  | write d =>
    cases h1 with
    | writeClosed _ hc => rw [ho] at hc; cases hc
    | write _ ls r n _ hl hn =>
      cases h2 with
      | writeClosed _ hc => rw [ho'] at hc; cases hc
      | write _ ls' r' n' _ hl' hn' =>
        rw [hp] at hl'
        obtain ⟨rfl, rfl⟩ := lines_unique hl hl'
        rw [fwriteRet_unique hn hn']
        exact ⟨rfl, hcap, by simp [hd], rfl, ho, ho'⟩
  | newLine =>
    cases h1 with
    | newLineClosed hc => rw [ho] at hc; cases hc
    | newLine _ =>
      cases h2 with
      | newLineClosed hc => rw [ho'] at hc; cases hc
      | newLine _ hne =>
        rw [hp] at hne
        simp [FLog.finish, hne, hcap, hd, hp, ho, ho']
      | newLineEmpty _ he =>
        rw [hp] at he
        simp [FLog.finish, he, hcap, hd, hp, ho, ho']
  | read n =>
    cases h1 with
    | readClosed _ hc => rw [ho] at hc; cases hc
    | readAll _ =>
      cases h2 with
      | readClosed _ hc => rw [ho'] at hc; cases hc
      | readAll _ => exact ⟨by rw [hview], hcap, hd, hp, ho, ho'⟩
    | readSize n _ hn =>
      cases h2 with
      | readClosed _ hc => rw [ho'] at hc; cases hc
      | readSize _ _ _ => exact ⟨by rw [hview, map_lastN], hcap, hd, hp, ho, ho'⟩
      | readNonPos _ _ hn' => omega
    | readNonPos n _ hn =>
      cases h2 with
      | readClosed _ hc => rw [ho'] at hc; cases hc
      | readSize _ _ _ => omega
      | readNonPos _ _ hn' => exact ⟨rfl, hcap, hd, hp, ho, ho'⟩
  | maxlen => cases h1; cases h2; exact ⟨by rw [hcap], hcap, hd, hp, ho, ho'⟩
  | clear =>
    cases h1
    cases h2 with
    | clearClosed hc => rw [ho'] at hc; cases hc
    | clear _ => exact ⟨rfl, hcap, rfl, rfl, ho, ho'⟩
  | flush =>
    cases h1
    cases h2 with
    | flushClosed hc => rw [ho'] at hc; cases hc
    | flush _ => exact ⟨rfl, hcap, hd, hp, ho, ho'⟩
  | closed => cases h1; cases h2; exact ⟨by rw [ho, ho'], hcap, hd, hp, ho, ho'⟩
  | readable => cases h1; cases h2; exact ⟨by rw [ho, ho'], hcap, hd, hp, ho, ho'⟩
  | writable => cases h1; cases h2; exact ⟨by rw [ho, ho'], hcap, hd, hp, ho, ho'⟩

theorem same_steps {cs : List FCall} {cs' : List Call} (hs : SameCalls cs cs') :
    ∀ {fl fl' : FLog} {l l' : Log} {r r' : List Ret},
    FLog.Steps fl cs r fl' → Log.Steps l cs' r' l' →
    l.cap = fl.cap → l.done = fl.done.map .str → l.part = fl.part →
    fl.closed = false → l.closed = false → r = r' := by
  induction hs with
  | nil => intro _ _ _ _ _ _ h1 h2 _ _ _ _ _; cases h1; cases h2; rfl
  | cons hc _ ih =>
    intro _ _ _ _ _ _ h1 h2 hcap hd hp ho ho'
    cases h1 with
    | cons _ _ _ _ _ _ _ s1 h1 =>
      cases h2 with
      | cons _ _ _ _ _ _ _ s2 h2 =>
        obtain ⟨e, hcap, hd, hp, ho, ho'⟩ := same_step hc s1 s2 hcap hd hp ho ho'
        rw [e, ih h1 h2 hcap hd hp ho ho']

/-- **C29** In a directory without leftovers, one process using a `LineFileBuffer` gets from every
call exactly what a `LineBuffer` with the same `maxlen` returns in the same history. -/
theorem C29_like_memory (env : FEnv) (hnl : env.encodable 10 = true) (b : FileBuf)
    (hm : 1 ≤ b.maxlen) (ho : b.closed = false) (s : FS) (hf : Fresh b s)
    (cs : List FCall) (hc : ∀ c ∈ cs, CallOk env b c) (cs' : List Call) (hs : SameCalls cs cs')
    (m : LineBuf) (hnew : LineBuf.new b.maxlen = .ok m) :
    (run env cs b s).1 = (LineBuf.run cs' m).1 := by
  obtain ⟨l, h1⟩ := C29_history_refines env hnl b hm ho s hf cs hc
  obtain ⟨l', h2⟩ := C01_history_refines b.maxlen m hnew cs'
  exact same_steps hs h1 h2 (by simp) rfl rfl rfl rfl

/-- A buffer of two lines `log`, tmp id `7`, used in the examples. -/
def exBuf : FileBuf := { name := lit "log", tmpId := lit "7", maxlen := 2 }

/-- An empty directory. -/
def emptyFS : FS := fun _ => none

example : Fresh exBuf emptyFS ∧
    (run {} [.write (lit "a\nb"), .read none, .write (lit "c\nd\n"), .newLine, .write (lit "e"),
      .read none, .read (some 1)] exBuf emptyFS).1 =
    [.nat 1, .items [.str (lit "a"), .str (lit "b")], .nat 0, .unit, .nat 1,
      .items [.str (lit "d"), .str (lit "e")], .items [.str (lit "e")]] :=
  ⟨⟨fun _ => rfl, rfl⟩, by rfl⟩

/-! ## C33 -/

/-- **C33** For a name without pattern characters, `clear()` removes every record and the own
unfinished line, in every directory.  Missing from the full claim: names with pattern characters,
and other buffers' files (see `C33_foreign_violated`). -/
theorem C33_removes_own_partial (env : FEnv) (b : FileBuf) (hg : NoGlob b.name) (s : FS) :
    ∃ s', (clear env b).seq s = (.ok (), s') ∧ (∀ k, s' (b.logName k) = none) ∧ s' b.tmpName = none := by
  obtain ⟨s', h1, h2⟩ := clear_seq env b s
  refine ⟨s', h1, fun k => ?_, ?_⟩
  · rw [h2, FS.set_other _ _ (logName_ne_tmpName b b k)]
    simp [globMatch_logName hg]
  · rw [h2]; simp

/-- **C33** For a name without pattern characters, `clear()` touches nothing but the own temporary
file and files named `<name>-….log`; in particular no other buffer's temporary file. -/
theorem C33_touches_only_partial (env : FEnv) (b : FileBuf) (hg : NoGlob b.name) (s : FS) (n : PyStr)
    (h1 : n ≠ b.tmpName) (h2 : ∀ mid, n ≠ b.name ++ lit "-" ++ mid ++ lit ".log") :
    ((clear env b).seq s).2 n = s n := by
  obtain ⟨s', e1, e2⟩ := clear_seq env b s
  rw [e1]; show s' n = _; rw [e2, FS.set_other _ _ h1]
  split
  · rename_i hm
    simp only [globMatch, Bool.and_eq_true] at hm
    obtain ⟨mid, rfl⟩ := (fnmatch_clear hg).1 hm.2
    exact absurd rfl (h2 mid)
  · rfl

/-- **C33** Violated: for every name without pattern characters there are other buffers whose records
`clear()` removes. -/
theorem C33_foreign_violated (env : FEnv) (b : FileBuf) (hg : NoGlob b.name) (hd : b.name.head? ≠ some 46)
    (hn : b.name ≠ []) (x : PyStr) (s : FS) (k : Nat) (tmpId : PyStr) (m : Nat) :
    let other : FileBuf := { name := b.name ++ lit "-" ++ x, tmpId := tmpId, maxlen := m }
    other.name ≠ b.name ∧ ((clear env b).seq s).2 (other.logName k) = none := by
  intro other
  refine ⟨by simp [other, lit], ?_⟩
  obtain ⟨s', e1, e2⟩ := clear_seq env b s
  rw [e1]; show s' _ = _; rw [e2, FS.set_other _ _ (logName_ne_tmpName _ _ k)]
  have hm : globMatch (b.name ++ lit "-*.log") (other.logName k) = true := by
    have h1 : fnmatch (b.name ++ lit "-*.log") (other.logName k) = true :=
      (fnmatch_clear hg).2 ⟨x ++ lit "-" ++ dec k, by simp [other, logName]⟩
    have h2 : (other.logName k).head? ≠ some 46 := by
      cases hb : b.name with
      | nil => exact absurd hb hn
      | cons c cs => rw [hb] at hd; simpa [other, logName, hb] using hd
    simp [globMatch, h1, h2]
  simp [hm]

/-- **C33** Violated: a name with a character class does not match itself, so the buffer's own
records survive `clear()`. -/
theorem C33_own_violated (env : FEnv) : ∃ (b : FileBuf) (s : FS) (k : Nat), (s (b.logName k)).isSome = true ∧
    ((clear env b).seq s).1 = .ok () ∧ (((clear env b).seq s).2 (b.logName k)).isSome = true :=
  ⟨{ name := lit "x[1]", tmpId := lit "7", maxlen := 2 }, fun _ => some [], 0, rfl, by
    obtain ⟨s', h1, h2⟩ := clear_seq env { name := lit "x[1]", tmpId := lit "7", maxlen := 2 } fun _ => some []
    rw [h1, h2]
    exact ⟨rfl, by decide +kernel⟩⟩

example : NoGlob exBuf.name ∧
    ((clear {} exBuf).seq (fun _ => some [])).2 (lit "log-0.log") = none ∧
    ((clear {} exBuf).seq (fun _ => some [])).2 (lit "log-x-0.log") = none ∧
    ((clear {} exBuf).seq (fun _ => some [])).2 (lit "log-8.tmp") = some [] := by
  refine ⟨?_, ?_, ?_, ?_⟩
  · show ∀ c ∈ lit "log", _; decide +kernel
  · decide +kernel
  · decide +kernel
  · decide +kernel

/-- There is an environment that lists every finite directory. -/
example : ∃ env : FEnv, ∀ (P : PyStr → Bool) (l : List PyStr), l.Nodup → (∀ n, n ∈ l ↔ P n = true) →
    ∃ ns, env.listing P = some ns := by
  classical
  refine ⟨{ listing := fun P => if h : ∃ l : List PyStr, l.Nodup ∧ ∀ n, n ∈ l ↔ P n = true then some h.choose else none
            lists := fun P ns h => ?_ }, fun P l h1 h2 => ⟨_, dif_pos ⟨l, h1, h2⟩⟩⟩
  split at h
  · rename_i h'
    cases h
    exact h'.choose_spec
  · cases h

/-! ## C34 -/

/-- **C34** Record files of different (name, number) pairs are different files. -/
theorem C34_records_distinct (b b' : FileBuf) (m n : Nat) (h : b.logName m = b'.logName n) :
    b.name = b'.name ∧ m = n := logName_inj' h

/-- **C34** A record file is never a temporary file, of whatever buffer. -/
theorem C34_record_not_tmp (b b' : FileBuf) (n : Nat) : b.logName n ≠ b'.tmpName :=
  logName_ne_tmpName b b' n

/-- **C34** For one name, different tmp ids give different temporary files and different locks. -/
theorem C34_tmp_distinct (b b' : FileBuf) (hn : b.name = b'.name)
    (h : b.tmpName = b'.tmpName ∨ b.tmpLockName = b'.tmpLockName) : b.tmpId = b'.tmpId := by
  rcases h with h | h
  · simpa [tmpName, hn] using h
  · simpa [tmpLockName, hn] using h

/-- **C34** Violated for different names: for all `a`, `x`, `y`, the name `a` with tmp id `x-y` and the
name `a-x` with tmp id `y` use one temporary file. -/
theorem C34_tmp_violated (a x y : PyStr) (m m' : Nat) :
    let b : FileBuf := { name := a, tmpId := x ++ lit "-" ++ y, maxlen := m }
    let b' : FileBuf := { name := a ++ lit "-" ++ x, tmpId := y, maxlen := m' }
    b.name ≠ b'.name ∧ b.tmpName = b'.tmpName := by
  refine ⟨by simp [lit], by simp [tmpName]⟩

example : exBuf.logName 10 = lit "log-10.log" ∧ exBuf.tmpName = lit "log-7.tmp" := by
  decide +kernel

/-! ## C35 -/

/-- **C35** What is written to a text file is what is read from it, with either line separator, for
every text without a carriage return; in particular for every text without line terminators and
for the text of every exception. -/
theorem C35_round_trip (crlf : Bool) (t : PyStr) (h : (13 : Nat) ∉ t) :
    univNewlines (writeNewlines crlf t) = t := univ_write crlf t h

/-- **C35** The texts that file mode stores have no carriage return. -/
theorem C35_stored_texts (env : FEnv) (hnl : env.encodable 10 = true) (b : FileBuf) (s : FS)
    (l : FLog) (h : After env b s l) : (∀ x ∈ l.done, (13 : Nat) ∉ x) ∧ (13 : Nat) ∉ l.part :=
  ⟨(h.rep hnl).noCr, (noBreak_ne (h.rep hnl).partClean).1⟩

/-- **C35** The line separator of the platform makes no difference to any result of any history. -/
theorem C35_platform_invisible (env : FEnv) (hnl : env.encodable 10 = true) (crlf : Bool)
    (b : FileBuf) (hm : 1 ≤ b.maxlen) (ho : b.closed = false) (s : FS) (hf : Fresh b s)
    (cs : List FCall) (hc : ∀ c ∈ cs, CallOk env b c) :
    (run { env with crlf := crlf } cs b s).1 = (run env cs b s).1 := by
  obtain ⟨l, h1⟩ := C29_history_refines env hnl b hm ho s hf cs hc
  obtain ⟨l', h2⟩ := C29_history_refines { env with crlf := crlf } hnl b hm ho s hf cs (by
    intro c h
    have := hc c h
    cases c with
    | close x => cases x <;> exact this
    | exit x => cases x <;> exact this
    | _ => exact this)
  exact (fsteps_unique h2 h1).1

/-- An exception with a two-line traceback. -/
def exExc : ExcObj := { formatted := [lit "T:\n", lit "E\n"] }

/-- The traceback is stored with `\r\n` and read back with `\n`. -/
example : writeNewlines true (lit "T:\nE") = lit "T:\r\nE" ∧
    (run { crlf := true } [.sendExc exExc, .read none] exBuf emptyFS).1 =
      [.unit, .items [.str (lit "T:\nE")]] ∧
    (run { crlf := true } [.sendExc exExc] exBuf emptyFS).2.2 (lit "log-0.log") =
      some (lit "T:\r\nE") := ⟨by rfl, by rfl, by rfl⟩

/-! ## C37 -/

/-- **C37** `send_exc` on an open buffer adds exactly one record, the text of the exception, and the
oldest record is dropped if the storage was full. -/
theorem C37_one_record (env : FEnv) (hnl : env.encodable 10 = true) (b : FileBuf) (s : FS) (l : FLog)
    (h : After env b s l) (ho : b.closed = false) (e : ExcObj) (t : PyStr)
    (ht : FLog.ExcText e t) (hp : t.all env.encodable = true) :
    (read b none).seq s = (.ok l.view, s) ∧
    (sendExc env b e).seq s = (.ok (), ((sendExc env b e).seq s).2) ∧
    ∀ k, ((sendExc env b e).seq s).2 (b.logName k) =
      if k < b.maxlen then
        if k = 0 then some (writeNewlines env.crlf t) else s (b.logName (k - 1))
      else none := by
  have hr := h.rep hnl
  obtain ⟨s', h1, h2, h3⟩ := sendExc_holds env b e t s _
    (by have := hr.cap; have := hr.pos; omega) ht hp hr.recs hr.recs_le ho
  refine ⟨hr.read ho none, by rw [h1], fun k => ?_⟩
  rw [h1]
  show s' (b.logName k) = _
  rw [h2 k, List.getElem?_take]
  split
  · cases k with
    | zero => simp
    | succ k => simp [hr.recs k]
  · rfl

/-- **C37** Violated: if there is an unfinished line, it is shown after the exception that
followed it. -/
theorem C37_order_violated (env : FEnv) (hnl : env.encodable 10 = true) (b : FileBuf) (s : FS)
    (l : FLog) (h : After env b s l) (ho : b.closed = false) (hpart : l.part ≠ []) (e : ExcObj)
    (t : PyStr) (ht : FLog.ExcText e t) (hp : t.all env.encodable = true) :
    (read b none).seq s = (.ok (lastN l.cap (l.done ++ [l.part])), s) ∧
    ((read b none).seq ((sendExc env b e).seq s).2).1 =
      .ok (lastN l.cap (l.done ++ [t, l.part])) := by
  have hr := h.rep hnl
  obtain ⟨s', h1, h2, h3⟩ := hr.sendExc ht hp ho
  refine ⟨?_, ?_⟩
  · rw [hr.read ho none]; simp [FLog.view, FLog.all, hpart]
  · rw [h1]
    show ((FileBuf.read b none).seq s').1 = _
    rw [h2.read ho none]; simp [FLog.view, FLog.all, hpart]

/-- Also when a context is left by an exception. -/
example : (run {} [.write (lit "a"), .exit (some exExc), .read none] exBuf emptyFS).1 =
    [.nat 1, .unit, .items [.str (lit "T:\nE"), .str (lit "a")]] := by rfl

/-! ## C38 -/

/-- **C38** `close()` completes the unfinished line: a process opening the same files finds it as a
record. -/
theorem C38_close_completes (env : FEnv) (hnl : env.encodable 10 = true) (b : FileBuf) (s : FS)
    (l : FLog) (h : After env b s l) (ho : b.closed = false) (hpart : l.part ≠ []) :
    let s' := ((close env b none).seq s).2
    ((close env b none).seq s).1 = .ok { b with closed := true } ∧
    s' (b.logName 0) = some l.part ∧
    (read b none).seq s' = (.ok (lastN l.cap (l.done ++ [l.part])), s') := by
  have hr := h.rep hnl
  obtain ⟨s', h1, h2, h3⟩ := hr.newLine hnl ho
  have e : (close env b none).seq s = (.ok { b with closed := true }, s') := by
    rw [close]
    exact (Prog.seq_bind_ok h1).trans rfl
  rw [e]
  refine ⟨rfl, ?_, ?_⟩
  · show s' (b.logName 0) = _
    rw [h2.recs 0]
    have hpos := hr.pos
    have : lastN l.finish.cap l.finish.done = lastN (l.cap - 1) l.done ++ [l.part] := by
      simp only [FLog.finish, hpart, if_false]
      simp only [lastN, List.length_append, List.length_singleton]
      rw [List.drop_append_of_le_length (by omega)]
      congr 2
      omega
    rw [this]
    simp [writeNewlines_noBreak _ hr.partClean]
  · show (FileBuf.read b none).seq s' = _
    rw [h2.read ho none]
    simp [FLog.view, FLog.all, FLog.finish, hpart]

/-- **C38** Once closed, for every directory and every later history without `clear()`: no file changes,
the buffer stays closed, and `read` and `write` raise `OSError`. -/
theorem C38_closed_for_good (env : FEnv) (b : FileBuf) (hc : b.closed = true) (cs : List FCall)
    (hcs : ∀ c ∈ cs, c ≠ .clear) (s : FS) :
    (run env cs b s).2 = (b, s) ∧
    ∀ (i : Nat) (r : Ret), (run env cs b s).1[i]? = some r →
      (∀ d, cs[i]? = some (FCall.write d) → r = Ret.exc .osError) ∧
      (∀ n, cs[i]? = some (FCall.read n) → r = Ret.exc .osError) := by
  have hb : { b with closed := true } = b := by rw [← hc]
  have hread : ∀ n, (read b n).seq s = (.error .osError, s) := by
    intro n
    rw [FileBuf.read, Prog.seq_bind_ok (show (readable b).seq s = (.ok false, s) by
      rw [readable, Prog.seq_withLock, Prog.seq_withLock]; simp [hc])]
    rfl
  have hwrite : ∀ d, (write env b d).seq s = (.error .osError, s) := by
    intro d
    rw [write, Prog.seq_bind_ok (show (writable b).seq s = (.ok false, s) by
      rw [writable, Prog.seq_withLock, Prog.seq_withLock]; simp [hc])]
    rfl
  have hstep : ∀ c, c ≠ .clear → (exec env c b s).2 = (b, s) ∧
      (∀ d, c = .write d → (exec env c b s).1 = .exc .osError) ∧
      (∀ n, c = .read n → (exec env c b s).1 = .exc .osError) := by
    intro c hne
    have other : ∀ r, (∀ d, c ≠ .write d) → (∀ n, c ≠ .read n) → exec env c b s = (r, b, s) →
        (exec env c b s).2 = (b, s) ∧
        (∀ d, c = .write d → (exec env c b s).1 = .exc .osError) ∧
        (∀ n, c = .read n → (exec env c b s).1 = .exc .osError) := by
      intro r h1 h2 h3
      exact ⟨by rw [h3], fun d hd => absurd hd (h1 d), fun n hn => absurd hn (h2 n)⟩
    cases c with
    | write d =>
      have e : exec env (.write d) b s = (.exc .osError, b, s) := by
        rw [exec, call, Prog.seq_bind_ok (Prog.seq_outcome _ _), hwrite]; rfl
      rw [e]
      exact ⟨rfl, fun _ _ => rfl, fun _ _ => rfl⟩
    | read n =>
      have e : exec env (.read n) b s = (.exc .osError, b, s) := by
        rw [exec, call, Prog.seq_bind_ok (Prog.seq_outcome _ _), hread]; rfl
      rw [e]
      exact ⟨rfl, fun _ _ => rfl, fun _ _ => rfl⟩
    | clear => exact absurd rfl hne
    | len =>
      refine other (.nat ((if b.maxlen ≠ 0 then min b.maxlen
        (if lastLine b s ≠ [] then count b s b.maxlen + 1 else count b s b.maxlen)
        else (if lastLine b s ≠ [] then count b s b.maxlen + 1 else count b s b.maxlen))))
        (fun _ h => by cases h) (fun _ h => by cases h) ?_
      rw [exec, call, Prog.seq_bind_ok (Prog.seq_outcome _ _)]
      have hlen : (len b).seq s = (.ok ((if b.maxlen ≠ 0 then min b.maxlen
        (if lastLine b s ≠ [] then count b s b.maxlen + 1 else count b s b.maxlen)
        else (if lastLine b s ≠ [] then count b s b.maxlen + 1 else count b s b.maxlen))), s) := by
        rw [len]
        refine (Prog.seq_bind_ok (a := count b s b.maxlen) (s' := s) ?_).trans
          (Prog.seq_bind_ok (getLastLine_seq b s))
        rw [Prog.seq_withLock]; rfl
      rw [hlen]; rfl
    | newLine =>
      refine other .unit (fun _ h => by cases h) (fun _ h => by cases h) ?_
      rw [exec, call, Prog.seq_bind_ok (Prog.seq_outcome _ _), newLine, hc]; rfl
    | sendExc e =>
      refine other .unit (fun _ h => by cases h) (fun _ h => by cases h) ?_
      rw [exec, call, Prog.seq_bind_ok (Prog.seq_outcome _ _), sendExc, hc]; rfl
    | close x =>
      refine other .unit (fun _ h => by cases h) (fun _ h => by cases h) ?_
      have hcl : (close env b x).seq s = (.ok b, s) := by
        cases x with
        | none => rw [close, newLine, hc]; exact congrArg (fun y => (Except.ok y, s)) hb
        | some e => rw [close, sendExc, hc]; exact congrArg (fun y => (Except.ok y, s)) hb
      rw [exec, call, Prog.seq_bind_ok (Prog.seq_outcome _ _), hcl]; rfl
    | exit x =>
      refine other .unit (fun _ h => by cases h) (fun _ h => by cases h) ?_
      cases x with
      | none => rw [exec, call, Prog.seq_bind_ok (Prog.seq_outcome _ _), exit, newLine, hc]; rfl
      | some e => rw [exec, call, Prog.seq_bind_ok (Prog.seq_outcome _ _), exit, sendExc, hc]; rfl
    | readable => exact other _ (fun _ h => by cases h) (fun _ h => by cases h) rfl
    | writable => exact other _ (fun _ h => by cases h) (fun _ h => by cases h) rfl
    | maxlen => exact other _ (fun _ h => by cases h) (fun _ h => by cases h) rfl
    | flush => exact other _ (fun _ h => by cases h) (fun _ h => by cases h) rfl
    | closed => exact other _ (fun _ h => by cases h) (fun _ h => by cases h) rfl
  induction cs with
  | nil => exact ⟨rfl, by simp [run]⟩
  | cons c cs ih =>
    obtain ⟨h1, h2, h3⟩ := hstep c (hcs c (List.mem_cons_self ..))
    obtain ⟨h4, h5⟩ := ih fun x hx => hcs x (List.mem_cons_of_mem _ hx)
    simp only [run, h1]
    refine ⟨h4, fun i r hi => ?_⟩
    cases i with
    | zero =>
      simp only [List.getElem?_cons_zero, Option.some.injEq] at hi
      subst hi
      simp only [List.getElem?_cons_zero, Option.some.injEq]
      exact ⟨h2, h3⟩
    | succ i =>
      simp only [List.getElem?_cons_succ] at hi ⊢
      exact h5 i r hi

/-- **C38** After `close(exc)` with an exception, the unfinished line remains unfinished: a process
opening the same files with the same tmp id goes on with it.  The first part of the claim is about
`close()` without an exception. -/
theorem C38_close_exc_keeps_unfinished (env : FEnv) (hnl : env.encodable 10 = true) (b : FileBuf)
    (s : FS) (l : FLog) (h : After env b s l) (ho : b.closed = false) (e : ExcObj) (t : PyStr)
    (ht : FLog.ExcText e t) (hp : t.all env.encodable = true) :
    let s' := ((close env b (some e)).seq s).2
    (read b none).seq s' =
      (.ok (lastN l.cap (l.done ++ [t] ++ if l.part = [] then [] else [l.part])), s') := by
  have hr := h.rep hnl
  obtain ⟨s', h1, h2, h3⟩ := hr.sendExc ht hp ho
  have e : (close env b (some e)).seq s = (.ok { b with closed := true }, s') := by
    rw [close]
    exact (Prog.seq_bind_ok h1).trans rfl
  rw [e]
  show (FileBuf.read b none).seq s' = _
  rw [h2.read ho none]
  simp [FLog.view, FLog.all]

example : (run {} [.write (lit "a"), .close none, .read none, .write (lit "b"), .newLine, .len]
    exBuf emptyFS).1 = [.nat 1, .unit, .exc .osError, .exc .osError, .unit, .nat 1] := by rfl

/-! ## C39 -/

/-- **C39** In every directory, whatever its files, `len()` of an open buffer is the number of items
that `read()` returns, and at most `maxlen`. -/
theorem C39_len_is_read_length (b : FileBuf) (hm : 1 ≤ b.maxlen) (ho : b.closed = false) (s : FS) :
    ∃ (r : List PyStr) (n : Nat), (read b none).seq s = (.ok r, s) ∧ (len b).seq s = (.ok n, s) ∧
      n = r.length ∧ n ≤ b.maxlen := by
  refine ⟨_, _, read_seq b s none ho, len_seq b s hm, ?_, by omega⟩
  simp only [Option.any_none, Bool.false_eq_true, if_false, List.length_append, records_length]
  have hle := count_le b s b.maxlen
  by_cases hl : lastLine b s = []
  · simp [hl]; omega
  · simp only [ne_eq, hl, not_false_eq_true, if_true, List.length_singleton]
    rw [count_mono b s b.maxlen (b.maxlen - 1) (by omega)]
    omega

/-- A directory with a gap: only the records before it count. -/
example : ((len exBuf).seq (fun n => if n = lit "log-1.log" then some (lit "x") else
    if n = lit "log-7.tmp" then some (lit "p") else none)).1 = .ok 1 := by rfl

/-! ## C54 -/

/-- **C54** A write of `lines` by a process whose `maxlen` is at least that of a reader: the reader's
newest `maxlen` records are afterwards the newest of the new lines and the old records. -/
theorem C54_larger_writer_partial (env : FEnv) (w r : FileBuf) (hn : w.name = r.name)
    (hm : 1 ≤ w.maxlen) (hle : r.maxlen ≤ w.maxlen) (s : FS) (rs lines : List PyStr)
    (h : ∀ k, s (w.logName k) = rs[k]?) (he : ∀ l ∈ lines, l.all env.encodable = true) :
    ∃ s', (updateRecords env w lines).seq s = (.ok (), s') ∧
      ∀ k, k < r.maxlen → s' (r.logName k) =
        ((lines.map (writeNewlines env.crlf)).reverse ++ rs)[k]? := by
  have hname : ∀ k, r.logName k = w.logName k := by intro k; simp [logName, hn]
  by_cases hne : lines = []
  · subst hne
    exact ⟨s, updateRecords_nil env w s, fun k _ => by rw [hname, h k]; simp⟩
  · obtain ⟨s', h1, h2, _⟩ := updateRecords_seq env w lines s hm hne he
    refine ⟨s', h1, fun k hk => ?_⟩
    rw [hname, h2 k, count_holds h]
    simp only [length_lastN]
    have hk' : k < w.maxlen := by omega
    by_cases hkn : k < lines.length
    · rw [if_pos (by omega), List.getElem?_append_left (by simpa using hkn)]
      rw [List.getElem?_reverse (by rw [length_lastN]; omega), length_lastN,
        List.getElem?_reverse (by simpa using hkn), List.length_map, List.getElem?_map]
      congr 1
      rw [lastN, List.getElem?_drop]
      congr 1
      omega
    · rw [if_neg (by omega), List.getElem?_append_right (by simpa using hkn)]
      simp only [List.length_reverse, List.length_map]
      have : min w.maxlen lines.length = lines.length := by omega
      rw [this]
      split
      · rw [h]
      · rename_i hge
        have hrs : rs.length ≤ k - lines.length := by omega
        rw [List.getElem?_eq_none (by omega), h k, List.getElem?_eq_none (by omega)]

/-- **C54** A write by a process whose `maxlen` is smaller than the number of stored records, exactly:
of its own newest `maxlen` records the oldest are dropped, while the older records stay. -/
theorem C54_smaller_writer_law (env : FEnv) (w : FileBuf) (hm : 1 ≤ w.maxlen) (s : FS)
    (rs lines : List PyStr) (h : ∀ k, s (w.logName k) = rs[k]?) (hrs : w.maxlen ≤ rs.length)
    (he : ∀ l ∈ lines, l.all env.encodable = true) :
    ∃ s', (updateRecords env w lines).seq s = (.ok (), s') ∧
      ∀ k, s' (w.logName k) =
        ((((lines.map (writeNewlines env.crlf)).reverse ++ rs).take w.maxlen) ++
          rs.drop w.maxlen)[k]? := by
  by_cases hne : lines = []
  · subst hne
    exact ⟨s, updateRecords_nil env w s, fun k => by simp [h k]⟩
  · obtain ⟨s', h1, h2, _⟩ := updateRecords_seq env w lines s hm hne he
    refine ⟨s', h1, fun k => ?_⟩
    rw [h2 k, count_holds h]
    simp only [length_lastN]
    have htl : ((lines.map (writeNewlines env.crlf)).reverse ++ rs).length ≥ w.maxlen := by
      simp; omega
    by_cases hk : k < w.maxlen
    · rw [List.getElem?_append_left (by rw [List.length_take]; omega),
        List.getElem?_take, if_pos hk]
      by_cases hkn : k < lines.length
      · rw [if_pos (by omega), List.getElem?_append_left (by simpa using hkn)]
        rw [List.getElem?_reverse (by rw [length_lastN]; omega), length_lastN,
          List.getElem?_reverse (by simpa using hkn), List.length_map, List.getElem?_map]
        congr 1
        rw [lastN, List.getElem?_drop]
        congr 1
        omega
      · rw [if_neg (by omega), List.getElem?_append_right (by simpa using hkn)]
        simp only [List.length_reverse, List.length_map]
        have : min w.maxlen lines.length = lines.length := by omega
        rw [this, if_pos (by omega), h]
    · rw [List.getElem?_append_right (by rw [List.length_take]; omega)]
      rw [if_neg (by omega), if_neg (by omega), h k, List.length_take,
        List.getElem?_drop]
      congr 1
      omega

/-- **C54** Violated: the writer with `maxlen` 1 makes a reader with `maxlen` 3 lose the record `b`,
which is among the newest 3, while the older `a` stays. -/
theorem C54_violated : ∃ (w r : FileBuf) (s : FS), w.name = r.name ∧ w.maxlen = 1 ∧ r.maxlen = 3 ∧
    (read r none).seq s = (.ok [lit "a", lit "b"], s) ∧
    ((write {} w (lit "c\n")).seq s).1 = .ok 0 ∧
    ((read r none).seq ((write {} w (lit "c\n")).seq s).2).1 = .ok [lit "a", lit "c"] :=
  ⟨{ exBuf with maxlen := 1 }, { exBuf with maxlen := 3, tmpId := lit "8" },
    fun n => if n = lit "log-0.log" then some (lit "b") else
      if n = lit "log-1.log" then some (lit "a") else none,
    rfl, rfl, rfl, rfl, rfl, rfl⟩

/-! ## C06, C15 in file mode -/

/-- What a record of file mode can be: a text without line terminators, or the text of an
exception. -/
def TextOrExc (x : PyStr) : Prop := NoBreak x ∨ ∃ e, FLog.ExcText e x

theorem fstep_clean {l l' : FLog} {c : FCall} {r : Ret} (h : FLog.Step l c r l')
    (hp : NoBreak l.part) (hd : ∀ x ∈ l.done, TextOrExc x) :
    NoBreak l'.part ∧ ∀ x ∈ l'.done, TextOrExc x := by
  have hfin : NoBreak l.finish.part ∧ ∀ x ∈ l.finish.done, TextOrExc x := by
    rw [FLog.finish]
    split
    · exact ⟨hp, hd⟩
    · refine ⟨noBreak_nil, fun x hx => ?_⟩
      rcases List.mem_append.1 hx with hx | hx
      · exact hd x hx
      · rw [List.mem_singleton] at hx; rw [hx]; exact .inl hp
  have hexc : ∀ (e : ExcObj) (t : PyStr), FLog.ExcText e t → ∀ x ∈ l.done ++ [t], TextOrExc x := by
    intro e t ht x hx
    rcases List.mem_append.1 hx with hx | hx
    · exact hd x hx
    · rw [List.mem_singleton] at hx; rw [hx]; exact .inr ⟨e, ht⟩
  cases h with
  | write d ls r n _ hl hn =>
    obtain ⟨h1, h2⟩ := lines_noBreak hl
    refine ⟨h2, fun x hx => ?_⟩
    rcases List.mem_append.1 hx with hx | hx
    · exact hd x hx
    · exact .inl (h1 x hx)
  | newLine => exact hfin
  | clear => exact ⟨noBreak_nil, by simp⟩
  | sendExc e t _ ht => exact ⟨hp, hexc e t ht⟩
  | close => exact hfin
  | closeExc e t _ ht => exact ⟨hp, hexc e t ht⟩
  | exit => exact hfin
  | exitExc e t _ ht => exact ⟨hp, hexc e t ht⟩
  | _ => exact ⟨hp, hd⟩

theorem fsteps_clean {l l' : FLog} {cs : List FCall} {r : List Ret} (h : FLog.Steps l cs r l')
    (hp : NoBreak l.part) (hd : ∀ x ∈ l.done, TextOrExc x) :
    NoBreak l'.part ∧ ∀ x ∈ l'.done, TextOrExc x := by
  induction h with
  | nil => exact ⟨hp, hd⟩
  | cons _ _ _ _ _ _ _ hs _ ih =>
    obtain ⟨h1, h2⟩ := fstep_clean hs hp hd
    exact ih h1 h2

/-- **C06** (file mode) Every item that `read` returns after any history either contains no line
terminator, or is the text of an exception. -/
theorem C06_file (env : FEnv) (hnl : env.encodable 10 = true) (b : FileBuf) (s : FS) (l : FLog)
    (h : After env b s l) (size : Option Int) (r : List PyStr)
    (hr : ((read b size).seq s).1 = .ok r) : ∀ x ∈ r, TextOrExc x := by
  have hrep := h.rep hnl
  obtain ⟨b0, s0, cs, _, _, _, _, hst, _⟩ := h
  obtain ⟨h1, h2⟩ := fsteps_clean hst noBreak_nil (by simp)
  have hview : ∀ x ∈ l.view, TextOrExc x := by
    intro x hx
    have hx := mem_of_mem_lastN hx
    rcases List.mem_append.1 hx with hx | hx
    · exact h2 x hx
    · split at hx
      · simp at hx
      · rw [List.mem_singleton] at hx; rw [hx]; exact .inl h1
  cases ho : b.closed with
  | true =>
    rw [FileBuf.read, Prog.seq_bind_ok (show (readable b).seq s = (.ok false, s) by
      rw [readable, Prog.seq_withLock, Prog.seq_withLock]; simp [ho])] at hr
    cases hr
  | false =>
    rw [hrep.read ho size] at hr
    cases size with
    | none => cases hr; exact hview
    | some n =>
      simp only [Except.ok.injEq] at hr
      subst hr
      intro x hx
      split at hx
      · simp at hx
      · exact hview x (mem_of_mem_lastN hx)

/-- **C15** (file mode) Creation raises `TypeError` for every `maxlen < 1`; after a successful creation
in a directory without leftovers `read()` is empty and `maxlen` is as given, whatever happens. -/
theorem C15_file (env : FEnv) (p t : PyStr) (m : Int) :
    (m < 1 → FileBuf.new p m t = .error .typeError) ∧
    ∀ dir b, FileBuf.new p m t = .ok (dir, b) → (b.maxlen : Int) = m ∧ b.closed = false ∧
      ∀ s, Fresh b s → (read b none).seq s = (.ok [], s) ∧
        ∀ cs s, ((run env cs b s).2.1.maxlen : Int) = m := by
  refine ⟨fun h => by simp [FileBuf.new, h], fun dir b h => ?_⟩
  have hb : 1 ≤ m ∧ b.maxlen = m.toNat ∧ b.closed = false := by
    unfold FileBuf.new at h
    split at h
    · cases h
    · simp only at h
      split at h
      · cases h
      · split at h
        · cases h
        · split at h
          · cases h
          · cases h
            exact ⟨by omega, rfl, rfl⟩
  obtain ⟨hm, h1, h2⟩ := hb
  refine ⟨by rw [h1]; omega, h2, fun s hf => ⟨?_, ?_⟩⟩
  · rw [(fresh_rep (env := {}) (by omega) h2 hf).read h2 none]
    simp [FLog.view, FLog.all, lastN]
  · have key : ∀ c (b : FileBuf) s, (exec env c b s).2.1.maxlen = b.maxlen := by
      intro c b s
      cases c with
      | close x =>
        rw [exec, call, Prog.seq_bind_ok (Prog.seq_outcome _ _)]
        cases hq : (close env b x).seq s with
        | mk r s' =>
          cases r with
          | error e => rfl
          | ok b' =>
            have : ∀ p : FProg Unit,
                (p >>= fun _ => pure { b with closed := true }).seq s = (.ok b', s') →
                b'.maxlen = b.maxlen := by
              intro p hp
              cases hw : p.seq s with
              | mk r2 s2 =>
                cases r2 with
                | error e => rw [Prog.seq_bind_error hw] at hp; cases hp
                | ok u => rw [Prog.seq_bind_ok hw] at hp; cases hp; rfl
            cases x with
            | none => exact this (newLine env b) hq
            | some e => exact this (sendExc env b e) hq
      | _ => first | rfl | (rw [exec, call, Prog.seq_bind_ok (Prog.seq_outcome _ _)]; rfl)
    intro cs
    have key2 : ∀ (cs : List FCall) (b : FileBuf) (s : FS),
        (run env cs b s).2.1.maxlen = b.maxlen := by
      intro cs
      induction cs with
      | nil => intro b s; rfl
      | cons c cs ih => intro b s; simp only [run]; rw [ih, key]
    intro s
    rw [key2, h1]; omega

/-! ## C55 -/

theorem splitAfterLast_append (c : Nat) (dir f : PyStr) (hd : dir = [] ∨ dir.getLast? = some c)
    (hf : c ∉ f) : splitAfterLast c (dir ++ f) = (dir, f) := by
  have h1 : ∀ x ∈ f.reverse, (x != c) = true := by
    intro x hx
    simp only [List.mem_reverse] at hx
    simp only [bne_iff_ne, ne_eq]
    rintro rfl; exact hf hx
  have h2 : dir.reverse.takeWhile (· != c) = [] ∧ dir.reverse.dropWhile (· != c) = dir.reverse := by
    rcases hd with rfl | hd
    · simp
    · rw [← List.head?_reverse] at hd
      cases hr : dir.reverse with
      | nil => simp
      | cons y ys =>
        rw [hr] at hd
        simp only [List.head?_cons, Option.some.injEq] at hd
        subst hd; simp
  rw [splitAfterLast, List.reverse_append, List.dropWhile_append_of_pos h1,
    List.takeWhile_append_of_pos h1, h2.1, h2.2]
  simp

theorem splitAfterLast_spec (c : Nat) (p : PyStr) : ∃ dir f, p = dir ++ f ∧
    splitAfterLast c p = (dir, f) ∧ (dir = [] ∨ dir.getLast? = some c) ∧ c ∉ f := by
  refine ⟨(splitAfterLast c p).1, (splitAfterLast c p).2, ?_, rfl, ?_, ?_⟩
  · simp only [splitAfterLast]
    rw [← List.reverse_append, List.takeWhile_append_dropWhile, List.reverse_reverse]
  · simp only [splitAfterLast]
    cases h : p.reverse.dropWhile (· != c) with
    | nil => exact .inl rfl
    | cons y ys =>
      right
      have := List.head?_dropWhile_not (· != c) p.reverse
      rw [h] at this
      simp at this
      simp [this]
  · simp only [splitAfterLast, List.mem_reverse]
    intro hc
    have := List.all_takeWhile (l := p.reverse) (p := (· != c))
    rw [List.all_eq_true] at this
    have := this c hc
    simp at this

theorem pathSplit_tail (dir f : PyStr) (hd : dir = [] ∨ dir.getLast? = some 47) (hf : 47 ∉ f) :
    (pathSplit (dir ++ f)).2 = f := by
  rw [pathSplit, splitAfterLast_append 47 dir f hd hf]
  simp only
  split <;> rfl

/-- The file name, without its suffix: empty exactly if the path is empty or ends in a slash. -/
theorem fileName_nil (q : PyStr) :
    (pathSplit (pathSplitext q).1).2 = [] ↔ q = [] ∨ q.getLast? = some 47 := by
  obtain ⟨dir, f, rfl, hs, hd, hf⟩ := splitAfterLast_spec 47 q
  have hq : (dir ++ f = [] ∨ (dir ++ f).getLast? = some 47) ↔ f = [] := by
    constructor
    · rintro (h | h)
      · exact (List.append_eq_nil_iff.1 h).2
      · cases hl : f.getLast? with
        | none => exact List.getLast?_eq_none_iff.1 hl
        | some x =>
          rw [List.getLast?_append, hl] at h
          simp at h
          subst h
          exact absurd (List.mem_of_getLast? hl) hf
    · rintro rfl
      rw [List.append_nil]
      exact hd
  rw [hq]
  simp only [pathSplitext, hs]
  obtain ⟨sd, ext, hfe, hs2, hd2, hext⟩ := splitAfterLast_spec 46 f
  rw [hs2]
  simp only
  by_cases hst : sd.dropLast.all (· == 46) = true
  · rw [if_pos hst, pathSplit_tail dir f hd hf]
  · rw [if_neg hst]
    have hmem : 47 ∉ sd.dropLast := by
      intro hc
      exact hf (hfe ▸ List.mem_append_left _ ((List.dropLast_subset _) hc))
    rw [pathSplit_tail dir _ hd hmem]
    constructor
    · intro h; rw [h] at hst; simp at hst
    · intro h
      rw [h] at hfe
      have : sd = [] := (List.append_eq_nil_iff.1 hfe.symm).1
      rw [this] at hst; simp at hst

/-- **C55** Creation succeeds exactly for a positive `maxlen`, a path that is not blank and does not
end in a slash, and a non-empty tmp id; otherwise it raises `TypeError`. -/
theorem C55_creation (p t : PyStr) (m : Int) :
    ((∃ r, FileBuf.new p m t = .ok r) ↔
      1 ≤ m ∧ strip p ≠ [] ∧ (strip p).getLast? ≠ some 47 ∧ t ≠ []) ∧
    ((¬ ∃ r, FileBuf.new p m t = .ok r) → FileBuf.new p m t = .error .typeError) := by
  have hn := fileName_nil (strip p)
  unfold FileBuf.new
  by_cases h1 : m < 1
  · rw [if_pos h1]
    exact ⟨⟨fun ⟨_, h⟩ => (by cases h), fun h => by omega⟩, fun _ => rfl⟩
  rw [if_neg h1]
  simp only
  by_cases h2 : strip p = []
  · rw [if_pos h2]
    exact ⟨⟨fun ⟨_, h⟩ => (by cases h), fun h => absurd h2 h.2.1⟩, fun _ => rfl⟩
  rw [if_neg h2]
  by_cases h3 : t = []
  · rw [if_pos h3]
    exact ⟨⟨fun ⟨_, h⟩ => (by cases h), fun h => absurd h3 h.2.2.2⟩, fun _ => rfl⟩
  rw [if_neg h3]
  by_cases h4 : (pathSplit (pathSplitext (strip p)).1).2 = []
  · rw [if_pos h4]
    refine ⟨⟨fun ⟨_, h⟩ => (by cases h), fun h => ?_⟩, fun _ => rfl⟩
    rcases hn.1 h4 with h5 | h5
    · exact absurd h5 h2
    · exact absurd h5 h.2.2.1
  · rw [if_neg h4]
    refine ⟨⟨fun _ => ⟨by omega, h2, fun h5 => h4 (hn.2 (.inr h5)), h3⟩, fun _ => ⟨_, rfl⟩⟩,
      fun h => absurd ⟨_, rfl⟩ h⟩

/-- **C55** The suffix is ignored: for a stem without dots, `dir/stem.ext` and `dir/stem` give the same
buffer in the same directory. -/
theorem C55_suffix_ignored (dir stem ext t : PyStr) (m : Int)
    (hd : dir = [] ∨ dir.getLast? = some 47) (hs : stem ≠ []) (hs1 : 47 ∉ stem) (hs2 : 46 ∉ stem)
    (he1 : 47 ∉ ext) (he2 : 46 ∉ ext) (hst1 : strip (dir ++ stem) = dir ++ stem)
    (hst2 : strip (dir ++ stem ++ lit "." ++ ext) = dir ++ stem ++ lit "." ++ ext) :
    FileBuf.new (dir ++ stem ++ lit "." ++ ext) m t = FileBuf.new (dir ++ stem) m t := by
  have hnotall : stem.all (· == 46) = false := by
    cases stem with
    | nil => exact absurd rfl hs
    | cons c cs =>
      have : c ≠ 46 := fun h => hs2 (h ▸ List.mem_cons_self ..)
      simp [this]
  have e1 : pathSplitext (dir ++ stem) = (dir ++ stem, []) := by
    rw [pathSplitext, splitAfterLast_append 47 dir stem hd hs1]
    have : splitAfterLast 46 stem = ([], stem) := by
      simpa using splitAfterLast_append 46 [] stem (.inl rfl) hs2
    simp only [this]; simp
  have e2 : (pathSplitext (dir ++ stem ++ lit "." ++ ext)).1 = dir ++ stem := by
    have hdot : lit "." = [46] := rfl
    rw [pathSplitext, List.append_assoc, List.append_assoc,
      splitAfterLast_append 47 dir _ hd (by rw [hdot]; simp [hs1, he1])]
    have : splitAfterLast 46 (stem ++ (lit "." ++ ext)) = (stem ++ [46], ext) := by
      rw [← List.append_assoc]
      exact splitAfterLast_append 46 (stem ++ [46]) ext (.inr (by simp)) he2
    simp only [this]
    simp [hnotall]
  simp only [FileBuf.new, hst1, hst2, e1, e2]
  have n1 : dir ++ stem ≠ [] := by simp [hs]
  have n2 : dir ++ stem ++ lit "." ++ ext ≠ [] := by simp [hs]
  rw [if_neg n1, if_neg n2]

example : FileBuf.new (lit " a/b/x.log ") 3 (lit "7") =
      .ok (lit "a/b", { name := lit "x", tmpId := lit "7", maxlen := 3 }) ∧
    FileBuf.new (lit "a/b/x") 3 (lit "7") =
      .ok (lit "a/b", { name := lit "x", tmpId := lit "7", maxlen := 3 }) ∧
    FileBuf.new (lit "a/") 3 (lit "7") = .error .typeError ∧
    FileBuf.new (lit ".log") 3 (lit "7") =
      .ok (lit ".", { name := lit ".log", tmpId := lit "7", maxlen := 3 }) :=
  ⟨rfl, rfl, rfl, rfl⟩

end SyncStream
