import Verif.Lemmas.Conc
import Verif.Lemmas.FileRefine
import Verif.Model.FileProcs
import Verif.Spec.FileShared
/-!
# Calls of `LineFileBuffer` by several processes obey the discipline of `Lemmas/Conc.lean`

The own part of a process is its temporary file, the common part all other files; the lock `S` is
the file lock of the buffers, which have the same name.
-/

namespace SyncStream
open Spec Conc

/-- Buffers of the processes: the same name and `maxlen`, distinct tmp ids. -/
structure Family (bufs : Nat → FileBuf) : Prop where
  name : ∀ i, (bufs i).name = (bufs 0).name
  maxlen : ∀ i, (bufs i).maxlen = (bufs 0).maxlen
  tmpId : ∀ i j, (bufs i).tmpId = (bufs j).tmpId → i = j

theorem Family.tmp_ne {bufs : Nat → FileBuf} (hb : Family bufs) {i j : Nat} (h : j ≠ i) :
    (bufs j).tmpName ≠ (bufs i).tmpName := fun e => h (hb.tmpId j i (by
  simpa [FileBuf.tmpName, hb.name i, hb.name j] using e))

/-- The division of the files; all but the temporary files are protected by `S`. -/
def fileParts (bufs : Nat → FileBuf) (hb : Family bufs) (S : PyStr) : Parts FS PyStr where
  I _ := True
  eqS l s t := l = S → ∀ n, (∀ i, n ≠ (bufs i).tmpName) → s n = t n
  eqL i s t := s (bufs i).tmpName = t (bufs i).tmpName
  mix i s g := FS.set g (bufs i).tmpName (s (bufs i).tmpName)
  S_refl _ _ _ _ _ := rfl
  S_symm h e n hn := (h e n hn).symm
  S_trans h h' e n hn := (h e n hn).trans (h' e n hn)
  L_refl _ _ := rfl
  L_symm h := h.symm
  L_trans h h' := h.trans h'
  mix_L i s g := by simp
  mix_S _ i s g _ n hn := FS.set_other _ _ (hn i)
  mix_O s g h := FS.set_other _ _ (hb.tmp_ne h)
  mix_eq h := by rw [h, FS.set_self]
  mix_cong g h := by rw [h]
  mix_I _ _ := trivial

namespace FileBuf
variable {bufs : Nat → FileBuf} {hb : Family bufs} {S : PyStr} {i : Nat} {α β : Type}

/-- A step on one name, the own temporary file. -/
theorem local_act (f : FS → FS) (k : FS → FProg α) (F : Option PyStr → Option PyStr)
    (K : Option PyStr → FProg α) (hf : ∀ s, f s = FS.set s (bufs i).tmpName (F (s (bufs i).tmpName)))
    (hk : ∀ s, k s = K (s (bufs i).tmpName)) : Local (fileParts bufs hb S) i f k where
  inv _ _ := trivial
  state s g _ _ := by simp [fileParts, hf, FS.set_set]
  cont s g _ _ := by simp [fileParts, hk]

/-- `p` uses only the own temporary file. -/
def Keeps (hb : Family bufs) (S : PyStr) (i : Nat) (p : FProg α) : Prop :=
  ∀ h com, WP (fileParts bufs hb S) S i h com p fun _ h' c' => h' = h ∧ c' = com

/-- `p` obeys the discipline inside a section with `S` taken for writing if `w`. -/
def InSec (hb : Family bufs) (S : PyStr) (i : Nat) (w : Bool) (p : FProg α) : Prop :=
  ∀ com, WP (fileParts bufs hb S) S i (some w) com p fun _ h' _ => h' = some w

theorem Keeps.ret (a : α) : Keeps hb S i (.ret a) := fun _ _ => ⟨rfl, rfl⟩
theorem Keeps.raise (e : Exc) : Keeps hb S i (.raise e : FProg α) := fun _ _ => ⟨rfl, rfl⟩

theorem Keeps.bind {p : FProg α} {g : α → FProg β} (hp : Keeps hb S i p) (hg : ∀ a, Keeps hb S i (g a)) :
    Keeps hb S i (p >>= g) := fun h com => WP.bind ((hp h com).mono fun r h' c' hq => by
  obtain ⟨rfl, rfl⟩ := hq
  cases r with
  | ok a => exact hg a _ _
  | error e => exact ⟨rfl, rfl⟩)

theorem Keeps.withLock {p : FProg α} {l : PyStr} {w : Bool} (hl : l ≠ S) (hp : Keeps hb S i p) :
    Keeps hb S i (Prog.withLock l w p) := fun h com => WP.withOther hl (hp h com)

theorem Keeps.act (f : FS → FS) (k : FS → FProg α) (F : Option PyStr → Option PyStr)
    (K : Option PyStr → FProg α) (hf : ∀ s, f s = FS.set s (bufs i).tmpName (F (s (bufs i).tmpName)))
    (hk : ∀ s, k s = K (s (bufs i).tmpName)) (hkk : ∀ s, Keeps hb S i (k s)) :
    Keeps hb S i (.act f k) := fun h com => .inl ⟨local_act f k F K hf hk, fun s _ => hkk s h com⟩

theorem InSec.ret {w : Bool} (a : α) : InSec hb S i w (.ret a) := fun _ => rfl
theorem InSec.raise {w : Bool} (e : Exc) : InSec hb S i w (.raise e : FProg α) := fun _ => rfl

theorem InSec.bind {w : Bool} {p : FProg α} {g : α → FProg β} (hp : InSec hb S i w p)
    (hg : ∀ a, InSec hb S i w (g a)) : InSec hb S i w (p >>= g) := fun com =>
  WP.bind ((hp com).mono fun r h' c' hq => by
  subst hq
  cases r with
  | ok a => exact hg a _
  | error e => rfl)

theorem InSec.act {w : Bool} {f : FS → FS} {k : FS → FProg α} (h : Shared (fileParts bufs hb S) S i w f k)
    (hkk : ∀ s, InSec hb S i w (k s)) : InSec hb S i w (.act f k) :=
  fun _ => .inr ⟨w, rfl, h, fun s _ => hkk s true⟩

/-! ## The own temporary file -/

theorem keeps_isfile : Keeps hb S i (File.isfile (bufs i).tmpName) :=
  .act _ _ id (fun o => .ret o.isSome) (fun s => by simp [FS.set_self]) (fun _ => rfl)
    (fun _ => .ret _)

theorem keeps_readText : Keeps hb S i (File.readText (bufs i).tmpName) :=
  .act _ _ id (fun o => match o with
    | none => .raise .fileNotFound
    | some c => .ret (univNewlines c)) (fun s => by simp [FS.set_self]) (fun _ => rfl)
    (fun s => by split <;> first | exact .raise _ | exact .ret _)

theorem keeps_openW : Keeps hb S i (File.openW (bufs i).tmpName) :=
  .act _ _ (fun _ => some []) (fun _ => .ret ()) (fun _ => rfl) (fun _ => rfl) (fun _ => .ret _)

theorem keeps_openA : Keeps hb S i (File.openA (bufs i).tmpName) :=
  .act _ _ (fun o => if o.isSome then o else some []) (fun _ => .ret ())
    (fun s => by split <;> simp [FS.set_self]) (fun _ => rfl) (fun _ => .ret _)

theorem keeps_remove : Keeps hb S i (File.remove (bufs i).tmpName) :=
  .act _ _ (fun _ => none) (fun o => if o.isSome then .ret () else .raise .fileNotFound) (fun _ => rfl)
    (fun _ => rfl) (fun s => by split <;> first | exact .raise _ | exact .ret _)

theorem keeps_appendChars (t : PyStr) : Keeps hb S i (File.appendChars (bufs i).tmpName t) := by
  induction t with
  | nil => exact .ret _
  | cons c t ih =>
    exact .act _ _ (fun o => some (o.getD [] ++ [c])) (fun _ => File.appendChars (bufs i).tmpName t)
      (fun _ => rfl) (fun _ => rfl) (fun _ => ih)

theorem keeps_writeText (env : FEnv) (t : PyStr) : Keeps hb S i (File.writeText env (bufs i).tmpName t) := by
  unfold File.writeText
  split
  · exact .bind (keeps_appendChars _) fun _ => .ret _
  · exact .raise _

/-! ## The records -/

/-- Neither the temporary file of any of the processes. -/
def NotTmp (bufs : Nat → FileBuf) (n : PyStr) : Prop := ∀ j, n ≠ (bufs j).tmpName

theorem notTmp_log (b : FileBuf) (n : Nat) : NotTmp bufs (b.logName n) :=
  fun j => logName_ne_tmpName b (bufs j) n

theorem NotTmp.ne {n : PyStr} (h : NotTmp bufs n) (j : Nat) : (bufs j).tmpName ≠ n := (h j).symm

theorem sec_isfile {w : Bool} {n : PyStr} (hn : NotTmp bufs n) : InSec hb S i w (File.isfile n) :=
  .act { inv := fun _ _ => trivial, others := fun _ _ _ _ => rfl, rest := fun _ _ _ _ _ _ _ => rfl,
         reads := fun _ _ _ _ _ _ => rfl,
         state := fun s t _ _ h1 h2 => ⟨h1, h2⟩,
         cont := fun s t _ _ h1 h2 => by rw [h1 rfl n hn] } (fun _ => .ret _)

theorem sec_readText {w : Bool} {n : PyStr} (hn : NotTmp bufs n) : InSec hb S i w (File.readText n) :=
  .act { inv := fun _ _ => trivial, others := fun _ _ _ _ => rfl, rest := fun _ _ _ _ _ _ _ => rfl,
         reads := fun _ _ _ _ _ _ => rfl,
         state := fun s t _ _ h1 h2 => ⟨h1, h2⟩,
         cont := fun s t _ _ h1 h2 => by rw [h1 rfl n hn] }
    (fun s => by split <;> first | exact .raise _ | exact .ret _)

/-- A step that changes one file, not a temporary one. -/
theorem shared_set {n : PyStr} (hn : NotTmp bufs n) (F : Option PyStr → Option PyStr)
    (K : Option PyStr → FProg α) :
    Shared (fileParts bufs hb S) S i true (fun s => FS.set s n (F (s n))) (fun s => K (s n)) where
  inv _ _ := trivial
  others s _ j _ := FS.set_other _ _ (hn.ne j)
  rest _ _ _ h e := absurd e h
  reads h := by cases h
  state s t _ _ h1 h2 := by
    refine ⟨fun _ m hm => ?_, ?_⟩
    · by_cases e : m = n
      · subst e; simp [h1 rfl m hn]
      · rw [FS.set_other _ _ e, FS.set_other _ _ e, h1 rfl m hm]
    · show FS.set s n _ _ = FS.set t n _ _
      rw [FS.set_other _ _ (hn.ne i), FS.set_other _ _ (hn.ne i)]; exact h2
  cont s t _ _ h1 h2 := by rw [h1 rfl n hn]

theorem sec_openW {n : PyStr} (hn : NotTmp bufs n) : InSec hb S i true (File.openW n) :=
  .act (shared_set hn (fun _ => some []) (fun _ => .ret ())) (fun _ => .ret _)

theorem sec_remove {n : PyStr} (hn : NotTmp bufs n) : InSec hb S i true (File.remove n) :=
  .act (shared_set hn (fun _ => none) (fun o => if o.isSome then .ret () else .raise .fileNotFound))
    (fun s => by split <;> first | exact .raise _ | exact .ret _)

theorem sec_appendChars {n : PyStr} (hn : NotTmp bufs n) (t : PyStr) :
    InSec hb S i true (File.appendChars n t) := by
  induction t with
  | nil => exact .ret _
  | cons c t ih =>
    exact .act (shared_set hn (fun o => some (o.getD [] ++ [c])) (fun _ => File.appendChars n t)) (fun _ => ih)

theorem sec_writeText (env : FEnv) {n : PyStr} (hn : NotTmp bufs n) (t : PyStr) :
    InSec hb S i true (File.writeText env n t) := by
  unfold File.writeText
  split
  · exact .bind (sec_appendChars hn _) fun _ => .ret _
  · exact .raise _

theorem sec_rename {a b : PyStr} (ha : NotTmp bufs a) (hb' : NotTmp bufs b) :
    InSec hb S i true (File.rename a b) := by
  refine .act ⟨fun _ _ => trivial, fun s _ j _ => ?_, fun _ _ _ h e => absurd e h, (nomatch ·),
    fun s t _ _ h1 h2 => ⟨fun _ m hm => ?_, ?_⟩,
    fun s t _ _ h1 h2 => ?_⟩ (fun s => by split <;> first | exact .raise _ | exact .ret _)
  · show (match s a with | none => s | some c => FS.set (FS.set s a none) b (some c)) _ = s _
    cases s a with
    | none => rfl
    | some c =>
      show FS.set _ b _ _ = _
      rw [FS.set_other _ _ (hb'.ne j), FS.set_other _ _ (ha.ne j)]
  · show (match s a with | none => s | some c => FS.set (FS.set s a none) b (some c)) _ =
      (match t a with | none => t | some c => FS.set (FS.set t a none) b (some c)) _
    rw [h1 rfl a ha]
    cases t a with
    | none => exact h1 rfl m hm
    | some c =>
      show FS.set _ b _ m = FS.set _ b _ m
      simp only [FS.set]
      split
      · rfl
      · split
        · rfl
        · exact h1 rfl m hm
  · show (match s a with | none => s | some c => FS.set (FS.set s a none) b (some c)) _ =
      (match t a with | none => t | some c => FS.set (FS.set t a none) b (some c)) _
    rw [h1 rfl a ha]
    cases t a with
    | none => exact h2
    | some c =>
      show FS.set _ b _ _ = FS.set _ b _ _
      rw [FS.set_other _ _ (hb'.ne i), FS.set_other _ _ (ha.ne i), FS.set_other _ _ (hb'.ne i),
        FS.set_other _ _ (ha.ne i)]
      exact h2
  · rw [h1 rfl a ha]

/-- `os.listdir` followed by what looks only at record files. -/
theorem sec_listdir {w : Bool} {b : FileBuf} (g : (PyStr → Bool) → FProg α)
    (hg : ∀ files files', (∀ k, files (b.logName k) = files' (b.logName k)) → g files = g files')
    (hs : ∀ files, InSec hb S i w (g files)) : InSec hb S i w (File.listdir >>= g) :=
  .act { inv := fun _ _ => trivial, others := fun _ _ _ _ => rfl, rest := fun _ _ _ _ _ _ _ => rfl,
         reads := fun _ _ _ _ _ _ => rfl,
         state := fun s t _ _ h1 h2 => ⟨h1, h2⟩,
         cont := fun s t _ _ h1 h2 => hg _ _ fun k => by rw [h1 rfl _ (notTmp_log b k)] } (fun _ => hs _)

theorem countFrom_congr {b : FileBuf} {files files' : PyStr → Bool}
    (h : ∀ k, files (b.logName k) = files' (b.logName k)) (n limit : Nat) :
    countFrom b files n limit = countFrom b files' n limit := by
  induction limit generalizing n with
  | zero => rfl
  | succ limit ih => simp only [countFrom, h, ih]

theorem sec_moveLoop (b : FileBuf) (nl n : Nat) : InSec hb S i true (moveLoop b nl n) := by
  induction n with
  | zero => exact .ret _
  | succ n ih =>
    unfold moveLoop
    refine .bind (sec_isfile (notTmp_log _ _)) fun e => ?_
    cases e with
    | true =>
      exact .bind (sec_remove (notTmp_log _ _)) fun _ =>
        .bind (sec_rename (notTmp_log _ _) (notTmp_log _ _)) fun _ => ih
    | false => exact .bind (sec_rename (notTmp_log _ _) (notTmp_log _ _)) fun _ => ih

theorem sec_writeLoop (env : FEnv) (b : FileBuf) (lines : List PyStr) :
    InSec hb S i true (writeLoop env b lines) := by
  induction lines with
  | nil => exact .ret _
  | cons l lines ih =>
    exact .bind (sec_openW (notTmp_log _ _)) fun _ => .bind (sec_writeText env (notTmp_log _ _) _) fun _ => ih

theorem sec_readLoop {w : Bool} (b : FileBuf) (n : Nat) : InSec hb S i w (readLoop b n) := by
  induction n with
  | zero => exact .ret _
  | succ n ih =>
    exact .bind (sec_readText (notTmp_log _ _)) fun _ => .bind ih fun _ => .ret _

/-! ## Methods -/

/-- Before the moment of effect `p` uses `S` in at most one section. -/
def Once (hb : Family bufs) (S : PyStr) (i : Nat) (p : FProg α) : Prop :=
  WP (fileParts bufs hb S) S i none false p fun _ h' _ => h' = none

theorem InSec.once {w : Bool} {p : FProg α} (hp : InSec hb S i w p) : Once hb S i (Prog.withLock S w p) :=
  WP.withS ((hp false).mono fun _ _ _ h => ⟨h, rfl⟩)

theorem Once.bind {p : FProg α} {g : α → FProg β} (hp : Once hb S i p) (hg : ∀ a, Keeps hb S i (g a)) :
    Once hb S i (p >>= g) := WP.bind (hp.mono fun r h' c' hq => by
  subst hq
  cases r with
  | ok a => exact (hg a none c').mono fun _ _ _ h => h.1
  | error e => rfl)

/-- `p` takes no effect: it may use `S`, but not what `S` protects. -/
def Quiet (hb : Family bufs) (S : PyStr) (i : Nat) (p : FProg α) : Prop :=
  WP (fileParts bufs hb S) S i none false p fun _ h' c' => h' = none ∧ c' = false

theorem Keeps.quiet {p : FProg α} (hp : Keeps hb S i p) : Quiet hb S i p := hp none false
theorem Quiet.once {p : FProg α} (hp : Quiet hb S i p) : Once hb S i p := hp.mono fun _ _ _ h => h.1
theorem Keeps.once {p : FProg α} (hp : Keeps hb S i p) : Once hb S i p := hp.quiet.once

theorem Quiet.bind_once {p : FProg α} {g : α → FProg β} (hp : Quiet hb S i p) (hg : ∀ a, Once hb S i (g a)) :
    Once hb S i (p >>= g) := WP.bind (hp.mono fun r h' c' hq => by
  obtain ⟨rfl, rfl⟩ := hq
  cases r with
  | ok a => exact hg a
  | error e => rfl)

section
variable {b : FileBuf} (hn : b.lockName = S) (ht : b.tmpName = (bufs i).tmpName)
include hn

theorem tmpLock_ne : b.tmpLockName ≠ S := fun e => by
  have := congrArg List.length (e.trans hn.symm)
  simp [tmpLockName, lockName, show lit "-" = [45] from rfl] at this
  omega

theorem quiet_readable : Quiet hb S i (readable b) := by
  refine WP.withOther (tmpLock_ne hn) ?_
  rw [hn]
  exact WP.withS ⟨rfl, rfl, rfl⟩

theorem quiet_writable : Quiet hb S i (writable b) := by
  refine WP.withOther (tmpLock_ne hn) ?_
  rw [hn]
  exact WP.withS ⟨rfl, rfl, rfl⟩

include ht

theorem keeps_getLastLine : Keeps hb S i (getLastLine b) := by
  unfold getLastLine
  rw [ht]
  refine .withLock (tmpLock_ne hn) (.bind keeps_isfile fun e => ?_)
  cases e with
  | true => exact keeps_readText
  | false => exact .ret _

theorem keeps_cleanLastLine : Keeps hb S i (cleanLastLine b) := by
  unfold cleanLastLine
  rw [ht]
  exact .withLock (tmpLock_ne hn) keeps_openW

theorem keeps_writeLastLine (env : FEnv) (line : PyStr) : Keeps hb S i (writeLastLine env b line) := by
  unfold writeLastLine
  rw [ht]
  exact .withLock (tmpLock_ne hn) (.bind keeps_openA fun _ => keeps_writeText env _)

omit ht in
theorem once_updateRecords (env : FEnv) (lines : List PyStr) : Once hb S i (updateRecords env b lines) := by
  unfold updateRecords
  rw [hn]
  refine InSec.once ?_
  split
  · exact .ret _
  · refine sec_listdir (b := b) _ (fun f f' h => ?_) (fun f => .bind (sec_moveLoop _ _ _) fun _ => sec_writeLoop _ _ _)
    rw [countFrom_congr h]

theorem once_len : Once hb S i (len b) := by
  unfold len
  rw [hn]
  refine .bind (InSec.once (sec_listdir (b := b) _ (fun f f' h => ?_) (fun f => .ret _))) fun _ =>
    .bind (keeps_getLastLine hn ht) fun _ => .ret _
  rw [countFrom_congr h]

theorem once_read (size : Option Int) : Once hb S i (FileBuf.read b size) := by
  unfold FileBuf.read
  refine (quiet_readable hn).bind_once fun r => ?_
  split
  · exact Keeps.once (.raise _)
  · split
    · exact Keeps.once (.ret _)
    · refine (keeps_getLastLine hn ht).quiet.bind_once fun last => ?_
      rw [hn]
      refine InSec.once (sec_listdir (b := b) _ (fun f f' h => ?_)
        (fun f => .bind (sec_readLoop _ _) fun _ => .ret _))
      rw [countFrom_congr h]

theorem once_writeCore (env : FEnv) (d : PyStr) : Once hb S i (writeCore env b d) := by
  unfold writeCore
  generalize isEndLineBreak d = ending
  extract_lets m n m' n'
  split
  · exact (keeps_getLastLine hn ht).quiet.bind_once fun last =>
      (once_updateRecords hn env _).bind fun _ => .bind (keeps_cleanLastLine hn ht) fun _ => .ret _
  · split
    · exact (keeps_getLastLine hn ht).quiet.bind_once fun last =>
        (once_updateRecords hn env _).bind fun _ => .bind (keeps_cleanLastLine hn ht) fun _ =>
          keeps_writeLastLine hn ht env _
    · split
      · exact (keeps_writeLastLine hn ht env _).once
      · exact Keeps.once (.ret _)

theorem once_write (env : FEnv) (d : PyStr) : Once hb S i (write env b d) := by
  unfold write
  refine (quiet_writable hn).bind_once fun r => ?_
  split
  · exact Keeps.once (.raise _)
  · exact once_writeCore hn ht env d

theorem once_newLine (env : FEnv) : Once hb S i (newLine env b) := by
  unfold newLine
  split
  · exact Keeps.once (.ret _)
  · refine (keeps_getLastLine hn ht).quiet.bind_once fun last => ?_
    split
    · exact (once_writeCore hn ht env _).bind fun _ => .ret _
    · exact Keeps.once (.ret _)

omit ht in
theorem once_sendExc (env : FEnv) (e : ExcObj) : Once hb S i (sendExc env b e) := by
  unfold sendExc
  split
  · exact Keeps.once (.ret _)
  · split
    · exact once_updateRecords hn env _
    · exact Keeps.once (.raise _)

theorem once_exit (env : FEnv) (x : Option ExcObj) : Once hb S i (FileBuf.exit env b x) := by
  cases x with
  | none => exact once_newLine hn ht env
  | some e => exact once_sendExc hn env e

omit hn ht in
theorem sec_removeAll {ns : List PyStr} (h : ∀ n ∈ ns, NotTmp bufs n) : InSec hb S i true (removeAll ns) := by
  induction ns with
  | nil => exact .ret _
  | cons n ns ih =>
    exact .bind (sec_remove (h n (List.mem_cons_self ..))) fun _ => ih fun n hn => h n (List.mem_cons_of_mem _ hn)

theorem once_clear (env : FEnv) (hg : NoGlob b.name) : Once hb S i (clear env b) := by
  unfold clear
  rw [hn, ht]
  have hmt : ∀ j, globMatch (b.name ++ lit "-*.log") (bufs j).tmpName = false := fun j => fnmatch_tmp hg
  refine Once.bind (InSec.once (.act ?_ fun s => ?_)) fun _ =>
    .withLock (tmpLock_ne hn) (.bind keeps_isfile fun e => ?_)
  · refine { inv := fun _ _ => trivial
             others := fun _ _ _ _ => rfl
             rest := fun _ _ _ _ _ _ _ => rfl
             reads := fun _ _ _ _ _ _ => rfl
             state := fun s t _ _ h1 h2 => ⟨h1, h2⟩
             cont := fun s t _ _ h1 h2 => ?_ }
    have : (fun n => globMatch (b.name ++ lit "-*.log") n && (s n).isSome) =
        fun n => globMatch (b.name ++ lit "-*.log") n && (t n).isSome := by
      funext n
      cases hm : globMatch (b.name ++ lit "-*.log") n with
      | false => rfl
      | true => rw [h1 rfl n fun j e => by rw [e, hmt j] at hm; cases hm]
    rw [this]
  · split
    · rename_i ns h
      refine sec_removeAll fun n hn j e => ?_
      have := (env.lists _ _ h).2 n |>.1 hn
      rw [e, hmt j] at this
      cases this
    · refine .act ?_ fun _ => .ret _
      exact { inv := fun _ _ => trivial
              others := fun s _ j _ => by simp [fileParts, hmt j]
              rest := fun _ _ _ h e => absurd e h
              reads := fun h => by cases h
              state := fun s t _ _ h1 h2 => ⟨fun _ m hm => by (show (if _ then _ else _) = (if _ then _ else _); split; rfl; exact h1 rfl m hm), by
                simp only [fileParts, hmt i]; exact h2⟩
              cont := fun _ _ _ _ _ _ => rfl }
  · cases e with
    | true => exact keeps_remove
    | false => exact .ret _

theorem once_close (env : FEnv) (x : Option ExcObj) : Once hb S i (close env b x) := by
  cases x with
  | none => exact (once_newLine hn ht env).bind fun _ => .ret _
  | some e => exact (once_sendExc hn env e).bind fun _ => .ret _

end

/-- The objects process `i` can have. -/
def OwnObj (bufs : Nat → FileBuf) (i : Nat) (o : FileBuf) : Prop := ∃ c, o = { bufs i with closed := c }

theorem fin_outcome {p : FProg α} (hp : Once hb S i p) (F : Except Exc α → Ret) {o : FileBuf}
    (ho : OwnObj bufs i o) :
    WP (fileParts bufs hb S) S i none false (do return (F (← p.outcome), o) : FProg (Ret × FileBuf))
      fun r h _ => h = none ∧ ∃ x o', r = .ok (x, o') ∧ OwnObj bufs i o' :=
  WP.bind (WP.outcome (hp.mono fun _ _ _ h => ⟨h, _, _, rfl, ho⟩))

theorem call_disciplined (env : FEnv) (hb : Family bufs) {ok : Nat → FCall → Prop}
    (hok : ∀ i c, ok i c → CallOk env (bufs i) c) :
    Disciplined (fileParts bufs hb (bufs 0).lockName) (fun _ => (bufs 0).lockName) (fileProcs env ok) (OwnObj bufs) := by
  intro i o c ho hc
  have hc := hok i c hc
  have hn : o.lockName = (bufs 0).lockName := by
    obtain ⟨x, rfl⟩ := ho; simp [lockName, hb.name i]
  have ht : o.tmpName = (bufs i).tmpName := by obtain ⟨x, rfl⟩ := ho; rfl
  have hg : c = .clear → NoGlob o.name := by
    obtain ⟨x, rfl⟩ := ho; rintro rfl; exact hc
  show WP _ _ i none false (call env o c) _
  cases c with
  | write d => exact fin_outcome (once_write hn ht env d) _ ho
  | newLine => exact fin_outcome (once_newLine hn ht env) _ ho
  | read n => exact fin_outcome (once_read hn ht n) _ ho
  | len => exact fin_outcome (once_len hn ht) _ ho
  | maxlen => exact ⟨rfl, _, _, rfl, ho⟩
  | clear => exact fin_outcome (once_clear hn ht env (hg rfl)) _ ho
  | flush => exact ⟨rfl, _, _, rfl, ho⟩
  | sendExc e => exact fin_outcome (once_sendExc hn env e) _ ho
  | close x =>
    refine WP.bind (WP.outcome ?_)
    have hcl : WP (fileParts bufs hb (bufs 0).lockName) (bufs 0).lockName i none false (close env o x)
        fun r h' _ => h' = none ∧ ∀ b', r = .ok b' → OwnObj bufs i b' := by
      have : ∀ b', OwnObj bufs i { o with closed := b' } := fun b' => by
        obtain ⟨y, rfl⟩ := ho; exact ⟨b', rfl⟩
      cases x with
      | none =>
        refine WP.bind (WP.mono (once_newLine hn ht env) fun r h' c' hq => ?_)
        cases r with
        | ok a => exact ⟨hq, fun b' hb' => by cases hb'; exact this _⟩
        | error e => exact ⟨hq, fun b' hb' => by cases hb'⟩
      | some e =>
        refine WP.bind (WP.mono (once_sendExc hn env e) fun r h' c' hq => ?_)
        cases r with
        | ok a => exact ⟨hq, fun b' hb' => by cases hb'; exact this _⟩
        | error e => exact ⟨hq, fun b' hb' => by cases hb'⟩
    refine hcl.mono fun r h' c' hq => ?_
    cases r with
    | ok b' => exact ⟨hq.1, _, _, rfl, hq.2 b' rfl⟩
    | error e => exact ⟨hq.1, _, _, rfl, ho⟩
  | exit x => exact fin_outcome (once_exit hn ht env x) _ ho
  | closed => exact ⟨rfl, _, _, rfl, ho⟩
  | readable => exact fin_outcome (quiet_readable hn).once _ ho
  | writable => exact fin_outcome (quiet_writable hn).once _ ho

/-! ## The shared log -/

theorem fstep_append {l l' : FLog} {c : FCall} {r : Ret} (h : FLog.Step l c r l') (hc : c ≠ .clear) :
    ∃ new, l'.done = l.done ++ new := by
  have hfin : ∀ l : FLog, ∃ new, l.finish.done = l.done ++ new := fun l => by
    unfold FLog.finish; split
    · exact ⟨[], by simp⟩
    · exact ⟨[l.part], rfl⟩
  cases h with
  | write => exact ⟨_, rfl⟩
  | newLine => exact hfin _
  | clear => exact absurd rfl hc
  | sendExc => exact ⟨_, rfl⟩
  | close => exact hfin _
  | closeExc => exact ⟨_, rfl⟩
  | exit => exact hfin _
  | exitExc => exact ⟨_, rfl⟩
  | _ => exact ⟨[], by simp⟩

/-- The files and the objects of the processes represent the shared log. -/
structure SRep (env : FEnv) (bufs : Nat → FileBuf) (g : FS) (obj : Nat → FileBuf) (m : SLog) : Prop where
  own : ∀ i, OwnObj bufs i (obj i)
  rep : ∀ i, FRep env (obj i) g (m.of i)

theorem call_frame (env : FEnv) (hb : Family bufs) {i : Nat} {o : FileBuf} {c : FCall}
    (ho : OwnObj bufs i o) (hc : CallOk env (bufs i) c) (g : FS) :
    (∀ j, j ≠ i → ((call env o c).seq g).2 (bufs j).tmpName = g (bufs j).tmpName) ∧
    ∃ x o', ((call env o c).seq g).1 = .ok (x, o') ∧ OwnObj bufs i o' := by
  have hd := call_disciplined env hb (ok := fun j c => CallOk env (bufs j) c) (fun _ _ h => h) i o c ho hc
  obtain ⟨_, h2, _, _, _, _, h4⟩ := hd.frame (s := g) trivial
  exact ⟨h2, h4⟩

theorem srep_call (env : FEnv) (hnl : env.encodable 10 = true) (hb : Family bufs) {g g' : FS}
    {obj : Nat → FileBuf} {m : SLog} {i : Nat} {c : FCall} {r : Ret} {o : FileBuf}
    (hown : ∀ i, OwnObj bufs i (obj i)) (hrep : ∀ i, FRep env (obj i) g (m.of i))
    (hok : CallOk env (bufs i) c) (h1 : (call env (obj i) c).seq g = (.ok (r, o), g')) :
    ∃ m', SLog.Step m i c r m' ∧ SRep env bufs g' (upd obj i o) m' := by
  have hok' : CallOk env (obj i) c := by
    obtain ⟨x, e⟩ := hown i
    exact callOk_congr (b := bufs i) (by rw [e]) hok
  have he : exec env c (obj i) g = (r, o, g') := by rw [exec, h1]
  obtain ⟨l', e1, e2, e3, e4⟩ := exec_frefines env hnl c (obj i) g _ (hrep i) hok'
  rw [he] at e1 e2 e3
  obtain ⟨f1, x, o', f2, f3⟩ := call_frame env hb (hown i) hok g
  rw [h1] at f1 f2
  cases f2
  have hobj : ∀ j, OwnObj bufs j (upd obj i o j) := fun j => by
    by_cases hj : j = i
    · subst hj; simpa using f3
    · rw [upd_other _ _ hj]; exact hown j
  have hlog : ∀ (b : FileBuf), b.name = (bufs 0).name → ∀ k, b.logName k = o.logName k := fun b hn k => by
    have : o.name = (bufs 0).name := by obtain ⟨x, rfl⟩ := f3; exact hb.name i
    simp [logName, hn, this]
  have hname : ∀ j, (obj j).name = (bufs 0).name := fun j => by
    obtain ⟨x, e⟩ := hown j; rw [e]; exact hb.name j
  have htmp : ∀ j, (obj j).tmpName = (bufs j).tmpName := fun j => by
    obtain ⟨x, e⟩ := hown j; rw [e]; rfl
  have main : ∀ m' : SLog, m'.cap = m.cap → m'.done.map (·.2) = l'.done →
      m'.part = upd m.part i l'.part → m'.closed = upd m.closed i l'.closed →
      SRep env bufs g' (upd obj i o) m' := by
    intro m' d1 d2 d3 d4
    refine ⟨hobj, fun j => ?_⟩
    by_cases hj : j = i
    · subst hj
      have : m'.of j = l' := by
        simp only [SLog.of, d1, d2, d3, d4, upd_same]
        have : l'.cap = m.cap := e4
        rw [← this]
      rw [this, upd_same]; exact e2
    · rw [upd_other _ _ hj]
      have hj' := hrep j
      refine ⟨?_, ?_, ?_, ?_, ?_, ?_, ?_, ?_⟩
      · rw [hj'.cap]; exact d1.symm
      · have := hj'.pos; show 1 ≤ m'.cap; rw [d1]; exact this
      · rw [hj'.closed]; simp [SLog.of, d4, upd_other _ _ hj]
      · intro k
        have e5 := e2.recs k
        dsimp only at e5
        rw [hlog (obj j) (hname j) k, e5]
        simp [SLog.of, d1, d2, e4]
      · have := hj'.tmp
        unfold Tmp at this ⊢
        rw [htmp j] at this ⊢
        have f1 := f1 j hj
        dsimp only at f1
        rw [f1]
        simpa [SLog.of, d3, upd_other _ _ hj] using this
      · have := hj'.partClean
        simpa [SLog.of, d3, upd_other _ _ hj] using this
      · have := hj'.partEnc
        simpa [SLog.of, d3, upd_other _ _ hj] using this
      · have := e2.noCr
        show ∀ x ∈ m'.done.map (·.2), _
        rw [d2]; exact this
  by_cases hc : c = .clear
  · subst hc
    refine ⟨_, .clear r l' e1, main _ rfl ?_ rfl rfl⟩
    cases e1
    rfl
  · obtain ⟨new, hnew⟩ := fstep_append e1 hc
    refine ⟨_, .other c r l' new hc e1 hnew, main _ rfl ?_ rfl rfl⟩
    rw [hnew]
    simp [SLog.of, List.map_append, Function.comp_def]

theorem srep_step (env : FEnv) (hnl : env.encodable 10 = true) (hb : Family bufs) {ok : Nat → FCall → Prop}
    (hok : ∀ i c, ok i c → CallOk env (bufs i) c) {a a' : FS × (Nat → FileBuf)} {m : SLog} {i : Nat}
    {c : FCall} {r : Ret} (hr : SRep env bufs a.1 a.2 m) (hs : seqSpec (fileProcs env ok) a i c r a') :
    ∃ m', SLog.Step m i c r m' ∧ SRep env bufs a'.1 a'.2 m' := by
  obtain ⟨o, h1, h2, h3⟩ := hs
  rw [h2]
  exact srep_call env hnl hb hr.own hr.rep (hok i c h3) h1

/-- Calls executed one after the other refine the shared log. -/
theorem srep_exec (env : FEnv) (hnl : env.encodable 10 = true) (hb : Family bufs) {ok : Nat → FCall → Prop}
    (hok : ∀ i c, ok i c → CallOk env (bufs i) c) {s : FS} {obj : Nat → FileBuf} {m : SLog}
    (hr : SRep env bufs s obj m) {tr : List (Ev FCall Ret)} {a : AConf (FS × (Nat → FileBuf)) FCall Ret}
    (hx : AExec (seqSpec (fileProcs env ok)) ⟨(s, obj), fun _ => .idle⟩ tr a) :
    ∃ m', AExec SLog.Step ⟨m, fun _ => .idle⟩ tr ⟨m', a.stat⟩ ∧ SRep env bufs a.st.1 a.st.2 m' := by
  generalize h0 : (⟨(s, obj), fun _ => .idle⟩ : AConf (FS × (Nat → FileBuf)) FCall Ret) = a0 at hx
  induction hx with
  | nil => subst h0; exact ⟨m, .nil _, hr⟩
  | snoc a' a'' tr e h1 h2 ih =>
    obtain ⟨m', h3, h4⟩ := ih
    cases h2 with
    | inv i c hi => exact ⟨m', .snoc _ _ _ _ _ h3 (.inv _ i c hi), h4⟩
    | effect i c r st hi hsp =>
      obtain ⟨m'', h5, h6⟩ := srep_step env hnl hb hok h4 hsp
      exact ⟨m'', .snoc _ _ _ _ _ h3 (.effect _ i c r m'' hi h5), h6⟩
    | ret i r hi => exact ⟨m', .snoc _ _ _ _ _ h3 (.ret _ i r hi), h4⟩

end FileBuf
end SyncStream
