import Verif.Lemmas.FileOverride
import Verif.Lemmas.Sched
import Verif.Props.FileConc
/-!
# Property C81: a user's `parse_lines` in file mode
-/

namespace SyncStream
open Spec Conc Prog FileBuf

variable {U : Type}

/-! ## Which lines are handed over -/

/-- **C81** Any number of processes with drafts of their own, each with a `parse_lines` of its own that may do
anything except changing drafts (it can take any number of steps, use locks and raise), making any calls, with
the steps interleaved in any way.  What the `parse_lines` of a process is given is determined by the calls of
that process alone, whatever the others do: the lines that its own texts complete, those of one call in one
piece, each of them once unless `parse_lines` raised; then the call raises the same and the draft is what it
was.  What is not yet complete is the draft. -/
theorem C81_lines (env : FEnv) (hnl : env.encodable 10 = true) (par : Nat → FOverride U) (bufs : Nat → FileBuf)
    (hdist : ∀ i j, i ≠ j → (bufs i).tmpName ≠ (bufs j).tmpName)
    (hleave : ∀ i c ls, LeavesFiles Prod.fst (fun n => ∃ j, n = (bufs j).tmpName) (par i { bufs i with closed := c } ls))
    (i : Nat) (E : Exc → Prop) (hE : ∀ c ls, RaisesOnly E (par i { bufs i with closed := c } ls))
    (s : FS) (us : Nat → U) (hs : NoBreak ((s (bufs i).tmpName).getD []))
    (tr : List (Ev FCall Ret)) (κ : Conf (OvDir (U × List (List PyStr))) PyStr FileBuf FCall Ret)
    (hx : Exec (ovProcs env (fun j => (par j).noting) fun j c => CallOk env (bufs j) c)
      (init ⟨s, fun j => (us j, [])⟩ bufs) tr κ) (hi : κ.cur i = none) :
    (callsOf i tr).length = (resultsOf i tr).length ∧
    ∃ D, Given E ⟨(s (bufs i).tmpName).getD [], (bufs i).closed⟩ ((callsOf i tr).zip (resultsOf i tr))
        (κ.st.own i).2 D ∧
      (κ.st.files (bufs i).tmpName).getD [] = D.text ∧ κ.obj i = { bufs i with closed := D.closed } := by
  have mono : ∀ {n : PyStr} {p : Prog (FS × U) PyStr Unit} (j : Nat), n = (bufs j).tmpName →
      LeavesFiles Prod.fst (fun n => ∃ j, n = (bufs j).tmpName) p → LeavesFiles Prod.fst (· = n) p := by
    intro n p j hn h
    rw [leavesFiles_guar] at h ⊢
    exact h.mono fun s t h' m hm => h' m ⟨j, hm.trans hn⟩
  have leaves_noting : ∀ {p : FOverride U} {b : FileBuf} {ls : List PyStr} {n : PyStr},
      LeavesFiles Prod.fst (· = n) (p b ls) → LeavesFiles Prod.fst (· = n) (p.noting b ls) := by
    intro p b ls n h
    rw [leavesFiles_guar] at h ⊢
    exact .bind (Guar.atom fun _ _ _ => rfl) fun _ => Guar.onPart (get := fun x : FS × U × List (List PyStr) => (x.1, x.2.1)) (fun _ _ h => h) h
  have hf := exec_private (sys := ovProcs env (fun j => (par j).noting) fun j c => CallOk env (bufs j) c)
    (FOvr.alone_steady (U := U × List (List PyStr)) (bufs i).tmpName i) (i := i)
    (K := fun j o => ∃ c, o = { bufs j with closed := c })
    (Inv := fun h o d => ∃ gs D, Given E ⟨(s (bufs i).tmpName).getD [], (bufs i).closed⟩ h gs D ∧
      FOvr.Has (bufs i) i gs D o d)
    (fun j o c _ hk => by
      obtain ⟨z, rfl⟩ := hk
      exact FOvr.call_yields c)
    (fun j o c hj hc hk => by
      obtain ⟨z, rfl⟩ := hk
      refine FOvr.call_guar (b := { bufs j with closed := z }) (b' := bufs i) (hdist j i hj) rfl (fun ls => FOvr.method_guar hj.symm (leaves_noting ?_)) ?_
      · exact mono i rfl (hleave j z ls)
      · cases c with
        | clear => exact hc
        | _ => exact hc)
    (fun h o d d' hinv hd => by
      obtain ⟨gs, D, h1, h2⟩ := hinv
      exact ⟨gs, D, h1, h2.later hd⟩)
    (fun h o c d hc hk hinv => by
      obtain ⟨gs, D, h1, h2⟩ := hinv
      refine (FOvr.call_meets hnl (fun z ls => mono i rfl (hleave i z ls)) hE h2 hc).mono ?_
      rintro x t ⟨r, o', e1, g, D', e2, e3⟩
      exact ⟨r, o', e1, gs ++ g, D', .snoc _ _ _ _ _ _ _ h1 e2, e3⟩)
    (fun j => ⟨(bufs j).closed, rfl⟩) ⟨[], _, .nil, by exact ⟨hs, rfl, rfl, rfl⟩⟩ hx
  obtain ⟨h1, gs, D, h2, h3⟩ := hf.idle hi
  exact ⟨h1, D, by rw [h3.given]; exact h2, h3.tmp, h3.obj⟩

theorem Feeds.snoc {part piece mid rest : PyStr} {pieces ls ls' : List PyStr} (h : Feeds part pieces ls mid)
    (h' : Lines (mid ++ piece) ls' rest) : Feeds part (pieces ++ [piece]) (ls ++ ls') rest := by
  induction h with
  | nil part => simpa using Feeds.cons part piece [] ls' [] rest rest h' (.nil _)
  | cons part p ps l1 l2 m r h1 _ ih =>
    rw [List.append_assoc]
    exact .cons _ _ _ _ _ _ _ h1 (ih h')

/-- The calls wrote the texts and none of them raised. -/
theorem given_feeds {E : Exc → Prop} {d D : Draft} {cs : List (FCall × Ret)} {gs : List (List PyStr)}
    (h : Given E d cs gs D) (hc : ∀ x ∈ cs, ∃ t n, x = (.write t, .nat n)) :
    Feeds d.text (cs.filterMap fun x => match x.1 with | .write t => some t | _ => none) gs.flatten D.text := by
  induction h with
  | nil => exact .nil _
  | snoc cs gs g d' d'' c r _ h2 ih =>
    have ih := ih fun x hx => hc x (List.mem_append_left _ hx)
    obtain ⟨t, n, e⟩ := hc (c, r) (List.mem_append_right _ (List.mem_singleton.2 rfl))
    cases e
    rw [List.filterMap_append, List.flatten_append]
    cases h2 with
    | writePart => exact Feeds.snoc ih ‹Lines _ _ _›
    | write => simpa using Feeds.snoc ih ‹Lines _ _ _›
    | aside _ _ ha => exact ha.elim

/-- **C81** As long as a process only writes and its `parse_lines` does not raise: what `parse_lines` was given,
all calls together, are exactly the completed lines of the texts of the process one after the other, each once
and in order. -/
theorem C81_texts (env : FEnv) (hnl : env.encodable 10 = true) (par : Nat → FOverride U) (bufs : Nat → FileBuf)
    (hdist : ∀ i j, i ≠ j → (bufs i).tmpName ≠ (bufs j).tmpName)
    (hleave : ∀ i c ls, LeavesFiles Prod.fst (fun n => ∃ j, n = (bufs j).tmpName) (par i { bufs i with closed := c } ls))
    (i : Nat) (hE : ∀ c ls, RaisesOnly (fun _ => False) (par i { bufs i with closed := c } ls))
    (ho : (bufs i).closed = false) (s : FS) (us : Nat → U) (hs : NoBreak ((s (bufs i).tmpName).getD []))
    (tr : List (Ev FCall Ret)) (κ : Conf (OvDir (U × List (List PyStr))) PyStr FileBuf FCall Ret)
    (hx : Exec (ovProcs env (fun j => (par j).noting) fun j c => CallOk env (bufs j) c)
      (init ⟨s, fun j => (us j, [])⟩ bufs) tr κ) (hi : κ.cur i = none)
    (texts : List PyStr) (ht : callsOf i tr = texts.map .write) :
    Feeds ((s (bufs i).tmpName).getD []) texts (κ.st.own i).2.flatten ((κ.st.files (bufs i).tmpName).getD []) := by
  obtain ⟨hlen, D, h1, h2, -⟩ := C81_lines env hnl par bufs hdist hleave i _ hE s us hs tr κ hx hi
  have hall : ∀ x ∈ (callsOf i tr).zip (resultsOf i tr), ∃ t n, x = (FCall.write t, Ret.nat n) := by
    have hw : ∀ x ∈ (callsOf i tr).zip (resultsOf i tr), ∃ t, x.1 = FCall.write t := by
      rintro ⟨c, r⟩ hx
      have := (List.of_mem_zip hx).1
      rw [ht, List.mem_map] at this
      obtain ⟨t, -, rfl⟩ := this
      exact ⟨t, rfl⟩
    revert hw
    clear h2 ht hlen hx hi
    generalize (callsOf i tr).zip (resultsOf i tr) = cs at h1
    generalize (κ.st.own i).2 = gs at h1
    intro hw
    have : D.closed = false ∧ ∀ x ∈ cs, ∃ t n, x = (FCall.write t, Ret.nat n) := by
      clear hs
      generalize hd : (⟨(s (bufs i).tmpName).getD [], (bufs i).closed⟩ : Draft) = d at h1
      have hd : d.closed = false := by subst hd; exact ho
      induction h1 with
      | nil => exact ⟨hd, fun x hx => (nomatch hx)⟩
      | snoc cs gs g d' d'' c r _ h2 ih =>
        obtain ⟨i1, i2⟩ := ih fun x hx => hw x (List.mem_append_left _ hx)
        obtain ⟨t, e⟩ := hw (c, r) (List.mem_append_right _ (List.mem_singleton.2 rfl))
        cases e
        have key : d''.closed = false ∧ ∃ n, r = Ret.nat n := by
          cases h2 with
          | writeClosed _ h => rw [i1] at h; cases h
          | writePart r n h => exact ⟨i1, _, rfl⟩
          | write r ls n h => exact ⟨i1, _, rfl⟩
          | writeRaise => exact False.elim ‹(fun _ => False) _›
          | aside _ _ ha => exact ha.elim
          | endNone _ ha => exact ha.elim
          | ends _ ha => exact ha.elim
          | endRaise _ _ ha => exact ha.elim
        refine ⟨key.1, fun x hx => ?_⟩
        rcases List.mem_append.1 hx with hx | hx
        · exact i2 x hx
        · obtain ⟨n, rfl⟩ := key.2
          cases List.mem_singleton.1 hx
          exact ⟨t, n, rfl⟩
    exact this.2
  have := given_feeds h1 hall
  rw [h2]
  convert this using 1
  rw [ht] at hlen ⊢
  revert hlen
  generalize resultsOf i tr = rs
  clear hall ht h1 h2 this hx hi
  induction texts generalizing rs with
  | nil => intro _; rfl
  | cons t ts ih =>
    cases rs with
    | nil => intro h; cases h
    | cons r rs => intro h; simpa using ih rs (by simpa using h)

/-! ## Without an override -/

namespace FOvr
variable {α β : Type}

theorem onFiles_bind (p : FProg α) (g : α → FProg β) :
    (onFiles (p >>= g) : DProg U β) = onFiles p >>= fun a => onFiles (g a) := by
  change onFiles (p.bind g) = (onFiles p).bind fun a => onFiles (g a)
  induction p with
  | ret a => rfl
  | raise e => rfl
  | act f k ih => exact congrArg (Prog.act _) (funext fun d => ih d.files)
  | acq l w k ih => exact congrArg (Prog.acq l w) ih
  | rel l w k ih => exact congrArg (Prog.rel l w) ih

theorem onFiles_outcome (p : FProg α) : (onFiles p.outcome : DProg U (Except Exc α)) = (onFiles p).outcome := by
  induction p with
  | ret a => rfl
  | raise e => rfl
  | act f k ih => exact congrArg (Prog.act _) (funext fun d => ih d.files)
  | acq l w k ih => exact congrArg (Prog.acq l w) ih
  | rel l w k ih => exact congrArg (Prog.rel l w) ih

theorem method_default (env : FEnv) (i : Nat) (b : FileBuf) :
    (method (FOverride.default env) i b : List PyStr → DProg U Unit) = fun ls => onFiles (b.parseLines env ls) := by
  funext ls
  unfold method FOverride.default onFiles
  generalize b.parseLines env ls = p
  induction p with
  | ret a => rfl
  | raise e => rfl
  | act f k ih =>
    show Prog.act _ _ = Prog.act _ _
    congr 1
    · funext d
      show OvDir.mk (f d.files) (upd d.own i (d.own i)) = OvDir.mk (f d.files) d.own
      congr 1
      funext j
      by_cases h : j = i
      · subst h; rw [upd_same]
      · rw [upd_other _ _ h]
    · exact funext fun d => ih d.files
  | acq l w k ih => exact congrArg (Prog.acq l w) ih
  | rel l w k ih => exact congrArg (Prog.rel l w) ih

theorem writeCore_default (env : FEnv) (b : FileBuf) (t : PyStr) :
    writeCore env (fun ls => (onFiles (b.parseLines env ls) : DProg U Unit)) b t = onFiles (b.writeCore env t) := by
  unfold writeCore FileBuf.writeCore
  extract_lets m k e m' k'
  by_cases h1 : k = 1 ∧ m.head? = some []
  · rw [if_pos h1, if_pos h1]
    simp only [onFiles_bind]
    rfl
  · rw [if_neg h1, if_neg h1]
    by_cases h2 : k' > 1
    · rw [if_pos h2, if_pos h2]
      simp only [onFiles_bind]
    · rw [if_neg h2, if_neg h2]
      by_cases h3 : k' = 1
      · rw [if_pos h3, if_pos h3]
      · rw [if_neg h3, if_neg h3]; rfl

theorem newLine_default (env : FEnv) (b : FileBuf) :
    newLine env (fun ls => (onFiles (b.parseLines env ls) : DProg U Unit)) b = onFiles (b.newLine env) := by
  unfold newLine FileBuf.newLine
  cases hc : b.closed with
  | true => rfl
  | false =>
    simp only [Bool.false_eq_true, if_false, onFiles_bind, writeCore_default]
    congr 1
    funext last
    by_cases h : last ≠ []
    · rw [if_pos h, if_pos h, onFiles_bind]
      rfl
    · rw [if_neg h, if_neg h]; rfl

end FOvr

/-- **C81** With the default `parse_lines` nothing changes: every call is the program of `LineFileBuffer`, step by
step, on the files; the attributes of the objects are left alone. -/
theorem C81_default (env : FEnv) (ok : Nat → FCall → Prop) (i : Nat) (b : FileBuf) (c : FCall) :
    (ovProcs (U := U) env (fun _ => FOverride.default env) ok).call i b c =
      ((fileProcs env ok).call i b c).onPart (·.files) (fun s d => { d with files := s }) id := by
  show FOvr.call env (FOvr.method (FOverride.default env) i b) b c = FOvr.onFiles (b.call env c)
  rw [FOvr.method_default]
  cases c with
  | write t =>
    simp only [FOvr.call, FileBuf.call, FOvr.onFiles_bind, FOvr.onFiles_outcome]
    unfold FOvr.write FileBuf.write
    rw [FOvr.onFiles_bind]
    simp only [FOvr.writeCore_default]
    congr 3
    funext x
    cases x <;> rfl
  | newLine =>
    simp only [FOvr.call, FileBuf.call, FOvr.onFiles_bind, FOvr.onFiles_outcome, FOvr.newLine_default]
    rfl
  | close x =>
    cases x with
    | none =>
      simp only [FOvr.call, FileBuf.call, FileBuf.close, FOvr.onFiles_bind, FOvr.onFiles_outcome, FOvr.newLine_default]
      generalize (FOvr.onFiles (b.newLine env) : DProg U Unit) = p
      change p.outcome.bind _ = (p.bind _).outcome.bind _
      induction p with
      | ret a => rfl
      | raise e => rfl
      | act f k ih => exact congrArg (Prog.act _) (funext ih)
      | acq l w k ih => exact congrArg (Prog.acq l w) ih
      | rel l w k ih => exact congrArg (Prog.rel l w) ih
    | some x => rfl
  | exit x =>
    cases x with
    | none =>
      simp only [FOvr.call, FileBuf.call, FileBuf.exit, FOvr.onFiles_bind, FOvr.onFiles_outcome, FOvr.newLine_default]
      rfl
    | some x => rfl
  | _ => rfl

/-! ## Locks -/

theorem takesInOrder_orderly {σ α : Type} {H : List (PyStr × Bool)} {p : Prog σ PyStr α} (h : TakesInOrder H p) :
    Orderly (fun _ => False) FileBuf.lockRank [] H p := by
  induction p generalizing H with
  | ret a => exact h
  | raise e => exact h
  | act f k ih => exact fun s => ih s (h s)
  | acq l w k ih => exact ⟨.inl h.1, ih h.2⟩
  | rel l w k ih =>
    obtain ⟨H', h1, h2⟩ := h
    exact ⟨H', h1, ih h2⟩

theorem orderly_takesInOrder {σ α : Type} {H : List (PyStr × Bool)} {p : Prog σ PyStr α}
    (h : Orderly (fun _ => False) FileBuf.lockRank [] H p) : TakesInOrder H p := by
  induction p generalizing H with
  | ret a => exact h
  | raise e => exact h
  | act f k ih => exact fun s => ih s (h s)
  | acq l w k ih => exact ⟨h.1.elim (fun h => h) fun h => h.1.elim, ih h.2⟩
  | rel l w k ih =>
    obtain ⟨H', h1, h2⟩ := h
    exact ⟨H', h1, ih h2⟩

/-- **C81** No lock of the buffer is held while `parse_lines` runs: whatever overrides the processes have, as
long as each of them takes locks as if it had none yet (in the order of the lengths of their names, as the
methods of the buffer do), nobody waits for ever, and all calls come to an end. -/
theorem C81_deadlock (env : FEnv) (par : Nat → FOverride U) (hp : ∀ i b ls, TakesInOrder [] (par i b ls))
    (ok : Nat → FCall → Prop) (d : OvDir U) (bufs : Nat → FileBuf) :
    DeadlockFree (ovProcs env par ok) (init d bufs) :=
  deadlockFree (FOvr.orderly env (fun i b ls => takesInOrder_orderly (hp i b ls)) ok) d bufs

/-- What a method does to the files, in an override. -/
def self {α : Type} (p : FProg α) : Prog (FS × U) PyStr α := p.onPart (·.1) (fun s x => (s, x.2)) id

/-- An override that uses the buffer: it looks at what is stored, stores the lines in addition, and counts. -/
def lookAndStore (env : FEnv) : FOverride Nat := fun b ls => do
  let old ← self (b.read none)
  self (b.parseLines env ls)
  let n ← self b.len
  Prog.atom (Py.modify fun x => (x.1, x.2 + old.length + n))

theorem self_takes {α β : Type} {p : FProg α} (hp : Tidy (fun _ => False) lockRank [] p)
    {g : α → Prog (FS × U) PyStr β} (hg : ∀ a, Tidy (fun _ => False) lockRank [] (g a)) :
    Tidy (fun _ => False) lockRank [] (self p >>= g) :=
  .bind (Orderly.onPart (H' := []) hp (fun _ _ h => h) (fun _ h => h) (fun _ _ h => nomatch h)) hg

/-- It may do that (contrast C78). -/
theorem lookAndStore_takes (env : FEnv) (b : FileBuf) (ls : List PyStr) : TakesInOrder [] (lookAndStore env b ls) :=
  orderly_takesInOrder (self_takes (tidy_read _) fun _ => self_takes (tidy_updateRecords _ _) fun _ =>
    self_takes tidy_len fun _ => Tidy.atom _)

example (env : FEnv) (ok : Nat → FCall → Prop) (d : OvDir Nat) (bufs : Nat → FileBuf) :
    DeadlockFree (ovProcs env (fun _ => lookAndStore env) ok) (init d bufs) :=
  C81_deadlock env _ (fun _ b ls => lookAndStore_takes env b ls) ok d bufs

/-- It leaves all drafts alone. -/
theorem lookAndStore_leaves (env : FEnv) (bufs : Nat → FileBuf) (b : FileBuf) (ls : List PyStr) :
    LeavesFiles Prod.fst (fun n => ∃ j, n = (bufs j).tmpName) (lookAndStore env b ls) := by
  have key : ∀ {α : Type} {p : FProg α}, p.Guar (SameFiles fun n => ∃ j, n = (bufs j).tmpName) →
      (self p : Prog (FS × Nat) PyStr α).Guar
        fun s t => SameFiles (fun n => ∃ j, n = (bufs j).tmpName) s.1 t.1 :=
    fun h => Guar.onPart (get := fun x : FS × Nat => x.1) (fun _ _ h => h) h
  rw [leavesFiles_guar]
  exact .bind (key (guar_read _)) fun _ => .bind (key (guar_updateRecords env
    (fun k ⟨j, h⟩ => FileBuf.logName_ne_tmpName _ _ k h) _)) fun _ => .bind (key guar_len) fun _ =>
      Guar.atom fun _ _ _ => rfl

/-! ## Writing from inside -/

/-- An override that stores the lines and then writes the text `t` to its own buffer (`super().parse_lines(lines)`,
`self.write(t)`). -/
def writesInside (env : FEnv) (t : PyStr) : FOverride U := fun b ls => do
  FOverride.default env b ls
  let _ ← self (b.write env t)
  return ()

theorem writeCore_noBreak (env : FEnv) (b : FileBuf) {t : PyStr} (h : NoBreak t) (ht : t ≠ []) :
    b.writeCore env t = b.writeLastLine env t := by
  have hs : splitlines t = [t] := by rw [splitlines_eq, segFrom_noBreak _ _ h]; simp [ht]
  have he : isEndLineBreak t = false := by
    rw [Bool.eq_false_iff]
    intro hc
    have := (isEndLineBreak_iff_rest t ht).1 hc
    rw [segFrom_noBreak _ _ h] at this
    exact ht this
  unfold FileBuf.writeCore
  simp [hs, he, ht]

theorem self_seq {α : Type} (p : FProg α) (s : FS) (u : U) :
    (self p).seq (s, u) = ((p.seq s).1, ((p.seq s).2, u)) := by
  have := Prog.seq_onPart (get := fun x : FS × U => x.1) (set := fun s x => (s, x.2)) (ren := (id : PyStr → PyStr))
    (fun _ _ => rfl) (fun _ _ _ => rfl) (fun _ => rfl) p (s, u)
  rw [Py.onPart_apply] at this
  exact this

theorem onFiles_seq {α : Type} (p : FProg α) (d : OvDir U) :
    (FOvr.onFiles p : DProg U α).seq d = ((p.seq d.files).1, { d with files := (p.seq d.files).2 }) := by
  have := Prog.seq_onPart (get := fun x : OvDir U => x.files) (set := fun s x => { x with files := s })
    (ren := (id : PyStr → PyStr)) (fun _ _ => rfl) (fun _ _ _ => rfl) (fun _ => rfl) p d
  rw [Py.onPart_apply] at this
  exact this

theorem upd_self {α : Type} (f : Nat → α) (i : Nat) : upd f i (f i) = f := by
  funext j
  by_cases h : j = i
  · subst h; rw [upd_same]
  · rw [upd_other _ _ h]

theorem method_seq (p : FOverride U) (i : Nat) (b : FileBuf) (ls : List PyStr) (d : OvDir U) :
    (FOvr.method p i b ls).seq d = (((p b ls).seq (d.files, d.own i)).1,
      { files := ((p b ls).seq (d.files, d.own i)).2.1, own := upd d.own i ((p b ls).seq (d.files, d.own i)).2.2 }) := by
  have h2 : ∀ (x y : FS × U) (t : OvDir U), (fun (x : FS × U) (d : OvDir U) =>
      ({ files := x.1, own := upd d.own i x.2 } : OvDir U)) x ({ files := y.1, own := upd t.own i y.2 }) =
      { files := x.1, own := upd t.own i x.2 } := by
    intro x y t
    show OvDir.mk _ _ = OvDir.mk _ _
    congr 1
    funext j
    by_cases h : j = i
    · subst h; rw [upd_same, upd_same]
    · rw [upd_other _ _ h, upd_other _ _ h]; exact upd_other _ _ h
  have := Prog.seq_onPart (get := fun d : OvDir U => (d.files, d.own i))
    (set := fun x d => { files := x.1, own := upd d.own i x.2 }) (ren := (id : PyStr → PyStr))
    (fun x t => by show (_, upd t.own i x.2 i) = x; rw [upd_same]) h2
    (fun t => by show OvDir.mk t.files (upd t.own i (t.own i)) = t; rw [upd_self]) (p b ls) d
  rw [Py.onPart_apply] at this
  exact this

/-- The text that was written from inside is in the draft, and cleaning the draft removes it. -/
theorem inside_clean (env : FEnv) (i : Nat) (b : FileBuf) (hb : b.closed = false) {t : PyStr} (h : NoBreak t) (ht : t ≠ [])
    (he : t.all env.encodable = true) {β : Type} (ls : List PyStr) (g : Unit → DProg U β) (d : OvDir U) :
    (FOvr.method (writesInside env t) i b ls >>= fun _ => FOvr.onFiles b.cleanLastLine >>= g).seq d =
      (FOvr.method (FOverride.default env) i b ls >>= fun _ => FOvr.onFiles b.cleanLastLine >>= g).seq d := by
  have hclean : ∀ d : OvDir U, (FOvr.onFiles b.cleanLastLine : DProg U Unit).seq d =
      (.ok (), { d with files := d.files.set b.tmpName (some []) }) := fun d => by
    rw [onFiles_seq, FileBuf.cleanLastLine_seq]
  have hw : ∀ s, (b.write env t).seq s = (.ok t.length,
      s.set b.tmpName (some ((s b.tmpName).getD [] ++ writeNewlines env.crlf t))) := fun s => by
    rw [FileBuf.write, Prog.seq_bind_ok (show (writable b).seq s = (.ok true, s) by
      rw [writable, Prog.seq_withLock, Prog.seq_withLock]; simp [hb])]
    simp only [Bool.not_true, Bool.false_eq_true, if_false]
    rw [writeCore_noBreak env b h ht, FileBuf.writeLastLine_seq env b t s he]
  have hd : (FOverride.default env b ls : Prog (FS × U) PyStr Unit).seq (d.files, d.own i) =
      (((b.parseLines env ls).seq d.files).1, (((b.parseLines env ls).seq d.files).2, d.own i)) := self_seq _ _ _
  rcases hp : (b.parseLines env ls).seq d.files with ⟨r, s1⟩
  rw [hp] at hd
  have h1 : (FOvr.method (FOverride.default env) i b ls).seq d = (r, { d with files := s1 }) := by
    rw [method_seq, hd, upd_self]
  cases r with
  | error e =>
    have h2 : (writesInside env t b ls : Prog (FS × U) PyStr Unit).seq (d.files, d.own i) = (.error e, (s1, d.own i)) :=
      Prog.seq_bind_error hd
    have h3 : (FOvr.method (writesInside env t) i b ls).seq d = (.error e, { d with files := s1 }) := by
      rw [method_seq, h2, upd_self]
    rw [Prog.seq_bind_error h3, Prog.seq_bind_error h1]
  | ok a =>
    have h2 : (writesInside env t b ls : Prog (FS × U) PyStr Unit).seq (d.files, d.own i) =
        (.ok (), (s1.set b.tmpName (some ((s1 b.tmpName).getD [] ++ writeNewlines env.crlf t)), d.own i)) := by
      unfold writesInside
      rw [Prog.seq_bind_ok hd, Prog.seq_bind_ok (show (self (b.write env t)).seq (s1, d.own i) =
        (.ok t.length, (s1.set b.tmpName (some ((s1 b.tmpName).getD [] ++ writeNewlines env.crlf t)), d.own i)) by
          rw [self_seq, hw])]
      rfl
    have h3 : (FOvr.method (writesInside env t) i b ls).seq d = (.ok (), { d with
        files := s1.set b.tmpName (some ((s1 b.tmpName).getD [] ++ writeNewlines env.crlf t)) }) := by
      rw [method_seq, h2, upd_self]
    rw [Prog.seq_bind_ok h3, Prog.seq_bind_ok h1, Prog.seq_bind_ok (hclean _), Prog.seq_bind_ok (hclean _),
      FS.set_set]

theorem writeCore_inside (env : FEnv) (i : Nat) (b : FileBuf) (hb : b.closed = false) {t : PyStr} (h : NoBreak t) (ht : t ≠ [])
    (he : t.all env.encodable = true) (x : PyStr) (d : OvDir U) :
    (FOvr.writeCore env (FOvr.method (writesInside env t) i b) b x).seq d =
      (FOvr.writeCore env (FOvr.method (FOverride.default env) i b) b x).seq d := by
  have bind2 : ∀ {α β : Type} (p : DProg U α) (g g' : α → DProg U β) (d : OvDir U), (∀ a d, (g a).seq d = (g' a).seq d) →
      (p >>= g).seq d = (p >>= g').seq d := by
    intro α β p g g' d hg
    rw [Prog.seq_bind, Prog.seq_bind]
    rcases hp : p.seq d with ⟨r, d'⟩
    cases r with
    | ok a => rw [Py.bind_ok hp, Py.bind_ok hp, hg]
    | error e => rw [Py.bind_error hp, Py.bind_error hp]
  unfold FOvr.writeCore
  extract_lets m k e m' k'
  split
  · exact bind2 _ _ _ _ fun a d => inside_clean env i b hb h ht he _ _ d
  · split
    · exact bind2 _ _ _ _ fun a d => inside_clean env i b hb h ht he _ _ d
    · split <;> rfl

/-- **C81, violated** A text that `parse_lines` itself writes to its buffer is lost.  The draft is only cleaned after
`parse_lines` has returned, and with it goes what was written meanwhile: whatever the text `t` (without a line
break, which would call `parse_lines` again), whatever is written from outside and whatever there is in the
directory, the call leaves the same files and returns the same as if `self.write(t)` had not been there, though
`self.write(t)` returned the number of its characters. -/
theorem C81_inner_violated (env : FEnv) (ok : Nat → FCall → Prop) (i : Nat) (b : FileBuf) (hb : b.closed = false)
    (t : PyStr) (h : NoBreak t) (ht : t ≠ []) (he : t.all env.encodable = true) (x : PyStr) (d : OvDir U) :
    ((ovProcs env (fun _ => writesInside env t) ok).call i b (.write x)).seq d =
      ((ovProcs env (fun _ => FOverride.default env) ok).call i b (.write x)).seq d := by
  show (FOvr.call env (FOvr.method (writesInside env t) i b) b (.write x)).seq d =
    (FOvr.call env (FOvr.method (FOverride.default env) i b) b (.write x)).seq d
  have hw : (FOvr.write env (FOvr.method (writesInside env t) i b) b x).seq d =
      (FOvr.write env (FOvr.method (FOverride.default env) i b) b x).seq d := by
    have hc : (FOvr.onFiles (writable b) : DProg U Bool).seq d = (.ok true, d) := by
      rw [onFiles_seq, show (writable b).seq d.files = (.ok true, d.files) by
        rw [writable, Prog.seq_withLock, Prog.seq_withLock]; simp [hb]]
    unfold FOvr.write
    rw [Prog.seq_bind_ok hc, Prog.seq_bind_ok hc]
    simp only [Bool.not_true, Bool.false_eq_true, if_false]
    exact writeCore_inside env i b hb h ht he x d
  unfold FOvr.call
  rw [Prog.seq_bind_ok (Prog.seq_outcome _ _), Prog.seq_bind_ok (Prog.seq_outcome _ _), hw]

/-! ## Examples -/

/-- Two processes; the `parse_lines` of process 0 raises if it is given the line `x`, the other one looks at the
buffer. -/
def exPar (env : FEnv) : Nat → FOverride Nat
  | 0 => fun b ls => if lit "x" ∈ ls then .raise .valueError else FOverride.default env b ls
  | _ => lookAndStore env

/-- Process 0 writes `ab`, then (while process 1 is in the middle of writing a line) `c\nd`; then `\nx\n`, which its
`parse_lines` refuses; the draft `d` is still there afterwards, and given again. -/
example : (moves (ovProcs {} (fun j => (exPar {} j).noting) fun i c => CallOk {} (exBufs i) c) 2
      ([.start 0 (.write (lit "ab")), .start 1 (.write (lit "cd\n"))] ++ List.replicate 10 (.go 0) ++
        List.replicate 6 (.go 1) ++ [.start 0 (.write (lit "c\nd"))] ++ List.replicate 24 (.go 0) ++
        [.start 0 (.write (lit "\nx\n"))] ++ List.replicate 10 (.go 0) ++
        [.start 0 .newLine] ++ List.replicate 20 (.go 0))
      (init ⟨emptyFS, fun _ => (0, [])⟩ exBufs)).map (fun z => (z.2.st.own 0).2) =
    some [[lit "abc"], [lit "d", lit "x"], [lit "d"]] := by
  decide +kernel

/-- `write("a\nb")` with a `parse_lines` that writes `zz` to its own buffer: the draft is `b`. -/
example : ((ovProcs {} (fun _ => writesInside {} (lit "zz")) fun _ _ => True).call 0 exBuf (.write (lit "a\nb"))).seq
      (⟨emptyFS, fun _ => 0⟩ : OvDir Nat) |>.2.files exBuf.tmpName = some (lit "b") := by
  decide +kernel

end SyncStream
