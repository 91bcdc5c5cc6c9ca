import Verif.Props.FileDeath
/-!
# Properties of file mode with several names in one directory

Process `i` has a buffer with the name `nm i` and keeps `m i` records; several processes may have the same name.  The names share one
directory; calls of any number of processes overlap and every process can die at any moment.
-/

namespace SyncStream

open Spec FileBuf Conc

/-- **C71** Buffers of several names are at work in one directory, and no name is another one followed by `-` and more.  Then every name has
a shelf of its own: each step of a call changes the shelf of the name of its process only, in a way that the call allows, and what a call
returns is about the shelf of its own name – whatever the calls for the other names do at the same time (also `clear`), and whoever dies. -/
theorem C71_names_apart (env : FEnv) (nm : Nat → PyStr) (hg : ∀ i, NoGlob (nm i)) (hu : Unrelated fun N => ∃ i, N = nm i)
    (m : Nat → Nat) (hm : ∀ i, 1 ≤ m i) (ok : Nat → FCall → Prop) :
    ∃ R : Conf FS PyStr FileBuf FCall Ret → (PyStr → Shelf) → (Nat → List (PyStr → Shelf)) → Prop,
      (∀ s bufs f, Starts nm m s bufs f → R (init s bufs) f fun _ => []) ∧
      ∀ κ f since, R κ f since → (∀ i, OnShelf (nm i) (f (nm i)) κ.st ∧ (f (nm i)).Good) ∧
        ∀ e κ', DStep (fileProcs env ok) (OfNames nm m) κ e κ' → ∃ f',
          (f' = f ∨ ∃ i c p, κ.cur i = some (c, p) ∧ (∀ N, N ≠ nm i → f' N = f N) ∧
            (f (nm i)).Step (Stored env c) (c = .clear) (f' (nm i))) ∧
          R κ' f' (watched since e f') ∧
          ∀ i r, e = some (.ret i r) → ∃ c p, κ.cur i = some (c, p) ∧ Answers env (m i) ((since i).map (· (nm i))) c r := by
  obtain ⟨R, h1, h2⟩ := deaths_names env nm hg hu m hm ok False False.elim
  refine ⟨R, fun s bufs f h => h1 s bufs f h False.elim, fun κ f since h => ?_⟩
  obtain ⟨h3, h4⟩ := h2 κ f since h
  refine ⟨fun i => ⟨(h3 i).1, (h3 i).2.1⟩, fun e κ' hd => ?_⟩
  obtain ⟨f', h6, h7⟩ := h4 e κ' hd
  exact ⟨f', h6.imp id fun ⟨i, c, p, h8, h9, h10, _⟩ => ⟨i, c, p, h8, h9, h10⟩, h7⟩

/-- **C71** If moreover no call adds more than one record, then the records of every name are in order.

Missing for the full claim: calls that add several records at once; see `C70_order_violated`. -/
theorem C71_order_partial (env : FEnv) (nm : Nat → PyStr) (hg : ∀ i, NoGlob (nm i)) (hu : Unrelated fun N => ∃ i, N = nm i)
    (m : Nat → Nat) (hm : ∀ i, 1 ≤ m i) (ok : Nat → FCall → Prop) (hone : ∀ i c, ok i c → OneLine c) :
    ∃ R : Conf FS PyStr FileBuf FCall Ret → (PyStr → Shelf) → (Nat → List (PyStr → Shelf)) → Prop,
      (∀ s bufs f, Starts nm m s bufs f → (∀ i, (f (nm i)).InOrder) → R (init s bufs) f fun _ => []) ∧
      ∀ κ f since, R κ f since → (∀ i, OnShelf (nm i) (f (nm i)) κ.st ∧ (f (nm i)).Good ∧ (f (nm i)).InOrder) ∧
        ∀ e κ', DStep (fileProcs env ok) (OfNames nm m) κ e κ' → ∃ f',
          (f' = f ∨ ∃ i c p, κ.cur i = some (c, p) ∧ (∀ N, N ≠ nm i → f' N = f N) ∧
            (f (nm i)).Turn (m i) (Stored env c) (c = .clear) (f' (nm i))) ∧
          (∀ j M, (∀ i, nm i = nm j → m i = M) → (∀ i c p, nm i = nm j → κ.cur i = some (c, p) → c ≠ .clear) →
            (f (nm j)).Kept M (f' (nm j))) ∧
          R κ' f' (watched since e f') ∧
          ∀ i r, e = some (.ret i r) → ∃ c p, κ.cur i = some (c, p) ∧ Answers env (m i) ((since i).map (· (nm i))) c r := by
  obtain ⟨R, h1, h2⟩ := deaths_names env nm hg hu m hm ok True fun _ => hone
  refine ⟨R, fun s bufs f h hin => h1 s bufs f h fun _ => hin, fun κ f since h => ?_⟩
  obtain ⟨h3, h4⟩ := h2 κ f since h
  refine ⟨fun i => ⟨(h3 i).1, (h3 i).2.1, (h3 i).2.2 trivial⟩, fun e κ' hd => ?_⟩
  obtain ⟨f', h6, h7⟩ := h4 e κ' hd
  refine ⟨f', h6.imp id fun ⟨i, c, p, h8, h9, _, h10⟩ => ⟨i, c, p, h8, h9, h10 trivial⟩, fun j M hM hc => ?_, h7⟩
  rcases h6 with rfl | ⟨i, c, p, h8, h9, _, h10⟩
  · exact Shelf.Kept.refl M _
  · by_cases e : nm j = nm i
    · have h10 := h10 trivial
      rw [hM i e.symm, show (c = .clear) = False from propext ⟨hc i c p e.symm h8, False.elim⟩] at h10
      rw [e]
      exact Shelf.Kept.turn (h3 i).2.1 ((h3 i).2.2 trivial) h10
    · rw [h9 _ e]
      exact Shelf.Kept.refl M _

/-- **C71** For whole executions: no call ever ends with `FileNotFoundError`. -/
theorem C71_no_missing_file (env : FEnv) (nm : Nat → PyStr) (hg : ∀ i, NoGlob (nm i)) (hu : Unrelated fun N => ∃ i, N = nm i)
    (m : Nat → Nat) (hm : ∀ i, 1 ≤ m i) (ok : Nat → FCall → Prop) (s : FS) (bufs : Nat → FileBuf) (f : PyStr → Shelf)
    (hs : Starts nm m s bufs f) (tr : List (Ev FCall Ret)) (κ : Conf FS PyStr FileBuf FCall Ret)
    (hx : DExec (fileProcs env ok) (OfNames nm m) (init s bufs) tr κ) (i : Nat) : Ev.ret i (.exc .fileNotFound) ∉ tr := by
  obtain ⟨R, h1, h2⟩ := C71_names_apart env nm hg hu m hm ok
  suffices H : ∃ f since, R κ f since ∧ Ev.ret i (.exc .fileNotFound) ∉ tr from H.choose_spec.choose_spec.2
  have h0 := h1 s bufs f hs
  generalize init s bufs = κ0 at hx h0
  induction hx with
  | nil => exact ⟨_, _, h0, List.not_mem_nil⟩
  | snoc κ1 κ2 tr e _ hd ih =>
    obtain ⟨f1, since1, h3, h4⟩ := ih
    obtain ⟨f2, _, h5, h6⟩ := (h2 _ _ _ h3).2 e _ hd
    refine ⟨f2, _, h5, fun hin => ?_⟩
    rcases List.mem_append.1 hin with hin | hin
    · exact h4 hin
    · obtain rfl : e = some (.ret i (.exc .fileNotFound)) := by
        cases e with
        | none => cases hin
        | some e => rw [List.mem_singleton.1 hin]
      obtain ⟨c, p, _, h7⟩ := h6 i _ rfl
      exact h7.found rfl

/-- **C71** For whole executions: if no process with the name of process `j` ever calls anything that adds text or clears, then its records
stay as they were, whatever the others do. -/
theorem C71_untouched (env : FEnv) (nm : Nat → PyStr) (hg : ∀ i, NoGlob (nm i)) (hu : Unrelated fun N => ∃ i, N = nm i)
    (m : Nat → Nat) (hm : ∀ i, 1 ≤ m i) (ok : Nat → FCall → Prop) (s : FS) (bufs : Nat → FileBuf) (f : PyStr → Shelf)
    (hs : Starts nm m s bufs f) (j : Nat) (hj : ∀ i c, nm i = nm j → ok i c → (∀ t, ¬ Adds c t) ∧ c ≠ .clear)
    (tr : List (Ev FCall Ret)) (κ : Conf FS PyStr FileBuf FCall Ret)
    (hx : DExec (fileProcs env ok) (OfNames nm m) (init s bufs) tr κ) (k : Nat) :
    κ.st (nm j ++ lit "-" ++ dec k ++ lit ".log") = s (nm j ++ lit "-" ++ dec k ++ lit ".log") := by
  obtain ⟨R, h1, h2⟩ := C71_names_apart env nm hg hu m hm ok
  suffices H : ∃ f' since, R κ f' since ∧ f' (nm j) = f (nm j) ∧ ∀ i c p, κ.cur i = some (c, p) → ok i c by
    obtain ⟨f', since, h3, h4, _⟩ := H
    have h5 := ((h2 _ _ _ h3).1 j).1 k
    rw [h4] at h5
    exact h5.trans (hs.recs j k).symm
  have h0 := h1 s bufs f hs
  have hc0 : ∀ i c p, (init s bufs : Conf FS PyStr FileBuf FCall Ret).cur i = some (c, p) → ok i c := fun i c p h => nomatch h
  generalize init s bufs = κ0 at hx h0 hc0
  induction hx with
  | nil => exact ⟨_, _, h0, rfl, hc0⟩
  | snoc κ1 κ2 tr e _ hd ih =>
    obtain ⟨f1, since1, h3, h4, h4'⟩ := ih
    obtain ⟨f2, h6, h5, _⟩ := (h2 _ _ _ h3).2 e _ hd
    refine ⟨f2, _, h5, ?_, ?_⟩
    · rcases h6 with rfl | ⟨i, c, p, hc, h7, h8⟩
      · exact h4
      · by_cases e : nm j = nm i
        · obtain ⟨h9, h10⟩ := hj i c e.symm (h4' i c p hc)
          rw [← h4]
          rw [← e] at h8
          have no : ∀ t, ¬ Stored env c t := fun t ⟨t', ha, _⟩ => h9 t' ha
          generalize f2 (nm j) = f' at h8 ⊢
          cases h8 with
          | clear _ h => exact absurd h h10
          | drop _ h => exact absurd h.choose_spec (no _)
          | move _ _ _ h => exact absurd h.choose_spec (no _)
          | begin _ t h => exact absurd h (no _)
          | extend _ _ _ _ _ h => exact absurd h (no _)
        · rw [h7 _ e, h4]
    · intro i c p hc
      have upd_ok : ∀ (a : Nat) (x : Option (FCall × Prog FS PyStr (Ret × FileBuf))),
          upd κ1.cur a x i = some (c, p) → (∀ c p, x = some (c, p) → ok a c) → ok i c := fun a x h hx => by
        by_cases e : i = a
        · subst e; rw [upd_same] at h; exact hx c p h
        · rw [upd_other _ _ e] at h; exact h4' i c p h
      cases hd with
      | die a _ _ => exact upd_ok _ _ hc nofun
      | step _ _ hst =>
        cases hst with
        | inv a c' _ hok => exact upd_ok _ _ hc fun _ _ h => by cases h; exact hok
        | act a c' _ _ h => exact upd_ok _ _ hc fun _ _ h' => by cases h'; exact h4' _ _ _ h
        | acq a c' _ _ _ h => exact upd_ok _ _ hc fun _ _ h' => by cases h'; exact h4' _ _ _ h
        | rel a c' _ _ _ h => exact upd_ok _ _ hc fun _ _ h' => by cases h'; exact h4' _ _ _ h
        | ret a _ _ _ _ => exact upd_ok _ _ hc nofun

/-! ## What fails for related names, and concrete cases -/

/-- Process 0 has the name "x", the others have the name "x-y". -/
def relatedNames (i : Nat) : PyStr := if i = 0 then lit "x" else lit "x-y"

def relatedBufs (i : Nat) : FileBuf := { name := relatedNames i, tmpId := dec i, maxlen := 3 }

/-- The same with names that are not related: "x" and "y". -/
def twoNames (i : Nat) : PyStr := if i = 0 then lit "x" else lit "y"

def twoBufs (i : Nat) : FileBuf := { name := twoNames i, tmpId := dec i, maxlen := 3 }

/-- Every observation of these moves and deaths is one of an execution. -/
theorem names_exec (nm : Nat → PyStr) (bufs : Nat → FileBuf) (hb : ∀ i, OfNames nm (fun _ => 3) i (bufs i)) {ms : List (DMove FCall)}
    {tr : List (Ev FCall Ret)}
    (h : (dmoves (fileProcs {} fun _ _ => True) 2 bufs ms (init (fun _ => none) bufs)).map (·.1) = some tr) :
    ∃ κ, DExec (fileProcs {} fun _ _ => True) (OfNames nm fun _ => 3) (init (fun _ => none) bufs) tr κ := by
  cases hd : dmoves (fileProcs {} fun _ _ => True) 2 bufs ms (init (fun _ => none) bufs) with
  | none => rw [hd] at h; cases h
  | some x =>
    rw [hd] at h
    cases h
    exact ⟨x.2, dmoves_sound (fun _ _ => trivial) hb (fun _ _ _ => rfl) hd⟩

/-- **C71** With the names "x" and "x-y": while process 1 writes to "x-y" and has just seen that there is a record to be moved, process 0
clears "x", which takes away the record of "x-y"; the `write` ends with `FileNotFoundError` and its text is lost. -/
theorem C71_related_violated :
    ∃ κ, DExec (fileProcs {} fun _ _ => True) (OfNames relatedNames fun _ => 3) (init (fun _ => none) relatedBufs)
      [.inv 1 (.write (lit "a\n")), .ret 1 (.nat 0), .inv 1 (.write (lit "b\n")), .inv 0 .clear, .ret 0 .unit,
        .ret 1 (.exc .fileNotFound), .inv 1 (.read none), .ret 1 (.items [])] κ :=
  names_exec relatedNames relatedBufs (fun _ => ⟨rfl, rfl⟩) (ms := begins 1 (.write (lit "a\n")) 19 ++ begins 1 (.write (lit "b\n")) 11 ++ begins 0 .clear 8 ++
    List.replicate 3 (.mv (.go 1)) ++ begins 1 (.read none) 12) rfl

/-- An environment that lists directories as `L` says. -/
abbrev listEnv (L : (PyStr → Bool) → Option (List PyStr)) (hL : ∀ P ns, L P = some ns → ns.Nodup ∧ ∀ n, n ∈ ns ↔ P n = true) : FEnv :=
  { listing := L, lists := hL }

/-- There is one record of "x-y". -/
def oneRecord : FS := fun n => if n = lit "x-y-0.log" then some (lit "a") else none

/-- What process 0 does after it has looked, if this is what it has found. -/
def lookedUp (found : FProg Unit) : Prog FS PyStr (Ret × FileBuf) :=
  ((found.andRelease (lit "x.lock") true).bind fun _ => Prog.withLock (relatedBufs 0).tmpLockName true do
    if ← File.isfile (relatedBufs 0).tmpName then File.remove (relatedBufs 0).tmpName).outcome.bind fun r =>
      .ret (Ret.of (fun _ => .unit) r, relatedBufs 0)

/-- **C71** With the names "x" and "x-y", on a platform that lists directories: process 0 clears "x" and has found the record of "x-y";
before it removes it, process 1, which adds a record to "x-y", moves it away.  The `clear` of "x" ends with `FileNotFoundError`. -/
theorem C71_related_clear_violated (L : (PyStr → Bool) → Option (List PyStr))
    (hL : ∀ P ns, L P = some ns → ns.Nodup ∧ ∀ n, n ∈ ns ↔ P n = true)
    (hf : ∀ (P : PyStr → Bool) (l : List PyStr), l.Nodup → (∀ n, n ∈ l ↔ P n = true) → ∃ ns, L P = some ns) :
    ∃ κ, DExec (fileProcs (listEnv L hL) fun _ _ => True) (OfNames relatedNames fun _ => 3) (init oneRecord relatedBufs)
      [.inv 0 .clear, .inv 1 (.write (lit "b\n")), .ret 0 (.exc .fileNotFound)] κ := by
  have look : L (fun n => globMatch (lit "x-*.log") n && (oneRecord n).isSome) = some [lit "x-y-0.log"] := by
    have hP : ∀ n, n ∈ [lit "x-y-0.log"] ↔ (globMatch (lit "x-*.log") n && (oneRecord n).isSome) = true := fun n => by
      by_cases e : n = lit "x-y-0.log"
      · subst e; simp only [List.mem_singleton, true_iff]; decide +kernel
      · simp [oneRecord, e]
    obtain ⟨ns, h⟩ := hf _ _ (by simp) hP
    rw [h]
    obtain ⟨h1, h2⟩ := hL _ _ h
    have h3 : ∀ n, n ∈ ns ↔ n = lit "x-y-0.log" := fun n => by rw [h2, ← hP]; exact List.mem_singleton
    match ns, h1, h3 with
    | [], _, h3 => exact absurd ((h3 _).2 rfl) List.not_mem_nil
    | [a], _, h3 => rw [(h3 a).1 (List.mem_singleton.2 rfl)]
    | a :: b :: t, h1, h3 =>
      have ha := (h3 a).1 (by simp)
      have hb := (h3 b).1 (by simp)
      exact absurd (ha.trans hb.symm) (by simp at h1; exact h1.1.1)
  let sys := fileProcs (listEnv L hL) fun _ _ => True
  let K : Option (List PyStr) → Prog FS PyStr (Ret × FileBuf) := fun r => lookedUp
    (match r with
      | some ns => removeAll ns
      | none => .act (fun s n => if globMatch (lit "x-*.log") n then none else s n) fun _ => .ret ())
  let κ1 : Conf FS PyStr FileBuf FCall Ret :=
    { (init oneRecord relatedBufs : Conf FS PyStr FileBuf FCall Ret) with
      cur := upd (fun _ => none) 0 (some (.clear, call (listEnv L hL) (relatedBufs 0) .clear)) }
  let k : FS → Prog FS PyStr (Ret × FileBuf) := fun s => K (L fun n => globMatch (lit "x-*.log") n && (s n).isSome)
  let κ2 : Conf FS PyStr FileBuf FCall Ret :=
    { κ1 with held := upd κ1.held 0 fun l => if l = lit "x.lock" then true :: κ1.held 0 (lit "x.lock") else κ1.held 0 l
              cur := upd κ1.cur 0 (some (.clear, .act id k)) }
  have fin : ∀ r, r = some [lit "x-y-0.log"] → ∃ κ, DExec sys (OfNames relatedNames fun _ => 3)
      { κ2 with st := id κ2.st, cur := upd κ2.cur 0 (some (.clear, K r)) }
      [.inv 1 (.write (lit "b\n")), .ret 0 (.exc .fileNotFound)] κ := by
    rintro _ rfl
    have hm : (dmoves sys 2 relatedBufs (begins 1 (.write (lit "b\n")) 11 ++ List.replicate 3 (.mv (.go 0)))
        { κ2 with st := id κ2.st, cur := upd κ2.cur 0 (some (.clear, K (some [lit "x-y-0.log"]))) }).map (·.1) =
      some [.inv 1 (.write (lit "b\n")), .ret 0 (.exc .fileNotFound)] := rfl
    obtain ⟨⟨tr, κ⟩, h1, h2⟩ := Option.map_eq_some_iff.1 hm
    dsimp only at h2
    subst h2
    refine ⟨κ, dmoves_sound (fun _ _ => trivial) (fun _ => ⟨rfl, rfl⟩) (fun j l hj => ?_) h1⟩
    simp only [κ2, κ1, init]
    rw [upd_other _ _ (by omega)]
  obtain ⟨κ, h⟩ := fin _ look
  refine ⟨κ, dexec_cons (e := some (.inv 0 .clear)) (.step _ _ κ1 (.inv _ 0 FCall.clear rfl trivial))
    (dexec_cons (e := none) (.step _ _ κ2 (.acq κ1 0 .clear (lit "x.lock") true (.act id k) rfl ?_))
      (dexec_cons (e := none) (.step _ _ _ (.act κ2 0 .clear id k (by simp only [κ2]; exact upd_same ..))) h))⟩
  simp [CanTake, κ1, init]

/-- The same overlap with the names "x" and "y": the records of "y" are not touched. -/
example : ∃ κ, DExec (fileProcs {} fun _ _ => True) (OfNames twoNames fun _ => 3) (init (fun _ => none) twoBufs)
    [.inv 1 (.write (lit "a\n")), .ret 1 (.nat 0), .inv 1 (.write (lit "b\n")), .inv 0 .clear, .ret 0 .unit, .ret 1 (.nat 0),
      .inv 1 (.read none), .ret 1 (.items [.str (lit "a"), .str (lit "b")])] κ :=
  names_exec twoNames twoBufs (fun _ => ⟨rfl, rfl⟩) (ms := begins 1 (.write (lit "a\n")) 19 ++ begins 1 (.write (lit "b\n")) 11 ++
    begins 0 .clear 8 ++ List.replicate 11 (.mv (.go 1)) ++ begins 1 (.read none) 14) rfl

/-- The names "x" and "y" satisfy the hypotheses, "x" and "x-y" do not. -/
example : (Unrelated fun N => ∃ i, N = twoNames i) ∧ (∀ i, NoGlob (twoNames i)) ∧ ¬ Unrelated fun N => ∃ i, N = relatedNames i := by
  refine ⟨?_, fun i => ?_, fun h => h _ _ ⟨0, rfl⟩ ⟨1, rfl⟩ (lit "y") rfl⟩
  · rintro _ _ ⟨i, rfl⟩ ⟨j, rfl⟩ t h
    have := congrArg List.length h
    unfold twoNames at this
    split at this <;> split at this <;> simp [lit] at this <;> omega
  · unfold twoNames
    split
    · show ∀ c ∈ lit "x", _; decide +kernel
    · show ∀ c ∈ lit "y", _; decide +kernel

/-- The start with no files at all. -/
example : Starts twoNames (fun _ => 3) (fun _ => none) twoBufs fun _ => Shelf.blank :=
  ⟨fun _ _ => rfl, fun _ => ⟨fun _ _ h => (nomatch h), fun _ _ _ _ h => (nomatch h), fun _ _ h => (nomatch h)⟩, fun _ _ => noBreak_nil,
    fun _ => ⟨rfl, rfl⟩⟩

end SyncStream
