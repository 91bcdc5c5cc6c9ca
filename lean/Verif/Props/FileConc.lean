import Verif.Lemmas.Orderly
import Verif.Lemmas.FileConc
import Verif.Lemmas.Sched
import Verif.Props.File
/-!
# Properties of file mode with several processes
-/

namespace SyncStream

open Spec FileBuf Conc

/-! ## C30 -/

theorem fresh_srep {env : FEnv} {bufs : Nat → FileBuf} (hb : Family bufs) (hm : 1 ≤ (bufs 0).maxlen)
    (ho : ∀ i, (bufs i).closed = false) {s : FS} (hf : ∀ i, Fresh (bufs i) s) :
    SRep env bufs s bufs { cap := (bufs 0).maxlen } where
  own i := ⟨false, by rw [← ho i]⟩
  rep i := by
    have := fresh_rep (env := env) (by rw [hb.maxlen i]; exact hm) (ho i) (hf i)
    rw [hb.maxlen i] at this
    exact this

/-- **C30** Any number of processes with distinct tmp ids and the same `maxlen`, each making whatever
calls it likes on its `LineFileBuffer`, the primitive steps interleaved in any way: all calls and
results are those of one shared log on which every call takes effect in one moment between its start
and its end.  And whenever no call is running, the record files hold exactly the last `maxlen`
completed lines of the shared log, the newest in number 0, and the temporary files hold the
unfinished lines. -/
theorem C30_linearizable (env : FEnv) (hnl : env.encodable 10 = true) (bufs : Nat → FileBuf)
    (hb : Family bufs) (hm : 1 ≤ (bufs 0).maxlen) (ho : ∀ i, (bufs i).closed = false) (s : FS)
    (hf : ∀ i, Fresh (bufs i) s) (tr : List (Ev FCall Ret)) (κ : Conf FS PyStr FileBuf FCall Ret)
    (hx : Exec (fileProcs env fun i c => CallOk env (bufs i) c) (init s bufs) tr κ) :
    ∃ m stat, AExec SLog.Step ⟨{ cap := (bufs 0).maxlen }, fun _ => .idle⟩ tr ⟨m, stat⟩ ∧
      ((∀ i, κ.cur i = none) →
        (∀ k, κ.st ((bufs 0).logName k) =
          ((lastN (bufs 0).maxlen m.done).map fun x => writeNewlines env.crlf x.2).reverse[k]?) ∧
        ∀ i, (κ.st (bufs i).tmpName).getD [] = m.part i) := by
  obtain ⟨a, h1, h2⟩ := exec_rel (FileBuf.orderly env _) (call_disciplined env hb fun _ _ h => h) (s := s) trivial
    (fun i => ⟨false, by rw [← ho i]⟩) hx
  obtain ⟨m, h3, h4⟩ := srep_exec env hnl hb (fun _ _ h => h) (fresh_srep hb hm ho hf) h1
  refine ⟨m, a.stat, h3, fun hq => ?_⟩
  obtain ⟨q1, q2, q3⟩ := h2.quiet hq
  refine ⟨fun k => ?_, fun i => ?_⟩
  · rw [q1 _ rfl _ (notTmp_log _ _)]
    have := (h4.rep 0).recs k
    obtain ⟨x, e⟩ := h4.own 0
    have hc : (bufs 0).maxlen = m.cap := by
      have := (h4.rep 0).cap
      rw [e] at this
      exact this
    rw [e] at this
    rw [show (bufs 0).logName k = ({ bufs 0 with closed := x } : FileBuf).logName k from rfl, this]
    simp [SLog.of, lastN, hc, Function.comp_def]
  · have e1 : κ.st (bufs i).tmpName = a.st.1 (bufs i).tmpName := q2 i
    have := (h4.rep i).tmp
    obtain ⟨x, e⟩ := h4.own i
    rw [e] at this
    rw [e1]
    exact this

/-- The calls of process `i` that have taken effect. -/
def effective (i : Nat) (tr : List (Ev FCall Ret)) (a : AConf SLog FCall Ret) : List FCall :=
  match a.stat i with
  | .called _ => (callsOf i tr).dropLast
  | _ => callsOf i tr

theorem callsOf_append {C R : Type} (i : Nat) (tr tr' : List (Ev C R)) :
    callsOf i (tr ++ tr') = callsOf i tr ++ callsOf i tr' := by
  induction tr with
  | nil => rfl
  | cons e tr ih =>
    cases e with
    | inv j c => simp only [List.cons_append, callsOf]; split <;> simp [ih]
    | ret j r => simpa [callsOf] using ih

/-- A call other than `clear` does the same to the own lines whatever the others have completed. -/
theorem fstep_alone {l l' : FLog} {c : FCall} {r : Ret} (h : FLog.Step l c r l') (hc : c ≠ .clear)
    {new : List PyStr} (hn : l'.done = l.done ++ new) (d : List PyStr) :
    ∃ r', FLog.Step { l with done := d } c r' { l' with done := d ++ new } := by
  have hnil : l'.done = l.done → new = [] := fun h => by rw [h] at hn; simpa using hn
  have hfin : ∀ l : FLog, l.finish.done = l.done ++ new →
      ({ l with done := d } : FLog).finish = { l.finish with done := d ++ new } := fun l hl => by
    unfold FLog.finish at hl ⊢
    by_cases hp : l.part = []
    · simp only [hp, if_true] at hl ⊢
      have : new = [] := by simpa using hl
      simp [this]
    · simp only [hp, if_false] at hl ⊢
      have : new = [l.part] := (List.append_cancel_left hl).symm
      simp [this]
  cases h with
  | write d' ls r n h1 h2 h3 =>
    have := List.append_cancel_left hn; subst this
    exact ⟨_, .write { l with done := d } _ _ _ _ h1 h2 h3⟩
  | writeClosed d' h1 =>
    rw [hnil rfl]; exact ⟨_, by simpa using FLog.Step.writeClosed { l with done := d } _ h1⟩
  | newLine h1 =>
    refine ⟨.unit, ?_⟩
    rw [← hfin _ hn]; exact .newLine _ h1
  | newLineClosed h1 =>
    rw [hnil rfl]; exact ⟨_, by simpa using FLog.Step.newLineClosed { l with done := d } h1⟩
  | readAll h1 => rw [hnil rfl]; exact ⟨_, by simpa using FLog.Step.readAll { l with done := d } h1⟩
  | readSize n h1 h2 =>
    rw [hnil rfl]; exact ⟨_, by simpa using FLog.Step.readSize { l with done := d } n h1 h2⟩
  | readNonPos n h1 h2 =>
    rw [hnil rfl]; exact ⟨_, by simpa using FLog.Step.readNonPos { l with done := d } n h1 h2⟩
  | readClosed n h1 =>
    rw [hnil rfl]; exact ⟨_, by simpa using FLog.Step.readClosed { l with done := d } n h1⟩
  | len => rw [hnil rfl]; exact ⟨_, by simpa using FLog.Step.len { l with done := d }⟩
  | maxlen => rw [hnil rfl]; exact ⟨_, by simpa using FLog.Step.maxlen { l with done := d }⟩
  | clear => exact absurd rfl hc
  | flush => rw [hnil rfl]; exact ⟨_, by simpa using FLog.Step.flush { l with done := d }⟩
  | sendExc e t h1 h2 =>
    have := List.append_cancel_left hn; subst this
    exact ⟨_, .sendExc { l with done := d } _ _ h1 h2⟩
  | sendExcClosed e h1 =>
    rw [hnil rfl]; exact ⟨_, by simpa using FLog.Step.sendExcClosed { l with done := d } e h1⟩
  | close h1 =>
    refine ⟨.unit, ?_⟩
    have := FLog.Step.close { l with done := d } h1
    rw [hfin _ hn] at this; exact this
  | closeExc e t h1 h2 =>
    have := List.append_cancel_left hn; subst this
    exact ⟨_, .closeExc { l with done := d } _ _ h1 h2⟩
  | closeClosed x h1 =>
    rw [hnil rfl]; exact ⟨_, by simpa using FLog.Step.closeClosed { l with done := d } x h1⟩
  | exit h1 =>
    refine ⟨.unit, ?_⟩
    rw [← hfin _ hn]; exact .exit _ h1
  | exitExc e t h1 h2 =>
    have := List.append_cancel_left hn; subst this
    exact ⟨_, .exitExc { l with done := d } _ _ h1 h2⟩
  | exitClosed x h1 =>
    rw [hnil rfl]; exact ⟨_, by simpa using FLog.Step.exitClosed { l with done := d } x h1⟩
  | closed => rw [hnil rfl]; exact ⟨_, by simpa using FLog.Step.closed { l with done := d }⟩
  | readable => rw [hnil rfl]; exact ⟨_, by simpa using FLog.Step.readable { l with done := d }⟩
  | writable => rw [hnil rfl]; exact ⟨_, by simpa using FLog.Step.writable { l with done := d }⟩

theorem fsteps_snoc {l l' l'' : FLog} {cs : List FCall} {rs : List Ret} {c : FCall} {r : Ret}
    (h : FLog.Steps l cs rs l') (h' : FLog.Step l' c r l'') :
    FLog.Steps l (cs ++ [c]) (rs ++ [r]) l'' := by
  induction h with
  | nil => exact .cons _ _ _ _ _ _ _ h' (.nil _)
  | cons _ _ _ _ _ _ _ h1 _ ih => exact .cons _ _ _ _ _ _ _ h1 (ih h')

theorem mine_append (m : SLog) (i j : Nat) (new : List PyStr) (p : Nat → PyStr) (q : Nat → Bool) :
    ({ m with done := m.done ++ new.map (i, ·), part := p, closed := q } : SLog).mine j =
      m.mine j ++ if j = i then new else [] := by
  simp only [SLog.mine, List.filter_append, List.map_append]
  congr 1
  by_cases h : j = i
  · subst h; simp [List.filter_map, Function.comp_def]
  · have : ¬ i = j := fun e => h e.symm
    simp [List.filter_map, Function.comp_def, h, this]

/-- **C30** The shared log mixes whole records, in order: if nobody clears, the records of process `i`,
its unfinished line and its closed flag are those that the same calls give when `i` is alone. -/
theorem C30_own_order (cap : Nat) (tr : List (Ev FCall Ret)) (a : AConf SLog FCall Ret)
    (hx : AExec SLog.Step ⟨{ cap := cap }, fun _ => .idle⟩ tr a)
    (hc : ∀ i c, .inv i c ∈ tr → c ≠ .clear) (i : Nat) :
    ∃ rs, FLog.Steps { cap := cap } (effective i tr a) rs
      { cap := cap, done := a.st.mine i, part := a.st.part i, closed := a.st.closed i } := by
  suffices h : (∃ rs, FLog.Steps { cap := cap } (effective i tr a) rs
      { cap := cap, done := a.st.mine i, part := a.st.part i, closed := a.st.closed i }) ∧
      (∀ j c, a.stat j = .called c → (callsOf j tr).getLast? = some c ∧ Ev.inv j c ∈ tr) ∧
      a.st.cap = cap from h.1
  generalize h0 : (⟨{ cap := cap }, fun _ => .idle⟩ : AConf SLog FCall Ret) = a0 at hx
  induction hx with
  | nil => subst h0; exact ⟨⟨[], .nil _⟩, fun j c h => (by cases h), rfl⟩
  | snoc a' a'' tr e h1 h2 ih =>
    obtain ⟨⟨rs, ih1⟩, ih2, ih3⟩ := ih (fun i c hm => hc i c (List.mem_append_left _ hm))
    cases h2 with
    | inv j c hi =>
      refine ⟨?_, fun j' c' h' => ?_, ih3⟩
      · refine ⟨rs, ?_⟩
        have : effective i (tr ++ (some (Ev.inv j c)).toList)
            { a' with stat := upd a'.stat j (.called c) } = effective i tr a' := by
          simp only [effective, callsOf_append, Option.toList]
          by_cases hj : i = j
          · subst hj; simp [callsOf, hi]
          · have : ¬ j = i := fun e => hj e.symm
            simp [callsOf, upd_other _ _ hj, this]
        rw [this]; exact ih1
      · by_cases hj : j' = j
        · subst hj
          simp only [upd_same] at h'
          cases h'
          simp [callsOf_append, callsOf]
        · simp only [upd_other _ _ hj] at h'
          have : ¬ j = j' := fun e => hj e.symm
          simp [callsOf_append, callsOf, this, ih2 j' c' h']
    | effect j c r st hi hsp =>
      obtain ⟨hl, hin⟩ := ih2 j c hi
      have hcl := hc j c (List.mem_append_left _ hin)
      refine ⟨?_, fun j' c' h' => ?_, ?_⟩
      · cases hsp with
        | clear => exact absurd rfl hcl
        | other _ _ l new hn1 hn2 hn3 =>
          by_cases hj : i = j
          · subst hj
            obtain ⟨r', h3⟩ := fstep_alone hn2 hn1 hn3 (a'.st.mine i)
            have e1 : effective i (tr ++ (none : Option (Ev FCall Ret)).toList)
                ⟨{ a'.st with
                   done := a'.st.done ++ new.map (i, ·)
                   part := upd a'.st.part i l.part
                   closed := upd a'.st.closed i l.closed }, upd a'.stat i (.done r)⟩ =
                effective i tr a' ++ [c] := by
              simp only [effective, callsOf_append, Option.toList, upd_same, hi]
              simp only [callsOf, List.append_nil]
              obtain ⟨ys, hys⟩ := List.getLast?_eq_some_iff.1 hl
              rw [hys]; simp
            refine ⟨rs ++ [r'], ?_⟩
            rw [e1]
            refine fsteps_snoc ih1 ?_
            have e2 : l.cap = cap := by
              have : l.cap = (a'.st.of i).cap := by
                cases hn2 <;> first | rfl | (simp only [FLog.finish]; split <;> rfl)
              rw [this]; exact ih3
            rw [mine_append]
            simp only [upd_same, if_true]
            have e3 : ({ a'.st.of i with done := a'.st.mine i } : FLog) =
              { cap := cap, done := a'.st.mine i, part := a'.st.part i, closed := a'.st.closed i } := by
              simp [SLog.of, ih3]
            rw [e3] at h3
            rw [← e2]
            rw [← e2] at h3
            exact h3
          · refine ⟨rs, ?_⟩
            rw [mine_append]
            have hij : ¬ j = i := fun e => hj e.symm
            simp only [upd_other _ _ hj, if_neg hj, List.append_nil]
            have e1 : effective i (tr ++ (none : Option (Ev FCall Ret)).toList)
                ⟨{ a'.st with
                   done := a'.st.done ++ new.map (j, ·)
                   part := upd a'.st.part j l.part
                   closed := upd a'.st.closed j l.closed }, upd a'.stat j (.done r)⟩ =
                effective i tr a' := by
              simp [effective, upd_other _ _ hj]
            rw [e1]; exact ih1
      · by_cases hj : j' = j
        · subst hj; simp at h'
        · simp only [upd_other _ _ hj] at h'
          simpa [callsOf_append, callsOf] using ih2 j' c' h'
      · cases hsp <;> exact ih3
    | ret j r hi =>
      refine ⟨⟨rs, ?_⟩, fun j' c' h' => ?_, ih3⟩
      · have : effective i (tr ++ (some (Ev.ret j r)).toList) { a' with stat := upd a'.stat j .idle } =
            effective i tr a' := by
          simp only [effective, callsOf_append, Option.toList]
          by_cases hj : i = j
          · subst hj; simp [callsOf, hi]
          · simp [callsOf, upd_other _ _ hj]
        rw [this]; exact ih1
      · by_cases hj : j' = j
        · subst hj; simp at h'
        · simp only [upd_other _ _ hj] at h'
          simpa [callsOf_append, callsOf] using ih2 j' c' h'

/-- Buffers of processes with the tmp ids "0", "1", ... -/
def exBufs (i : Nat) : FileBuf := { exBuf with tmpId := dec i }

theorem exFamily : Family exBufs where
  name _ := rfl
  maxlen _ := rfl
  tmpId _ _ h := dec_inj h

/-- Two processes write a line each; process 1 does it while process 0 is in the middle of its call
(it has just looked for its unfinished line); then process 0 reads. -/
example : ((moves (fileProcs {} fun i c => CallOk {} (exBufs i) c) 2
      ([.start 0 (.write (lit "ab\n")), .start 1 (.write (lit "cd\n"))] ++ List.replicate 7 (.go 0) ++
        List.replicate 20 (.go 1) ++ List.replicate 15 (.go 0) ++
        [.start 0 (.read none)] ++ List.replicate 14 (.go 0))
      (init emptyFS exBufs)).map (·.1)) =
    some [.inv 0 (.write (lit "ab\n")), .inv 1 (.write (lit "cd\n")), .ret 1 (.nat 0),
      .ret 0 (.nat 0), .inv 0 (.read none), .ret 0 (.items [.str (lit "cd"), .str (lit "ab")])] := rfl

/-- A process that wants the file lock has to wait while another one is in its section. -/
example : ((moves (fileProcs {} fun i c => CallOk {} (exBufs i) c) 2
      ([.start 0 (.write (lit "ab\n")), .start 1 (.write (lit "cd\n"))] ++ List.replicate 9 (.go 0) ++
        List.replicate 2 (.go 1)) (init emptyFS exBufs)).isNone) = true := rfl

end SyncStream
