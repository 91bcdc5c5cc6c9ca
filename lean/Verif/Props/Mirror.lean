import Verif.Lemmas.Proc
/-!
# Properties C16-C22, C49: `LineProcMirror`
-/

namespace SyncStream
open Spec

/-- The mirrors that can occur: created for queue `q` in either mode and with any timeout, then used
by any calls, while the other processes do anything to what is shared (an arbitrary `Net` before
every call). -/
inductive MReach (q : Nat) : Mirror → Prop
  | new (aggressive : Bool) (timeout : Option Nat) : MReach q (Mirror.new q aggressive timeout)
  | call (c : MCall) (m : Mirror) (n : Net) : MReach q m → MReach q (Mirror.exec c (m, n)).2.1

theorem mreach_norm {q : Nat} {m : Mirror} (h : MReach q m) :
    m.Norm ∧ m.queue = q ∧ m.hasState = true := by
  induction h with
  | new a t => exact ⟨Mirror.norm_new q a t, rfl, rfl⟩
  | call c m n _ ih =>
    obtain ⟨h1, h2, h3⟩ := Mirror.exec_norm c m n ih.1
    exact ⟨h1, h2.trans ih.2.1, h3.trans ih.2.2⟩

theorem mreach_open {q : Nat} {m : Mirror} (h : MReach q m) (ho : m.buf.closed = false) :
    m = m.withBuf m.buf.buf := by
  rcases (mreach_norm h).1 with ⟨p, hp⟩ | hc
  · rw [hp]; rfl
  · rw [hc] at ho; simp [Mirror.closedM] at ho

/-! ## C16 -/

/-- `write(...)` and `new_line()` calls. -/
def MCall.isText : MCall → Bool
  | .write _ => true
  | .newLine => true
  | _ => false

/-- The call raised an exception. -/
def MRet.failed : MRet → Bool
  | .exc _ => true
  | _ => false

/-- The text a call adds: the data of a `write`; a line break for a `new_line()` that has something
to finish. -/
def contribution (c : MCall) (held : PyStr) : PyStr :=
  match c with
  | .write d => d
  | .newLine => if held = [] then [] else lit "\n"
  | _ => []

/-- The text added by a history of calls. -/
def written : List MCall → MNet → PyStr
  | [], _ => []
  | c :: cs, s => contribution c s.1.buf.buf ++ written cs (Mirror.exec c s).2

theorem text_step (c : MCall) (hc : c.isText = true) (m : Mirror) (p : PyStr) (n : Net)
    (ha : m.aggressive = true → p = []) :
    ∃ (p' : PyStr) (n' : Net) (texts : List PyStr), (Mirror.exec c (m.withBuf p, n)).2 = (m.withBuf p', n') ∧
      (m.aggressive = true → p' = []) ∧ n'.closed = n.closed ∧
      (∀ i, i ≠ m.queue → n'.queues i = n.queues i) ∧
      n'.queues m.queue = n.queues m.queue ++ texts.map .str ∧
      (((m.aggressive = false ∧ m.stopped n = false) ∨
        (Mirror.exec c (m.withBuf p, n)).1.failed = false) →
        texts.flatten ++ p' = p ++ contribution c p) ∧
      (NoBreak p → (Mirror.exec c (m.withBuf p, n)).1.failed = false → NoBreak p') := by
  have hw : ∀ d, ∃ (p' : PyStr) (n' : Net) (texts : List PyStr), (Mirror.writeCore d (m.withBuf p, n)).2 = (m.withBuf p', n') ∧
      (m.aggressive = true → p' = []) ∧ n'.closed = n.closed ∧
      (∀ i, i ≠ m.queue → n'.queues i = n.queues i) ∧
      n'.queues m.queue = n.queues m.queue ++ texts.map QMsg.str ∧
      (((m.aggressive = false ∧ m.stopped n = false) ∨
        ∃ k, (Mirror.writeCore d (m.withBuf p, n)).1 = .ok k) →
        texts.flatten ++ p' = p ++ d) ∧
      (NoBreak p → (∃ k, (Mirror.writeCore d (m.withBuf p, n)).1 = .ok k) → NoBreak p') := by
    intro d
    rw [Mirror.writeCore_open]
    by_cases hs : m.stopped n = true
    · simp only [hs, if_true]
      refine ⟨p, n, [], rfl, ha, rfl, fun _ _ => rfl, by simp, ?_, fun h _ => h⟩
      rintro (⟨_, h⟩ | ⟨k, h⟩)
      · cases h
      · cases h
    simp only [hs, Bool.false_eq_true, if_false]
    by_cases hag : m.aggressive = true
    · simp only [hag, if_true]
      have hp := Net.put_spec m.queue (.str d) m.block m.timeout n
      rcases hp.2 with ⟨h1, h2⟩ | ⟨e, h1, h2⟩
      · refine ⟨p, _, [d], rfl, fun _ => ha hag, hp.1, ?_, ?_, ?_, fun h _ => h⟩
        · intro i hi; show (Net.put m.queue (.str d) m.block m.timeout n).2.queues i = _
          rw [h2]; simp [Net.appended, hi]
        · show (Net.put m.queue (.str d) m.block m.timeout n).2.queues m.queue = _
          rw [h2]; simp [Net.appended]
        · intro _; simp [ha hag]
      · refine ⟨p, _, [], rfl, fun _ => ha hag, hp.1, ?_, ?_, ?_, fun h _ => h⟩
        · intro i hi; show (Net.put m.queue (.str d) m.block m.timeout n).2.queues i = _
          rw [h2]
        · show (Net.put m.queue (.str d) m.block m.timeout n).2.queues m.queue = _
          rw [h2]; simp
        · rintro (⟨h, _⟩ | ⟨k, h⟩)
          · cases h
          · exfalso
            have : (m.netPut (.str d) n).1 = .error e := h1
            rw [this] at h; cases h
    · have hag' : m.aggressive = false := by simpa using hag
      simp only [hag', Bool.false_eq_true, if_false]
      by_cases hb : NoBreak d
      · simp only [hb, if_true]
        refine ⟨p ++ d, n, [], rfl, fun h => by simp at h, rfl, fun _ _ => rfl, by simp,
          by simp, fun h _ => noBreak_append.2 ⟨h, hb⟩⟩
      · simp only [hb, if_false]
        have hp := Net.put_spec m.queue (.str (p ++ d)) m.block m.timeout n
        change _ ∧ (((m.netPut _ n).1 = _ ∧ (m.netPut _ n).2.queues = _) ∨ ∃ e,
          (m.netPut _ n).1 = _ ∧ (m.netPut _ n).2.queues = _) at hp
        cases hx : m.netPut (.str (p ++ d)) n with
        | mk r n' =>
          rw [hx] at hp
          have hcl : n'.closed = n.closed := by
            have := hp.1
            rw [show (Net.put m.queue (.str (p ++ d)) m.block m.timeout n) = _ from hx] at this
            exact this
          rcases hp.2 with ⟨h1, h2⟩ | ⟨e, h1, h2⟩
          · dsimp only at h1 h2; subst h1
            refine ⟨[], n', [p ++ d], rfl, fun _ => rfl, hcl, ?_, ?_, by simp,
              fun _ _ => noBreak_nil⟩
            · intro i hi; rw [h2]; simp [Net.appended, hi]
            · rw [h2]; simp [Net.appended]
          · dsimp only at h1 h2; subst h1
            refine ⟨p ++ d, n', [], rfl, fun h => by simp at h, hcl, ?_, ?_, by simp, ?_⟩
            · intro i hi; rw [h2]
            · rw [h2]; simp
            · rintro _ ⟨k, hk⟩; cases hk
  cases c with
  | write d =>
    obtain ⟨p', n', texts, h1, h2, h3, h4, h5, h6, h7⟩ := hw d
    have hf : (Mirror.exec (.write d) (m.withBuf p, n)).1.failed = false →
        ∃ k, (Mirror.writeCore d (m.withBuf p, n)).1 = .ok k := by
      intro h
      simp only [Mirror.exec, Mirror.write_open] at h
      cases hr : (Mirror.writeCore d (m.withBuf p, n)).1 with
      | ok k => exact ⟨k, rfl⟩
      | error e => rw [hr] at h; simp [MRet.of, MRet.failed] at h
    refine ⟨p', n', texts, ?_, h2, h3, h4, h5, ?_, ?_⟩
    · simp only [Mirror.exec, Mirror.write_open, h1]
    · rintro (h | h)
      · exact h6 (.inl h)
      · exact h6 (.inr (hf h))
    · intro hp h; exact h7 hp (hf h)
  | newLine =>
    by_cases hp : p = []
    · subst hp
      refine ⟨[], n, [], ?_, ha, rfl, fun _ _ => rfl, by simp, by simp [contribution], fun h _ => h⟩
      simp only [Mirror.exec, Mirror.newLine_open, if_true]
    · obtain ⟨p', n', texts, h1, h2, h3, h4, h5, h6, h7⟩ := hw (lit "\n")
      have hf : (Mirror.exec .newLine (m.withBuf p, n)).1.failed = false →
          ∃ k, (Mirror.writeCore (lit "\n") (m.withBuf p, n)).1 = .ok k := by
        intro h
        simp only [Mirror.exec, Mirror.newLine_open, hp, if_false] at h
        cases hr : (Mirror.writeCore (lit "\n") (m.withBuf p, n)).1 with
        | ok k => exact ⟨k, rfl⟩
        | error e => rw [hr] at h; simp [MRet.of, MRet.failed, Except.map] at h
      refine ⟨p', n', texts, ?_, h2, h3, h4, h5, ?_, ?_⟩
      · simp only [Mirror.exec, Mirror.newLine_open, hp, if_false, h1]
      · simp only [contribution, hp, if_false]
        rintro (h | h)
        · exact h6 (.inl h)
        · exact h6 (.inr (hf h))
      · intro hp h; exact h7 hp (hf h)
  | _ => cases hc

theorem text_run (cs : List MCall) (hc : ∀ c ∈ cs, c.isText = true) (m : Mirror) (p : PyStr)
    (n : Net) (ha : m.aggressive = true → p = []) :
    ∃ (p' : PyStr) (n' : Net) (texts : List PyStr), (Mirror.run cs (m.withBuf p, n)).2 = (m.withBuf p', n') ∧
      (m.aggressive = true → p' = []) ∧ n'.closed = n.closed ∧
      (∀ i, i ≠ m.queue → n'.queues i = n.queues i) ∧
      n'.queues m.queue = n.queues m.queue ++ texts.map .str ∧
      (((m.aggressive = false ∧ m.stopped n = false) ∨
        ∀ r ∈ (Mirror.run cs (m.withBuf p, n)).1, r.failed = false) →
        texts.flatten ++ p' = p ++ written cs (m.withBuf p, n)) ∧
      (NoBreak p → (∀ r ∈ (Mirror.run cs (m.withBuf p, n)).1, r.failed = false) → NoBreak p') := by
  induction cs generalizing p n with
  | nil => exact ⟨p, n, [], rfl, ha, rfl, fun _ _ => rfl, by simp, by simp [written], fun h _ => h⟩
  | cons c cs ih =>
    obtain ⟨p1, n1, t1, h1, h2, h3, h4, h5, h6, h7⟩ :=
      text_step c (hc c List.mem_cons_self) m p n ha
    obtain ⟨p2, n2, t2, g1, g2, g3, g4, g5, g6, g7⟩ :=
      ih (fun c h => hc c (List.mem_cons_of_mem _ h)) p1 n1 h2
    refine ⟨p2, n2, t1 ++ t2, ?_, g2, g3.trans h3, fun i hi => (g4 i hi).trans (h4 i hi), ?_, ?_, ?_⟩
    · simp only [Mirror.run, h1, g1]
    · rw [g5, h5]; simp
    · intro h
      have hst : m.stopped n1 = m.stopped n := by simp [Mirror.stopped, h3]
      have e1 : t1.flatten ++ p1 = p ++ contribution c p := by
        apply h6
        rcases h with h | h
        · exact .inl h
        · exact .inr (h _ (by simp [Mirror.run]))
      have e2 : t2.flatten ++ p2 = p1 ++ written cs (m.withBuf p1, n1) := by
        apply g6
        rcases h with h | h
        · exact .inl ⟨h.1, hst ▸ h.2⟩
        · refine .inr fun r hr => h r ?_
          simp only [Mirror.run, h1]
          exact List.mem_cons_of_mem _ hr
      simp only [written, h1, Mirror.withBuf_buf, List.flatten_append, List.append_assoc]
      rw [e2, ← List.append_assoc, e1, List.append_assoc]
    · intro hp h
      refine g7 (h7 hp (h _ (by simp [Mirror.run]))) fun r hr => h r ?_
      simp only [Mirror.run, h1]
      exact List.mem_cons_of_mem _ hr

/-- **C16** For a mirror in either mode and any history of `write` and `new_line` calls without
failure, the texts put on the queue followed by the text still buffered are the text written; only
the mirror's own queue is used. -/
theorem C16_conservation (q : Nat) (aggressive : Bool) (timeout : Option Nat) (n : Net)
    (cs : List MCall) (hc : ∀ c ∈ cs, c.isText = true)
    (hok : ∀ r ∈ (Mirror.run cs (Mirror.new q aggressive timeout, n)).1, r.failed = false) :
    ∃ texts : List PyStr,
      (Mirror.run cs (Mirror.new q aggressive timeout, n)).2.2.queues q =
        n.queues q ++ texts.map .str ∧
      texts.flatten ++ (Mirror.run cs (Mirror.new q aggressive timeout, n)).2.1.buf.buf =
        written cs (Mirror.new q aggressive timeout, n) ∧
      ∀ i, i ≠ q →
        (Mirror.run cs (Mirror.new q aggressive timeout, n)).2.2.queues i = n.queues i := by
  have he : Mirror.new q aggressive timeout = (Mirror.new q aggressive timeout).withBuf [] := rfl
  obtain ⟨p', n', texts, h1, _, _, h4, h5, h6, _⟩ :=
    text_run cs hc (Mirror.new q aggressive timeout) [] n (fun _ => rfl)
  rw [← he] at h1 h6
  refine ⟨texts, by rw [h1]; exact h5, ?_, fun i hi => by rw [h1]; exact h4 i hi⟩
  rw [h1]
  simpa using h6 (.inr hok)

/-- **C16** for writes only, where the text written is simply the concatenation. -/
theorem C16_conservation_writes (q : Nat) (aggressive : Bool) (timeout : Option Nat) (n : Net)
    (ds : List PyStr)
    (hok : ∀ r ∈ (Mirror.run (ds.map .write) (Mirror.new q aggressive timeout, n)).1,
      r.failed = false) :
    ∃ texts : List PyStr,
      (Mirror.run (ds.map .write) (Mirror.new q aggressive timeout, n)).2.2.queues q =
        n.queues q ++ texts.map .str ∧
      texts.flatten ++
        (Mirror.run (ds.map .write) (Mirror.new q aggressive timeout, n)).2.1.buf.buf =
        ds.flatten := by
  obtain ⟨texts, h1, h2, _⟩ := C16_conservation q aggressive timeout n (ds.map .write)
    (by intro c hc; obtain ⟨d, _, rfl⟩ := List.mem_map.1 hc; rfl) hok
  refine ⟨texts, h1, h2.trans ?_⟩
  have : ∀ (ds : List PyStr) (s : MNet), written (ds.map .write) s = ds.flatten := by
    intro ds
    induction ds with
    | nil => intro s; rfl
    | cons d ds ih => intro s; simp [written, contribution, ih]
  exact this ds _

/-- Three writes and a `new_line()`, one message, and an end of line added. -/
example :
    (Mirror.run [.write (lit "a\nb"), .write (lit "c"), .newLine] (Mirror.new 0, {})).2.2.queues 0 =
      [.str (lit "a\nb"), .str (lit "c\n")] ∧
    (∀ r ∈ (Mirror.run [.write (lit "a\nb"), .write (lit "c"), .newLine] (Mirror.new 0, {})).1,
      r.failed = false) := by
  refine ⟨rfl, ?_⟩
  decide +kernel

/-! ## C17 -/

/-- **C17** Non-aggressive mode: a successful `write(d)` sends exactly one message with all pending
text if `d` contains a line terminator, and sends nothing otherwise. -/
theorem C17_write_sends (q : Nat) (m : Mirror) (h : MReach q m) (n : Net) (d : PyStr)
    (ha : m.aggressive = false) (k : Nat) (m' : Mirror) (n' : Net)
    (hw : Mirror.write d (m, n) = (.ok k, (m', n'))) :
    (NoBreak d → n' = n ∧ m'.buf.buf = m.buf.buf ++ d) ∧
    (¬ NoBreak d → n'.queues q = n.queues q ++ [.str (m.buf.buf ++ d)] ∧ m'.buf.buf = []) := by
  have hcl : m.buf.closed = false := by
    cases hc : m.buf.closed with
    | false => rfl
    | true =>
      have : Mirror.write d (m, n) = (.error .osError, (m, n)) := by
        simp [Mirror.write, Mirror.writable, Py.bind_apply, hc]
      rw [this] at hw; cases hw
  have hm := mreach_open h hcl
  have hq := (mreach_norm h).2.1
  rw [hm, Mirror.write_open, Mirror.writeCore_open] at hw
  generalize m.buf.buf = p at *
  split at hw
  · cases hw
  rw [ha] at hw
  simp only [Bool.false_eq_true, if_false] at hw
  split at hw
  · rename_i hb
    cases hw
    exact ⟨fun _ => ⟨rfl, rfl⟩, fun h => absurd hb h⟩
  · rename_i hb
    refine ⟨fun h => absurd h hb, fun _ => ?_⟩
    have hp := Net.put_spec m.queue (.str (p ++ d)) m.block m.timeout n
    change _ ∧ (((m.netPut _ n).1 = _ ∧ (m.netPut _ n).2.queues = _) ∨ ∃ e,
          (m.netPut _ n).1 = _ ∧ (m.netPut _ n).2.queues = _) at hp
    cases hx : m.netPut (.str (p ++ d)) n with
    | mk r n'' =>
      rw [hx] at hw hp
      cases r with
      | error e => cases hw
      | ok u =>
        cases hw
        rcases hp.2 with ⟨_, h2⟩ | ⟨e, h1, _⟩
        · refine ⟨?_, rfl⟩
          dsimp only at h2
          rw [h2, ← hq]
          simp [Net.appended]
        · cases h1

/-- **C17** Non-aggressive mode: after any history of successful `write` and `new_line` calls the
buffered text contains no line terminator - no completed line is held back. -/
theorem C17_no_line_held (q : Nat) (timeout : Option Nat) (n : Net)
    (cs : List MCall) (hc : ∀ c ∈ cs, c.isText = true)
    (hok : ∀ r ∈ (Mirror.run cs (Mirror.new q false timeout, n)).1, r.failed = false) :
    NoBreak (Mirror.run cs (Mirror.new q false timeout, n)).2.1.buf.buf := by
  have he : Mirror.new q false timeout = (Mirror.new q false timeout).withBuf [] := rfl
  obtain ⟨p', n', texts, h1, _, _, _, _, _, h7⟩ :=
    text_run cs hc (Mirror.new q false timeout) [] n (fun _ => rfl)
  rw [← he] at h1 h7
  rw [h1]
  exact h7 noBreak_nil hok

/-- **C17** Aggressive mode: a successful `write(d)` sends exactly `d`, and the buffer does not
change (it stays empty). -/
theorem C17_aggressive_sends (q : Nat) (m : Mirror) (h : MReach q m) (n : Net) (d : PyStr)
    (ha : m.aggressive = true) (k : Nat) (m' : Mirror) (n' : Net)
    (hw : Mirror.write d (m, n) = (.ok k, (m', n'))) :
    n'.queues q = n.queues q ++ [.str d] ∧ m' = m := by
  have hcl : m.buf.closed = false := by
    cases hc : m.buf.closed with
    | false => rfl
    | true =>
      have : Mirror.write d (m, n) = (.error .osError, (m, n)) := by
        simp [Mirror.write, Mirror.writable, Py.bind_apply, hc]
      rw [this] at hw; cases hw
  have hm := mreach_open h hcl
  have hq := (mreach_norm h).2.1
  generalize m.buf.buf = p at hm
  rw [hm, Mirror.write_open, Mirror.writeCore_open, ha] at hw
  simp only [if_true] at hw
  split at hw
  · cases hw
  simp only [Prod.mk.injEq] at hw
  obtain ⟨hr, h1, h2⟩ := hw
  have hp := Net.put_spec m.queue (.str d) m.block m.timeout n
  change _ ∧ (((m.netPut _ n).1 = _ ∧ (m.netPut _ n).2.queues = _) ∨ ∃ e,
          (m.netPut _ n).1 = _ ∧ (m.netPut _ n).2.queues = _) at hp
  refine ⟨?_, by rw [← h1, ← hm]⟩
  rcases hp.2 with ⟨_, h3⟩ | ⟨e, h3, _⟩
  · rw [← h2, h3, ← hq]; simp [Net.appended]
  · rw [h3] at hr; cases hr

example : MReach 0 (Mirror.new 0 true none) ∧
    ∃ s, Mirror.write (lit "ab") (Mirror.new 0 true none, {}) = (.ok 2, s) :=
  ⟨.new _ _, _, rfl⟩

example : ∃ m : Mirror, MReach 0 m ∧ m.buf.buf = lit "ab" ∧
    ∃ s, Mirror.write (lit "c\nd") (m, {}) = (.ok 3, s) :=
  ⟨(Mirror.exec (.write (lit "ab")) (Mirror.new 0 false none, {})).2.1, .call _ _ _ (.new _ _),
    rfl, _, rfl⟩

/-! ## C18 (process mode) -/

/-- **C18** If a `write` of an open, not stopped, non-aggressive mirror raises, the new data has been
added to the buffered text and nothing was put on any queue. -/
theorem C18_failed_write_keeps (q : Nat) (m : Mirror) (h : MReach q m) (n : Net) (d : PyStr)
    (ho : m.buf.closed = false) (ha : m.aggressive = false) (hs : n.closed ≠ some true)
    (e : Exc) (m' : Mirror) (n' : Net) (hw : Mirror.write d (m, n) = (.error e, (m', n'))) :
    m'.buf.buf = m.buf.buf ++ d ∧ n'.queues = n.queues := by
  have hm := mreach_open h ho
  have hst : m.stopped n = false := by
    simp only [Mirror.stopped]
    cases hc : n.closed with
    | none => simp
    | some b => cases b with
      | false => simp
      | true => exact absurd hc hs
  generalize m.buf.buf = p at *
  rw [hm, Mirror.write_open, Mirror.writeCore_open, hst, ha] at hw
  simp only [Bool.false_eq_true, if_false] at hw
  split at hw
  · cases hw
  have hp := Net.put_spec m.queue (.str (p ++ d)) m.block m.timeout n
  change _ ∧ (((m.netPut _ n).1 = _ ∧ (m.netPut _ n).2.queues = _) ∨ ∃ e,
          (m.netPut _ n).1 = _ ∧ (m.netPut _ n).2.queues = _) at hp
  cases hx : m.netPut (.str (p ++ d)) n with
  | mk r n'' =>
    rw [hx] at hw hp
    cases r with
    | ok u => cases hw
    | error e' =>
      cases hw
      rcases hp.2 with ⟨h1, _⟩ | ⟨e, _, h2⟩
      · cases h1
      · exact ⟨rfl, h2⟩

/-- **C18** For every pattern of failures (an arbitrary oracle in `n`), non-aggressive mode and no stop:
the texts put on the queue followed by the buffered text are the text of *all* calls, in order,
also of those that raised: nothing is lost and nothing is out of order. -/
theorem C18_no_loss (q : Nat) (timeout : Option Nat) (n : Net) (hs : n.closed ≠ some true)
    (cs : List MCall) (hc : ∀ c ∈ cs, c.isText = true) :
    ∃ texts : List PyStr,
      (Mirror.run cs (Mirror.new q false timeout, n)).2.2.queues q =
        n.queues q ++ texts.map .str ∧
      texts.flatten ++ (Mirror.run cs (Mirror.new q false timeout, n)).2.1.buf.buf =
        written cs (Mirror.new q false timeout, n) := by
  have he : Mirror.new q false timeout = (Mirror.new q false timeout).withBuf [] := rfl
  obtain ⟨p', n', texts, h1, _, _, _, h5, h6, _⟩ :=
    text_run cs hc (Mirror.new q false timeout) [] n (fun _ => rfl)
  rw [← he] at h1 h6
  refine ⟨texts, by rw [h1]; exact h5, ?_⟩
  rw [h1]
  have hst : (Mirror.new q false timeout).stopped n = false := by
    simp only [Mirror.stopped]
    cases hc : n.closed with
    | none => simp
    | some b => cases b with
      | false => simp
      | true => exact absurd hc hs
  simpa using h6 (.inl ⟨rfl, hst⟩)

/-- A transmission fails (the queue is full, a timeout is set), the next one succeeds and carries
everything. -/
example :
    Mirror.run [.write (lit "a\n"), .write (lit "b\n")]
      (Mirror.new 0 false (some 5), { room := [.never] }) =
    ([.exc .queueFull, .nat 2],
     (Mirror.new 0 false (some 5),
      { queues := fun i => if i = 0 then [.str (lit "a\nb\n")] else [], room := [] })) := by
  rfl

/-! ## C19 -/

/-- The end signal of a mirror: an error message if it is closed because of an exception. -/
def endSignal : Option ExcObj → QMsg
  | none => .close
  | some e => .error (GMsg.new (.exc e))

/-- **C19** If `close(exc)` on an open, not stopped mirror returns, it has sent the pending text
completed by a line break (if there is any) and then exactly one end signal, and the mirror is
closed.  (Aggressive mirrors have nothing pending unless the mode was switched, see C56.) -/
theorem C19_close_sends (q : Nat) (m : Mirror) (h : MReach q m) (n : Net)
    (ho : m.buf.closed = false) (ha : m.aggressive = true → m.buf.buf = [])
    (exc : Option ExcObj) (m' : Mirror) (n' : Net)
    (hc : Mirror.close exc (m, n) = (.ok (), (m', n'))) :
    n'.queues q = n.queues q ++
      (if m.buf.buf = [] then [] else [.str (m.buf.buf ++ lit "\n")]) ++
      [endSignal exc] ∧
    m'.buf.closed = true := by
  have hm := mreach_open h ho
  have hq := (mreach_norm h).2.1
  generalize m.buf.buf = p at *
  rw [hm, Mirror.close_open, Mirror.newLine_open' _ _ _ ha] at hc
  have hend : ∀ (n1 : Net) (p1 : PyStr),
      (match Mirror.put (Mirror.endMsg exc) (m.withBuf p1, n1) with
        | (.error e, s) => (.error e, s)
        | (.ok _, s) => (Mirror.clear >>= fun _ => Mirror.onBuf StringIO.close) s) =
        ((.ok (), (m', n')) : Except Exc Unit × MNet) →
      n'.queues q = n1.queues q ++ [Mirror.endMsg exc] ∧ m'.buf.closed = true := by
    intro n1 p1 h1
    rw [Mirror.put_apply, Mirror.withBuf_netPut] at h1
    have hp := Net.put_spec m.queue (Mirror.endMsg exc) m.block m.timeout n1
    change _ ∧ (((m.netPut _ n1).1 = _ ∧ (m.netPut _ n1).2.queues = _) ∨ ∃ e,
          (m.netPut _ n1).1 = _ ∧ (m.netPut _ n1).2.queues = _) at hp
    rcases hp.2 with ⟨h2, h3⟩ | ⟨e, h2, h3⟩
    · rw [h2] at h1
      dsimp only at h1
      rw [Mirror.clear_close] at h1
      cases h1
      refine ⟨?_, rfl⟩
      rw [h3, ← hq]; simp [Net.appended]
    · rw [h2] at h1; cases h1
  have hee : endSignal exc = Mirror.endMsg exc := by cases exc <;> rfl
  rw [hee]
  by_cases hp0 : p = []
  · simp only [hp0, if_true] at hc ⊢
    simpa using hend n [] hc
  · simp only [hp0, if_false] at hc ⊢
    split at hc
    · cases hc
    · rename_i s heq
      split at heq
      · cases heq
      · have hp := Net.put_spec m.queue (.str (p ++ lit "\n")) m.block m.timeout n
        change _ ∧ (((m.netPut _ n).1 = _ ∧ (m.netPut _ n).2.queues = _) ∨ ∃ e,
          (m.netPut _ n).1 = _ ∧ (m.netPut _ n).2.queues = _) at hp
        cases hx : m.netPut (.str (p ++ lit "\n")) n with
        | mk r n1 =>
          rw [hx] at heq hp
          cases r with
          | error e => cases heq
          | ok u =>
            cases heq
            obtain ⟨h1, h2⟩ := hend n1 [] hc
            refine ⟨?_, h2⟩
            rcases hp.2 with ⟨_, h3⟩ | ⟨e, h3, _⟩
            · dsimp only at h3
              rw [h1, h3, ← hq]; simp [Net.appended]
            · cases h3

/-- A `put` into a queue with room succeeds at once. -/
theorem Net.put_room (q : Nat) (msg : QMsg) (b : Bool) (t : Option Nat) (n : Net)
    (h : n.room = []) :
    (Net.put q msg b t n).1 = .ok () ∧ (Net.put q msg b t n).2.room = [] := by
  unfold Net.put
  rw [h]
  cases b <;> cases t <;> simp

/-- **C19** With room in the queue and no stop, `close` does return (so the theorem above applies). -/
theorem C19_close_returns (q : Nat) (m : Mirror) (h : MReach q m) (n : Net)
    (ho : m.buf.closed = false) (ha : m.aggressive = true → m.buf.buf = [])
    (hs : n.closed ≠ some true) (hr : n.room = []) (exc : Option ExcObj) :
    (Mirror.close exc (m, n)).1 = .ok () := by
  have hm := mreach_open h ho
  have hst : m.stopped n = false := by
    simp only [Mirror.stopped]
    cases hc : n.closed with
    | none => simp
    | some b => cases b with
      | false => simp
      | true => exact absurd hc hs
  generalize m.buf.buf = p at *
  rw [hm, Mirror.close_open, Mirror.newLine_open' _ _ _ ha]
  have hend : ∀ (n1 : Net) (p1 : PyStr), n1.room = [] →
      ((match Mirror.put (Mirror.endMsg exc) (m.withBuf p1, n1) with
        | (.error e, s) => (.error e, s)
        | (.ok _, s) => (Mirror.clear >>= fun _ => Mirror.onBuf StringIO.close) s) :
          Except Exc Unit × MNet).1 = .ok () := by
    intro n1 p1 h1
    rw [Mirror.put_apply, Mirror.withBuf_netPut]
    have := (Net.put_room m.queue (Mirror.endMsg exc) m.block m.timeout n1 h1).1
    change (m.netPut _ n1).1 = _ at this
    rw [this]
    dsimp only
    rw [Mirror.clear_close]
  by_cases hp0 : p = []
  · simp only [hp0, if_true]
    exact hend n [] hr
  · simp only [hp0, if_false, hst, Bool.false_eq_true]
    have := Net.put_room m.queue (.str (p ++ lit "\n")) m.block m.timeout n hr
    change (m.netPut _ n).1 = _ ∧ (m.netPut _ n).2.room = _ at this
    cases hx : m.netPut (.str (p ++ lit "\n")) n with
    | mk r n1 =>
      rw [hx] at this
      obtain ⟨h1, h2⟩ := this
      dsimp only at h1 h2
      subst h1
      exact hend n1 [] h2

/-- What the calls of a closed mirror return. -/
def closedMRet : MCall → MRet
  | .write _ => .exc .osError
  | .read _ => .exc .osError
  | .newLine => .exc .valueError
  | .clear => .exc .valueError
  | .flush => .exc .valueError
  | .closed => .bool true
  | .readable => .bool false
  | .writable => .bool false
  | _ => .unit

/-- **C19** After the close, whatever is called, nothing is sent: the shared state does not change,
`read` and `write` raise `OSError`, and the mirror stays closed. -/
theorem C19_after_close (q : Nat) (m : Mirror) (h : MReach q m) (n : Net)
    (hcl : m.buf.closed = true) (later : List MCall) :
    (Mirror.run later (m, n)).1 = later.map closedMRet ∧
    (Mirror.run later (m, n)).2.2 = n ∧
    (Mirror.run later (m, n)).2.1.buf.closed = true := by
  have hnorm : m = m.closedM := by
    rcases (mreach_norm h).1 with ⟨p, hp⟩ | hc
    · rw [hp] at hcl; cases hcl
    · exact hc
  clear hcl h
  have key : ∀ c (m : Mirror), m = m.closedM → (Mirror.exec c (m, n)).1 = closedMRet c ∧
      (Mirror.exec c (m, n)).2.2 = n ∧
      (Mirror.exec c (m, n)).2.1 = (Mirror.exec c (m, n)).2.1.closedM := by
    intro c m hm
    have hc : Mirror.closed (m, n) = (.ok true, (m, n)) := by
      rw [hm]; simp [Mirror.closed, Mirror.closedM]
    have hcl : m.buf.closed = true := by rw [hm]; rfl
    cases c with
    | sendData d =>
      have : Mirror.sendData d (m, n) = (.ok (), (m, n)) := by
        unfold Mirror.sendData; rw [Py.bind_ok hc]; rfl
      rw [show Mirror.exec _ (m, n) = _ from congrArg (fun x => (MRet.of _ x.1, x.2)) this]; exact ⟨rfl, rfl, hm⟩
    | sendEof =>
      have : Mirror.sendEof (m, n) = (.ok (), (m, n)) := by
        rw [hm]; exact Mirror.send_closed m n .close
      rw [show Mirror.exec _ (m, n) = _ from congrArg (fun x => (MRet.of _ x.1, x.2)) this]; exact ⟨rfl, rfl, hm⟩
    | sendError e =>
      have : Mirror.sendError e (m, n) = (.ok (), (m, n)) := by
        rw [hm]; exact Mirror.send_closed m n _
      rw [show Mirror.exec _ (m, n) = _ from congrArg (fun x => (MRet.of _ x.1, x.2)) this]; exact ⟨rfl, rfl, hm⟩
    | sendWarning e =>
      have : Mirror.sendWarning e (m, n) = (.ok (), (m, n)) := by
        rw [hm]; exact Mirror.send_closed m n _
      rw [show Mirror.exec _ (m, n) = _ from congrArg (fun x => (MRet.of _ x.1, x.2)) this]; exact ⟨rfl, rfl, hm⟩
    | close exc =>
      have : Mirror.close exc (m, n) = (.ok (), (m, n)) := by
        rw [hm]; exact Mirror.close_closed m n exc
      rw [show Mirror.exec _ (m, n) = _ from congrArg (fun x => (MRet.of _ x.1, x.2)) this]; exact ⟨rfl, rfl, hm⟩
    | write d =>
      have : Mirror.write d (m, n) = (.error .osError, (m, n)) := by
        simp [Mirror.write, Mirror.writable, hcl, Py.bind_apply]
      rw [show Mirror.exec _ (m, n) = _ from congrArg (fun x => (MRet.of _ x.1, x.2)) this]; exact ⟨rfl, rfl, hm⟩
    | read d =>
      have : Mirror.read d (m, n) = (.error .osError, (m, n)) := by
        simp [Mirror.read, Mirror.readable, hcl, Py.bind_apply]
      rw [show Mirror.exec _ (m, n) = _ from congrArg (fun x => (MRet.of _ x.1, x.2)) this]; exact ⟨rfl, rfl, hm⟩
    | newLine =>
      have : Mirror.newLine (m, n) = (.error .valueError, (m, n)) := by
        simp [Mirror.newLine, Mirror.onBuf, StringIO.tell, StringIO.check, hcl, Py.bind_apply]
      rw [show Mirror.exec _ (m, n) = _ from congrArg (fun x => (MRet.of _ x.1, x.2)) this]; exact ⟨rfl, rfl, hm⟩
    | clear =>
      have : Mirror.clear (m, n) = (.error .valueError, (m, n)) := by
        simp [Mirror.clear, Mirror.onBuf, StringIO.seek0, StringIO.check, hcl, Py.bind_apply]
      rw [show Mirror.exec _ (m, n) = _ from congrArg (fun x => (MRet.of _ x.1, x.2)) this]; exact ⟨rfl, rfl, hm⟩
    | flush =>
      have : Mirror.flush (m, n) = (.error .valueError, (m, n)) := by
        simp [Mirror.flush, Mirror.onBuf, StringIO.flush, StringIO.check, hcl]
      rw [show Mirror.exec _ (m, n) = _ from congrArg (fun x => (MRet.of _ x.1, x.2)) this]; exact ⟨rfl, rfl, hm⟩
    | closed => exact ⟨by simp [Mirror.exec, Mirror.closed, hcl, MRet.of, closedMRet], rfl, hm⟩
    | readable => exact ⟨by simp [Mirror.exec, Mirror.readable, hcl, MRet.of, closedMRet], rfl, hm⟩
    | writable => exact ⟨by simp [Mirror.exec, Mirror.writable, hcl, MRet.of, closedMRet], rfl, hm⟩
    | setTimeout t => exact ⟨rfl, rfl, by rw [hm]; rfl⟩
    | setAggressive a => exact ⟨rfl, rfl, by rw [hm]; rfl⟩
  induction later generalizing m with
  | nil => exact ⟨rfl, rfl, by rw [hnorm]; rfl⟩
  | cons c cs ih =>
    obtain ⟨h1, h2, h3⟩ := key c m hnorm
    obtain ⟨g1, g2, g3⟩ := ih (Mirror.exec c (m, n)).2.1 h3
    have hs : (Mirror.exec c (m, n)).2 = ((Mirror.exec c (m, n)).2.1, n) := Prod.ext rfl h2
    simp only [Mirror.run, List.map_cons]
    rw [hs]
    exact ⟨by rw [g1, h1], g2, g3⟩

example : ∃ m : Mirror, MReach 0 m ∧ m.buf.buf = lit "ab" ∧
    (Mirror.close none (m, {})).1 = .ok () ∧
    (Mirror.close none (m, {})).2.2.queues 0 = [.str (lit "ab\n"), .close] :=
  ⟨(Mirror.exec (.write (lit "ab")) (Mirror.new 0 false none, {})).2.1, .call _ _ _ (.new _ _),
    rfl, rfl, rfl⟩

/-! ## C20 -/

/-- **C20** (first part) `read()` returns the buffered text and changes nothing. -/
theorem C20_read_partial (q : Nat) (m : Mirror) (h : MReach q m) (n : Net)
    (ho : m.buf.closed = false) : Mirror.read none (m, n) = (.ok m.buf.buf, (m, n)) := by
  have hm := mreach_open h ho
  rw [hm, Mirror.read_open]
  rfl

/-- **C20** (second part) is false of the code: `read(size)` is empty in every reachable state. -/
theorem C20_read_size_always_empty (q : Nat) (m : Mirror) (h : MReach q m) (n : Net)
    (ho : m.buf.closed = false) (size : Int) :
    Mirror.read (some size) (m, n) = (.ok [], (m, n)) := by
  have hm := mreach_open h ho
  rw [hm, Mirror.read_open]

/-- **C20** is false: a mirror holding `abc` returns `""`, not `bc`, for `read(2)`. -/
theorem C20_violated : ¬ ∀ (q : Nat) (m : Mirror) (n : Net) (size : Nat), MReach q m →
    m.buf.closed = false → (Mirror.read (some size) (m, n)).1 = .ok (lastN size m.buf.buf) := by
  intro h
  have := h 0 (Mirror.exec (.write (lit "abc")) (Mirror.new 0 false none, {})).2.1 {} 2
    (.call _ _ _ (.new _ _)) rfl
  rw [C20_read_size_always_empty 0 _ (.call _ _ _ (.new _ _)) _ rfl] at this
  exact absurd this (by
    intro h
    cases h)

/-! ## C49 -/

theorem mreach_block {q : Nat} {m : Mirror} (h : MReach q m) : m.block = m.timeout.isNone := by
  induction h with
  | new a t => rfl
  | call c m n hr ih =>
    by_cases hc : ∃ t, c = .setTimeout t
    · obtain ⟨t, rfl⟩ := hc; rfl
    by_cases hc' : ∃ a, c = .setAggressive a
    · obtain ⟨a, rfl⟩ := hc'; exact ih
    have : (Mirror.exec c (m, n)).2.1.block = m.block ∧
        (Mirror.exec c (m, n)).2.1.timeout = m.timeout := by
      rcases (mreach_norm hr).1 with ⟨p, hp⟩ | hp
      · rw [hp]
        have hn := Mirror.newLine_norm m p n
        cases c with
        | write d =>
          obtain ⟨p', n', h'⟩ := Mirror.writeCore_norm m p d n
          simp only [Mirror.exec, Mirror.write_open, h']; exact ⟨rfl, rfl⟩
        | newLine =>
          obtain ⟨p', n', h'⟩ := hn
          simp only [Mirror.exec, h']; exact ⟨rfl, rfl⟩
        | read s => simp only [Mirror.exec, Mirror.read_open]; exact ⟨by trivial, by trivial⟩
        | clear => simp only [Mirror.exec, Mirror.clear_open]; exact ⟨rfl, rfl⟩
        | flush => exact ⟨rfl, rfl⟩
        | sendData d => simp only [Mirror.exec, Mirror.sendData_open]; exact ⟨by trivial, by trivial⟩
        | sendEof =>
          obtain ⟨p', n', h'⟩ := Mirror.send_norm m p n .close
          simp only [Mirror.exec]; unfold Mirror.sendEof; rw [h']; exact ⟨rfl, rfl⟩
        | sendError e =>
          obtain ⟨p', n', h'⟩ := Mirror.send_norm m p n (.error (GMsg.new (.exc e)))
          simp only [Mirror.exec]; unfold Mirror.sendError; rw [h']; exact ⟨rfl, rfl⟩
        | sendWarning e =>
          obtain ⟨p', n', h'⟩ := Mirror.send_norm m p n (.warning (GMsg.new (.exc e)))
          simp only [Mirror.exec]; unfold Mirror.sendWarning; rw [h']; exact ⟨rfl, rfl⟩
        | close exc =>
          simp only [Mirror.exec, Mirror.close_open]
          obtain ⟨p', n', h'⟩ := hn
          cases hn : Mirror.newLine (m.withBuf p, n) with
          | mk r s =>
            rw [hn] at h'
            dsimp only at h'
            subst h'
            cases r with
            | error e => exact ⟨rfl, rfl⟩
            | ok u =>
              dsimp only
              rw [Mirror.put_apply]
              cases hp : ((m.withBuf p').netPut (Mirror.endMsg exc) n').1 with
              | error e => exact ⟨rfl, rfl⟩
              | ok u => dsimp only; rw [Mirror.clear_close]; exact ⟨rfl, rfl⟩
        | closed | readable | writable => exact ⟨rfl, rfl⟩
        | setTimeout t => exact absurd ⟨t, rfl⟩ hc
        | setAggressive a => exact absurd ⟨a, rfl⟩ hc'
      · have hcl : m.buf.closed = true := by rw [hp]; rfl
        have hc1 : Mirror.closed (m, n) = (.ok true, (m, n)) := by simp [Mirror.closed, hcl]
        cases c with
        | sendData d =>
          have : Mirror.sendData d (m, n) = (.ok (), (m, n)) := by
            unfold Mirror.sendData; rw [Py.bind_ok hc1]; rfl
          simp only [Mirror.exec, this]; exact ⟨trivial, trivial⟩
        | sendEof =>
          have : Mirror.sendEof (m, n) = (.ok (), (m, n)) := by
            unfold Mirror.sendEof; rw [Py.bind_ok hc1]; rfl
          simp only [Mirror.exec, this]; exact ⟨trivial, trivial⟩
        | sendError e =>
          have : Mirror.sendError e (m, n) = (.ok (), (m, n)) := by
            unfold Mirror.sendError; rw [Py.bind_ok hc1]; rfl
          simp only [Mirror.exec, this]; exact ⟨trivial, trivial⟩
        | sendWarning e =>
          have : Mirror.sendWarning e (m, n) = (.ok (), (m, n)) := by
            unfold Mirror.sendWarning; rw [Py.bind_ok hc1]; rfl
          simp only [Mirror.exec, this]; exact ⟨trivial, trivial⟩
        | close exc =>
          have : Mirror.close exc (m, n) = (.ok (), (m, n)) := by
            unfold Mirror.close; rw [Py.bind_ok hc1]; rfl
          simp only [Mirror.exec, this]; exact ⟨trivial, trivial⟩
        | write d =>
          have : Mirror.write d (m, n) = (.error .osError, (m, n)) := by
            simp [Mirror.write, Mirror.writable, hcl, Py.bind_apply]
          simp only [Mirror.exec, this]; exact ⟨trivial, trivial⟩
        | read d =>
          have : Mirror.read d (m, n) = (.error .osError, (m, n)) := by
            simp [Mirror.read, Mirror.readable, hcl, Py.bind_apply]
          simp only [Mirror.exec, this]; exact ⟨trivial, trivial⟩
        | newLine =>
          have : Mirror.newLine (m, n) = (.error .valueError, (m, n)) := by
            simp [Mirror.newLine, Mirror.onBuf, StringIO.tell, StringIO.check, hcl, Py.bind_apply]
          simp only [Mirror.exec, this]; exact ⟨trivial, trivial⟩
        | clear =>
          have : Mirror.clear (m, n) = (.error .valueError, (m, n)) := by
            simp [Mirror.clear, Mirror.onBuf, StringIO.seek0, StringIO.check, hcl, Py.bind_apply]
          simp only [Mirror.exec, this]; exact ⟨trivial, trivial⟩
        | flush | closed | readable | writable => exact ⟨rfl, rfl⟩
        | setTimeout t => exact absurd ⟨t, rfl⟩ hc
        | setAggressive a => exact absurd ⟨a, rfl⟩ hc'
    rw [this.1, this.2]; exact ih

/-- **C49**: what the code does instead of waiting: with a timeout set, a transmission never waits, and
fails at once if there is no room in the queue at that moment. -/
theorem C49_timeout_never_waits (q : Nat) (m : Mirror) (h : MReach q m) (t : Nat)
    (ht : m.timeout = some t) (msg : QMsg) (n : Net) :
    (Mirror.put msg (m, n)).2.2.waited = n.waited ∧
    (∀ k rest, n.room = .after (k + 1) :: rest →
      (Mirror.put msg (m, n)).1 = .error .queueFull) := by
  have hb : m.block = false := by rw [mreach_block h, ht]; rfl
  have hput : Mirror.put msg (m, n) = ((Net.put q msg false m.timeout n).1,
      (m, (Net.put q msg false m.timeout n).2)) := by
    rw [Mirror.put_apply, Mirror.netPut, hb, (mreach_norm h).2.1]
  rw [hput]
  constructor
  · unfold Net.put
    generalize n.room.headD (.after 0) = r
    cases r with
    | broken e => rfl
    | never => rfl
    | after k =>
      simp only [Bool.false_eq_true, if_false]
      split <;> rfl
  · intro k rest hr
    simp [Net.put, hr]

/-- **C49** is false of the code: there will be room after 1 unit of time, the timeout is 5, and the
transmission fails. -/
theorem C49_violated : ¬ ∀ (q : Nat) (m : Mirror) (n : Net) (t k : Nat) (msg : QMsg), MReach q m →
    m.timeout = some t → n.room = [.after k] → k ≤ t →
    (Mirror.put msg (m, n)).1 = .ok () := by
  intro h
  have := h 0 (Mirror.new 0 false (some 5)) { room := [.after 1] } 5 1 .close (.new _ _) rfl rfl
    (by decide)
  rw [(C49_timeout_never_waits 0 _ (.new _ _) 5 rfl .close _).2 0 [] rfl] at this
  cases this

/-- **C49**, the part that holds: without a timeout a transmission waits as long as necessary and then
succeeds. -/
theorem C49_no_timeout_waits_partial (q : Nat) (m : Mirror) (h : MReach q m)
    (ht : m.timeout = none) (msg : QMsg) (n : Net) (k : Nat) (rest : List Room)
    (hr : n.room = .after k :: rest) :
    (Mirror.put msg (m, n)).1 = .ok () ∧
    (Mirror.put msg (m, n)).2.2.waited = n.waited + k ∧
    (Mirror.put msg (m, n)).2.2.queues q = n.queues q ++ [msg] := by
  have hb : m.block = true := by rw [mreach_block h, ht]; rfl
  have hput : Mirror.put msg (m, n) = ((Net.put q msg true none n).1,
      (m, (Net.put q msg true none n).2)) := by
    rw [Mirror.put_apply, Mirror.netPut, hb, ht, (mreach_norm h).2.1]
  rw [hput]
  simp [Net.put, hr]

example : MReach 0 (Mirror.new 0 false none) ∧ (Mirror.new 0 false none).timeout = none :=
  ⟨.new _ _, rfl⟩

end SyncStream
