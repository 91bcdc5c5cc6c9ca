import Verif.Lemmas.ModeOverride
/-!
# Property C91: a user's `parse_lines` in the process mode and in the host mode
-/

namespace SyncStream
open Spec LineBuf

variable {U : Type}

/-! ## Process mode -/

/-- The same system with a `LineProcBuffer` instead of the subclass. -/
def OvSys.plain (s : OvSys U) : ProcSys := ⟨s.main.main, s.mirrors, s.net⟩

/-- **C91** A subclass of `LineProcBuffer` overrides `parse_lines` in any way, and any history of the mirrors and of the main
buffer (whose `close` is not called) takes place.  (1) For the mirrors nothing is different, whatever the override does and
whether or not it raises: the queues, the closed state, the mirrors and the number of mirrors are those that the same history has with a
`LineProcBuffer`.  (2) The main buffer has gone through what it received and through the calls of its methods, in order: the text that
arrives is cut into lines as by `write`, the completed lines of one text are handed over in one call, and errors and warnings go to the
storage without a call of the override. -/
theorem C91_history (p : Override U) (hp : KeepsDeque fun ls => (p ls).seq) (os : List ProcOp) (ho : ∀ o ∈ os, OvOp o)
    (s : OvSys U) (st : Deque Item) (part : PyStr) (u : U) (hst : IsDeque st) (hpart : NoBreak part)
    (hs : (⟨s.main.main.base, s.main.own⟩ : OvBuf U) = ovOpen st part u) :
    ((OvSys.run p os s).mirrors = (s.plain.run os).mirrors ∧ (OvSys.run p os s).net = (s.plain.run os).net ∧
      (OvSys.run p os s).main.main.nMirrors = (s.plain.run os).main.nMirrors ∧
      (OvSys.run p os s).main.main.mirror = (s.plain.run os).main.mirror ∧
      (OvSys.run p os s).main.main.nextQueue = (s.plain.run os).main.nextQueue) ∧
    ∃ l, DidSteps (fun ls => (p ls).seq) ⟨part, st, u⟩ (didIn s.plain os) l ∧
      (⟨(OvSys.run p os s).main.main.base, (OvSys.run p os s).main.own⟩ : OvBuf U) = ovOpen l.store l.part l.own := by
  obtain ⟨h1, l, h2, h3, _⟩ := OvSys.run_lines hp os ho (s := s) (t := s.plain) ⟨rfl, rfl, rfl, rfl, rfl⟩
    (l := ⟨part, st, u⟩) ⟨hpart, hst⟩ hs
  exact ⟨h1, l, h2, h3⟩

/-- **C91** If the override does not raise and notes what it is given, then it is given exactly the lines that the received texts (and
`new_line`) complete, in order: none twice, none cut otherwise, none forgotten, and nothing else. -/
theorem C91_lines (p : Override U) (hp : KeepsDeque fun ls => (p ls).seq) (hn : ∀ ls x, ∃ y, (p ls).seq x = (.ok (), y))
    (os : List ProcOp) (ho : ∀ o ∈ os, OvOp o) (s : OvSys (U × List Item)) (st : Deque Item) (part : PyStr) (u : U)
    (hst : IsDeque st) (hpart : NoBreak part)
    (hs : (⟨s.main.main.base, s.main.own⟩ : OvBuf (U × List Item)) = ovOpen st part (u, [])) :
    ∃ ls, Completed part (didIn s.plain os) ls (OvSys.run p.noting os s).main.main.base.lastLine.buf ∧
      (OvSys.run p.noting os s).main.own.2 = ls.map .str := by
  obtain ⟨_, l, h1, h2⟩ := C91_history p.noting (noting_keeps hp) os ho s st part (u, []) hst hpart hs
  obtain ⟨ls, h3, h4⟩ := didSteps_completed hn (didIn_noWrite _ _) h1
  have e1 := congrArg (fun b : OvBuf (U × List Item) => b.base.lastLine.buf) h2
  have e2 := congrArg OvBuf.own h2
  dsimp only at e1 e2
  exact ⟨ls, by rw [e1]; exact h3, by rw [e2]; exact h4⟩

/-- A `parse_lines` that stores the lines with an `E` and counts the others. -/
def countE : Override Nat := fun ls =>
  Prog.atom (Py.modify fun x => (x.1.extend (ls.filter hasE), x.2 + (ls.filter (!hasE ·)).length))

theorem countE_keeps : KeepsDeque fun ls => (countE ls).seq := by
  rintro ls ⟨d, n⟩ ⟨h1, h2⟩
  show IsDeque (d.extend (ls.filter hasE))
  rw [Deque.extend_eq _ _ h2 h1]
  exact ⟨h1, length_lastN_le _ _⟩

theorem countE_returns (ls : List Item) (x : Deque Item × Nat) : ∃ y, (countE ls).seq x = (.ok (), y) := ⟨_, rfl⟩

/-- A new main buffer. -/
def newOvSys (cap : Nat) (u : U) : OvSys U := { main := { main := { base := opened cap [] [] }, own := u } }

/-- Two mirrors write lines; the second one sends an error. -/
def ovTwoMirrors : List ProcOp :=
  [.take, .take, .mirror 0 (.write (lit "aE\nb")), .mirror 1 (.write (lit "x\n")), .receive,
    .mirror 1 (.sendError {}), .receive, .receive, .mirror 0 (.write (lit "c\n")), .receive]

/-- The texts among items; `none` for a message. -/
def ovItemTexts (l : List Item) : List (Option PyStr) := l.map fun | .str s => some s | _ => none

/-- What the override is given (the line of one mirror continues that of the other), what is stored, and what is left. -/
example : let s := OvSys.run countE.noting ovTwoMirrors (newOvSys 5 (0, []))
    (ovItemTexts s.main.main.base.storage.items, s.main.main.base.lastLine.buf, s.main.own.1, ovItemTexts s.main.own.2, s.main.main.nMirrors) =
      ([some (lit "aE"), none], [], 2, [some (lit "aE"), some (lit "bx"), some (lit "c")], 1) := by decide +kernel

/-- What happened to the main buffer. -/
example : didIn (newOvSys 5 (0, ([] : List Item))).plain ovTwoMirrors =
    [.got (.str (lit "aE\nb")), .got (.str (lit "x\n")), .got (.error (GMsg.new (.exc {}))), .got (.str (lit "c\n"))] := rfl

/-- `C91_lines` for it: the hypotheses hold. -/
example : ∃ ls, Completed [] (didIn (newOvSys 5 (0, ([] : List Item))).plain ovTwoMirrors) ls
      (OvSys.run countE.noting ovTwoMirrors (newOvSys 5 (0, []))).main.main.base.lastLine.buf ∧
    (OvSys.run countE.noting ovTwoMirrors (newOvSys 5 (0, []))).main.own.2 = ls.map .str :=
  C91_lines countE countE_keeps countE_returns ovTwoMirrors (by simp [ovTwoMirrors, OvOp]) (newOvSys 5 (0, [])) { maxlen := 5 } [] 0
    ⟨by decide, by decide⟩ noBreak_nil rfl

/-- **C91** What `receive` returns: the same as without the override, unless the oldest message is a text and the override raises
when it is given the lines that the text completes; then `receive` raises this. -/
theorem C91_receive (p : Override U) (s : OvSys U) (st : Deque Item) (part : PyStr) (u : U) (hst : IsDeque st) (hpart : NoBreak part)
    (hs : (⟨s.main.main.base, s.main.own⟩ : OvBuf U) = ovOpen st part u) :
    (OvProc.receive p (s.main, s.net)).1 = (ProcBuf.receive (s.main.main, s.net)).1 ∨
    ∃ d ms ls r e x, s.net.queues s.main.main.mirror.queue = .str d :: ms ∧ Lines (part ++ d) ls r ∧ ls ≠ [] ∧
      (p (ls.map .str)).seq (st, u) = (.error e, x) ∧ (OvProc.receive p (s.main, s.net)).1 = .error e := by
  obtain ⟨⟨⟨b, n, m, q⟩, v⟩, mi, net⟩ := s
  have hs : (⟨b, v⟩ : OvBuf U) = Ovr.rep ⟨part, st, u⟩ := hs
  have hb : b = opened st.maxlen st.items part := congrArg OvBuf.base hs
  dsimp only
  cases hq : net.queues m.queue with
  | nil =>
    left
    simp only [OvProc.receive, ProcBuf.receive]
    rw [Py.bind_error (e := .blocked) (s' := (⟨⟨b, n, m, q⟩, v⟩, net)) (by simp [OvProc.inherited, ProcBuf.get, hq]),
      Py.bind_error (e := .blocked) (s' := (⟨b, n, m, q⟩, net)) (by simp [ProcBuf.get, hq])]
  | cons x xs =>
    have hg : (OvProc.inherited ProcBuf.get : Py (OvNet U) QMsg) (⟨⟨b, n, m, q⟩, v⟩, net) =
        (.ok x, (⟨⟨b, n, m, q⟩, v⟩, { net with queues := fun i => if i = m.queue then xs else net.queues i })) := by
      simp [OvProc.inherited, ProcBuf.get, hq]
    have hg' : ProcBuf.get (⟨b, n, m, q⟩, net) =
        (.ok x, (⟨b, n, m, q⟩, { net with queues := fun i => if i = m.queue then xs else net.queues i })) := by
      simp [ProcBuf.get, hq]
    simp only [OvProc.receive, ProcBuf.receive]
    rw [Py.bind_ok hg, Py.bind_ok hg']
    cases x with
    | str d =>
      have hp : ∃ b', LineBuf.write d b = (.ok (writeRet d), b') := ⟨_, hb ▸ write_opened st.maxlen st.items part d hst.2 hst.1⟩
      obtain ⟨b', hp⟩ := hp
      have hw := Ovr.writeCore_rep p d ⟨part, st, u⟩
      rw [← Ovr.write_rep, ← hs] at hw
      simp only [Py.bind_apply, OvProc.onLines, ProcBuf.onBase, Py.onPart_apply, hp, hw]
      have hL := lines_segFrom part d hpart
      by_cases h0 : (segFrom part d).1 = []
      · left; rw [if_pos h0]; rfl
      · rw [if_neg h0]
        rcases hh : (p ((segFrom part d).1.map .str)).seq (st, u) with ⟨y, z⟩
        cases y with
        | ok a => left; simp only [Ovr.hand, hh]; rfl
        | error e => right; exact ⟨d, xs, _, _, e, z, rfl, hL, h0, hh, by simp only [Ovr.hand, hh]⟩
    | _ => exact .inl rfl

/-- The warning of a mirror: `receive` returns `True`, the override raises for the text before it. -/
example : let s := OvSys.run keepE.noting [.take, .mirror 0 (.write (lit "\n")), .mirror 0 (.sendWarning {})] (newOvSys 5 (0, []))
    (match (OvProc.receive keepE.noting (s.main, s.net)).1 with | .error .valueError => true | _ => false) = true ∧
    (match (OvProc.receive keepE.noting ((OvSys.step keepE.noting .receive s).main, (OvSys.step keepE.noting .receive s).net)).1 with
      | .ok true => true | _ => false) = true := by decide +kernel

/-! ## An override that raises -/

/-- **C91** (A violation.)  The oldest message is a text `d` that a mirror has sent (its `write` has returned), and the override raises when
it is given the lines completed by it.  Then `receive` raises this, the message is no longer in the queue, and the unfinished line is what
it was: what follows the last line break of `d` is nowhere, neither handed over nor kept for later. -/
theorem C91_lost_violated (p : Override U) (s : OvSys U) (st st' : Deque Item) (part d r : PyStr) (ls : List PyStr) (u u' : U) (e : Exc)
    (ms : List QMsg) (hpart : NoBreak part) (hs : (⟨s.main.main.base, s.main.own⟩ : OvBuf U) = ovOpen st part u)
    (hq : s.net.queues s.main.main.mirror.queue = .str d :: ms) (hd : Lines (part ++ d) ls r) (hls : ls ≠ [])
    (he : (p (ls.map .str)).seq (st, u) = (.error e, (st', u'))) :
    (OvProc.receive p (s.main, s.net)).1 = .error e ∧
    (OvSys.step p .receive s).net.queues s.main.main.mirror.queue = ms ∧
    (⟨(OvSys.step p .receive s).main.main.base, (OvSys.step p .receive s).main.own⟩ : OvBuf U) = ovOpen st' part u' := by
  obtain ⟨⟨⟨b, n, m, q⟩, v⟩, mi, net⟩ := s
  have hs : (⟨b, v⟩ : OvBuf U) = Ovr.rep ⟨part, st, u⟩ := hs
  have hq : net.queues m.queue = .str d :: ms := hq
  have hseg := (lines_iff_segFrom part d hpart ls r).1 hd
  have hw : (Ovr.write (Ovr.method p) d).seq ⟨b, v⟩ = (.error e, Ovr.rep ⟨part, st', u'⟩) := by
    rw [hs, Ovr.write_rep, Ovr.writeCore_rep]
    simp only [hseg, hls, if_false, Ovr.hand, he]
  refine ⟨?_, ?_, ?_⟩
  · have hg : (OvProc.inherited ProcBuf.get : Py (OvNet U) QMsg) (⟨⟨b, n, m, q⟩, v⟩, net) =
        (.ok (.str d), (⟨⟨b, n, m, q⟩, v⟩, { net with queues := fun i => if i = m.queue then ms else net.queues i })) := by
      simp [OvProc.inherited, ProcBuf.get, hq]
    simp only [OvProc.receive]
    rw [Py.bind_ok hg]
    simp only [Py.bind_apply, OvProc.onLines, Py.onPart_apply, hw]
  · rw [OvSys.receive_eq p b n m q v mi net (.str d) ms hq]
    simp
  · rw [OvSys.receive_eq p b n m q v mi net (.str d) ms hq]
    show ((Ovr.write (Ovr.method p) d).seq ⟨b, v⟩).2 = _
    rw [hw]
    rfl

/-- A mirror writes a text with an empty line, which the override of C78 refuses; the text is received, and then a second
one: of the first text nothing is left, and the second one begins a line of its own. -/
example : let s := OvSys.run keepE.noting [.take, .mirror 0 (.write (lit "aE\n\nrest")), .receive,
      .mirror 0 (.write (lit "E\n")), .receive] (newOvSys 5 (0, []))
    (ovItemTexts s.main.main.base.storage.items, s.main.main.base.lastLine.buf, s.main.own.1, ovItemTexts s.main.own.2,
        (s.net.queues 0).length) = ([some (lit "E")], [], 0, [some (lit "E")], 0) := by decide +kernel

/-! ## The default -/

theorem Ovr.seq_write_default (d : PyStr) (b : OvBuf U) :
    (Ovr.write (Ovr.method Override.default) d).seq b = ((LineBuf.write d b.base).1, ⟨(LineBuf.write d b.base).2, b.own⟩) := by
  have : (Ovr.write (Ovr.method Override.default) d : OProg U Nat) = Ovr.line (Thr.write d) := by
    simp only [Ovr.write, Thr.write, Ovr.line_ite, Ovr.line_bind, Ovr.line_raise, Ovr.line_locked, Ovr.writeCore_default]
  rw [this, Ovr.seq_line, Thr.seq_write]
  rfl

theorem Ovr.seq_newLine_default (b : OvBuf U) :
    (Ovr.newLine (Ovr.method Override.default)).seq b = ((LineBuf.newLine b.base).1, ⟨(LineBuf.newLine b.base).2, b.own⟩) := by
  have : (Ovr.newLine (Ovr.method Override.default) : OProg U Unit) = Ovr.line Thr.newLine := by
    simp only [Ovr.newLine, Thr.newLine, Ovr.line_ite, Ovr.line_bind, Ovr.line_pure, Ovr.line_locked, Ovr.writeCore_default]
  rw [this, Ovr.seq_line, Thr.seq_newLine]
  rfl

theorem OvSys.step_default (o : ProcOp) (s : OvSys U) : (OvSys.step Override.default o s).plain = s.plain.step o := by
  obtain ⟨⟨⟨b, n, m, q⟩, u⟩, ms, net⟩ := s
  cases o with
  | take => rfl
  | mirror i c =>
    simp only [OvSys.step, ProcSys.step, OvSys.plain]
    cases ms[i]? <;> rfl
  | receive =>
    show OvSys.plain _ = ProcSys.step .receive ⟨⟨b, n, m, q⟩, ms, net⟩
    cases hq : net.queues m.queue with
    | nil => rw [OvSys.receive_empty _ b n m q u ms net hq, OvSys.proc_receive_empty b n m q ms net hq]; rfl
    | cons x xs =>
      rw [OvSys.receive_eq _ b n m q u ms net x xs hq, OvSys.proc_receive_eq b n m q ms net x xs hq]
      cases x with
      | str d => simp only [Ovr.seq_write_default]; rfl
      | _ => rfl
  | stopAll => rfl
  | forceStop => rfl
  | reset =>
    by_cases hn : n > 0
    · simp [OvSys.step, ProcSys.step, OvSys.onMain, ProcSys.onMain, OvProc.inherited, ProcBuf.resetStates, Py.bind_apply,
        hn, OvSys.plain]
    · simp [OvSys.step, ProcSys.step, OvSys.onMain, ProcSys.onMain, OvProc.inherited, ProcBuf.resetStates, Py.bind_apply,
        hn, OvSys.plain]
  | buffer c =>
    have e : ((Ovr.prog (Ovr.method Override.default) c).seq (⟨b, u⟩ : OvBuf U)).2 = ⟨(LineBuf.exec c b).2, u⟩ := by
      rw [C78_default, Ovr.seq_line]
      simp only [Ovr.onBase, Py.onPart_apply, Thr.prog_seq]
    cases c with
    | write d => rfl
    | _ => simp only [OvSys.step, OvSys.onMain, OvProc.onLines, Py.onPart_apply, e]; rfl

/-- **C91** With the default `parse_lines` the process mode is that of `Model/Proc.lean`. -/
theorem C91_default (os : List ProcOp) (s : OvSys U) : (OvSys.run Override.default os s).plain = s.plain.run os := by
  induction os generalizing s with
  | nil => rfl
  | cons o os ih =>
    show (OvSys.run Override.default os (OvSys.step Override.default o s)).plain = ProcSys.run os (s.plain.step o)
    rw [ih, OvSys.step_default]

/-! ## Host mode -/

/-- **C91** A subclass of `LineHostBuffer` overrides `parse_lines` in any way, and mirrors post texts, errors, warnings and ends in any
order.  Every request does and answers what the specification says: a text is cut into lines as by `write`, and its lines are handed over
in one call; an error or a warning first hands over the unfinished line (if there is one), then goes to the storage itself; if the override
raises, the request is refused (500), nothing else changes, and the unfinished line stays.  The state of the service stays. -/
theorem C91_posts (p : Override U) (hp : KeepsDeque fun ls => (p ls).seq) (env : HEnv) (xs : List Posted) (h : OvHost U)
    (st : Deque Item) (part : PyStr) (u : U) (hst : IsDeque st) (hpart : NoBreak part)
    (hs : (⟨h.host.base, h.own⟩ : OvBuf U) = ovOpen st part u) :
    ∃ l, PostSteps (fun ls => (p ls).seq) ⟨part, st, u⟩ xs (OvHost.serve p env (xs.map fun x => .post (.json x.body)) h).1 l ∧
      (⟨(OvHost.serve p env (xs.map fun x => .post (.json x.body)) h).2.host.base,
        (OvHost.serve p env (xs.map fun x => .post (.json x.body)) h).2.own⟩ : OvBuf U) = ovOpen l.store l.part l.own ∧
      (OvHost.serve p env (xs.map fun x => .post (.json x.body)) h).2.host.state = h.host.state := by
  obtain ⟨l, h1, h2, h3, _⟩ := OvHost.serve_lines hp env xs h (l := ⟨part, st, u⟩) ⟨hpart, hst⟩ hs
  exact ⟨l, h1, h2, h3⟩

/-- **C91** If the override notes what it is given (by calls that do not raise), then this is exactly what the accepted requests complete:
a refused request completes no line and adds nothing to the unfinished line, so that the same text may be posted again. -/
theorem C91_accepted (p : Override U) (hp : KeepsDeque fun ls => (p ls).seq) (env : HEnv) (xs : List Posted)
    (h : OvHost (U × List Item)) (st : Deque Item) (part : PyStr) (u : U) (hst : IsDeque st) (hpart : NoBreak part)
    (hs : (⟨h.host.base, h.own⟩ : OvBuf (U × List Item)) = ovOpen st part (u, [])) :
    ∃ ls, Accepted part (xs.zip (OvHost.serve p.noting env (xs.map fun x => .post (.json x.body)) h).1) ls
        (OvHost.serve p.noting env (xs.map fun x => .post (.json x.body)) h).2.host.base.lastLine.buf ∧
      (OvHost.serve p.noting env (xs.map fun x => .post (.json x.body)) h).2.own.2 = ls.map .str := by
  obtain ⟨l, h1, h2, _⟩ := C91_posts p.noting (noting_keeps hp) env xs h st part (u, []) hst hpart hs
  obtain ⟨ls, h3, h4⟩ := postSteps_accepted h1
  have e1 := congrArg (fun b : OvBuf (U × List Item) => b.base.lastLine.buf) h2
  have e2 := congrArg OvBuf.own h2
  dsimp only at e1 e2
  exact ⟨ls, by rw [e1]; exact h3, by rw [e2]; exact h4⟩

/-- **C91** With the default `parse_lines` the service answers every request as that of `Model/Host.lean`, and does the same. -/
theorem C91_host_default (env : HEnv) (r : Req) (h : OvHost U) :
    ((OvHost.handle Override.default env r h).1, (OvHost.handle Override.default env r h).2.host) = HostBuf.handle env r h.host ∧
      (OvHost.handle Override.default env r h).2.own = h.own := by
  have hw : ∀ d, OvHost.onLines (Ovr.write (Ovr.method Override.default) d) =
      (OvHost.inherited (HostBuf.onBase (LineBuf.write d)) : Py (OvHost U) Nat) := fun d => by
    funext s
    simp only [OvHost.onLines, Py.onPart_apply, Ovr.seq_write_default]
    rfl
  have hnl : OvHost.onLines (Ovr.newLine (Ovr.method Override.default)) =
      (OvHost.inherited (HostBuf.onBase LineBuf.newLine) : Py (OvHost U) Unit) := by
    funext s
    simp only [OvHost.onLines, Py.onPart_apply, Ovr.seq_newLine_default]
    rfl
  have hb : ∀ {α β} (m : Py HostBuf α) (k : α → Py HostBuf β),
      (OvHost.inherited (m >>= k) : Py (OvHost U) β) = OvHost.inherited m >>= fun a => OvHost.inherited (k a) := fun m k => by
    funext s
    simp only [OvHost.inherited, Py.bind_apply, Py.onPart_apply]
    rcases m s.host with ⟨y, z⟩
    cases y <;> rfl
  have hpost : ∀ args, OvHost.post Override.default env args = (OvHost.inherited (HostBuf.post env args) : Py (OvHost U) Unit) := fun args => by
    simp only [OvHost.post, HostBuf.post, hw, hnl]
    split
    · split
      · cases (args.get (lit "data") .null).get (lit "value") .null with
        | null => rfl
        | _ => dsimp only; rw [hb]; rfl
      · rfl
    · split
      · split
        · rw [hb]
          congr 1
          funext _
          rw [hb]
        · rfl
      · split <;> rfl
  cases r with
  | post b =>
    simp only [OvHost.handle, HostBuf.handle, HostBuf.answerPost, hpost]
    cases HostBuf.jsonArgs b with
    | error e => exact ⟨rfl, rfl⟩
    | ok o => cases o <;> exact ⟨rfl, rfl⟩
  | _ => exact ⟨rfl, rfl⟩

/-- A service. -/
def hostOfE : OvHost (Nat × List Item) := ⟨⟨opened 5 [] [], []⟩, (0, [])⟩

/-- A text is refused and, without the empty line, posted again; an error ends the line. -/
def someRequests : List Posted :=
  [.text (lit "aE"), .text (lit "b\n\nx"), .text (lit "b\nx"), .error (GMsg.new (.exc {})), .fin]

example : let z := OvHost.serve keepE.noting ⟨fun _ => [], fun _ => none⟩ (someRequests.map fun x => .post (.json x.body)) hostOfE
    (z.1, ovItemTexts z.2.host.base.storage.items, z.2.host.base.lastLine.buf, z.2.own.1, ovItemTexts z.2.own.2) =
      ([201, 500, 201, 201, 201], [some (lit "aEb"), none], [], 1, [some (lit "aEb"), some (lit "x")]) := by decide +kernel

/-- The hypotheses of `C91_posts` hold for it. -/
example (env : HEnv) (xs : List Posted) :
    ∃ ls, Accepted [] (xs.zip (OvHost.serve keepE.noting env (xs.map fun x => .post (.json x.body)) hostOfE).1) ls
        (OvHost.serve keepE.noting env (xs.map fun x => .post (.json x.body)) hostOfE).2.host.base.lastLine.buf ∧
      (OvHost.serve keepE.noting env (xs.map fun x => .post (.json x.body)) hostOfE).2.own.2 = ls.map .str :=
  C91_accepted keepE keepE_keeps env xs hostOfE { maxlen := 5 } [] 0 ⟨by decide, by decide⟩ noBreak_nil rfl

end SyncStream
