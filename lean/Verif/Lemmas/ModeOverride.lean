import Verif.Model.ModeOverride
import Verif.Spec.ModeOverride
import Verif.Props.Override
/-!
# A user's `parse_lines` in the process mode and in the host mode: one step
-/

namespace SyncStream
open Spec LineBuf

variable {U : Type}

theorem Deque.append_isDeque {d : Deque Item} (h : IsDeque d) (i : Item) : IsDeque (d.append i) := by
  refine ⟨h.1, ?_⟩
  have := h.2
  simp only [Deque.append]
  split
  · simp; omega
  · omega

namespace Ovr

theorem write_seq {p : Override U} (hp : KeepsDeque fun ls => (p ls).seq) {l : OvLog U} (hl : Sound l) (d : PyStr) :
    ∃ l', Sound l' ∧ ((∃ n, (write (method p) d).seq (rep l) = (.ok n, rep l') ∧
        OvStep (fun ls => (p ls).seq) l 0 (.write d) (.nat n) l') ∨
      ∃ e, (write (method p) d).seq (rep l) = (.error e, rep l') ∧
        OvStep (fun ls => (p ls).seq) l 0 (.write d) (.exc e) l') := by
  obtain ⟨r, l', h1, h2, h3⟩ := step_rep hp hl 0 (c := .write d) trivial
  rw [show prog (method p) (.write d) = (do return Ret.of .nat (← (write (method p) d).outcome)) from rfl, seq_of] at h1
  obtain ⟨a, b⟩ := Prod.mk.inj h1
  have a := Except.ok.inj a
  refine ⟨l', h3, ?_⟩
  rcases hx : (write (method p) d).seq (rep l) with ⟨x, y⟩
  rw [hx] at a b
  cases x with
  | ok n => exact .inl ⟨n, by rw [← b], by cases a; exact h2⟩
  | error e => exact .inr ⟨e, by rw [← b], by cases a; exact h2⟩

theorem newLine_seq {p : Override U} (hp : KeepsDeque fun ls => (p ls).seq) {l : OvLog U} (hl : Sound l) :
    ∃ l', Sound l' ∧ (((newLine (method p)).seq (rep l) = (.ok (), rep l') ∧
        OvStep (fun ls => (p ls).seq) l 0 .newLine .unit l') ∨
      ∃ e, (newLine (method p)).seq (rep l) = (.error e, rep l') ∧
        OvStep (fun ls => (p ls).seq) l 0 .newLine (.exc e) l') := by
  obtain ⟨r, l', h1, h2, h3⟩ := step_rep hp hl 0 (c := .newLine) trivial
  rw [show prog (method p) .newLine = (do return Ret.of (fun _ => .unit) (← (newLine (method p)).outcome)) from rfl,
    seq_of] at h1
  obtain ⟨a, b⟩ := Prod.mk.inj h1
  have a := Except.ok.inj a
  refine ⟨l', h3, ?_⟩
  rcases hx : (newLine (method p)).seq (rep l) with ⟨x, y⟩
  rw [hx] at a b
  cases x with
  | ok n => exact .inl ⟨by rw [← b], by cases a; exact h2⟩
  | error e => exact .inr ⟨e, by rw [← b], by cases a; exact h2⟩

end Ovr

theorem didSteps_append {par : List Item → Py (Deque Item × U) Unit} {l l1 l2 : OvLog U} {xs ys : List Did}
    (h : DidSteps par l xs l1) (h' : DidSteps par l1 ys l2) : DidSteps par l (xs ++ ys) l2 := by
  induction h with
  | nil => exact h'
  | cons l l1 _ x xs h1 _ ih => exact .cons _ _ _ _ _ h1 (ih h')

namespace OvSys

/-- The two systems are the same but for the line buffer. -/
def Same (s : OvSys U) (t : ProcSys) : Prop :=
  s.mirrors = t.mirrors ∧ s.net = t.net ∧ s.main.main.nMirrors = t.main.nMirrors ∧ s.main.main.mirror = t.main.mirror ∧
    s.main.main.nextQueue = t.main.nextQueue

theorem receive_empty (p : Override U) (b : LineBuf) (n : Int) (m : Mirror) (q : Nat) (u : U) (ms : List Mirror) (net : Net)
    (hq : net.queues m.queue = []) :
    step p .receive ⟨⟨⟨b, n, m, q⟩, u⟩, ms, net⟩ = ⟨⟨⟨b, n, m, q⟩, u⟩, ms, net⟩ := by
  simp only [step, onMain, OvProc.receive]
  rw [Py.bind_error (e := .blocked) (s' := (⟨⟨b, n, m, q⟩, u⟩, net)) (by simp [OvProc.inherited, ProcBuf.get, hq])]

theorem proc_receive_empty (b : LineBuf) (n : Int) (m : Mirror) (q : Nat) (ms : List Mirror) (net : Net)
    (hq : net.queues m.queue = []) : ProcSys.step .receive ⟨⟨b, n, m, q⟩, ms, net⟩ = ⟨⟨b, n, m, q⟩, ms, net⟩ := by
  simp only [ProcSys.step, ProcSys.onMain, ProcBuf.receive]
  rw [Py.bind_error (e := .blocked) (s' := (⟨b, n, m, q⟩, net)) (by simp [ProcBuf.get, hq])]

/-- What `step` for `receive` does. -/
theorem receive_eq (p : Override U) (b : LineBuf) (n : Int) (m : Mirror) (q : Nat) (u : U) (ms : List Mirror) (net : Net)
    (x : QMsg) (xs : List QMsg) (hq : net.queues m.queue = x :: xs) :
    step p .receive ⟨⟨⟨b, n, m, q⟩, u⟩, ms, net⟩ =
      let net' := { net with queues := fun i => if i = m.queue then xs else net.queues i }
      match x with
      | .str d =>
        let b' := ((Ovr.write (Ovr.method p) d).seq ⟨b, u⟩).2
        ⟨⟨⟨b'.base, n, m, q⟩, b'.own⟩, ms, net'⟩
      | .error g => ⟨⟨⟨{ b with storage := b.storage.append (.msg g) }, n - 1, m, q⟩, u⟩, ms, net'⟩
      | .warning g => ⟨⟨⟨{ b with storage := b.storage.append (.msg g) }, n, m, q⟩, u⟩, ms, net'⟩
      | .close => ⟨⟨⟨b, n - 1, m, q⟩, u⟩, ms, net'⟩
      | .stop => ⟨⟨⟨b, 0, m, q⟩, u⟩, ms, net'⟩
      | .other => ⟨⟨⟨b, n, m, q⟩, u⟩, ms, net'⟩ := by
  have hg : ∀ s : OvNet U, s = (⟨⟨b, n, m, q⟩, u⟩, net) → OvProc.inherited ProcBuf.get s =
      (.ok x, (⟨⟨b, n, m, q⟩, u⟩, { net with queues := fun i => if i = m.queue then xs else net.queues i })) := by
    rintro _ rfl
    simp [OvProc.inherited, ProcBuf.get, hq]
  simp only [step, onMain, OvProc.receive]
  rw [Py.bind_ok (hg _ rfl)]
  cases x with
  | str d =>
    dsimp only
    rcases hx : (Ovr.write (Ovr.method p) d).seq ⟨b, u⟩ with ⟨y, b'⟩
    simp only [Py.bind_apply, OvProc.onLines, Py.onPart_apply, hx]
    cases y <;> rfl
  | error g => rfl
  | warning g => rfl
  | close => rfl
  | stop => rfl
  | other => rfl

theorem proc_receive_eq (b : LineBuf) (n : Int) (m : Mirror) (q : Nat) (ms : List Mirror) (net : Net)
    (x : QMsg) (xs : List QMsg) (hq : net.queues m.queue = x :: xs) :
    ProcSys.step .receive ⟨⟨b, n, m, q⟩, ms, net⟩ =
      let net' := { net with queues := fun i => if i = m.queue then xs else net.queues i }
      match x with
      | .str d => ⟨⟨(LineBuf.write d b).2, n, m, q⟩, ms, net'⟩
      | .error g => ⟨⟨{ b with storage := b.storage.append (.msg g) }, n - 1, m, q⟩, ms, net'⟩
      | .warning g => ⟨⟨{ b with storage := b.storage.append (.msg g) }, n, m, q⟩, ms, net'⟩
      | .close => ⟨⟨b, n - 1, m, q⟩, ms, net'⟩
      | .stop => ⟨⟨b, 0, m, q⟩, ms, net'⟩
      | .other => ⟨⟨b, n, m, q⟩, ms, net'⟩ := by
  have hg : ProcBuf.get (⟨b, n, m, q⟩, net) =
      (.ok x, (⟨b, n, m, q⟩, { net with queues := fun i => if i = m.queue then xs else net.queues i })) := by
    simp [ProcBuf.get, hq]
  simp only [ProcSys.step, ProcSys.onMain, ProcBuf.receive]
  rw [Py.bind_ok hg]
  cases x with
  | str d =>
    dsimp only
    rcases hx : LineBuf.write d b with ⟨y, b'⟩
    simp only [Py.bind_apply, ProcBuf.onBase, Py.onPart_apply, hx]
    cases y <;> rfl
  | error g => rfl
  | warning g => rfl
  | close => rfl
  | stop => rfl
  | other => rfl

theorem step_same (p : Override U) (o : ProcOp) {s : OvSys U} {t : ProcSys} (h : Same s t) :
    Same (step p o s) (t.step o) := by
  obtain ⟨⟨⟨b, n, m, q⟩, u⟩, ms, net⟩ := s
  obtain ⟨⟨b', n', m', q'⟩, ms', net'⟩ := t
  obtain ⟨h1, h2, h3, h4, h5⟩ := h
  dsimp only at h1 h2 h3 h4 h5
  subst h1 h2 h3 h4 h5
  cases o with
  | take => exact ⟨rfl, rfl, rfl, rfl, rfl⟩
  | mirror i c =>
    simp only [step, ProcSys.step]
    cases ms[i]? <;> exact ⟨rfl, rfl, rfl, rfl, rfl⟩
  | receive =>
    cases hq : net.queues m.queue with
    | nil =>
      rw [receive_empty p b n m q u ms net hq, proc_receive_empty b' n m q ms net hq]
      exact ⟨rfl, rfl, rfl, rfl, rfl⟩
    | cons x xs =>
      rw [receive_eq p b n m q u ms net x xs hq, proc_receive_eq b' n m q ms net x xs hq]
      cases x <;> exact ⟨rfl, rfl, rfl, rfl, rfl⟩
  | stopAll => exact ⟨rfl, rfl, rfl, rfl, rfl⟩
  | forceStop => exact ⟨rfl, rfl, rfl, rfl, rfl⟩
  | reset =>
    by_cases hn : n > 0
    · simp [step, ProcSys.step, onMain, ProcSys.onMain, OvProc.inherited, ProcBuf.resetStates, Py.bind_apply, Py.ite_apply,
        hn, Same]
    · simp [step, ProcSys.step, onMain, ProcSys.onMain, OvProc.inherited, ProcBuf.resetStates, Py.bind_apply, Py.ite_apply,
        hn, Same]
  | buffer c => cases c <;> exact ⟨rfl, rfl, rfl, rfl, rfl⟩

/-- The line buffer and the attributes of the subclass. -/
def lines (s : OvSys U) : OvBuf U := ⟨s.main.main.base, s.main.own⟩

theorem step_lines {p : Override U} (hp : KeepsDeque fun ls => (p ls).seq) {o : ProcOp} (ho : OvOp o) {s : OvSys U}
    {t : ProcSys} (h : Same s t) {l : OvLog U} (hl : Ovr.Sound l) (hs : s.lines = Ovr.rep l) :
    ∃ l', DidSteps (fun ls => (p ls).seq) l (didOf t o) l' ∧ (step p o s).lines = Ovr.rep l' ∧ Ovr.Sound l' := by
  obtain ⟨⟨⟨b, n, m, q⟩, u⟩, ms, net⟩ := s
  obtain ⟨⟨b', n', m', q'⟩, ms', net'⟩ := t
  obtain ⟨h1, h2, h3, h4, h5⟩ := h
  dsimp only at h1 h2 h3 h4 h5
  subst h1 h2 h3 h4 h5
  have hs : (⟨b, u⟩ : OvBuf U) = Ovr.rep l := hs
  have hb : b = opened l.store.maxlen l.store.items l.part := congrArg OvBuf.base hs
  have hu : u = l.own := congrArg OvBuf.own hs
  have idle : ∀ x : OvSys U, x.lines = ⟨b, u⟩ → ∃ l', DidSteps (fun ls => (p ls).seq) l [] l' ∧ x.lines = Ovr.rep l' ∧
      Ovr.Sound l' := fun x e => ⟨l, .nil _, e.trans hs, hl⟩
  have call : ∀ c, Thr.Atomic (.call c) → ∃ l', DidSteps (fun ls => (p ls).seq) l [.called c] l' ∧
      ((Ovr.prog (Ovr.method p) c).seq ⟨b, u⟩).2 = Ovr.rep l' ∧ Ovr.Sound l' := fun c hc => by
    obtain ⟨r, l', e1, e2, e3⟩ := Ovr.step_rep hp hl 0 hc
    exact ⟨l', .cons _ _ _ _ _ (.called _ _ _ _ e2) (.nil _), by rw [hs, e1], e3⟩
  cases o with
  | take => exact idle _ rfl
  | mirror i c =>
    simp only [step]
    cases ms[i]? <;> exact idle _ rfl
  | receive =>
    cases hq : net.queues m.queue with
    | nil =>
      simp only [didOf, hq, receive_empty p b n m q u ms net hq]
      exact idle _ rfl
    | cons x xs =>
      rw [receive_eq p b n m q u ms net x xs hq]
      simp only [didOf, hq, List.head?_cons, Option.map_some, Option.toList_some]
      have stay : ∀ x, DidStep (fun ls => (p ls).seq) l (.got x) l → ∃ l', DidSteps (fun ls => (p ls).seq) l [.got x] l' ∧
          (⟨b, u⟩ : OvBuf U) = Ovr.rep l' ∧ Ovr.Sound l' := fun x h => ⟨l, .cons _ _ _ _ _ h (.nil _), hs, hl⟩
      have add : ∀ x (i : Item), DidStep (fun ls => (p ls).seq) l (.got x) { l with store := l.store.append i } →
          ∃ l', DidSteps (fun ls => (p ls).seq) l [.got x] l' ∧
            (⟨{ b with storage := b.storage.append i }, u⟩ : OvBuf U) = Ovr.rep l' ∧ Ovr.Sound l' := fun x i h =>
        ⟨_, .cons _ _ _ _ _ h (.nil _), by rw [hb, hu]; rfl, hl.1, Deque.append_isDeque hl.2 i⟩
      cases x with
      | str d =>
        obtain ⟨l', g1, g2⟩ := Ovr.write_seq hp hl d
        refine ⟨l', ?_, ?_, g1⟩
        · rcases g2 with ⟨k, _, g3⟩ | ⟨e, _, g3⟩ <;> exact .cons _ _ _ _ _ (.text _ _ _ _ g3) (.nil _)
        · show ((Ovr.write (Ovr.method p) d).seq ⟨b, u⟩).2 = _
          rw [hs]
          rcases g2 with ⟨k, g3, _⟩ | ⟨e, g3, _⟩ <;> rw [g3]
      | error g => exact add _ _ (.error _ _)
      | warning g => exact add _ _ (.warning _ _)
      | close => exact stay _ (.close _)
      | stop => exact stay _ (.stop _)
      | other => exact stay _ (.other _)
  | stopAll => exact idle _ rfl
  | forceStop => exact idle _ rfl
  | reset =>
    refine idle _ ?_
    by_cases hn : n > 0
    · simp [step, onMain, OvProc.inherited, ProcBuf.resetStates, Py.bind_apply, Py.ite_apply, hn, lines]
    · simp [step, onMain, OvProc.inherited, ProcBuf.resetStates, Py.bind_apply, Py.ite_apply, hn, lines]
  | buffer c =>
    cases c with
    | write d => exact idle _ rfl
    | clear =>
      refine ⟨_, .cons _ _ _ _ _ (.clear l) (.nil _), ?_, noBreak_nil, hl.2.1, Nat.zero_le _⟩
      show ((Ovr.line (Thr.prog (.call .clear)) : OProg U Ret).seq ⟨b, u⟩).2 = _
      rw [hs, Ovr.seq_line]
      have e : (Thr.prog (.call .clear)).seq (opened l.store.maxlen l.store.items l.part) =
          (.ok .unit, opened l.store.maxlen [] []) := by
        rw [Thr.prog_seq]; simp only [exec, clear_opened]; rfl
      simp only [Ovr.onBase, Py.onPart_apply, Ovr.rep, e]
      rfl
    | newLine => exact call _ trivial
    | read k => exact call _ trivial
    | flush => exact call _ trivial
    | closed => exact call _ trivial
    | readable => exact call _ trivial
    | writable => exact call _ trivial
    | _ => cases ho

theorem run_lines {p : Override U} (hp : KeepsDeque fun ls => (p ls).seq) (os : List ProcOp) (ho : ∀ o ∈ os, OvOp o)
    {s : OvSys U} {t : ProcSys} (h : Same s t) {l : OvLog U} (hl : Ovr.Sound l) (hs : s.lines = Ovr.rep l) :
    Same (run p os s) (t.run os) ∧
      ∃ l', DidSteps (fun ls => (p ls).seq) l (didIn t os) l' ∧ (run p os s).lines = Ovr.rep l' ∧ Ovr.Sound l' := by
  induction os generalizing s t l with
  | nil => exact ⟨h, l, .nil _, hs, hl⟩
  | cons o os ih =>
    obtain ⟨l1, g1, g2, g3⟩ := step_lines hp (ho o (.head _)) h hl hs
    obtain ⟨i1, l2, i2, i3⟩ := ih (fun o' h' => ho o' (.tail _ h')) (step_same p o h) g3 g2
    exact ⟨i1, l2, didSteps_append g1 i2, i3⟩

end OvSys

/-! ## What is handed over -/

theorem noting_ok {p : Override U} {ls : List Item} {x : Deque Item × U × List Item} {st : Deque Item} {u : U × List Item}
    (h : (p.noting ls).seq x = (.ok (), (st, u))) : u.2 = x.2.2 ++ ls := by
  obtain ⟨d, v, g⟩ := x
  rw [noting_seq] at h
  rcases hq : (p ls).seq (d, v) with ⟨y, z⟩
  rw [hq] at h
  cases y with
  | ok a => exact (congrArg (fun z => z.2.2.2) h).symm
  | error e => cases congrArg Prod.fst h

theorem noting_error {p : Override U} {ls : List Item} {x : Deque Item × U × List Item} {st : Deque Item}
    {u : U × List Item} {e : Exc} (h : (p.noting ls).seq x = (.error e, (st, u))) :
    u.2 = x.2.2 ∧ ∃ y, (p ls).seq (x.1, x.2.1) = (.error e, y) := by
  obtain ⟨d, v, g⟩ := x
  rw [noting_seq] at h
  rcases hq : (p ls).seq (d, v) with ⟨y, z⟩
  rw [hq] at h
  cases y with
  | ok a => cases congrArg Prod.fst h
  | error e' =>
    have := congrArg Prod.fst h
    cases this
    exact ⟨(congrArg (fun z => z.2.2.2) h).symm, z, rfl⟩

/-- What a `write` hands over. -/
theorem note_write {p : Override U} {l l' : OvLog (U × List Item)} {d : PyStr} {n : Nat}
    (h : OvStep (fun ls => (p.noting ls).seq) l 0 (.write d) (.nat n) l') :
    ∃ ls, Lines (l.part ++ d) ls l'.part ∧ l'.own.2 = l.own.2 ++ ls.map .str := by
  cases h with
  | writePart _ _ _ g1 _ => exact ⟨[], g1, by simp⟩
  | write _ _ ls _ st u g1 _ g2 _ => exact ⟨ls, g1, noting_ok g2⟩

theorem note_newLine {p : Override U} {l l' : OvLog (U × List Item)}
    (h : OvStep (fun ls => (p.noting ls).seq) l 0 .newLine .unit l') :
    (l.part = [] ∧ l' = l) ∨ (l.part ≠ [] ∧ l'.part = [] ∧ l'.own.2 = l.own.2 ++ [.str l.part]) := by
  cases h with
  | newLineEmpty g => exact .inl ⟨g, rfl⟩
  | newLine st u g1 g2 => exact .inr ⟨g1, rfl, noting_ok g2⟩

/-- A call that raises hands over nothing (that the function has accepted). -/
theorem note_raise {p : Override U} {l l' : OvLog (U × List Item)} {c : Call} {e : Exc}
    (h : OvStep (fun ls => (p.noting ls).seq) l 0 c (.exc e) l') :
    l'.part = l.part ∧ l'.own.2 = l.own.2 ∧ ∃ ls x y, (p ls).seq x = (.error e, y) := by
  cases h with
  | writeRaise _ _ _ _ st u _ _ g =>
    obtain ⟨g1, y, g2⟩ := noting_error g
    exact ⟨rfl, g1, _, _, y, g2⟩
  | newLineRaise _ st u _ g =>
    obtain ⟨g1, y, g2⟩ := noting_error g
    exact ⟨rfl, g1, _, _, y, g2⟩

/-- The other calls change nothing. -/
theorem ovStep_other {par : List Item → Py (Deque Item × U) Unit} {l l' : OvLog U} {c : Call} {r : Ret}
    (h : OvStep par l 0 c r l') (h1 : ∀ d, c ≠ .write d) (h2 : c ≠ .newLine) : l' = l ∧ c ≠ .clear := by
  cases h <;> first | exact absurd rfl (h1 _) | exact absurd rfl h2 | exact ⟨rfl, nofun⟩

theorem ovStep_write_ret {par : List Item → Py (Deque Item × U) Unit} {l l' : OvLog U} {d : PyStr} {r : Ret}
    (h : OvStep par l 0 (.write d) r l') : (∃ n, r = .nat n) ∨ ∃ e, r = .exc e := by
  cases h with
  | writePart => exact .inl ⟨_, rfl⟩
  | write => exact .inl ⟨_, rfl⟩
  | writeRaise => exact .inr ⟨_, rfl⟩

theorem ovStep_newLine_ret {par : List Item → Py (Deque Item × U) Unit} {l l' : OvLog U} {r : Ret}
    (h : OvStep par l 0 .newLine r l') : r = .unit ∨ ∃ e, r = .exc e := by
  cases h with
  | newLineEmpty => exact .inl rfl
  | newLine => exact .inl rfl
  | newLineRaise => exact .inr ⟨_, rfl⟩

theorem didSteps_completed {p : Override U} (hn : ∀ ls x, ∃ y, (p ls).seq x = (.ok (), y))
    {l l' : OvLog (U × List Item)} {xs : List Did} (hx : ∀ d, Did.called (.write d) ∉ xs)
    (h : DidSteps (fun ls => (p.noting ls).seq) l xs l') :
    ∃ ls, Completed l.part xs ls l'.part ∧ l'.own.2 = l.own.2 ++ ls.map .str := by
  have no : ∀ {ls x e y}, (p ls).seq x = (.error e, y) → False := fun {ls x e y} h => by
    obtain ⟨z, hz⟩ := hn ls x
    rw [hz] at h
    cases congrArg Prod.fst h
  induction h with
  | nil l => exact ⟨[], .nil _, by simp⟩
  | cons l l1 l2 x xs h1 h2 ih =>
    obtain ⟨ls, i1, i2⟩ := ih fun d hd => hx d (.tail _ hd)
    cases h1 with
    | text d r _ g =>
      rcases ovStep_write_ret g with ⟨n, rfl⟩ | ⟨e, rfl⟩
      · obtain ⟨ls1, g1, g2⟩ := note_write g
        exact ⟨ls1 ++ ls, .text _ _ _ _ _ _ _ g1 i1, by rw [i2, g2]; simp⟩
      · obtain ⟨_, _, _, _, _, g3⟩ := note_raise g
        exact (no g3).elim
    | error m => exact ⟨ls, .message _ _ _ _ _ (fun _ h => nomatch h) i1, i2⟩
    | warning m => exact ⟨ls, .message _ _ _ _ _ (fun _ h => nomatch h) i1, i2⟩
    | close => exact ⟨ls, .message _ _ _ _ _ (fun _ h => nomatch h) i1, i2⟩
    | stop => exact ⟨ls, .message _ _ _ _ _ (fun _ h => nomatch h) i1, i2⟩
    | other => exact ⟨ls, .message _ _ _ _ _ (fun _ h => nomatch h) i1, i2⟩
    | clear => exact ⟨ls, .clear _ _ _ _ i1, i2⟩
    | called c r _ g =>
      by_cases hw : ∃ d, c = .write d
      · obtain ⟨d, rfl⟩ := hw
        exact absurd (.head _) (hx d)
      · by_cases hnl : c = .newLine
        · subst hnl
          rcases ovStep_newLine_ret g with rfl | ⟨e, rfl⟩
          · rcases note_newLine g with ⟨g1, rfl⟩ | ⟨g1, g2, g3⟩
            · rw [g1] at i1 ⊢
              exact ⟨ls, .newLineEmpty _ _ _ i1, i2⟩
            · rw [g2] at i1
              exact ⟨l.part :: ls, .newLine _ _ _ _ g1 i1, by rw [i2, g3]; simp⟩
          · obtain ⟨_, _, _, _, _, g3⟩ := note_raise g
            exact (no g3).elim
        · obtain ⟨rfl, hc⟩ := ovStep_other g (fun d e => hw ⟨d, e⟩) hnl
          exact ⟨ls, .call _ _ _ _ _ (fun d e => hw ⟨d, e⟩) hnl hc i1, i2⟩

theorem didIn_noWrite (t : ProcSys) (os : List ProcOp) (d : PyStr) : Did.called (.write d) ∉ didIn t os := by
  induction os generalizing t with
  | nil => exact fun h => nomatch h
  | cons o os ih =>
    rw [didIn, List.mem_append]
    rintro (h | h)
    · cases o with
      | receive => simp [didOf] at h
      | buffer c => cases c <;> simp [didOf] at h
      | _ => cases h
    · exact ih _ h

/-! ## Host mode -/

namespace OvHost

/-- The line buffer and the attributes of the subclass. -/
def lines (h : OvHost U) : OvBuf U := ⟨h.host.base, h.own⟩

theorem post_text (p : Override U) (env : HEnv) (d : PyStr) :
    post p env (HMirror.strMsg d) = (do let _ ← onLines (Ovr.write (Ovr.method p) d); return ()) := rfl

theorem post_error (p : Override U) (env : HEnv) (m : GMsg) :
    post p env (HMirror.objMsg (lit "error") m) = (do
      onLines (Ovr.newLine (Ovr.method p))
      let item ← inherited (HostBuf.lift (.ok (.msg m)))
      inherited (HostBuf.store item)) := rfl

theorem post_warning (p : Override U) (env : HEnv) (m : GMsg) :
    post p env (HMirror.objMsg (lit "warning") m) = (do
      onLines (Ovr.newLine (Ovr.method p))
      let item ← inherited (HostBuf.lift (.ok (.msg m)))
      inherited (HostBuf.store item)) := rfl

theorem post_fin (p : Override U) (env : HEnv) :
    post p env HMirror.closeMsg = onLines (Ovr.newLine (Ovr.method p)) := rfl

theorem handle_body (p : Override U) (env : HEnv) (x : Posted) (h : OvHost U) :
    handle p env (.post (.json x.body)) h =
      (HostBuf.answer 201 (fun _ => HostBuf.success) (post p env x.body h).1, (post p env x.body h).2) := by
  cases x <;> rfl

theorem handle_lines {p : Override U} (hp : KeepsDeque fun ls => (p ls).seq) (env : HEnv) (x : Posted) (h : OvHost U)
    {l : OvLog U} (hl : Ovr.Sound l) (hs : h.lines = Ovr.rep l) :
    ∃ l', PostStep (fun ls => (p ls).seq) l x (handle p env (.post (.json x.body)) h).1.status l' ∧
      (handle p env (.post (.json x.body)) h).2.lines = Ovr.rep l' ∧
      (handle p env (.post (.json x.body)) h).2.host.state = h.host.state ∧ Ovr.Sound l' := by
  obtain ⟨⟨b, st⟩, u⟩ := h
  have hs : (⟨b, u⟩ : OvBuf U) = Ovr.rep l := hs
  rw [handle_body]
  have ends : ∀ {α} (k : Unit → Py (OvHost U) α), ∃ l', Ovr.Sound l' ∧
      (((onLines (Ovr.newLine (Ovr.method p)) >>= k) ⟨⟨b, st⟩, u⟩ = k () ⟨⟨(Ovr.rep l').base, st⟩, l'.own⟩ ∧
        OvStep (fun ls => (p ls).seq) l 0 .newLine .unit l') ∨
      ∃ e, (onLines (Ovr.newLine (Ovr.method p)) >>= k) ⟨⟨b, st⟩, u⟩ = (.error e, ⟨⟨(Ovr.rep l').base, st⟩, l'.own⟩) ∧
        OvStep (fun ls => (p ls).seq) l 0 .newLine (.exc e) l') := fun {α} k => by
    obtain ⟨l', g1, g2⟩ := Ovr.newLine_seq hp hl
    refine ⟨l', g1, ?_⟩
    rcases g2 with ⟨g2, g3⟩ | ⟨e, g2, g3⟩
    · exact .inl ⟨Py.bind_ok (by simp only [onLines, Py.onPart_apply, hs, g2]; rfl), g3⟩
    · exact .inr ⟨e, Py.bind_error (by simp only [onLines, Py.onPart_apply, hs, g2]; rfl), g3⟩
  have msg : ∀ m x, x.stored = some (some m) → post p env x.body = (do
      onLines (Ovr.newLine (Ovr.method p))
      let item ← inherited (HostBuf.lift (.ok (.msg m)))
      inherited (HostBuf.store item)) →
      ∃ l', PostStep (fun ls => (p ls).seq) l x
        (HostBuf.answer 201 (fun _ => HostBuf.success) (post p env x.body ⟨⟨b, st⟩, u⟩).1).status l' ∧
        (post p env x.body ⟨⟨b, st⟩, u⟩).2.lines = Ovr.rep l' ∧ (post p env x.body ⟨⟨b, st⟩, u⟩).2.host.state = st ∧
        Ovr.Sound l' := fun m x hm e => by
    rw [e]
    obtain ⟨l', g1, g2⟩ := ends fun _ => (do
      let item ← inherited (HostBuf.lift (.ok (.msg m)))
      inherited (HostBuf.store item))
    rcases g2 with ⟨g2, g3⟩ | ⟨e, g2, g3⟩
    · rw [g2]
      exact ⟨_, .item _ _ _ _ hm g3, rfl, rfl, g1.1, Deque.append_isDeque g1.2 _⟩
    · rw [g2]
      exact ⟨_, .raised _ _ _ _ _ hm g3, rfl, rfl, g1⟩
  cases x with
  | text d =>
    show ∃ l', PostStep _ l (.text d) (HostBuf.answer 201 (fun _ => HostBuf.success)
      (post p env (HMirror.strMsg d) ⟨⟨b, st⟩, u⟩).1).status l' ∧ (post p env (HMirror.strMsg d) ⟨⟨b, st⟩, u⟩).2.lines = _ ∧
      (post p env (HMirror.strMsg d) ⟨⟨b, st⟩, u⟩).2.host.state = st ∧ _
    rw [post_text]
    obtain ⟨l', g1, g2⟩ := Ovr.write_seq hp hl d
    rcases g2 with ⟨n, g2, g3⟩ | ⟨e, g2, g3⟩
    · rw [Py.bind_ok (a := n) (s' := ⟨⟨(Ovr.rep l').base, st⟩, l'.own⟩) (by simp only [onLines, Py.onPart_apply, hs, g2]; rfl)]
      exact ⟨l', .text _ _ _ _ g3, rfl, rfl, g1⟩
    · rw [Py.bind_error (e := e) (s' := ⟨⟨(Ovr.rep l').base, st⟩, l'.own⟩) (by simp only [onLines, Py.onPart_apply, hs, g2]; rfl)]
      exact ⟨l', .textRaise _ _ _ _ g3, rfl, rfl, g1⟩
  | error m => exact msg m (.error m) rfl (post_error p env m)
  | warning m => exact msg m (.warning m) rfl (post_warning p env m)
  | fin =>
    have e : post p env (Posted.fin).body = (onLines (Ovr.newLine (Ovr.method p)) >>= pure) := by
      show post p env HMirror.closeMsg = _
      rw [post_fin]
      funext s
      simp only [Py.bind_apply]
      rcases onLines (Ovr.newLine (Ovr.method p)) s with ⟨y, z⟩
      cases y <;> rfl
    rw [e]
    obtain ⟨l', g1, g2⟩ := ends pure
    rcases g2 with ⟨g2, g3⟩ | ⟨e, g2, g3⟩
    · rw [g2]
      exact ⟨_, .fin _ _ _ rfl g3, rfl, rfl, g1⟩
    · rw [g2]
      exact ⟨_, .raised _ _ _ _ _ rfl g3, rfl, rfl, g1⟩

theorem serve_lines {p : Override U} (hp : KeepsDeque fun ls => (p ls).seq) (env : HEnv) (xs : List Posted) (h : OvHost U)
    {l : OvLog U} (hl : Ovr.Sound l) (hs : h.lines = Ovr.rep l) :
    ∃ l', PostSteps (fun ls => (p ls).seq) l xs (serve p env (xs.map fun x => .post (.json x.body)) h).1 l' ∧
      (serve p env (xs.map fun x => .post (.json x.body)) h).2.lines = Ovr.rep l' ∧
      (serve p env (xs.map fun x => .post (.json x.body)) h).2.host.state = h.host.state ∧ Ovr.Sound l' := by
  induction xs generalizing h l with
  | nil => exact ⟨l, .nil _, hs, rfl, hl⟩
  | cons x xs ih =>
    obtain ⟨l1, g1, g2, g3, g4⟩ := handle_lines hp env x h hl hs
    obtain ⟨l2, i1, i2, i3, i4⟩ := ih _ g4 g2
    exact ⟨l2, .cons _ _ _ _ _ _ _ g1 i1, i2, i3.trans g3, i4⟩

end OvHost

theorem postSteps_accepted {p : Override U} {l l' : OvLog (U × List Item)} {xs : List Posted} {ns : List Nat}
    (h : PostSteps (fun ls => (p.noting ls).seq) l xs ns l') :
    ∃ ls, Accepted l.part (xs.zip ns) ls l'.part ∧ l'.own.2 = l.own.2 ++ ls.map .str := by
  induction h with
  | nil l => exact ⟨[], .nil _, by simp⟩
  | cons l l1 l2 x xs n ns h1 h2 ih =>
    obtain ⟨ls, i1, i2⟩ := ih
    cases h1 with
    | text d k _ g =>
      obtain ⟨ls1, g1, g2⟩ := note_write g
      exact ⟨ls1 ++ ls, .text _ _ _ _ _ _ _ g1 i1, by rw [i2, g2]; simp⟩
    | textRaise d e _ g =>
      obtain ⟨g1, g2, _⟩ := note_raise g
      rw [g1] at i1
      exact ⟨ls, .refused _ _ _ _ _ i1, by rw [i2, g2]⟩
    | item _ m l3 hm g =>
      rcases note_newLine g with ⟨g1, rfl⟩ | ⟨g1, g2, g3⟩
      · dsimp only at i1
        rw [g1] at i1 ⊢
        exact ⟨ls, .endsEmpty _ _ _ _ _ hm i1, i2⟩
      · dsimp only at i1 i2
        rw [g2] at i1
        exact ⟨l.part :: ls, .ends _ _ _ _ _ _ hm g1 i1, by rw [i2, g3]; simp⟩
    | fin _ _ hm g =>
      rcases note_newLine g with ⟨g1, rfl⟩ | ⟨g1, g2, g3⟩
      · rw [g1] at i1 ⊢
        exact ⟨ls, .endsEmpty _ _ _ _ _ hm i1, i2⟩
      · rw [g2] at i1
        exact ⟨l.part :: ls, .ends _ _ _ _ _ _ hm g1 i1, by rw [i2, g3]; simp⟩
    | raised _ o e _ hm g =>
      obtain ⟨g1, g2, _⟩ := note_raise g
      rw [g1] at i1
      exact ⟨ls, .refused _ _ _ _ _ i1, by rw [i2, g2]⟩

end SyncStream
