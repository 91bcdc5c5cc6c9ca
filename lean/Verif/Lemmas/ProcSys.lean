import Verif.Lemmas.ProcBuf
/-!
# What a mirror's calls do to the shared state
-/

namespace SyncStream
open Spec

/-! ## A relation between the states before and after -/

/-- The method keeps a relation between the state before and after. -/
def Py.Rel {σ α : Type} (R : σ → σ → Prop) (m : Py σ α) : Prop := ∀ s, R s (m s).2

namespace Py.Rel
variable {σ α β : Type} {R : σ → σ → Prop}

theorem bind (ht : ∀ a b c, R a b → R b c → R a c) {m : Py σ α} {f : α → Py σ β}
    (hm : Py.Rel R m) (hf : ∀ a, Py.Rel R (f a)) : Py.Rel R (m >>= f) := by
  intro s
  have h1 := hm s
  rw [Py.bind_apply]
  cases h : m s with
  | mk r s' =>
    rw [h] at h1
    cases r with
    | ok a => exact ht _ _ _ h1 (hf a s')
    | error e => exact h1

theorem pure (hr : ∀ s, R s s) (a : α) : Py.Rel R (Pure.pure a : Py σ α) := fun s => hr s
theorem raise (hr : ∀ s, R s s) (e : Exc) : Py.Rel R (Py.raise e : Py σ α) := fun s => hr s
theorem gets (hr : ∀ s, R s s) (f : σ → α) : Py.Rel R (Py.gets f) := fun s => hr s

theorem ite {c : Prop} [Decidable c] {m n : Py σ α} (hm : Py.Rel R m) (hn : Py.Rel R n) :
    Py.Rel R (if c then m else n) := by
  split
  · exact hm
  · exact hn

end Py.Rel

namespace Mirror

/-- The only effect of a mirror on what is shared: messages are added at the end of its own queue. -/
def OwnQueue (s s' : MNet) : Prop :=
  s'.1.queue = s.1.queue ∧ s'.2.closed = s.2.closed ∧
  (∃ sent, s'.2.queues s.1.queue = s.2.queues s.1.queue ++ sent) ∧
  ∀ i, i ≠ s.1.queue → s'.2.queues i = s.2.queues i

theorem OwnQueue.refl (s : MNet) : OwnQueue s s := ⟨rfl, rfl, ⟨[], by simp⟩, fun _ _ => rfl⟩

theorem OwnQueue.trans (a b c : MNet) (h1 : OwnQueue a b) (h2 : OwnQueue b c) : OwnQueue a c := by
  obtain ⟨q1, c1, ⟨s1, e1⟩, o1⟩ := h1
  obtain ⟨q2, c2, ⟨s2, e2⟩, o2⟩ := h2
  refine ⟨q2.trans q1, c2.trans c1, ⟨s1 ++ s2, ?_⟩, fun i hi => ?_⟩
  · rw [q1] at e2; rw [e2, e1, List.append_assoc]
  · rw [o2 i (by rw [q1]; exact hi), o1 i hi]

theorem rel_onBuf {α : Type} (f : Py StringIO α) : Py.Rel OwnQueue (onBuf f) :=
  fun _ => ⟨rfl, rfl, ⟨[], by simp [onBuf]⟩, fun _ _ => rfl⟩

theorem rel_put (msg : QMsg) : Py.Rel OwnQueue (put msg) := by
  intro s
  have h := Net.put_spec s.1.queue msg s.1.block s.1.timeout s.2
  refine ⟨rfl, h.1, ?_, ?_⟩
  · rcases h.2 with ⟨_, h2⟩ | ⟨e, _, h2⟩
    · exact ⟨[msg], by simp only [put]; rw [h2]; simp [Net.appended]⟩
    · exact ⟨[], by simp only [put]; rw [h2]; simp⟩
  · intro i hi
    rcases h.2 with ⟨_, h2⟩ | ⟨e, _, h2⟩
    · simp only [put]; rw [h2]; simp [Net.appended, hi]
    · simp only [put]; rw [h2]

local macro "rel_bind" : tactic => `(tactic| refine Py.Rel.bind OwnQueue.trans ?_ (fun _ => ?_))
local macro "rel_leaf" : tactic => `(tactic| first
  | exact Py.Rel.pure OwnQueue.refl _ | exact Py.Rel.raise OwnQueue.refl _
  | exact Py.Rel.gets OwnQueue.refl _ | exact rel_onBuf _ | exact rel_put _)

theorem rel_sendData (d : PyStr) : Py.Rel OwnQueue (sendData d) := by
  unfold sendData
  rel_bind
  · exact Py.Rel.gets OwnQueue.refl _
  · refine Py.Rel.ite ?_ ?_ <;> rel_leaf

theorem rel_writeCore (d : PyStr) : Py.Rel OwnQueue (writeCore d) := by
  unfold writeCore
  rel_bind
  · rel_leaf
  refine Py.Rel.ite (by rel_leaf) ?_
  rel_bind
  · rel_leaf
  refine Py.Rel.ite ?_ ?_
  · rel_bind
    · exact rel_sendData _
    · rel_leaf
  refine Py.Rel.ite ?_ ?_
  · rel_bind
    · rel_leaf
    rel_bind
    · rel_leaf
    rel_bind
    · exact rel_sendData _
    rel_bind
    · rel_leaf
    rel_bind
    · rel_leaf
    · rel_leaf
  · refine Py.Rel.ite ?_ ?_ <;> rel_leaf

theorem rel_write (d : PyStr) : Py.Rel OwnQueue (write d) := by
  unfold write
  rel_bind
  · exact Py.Rel.gets OwnQueue.refl _
  · exact Py.Rel.ite (by rel_leaf) (rel_writeCore d)

theorem rel_newLine : Py.Rel OwnQueue newLine := by
  unfold newLine
  rel_bind
  · rel_leaf
  · refine Py.Rel.ite ?_ (by rel_leaf)
    rel_bind
    · exact rel_writeCore _
    · rel_leaf

theorem rel_send (msg : QMsg) : Py.Rel OwnQueue (do
    if ← closed then return ()
    newLine
    put msg : Py MNet Unit) := by
  rel_bind
  · exact Py.Rel.gets OwnQueue.refl _
  · refine Py.Rel.ite (by rel_leaf) ?_
    rel_bind
    · exact rel_newLine
    · rel_leaf

theorem rel_clear : Py.Rel OwnQueue clear := by
  unfold clear
  rel_bind <;> rel_leaf

theorem rel_close (exc : Option ExcObj) : Py.Rel OwnQueue (close exc) := by
  unfold close
  rel_bind
  · exact Py.Rel.gets OwnQueue.refl _
  · refine Py.Rel.ite (by rel_leaf) ?_
    cases exc with
    | none =>
      rel_bind
      · exact rel_send _
      rel_bind
      · exact rel_clear
      · rel_leaf
    | some e =>
      rel_bind
      · exact rel_send _
      rel_bind
      · exact rel_clear
      · rel_leaf

theorem rel_read (size : Option Int) : Py.Rel OwnQueue (read size) := by
  unfold read
  rel_bind
  · exact Py.Rel.gets OwnQueue.refl _
  · refine Py.Rel.ite (by rel_leaf) ?_
    cases size <;> rel_leaf

/-- Whatever is called, whatever the state: the mirror only adds messages to its own queue. -/
theorem exec_ownQueue (c : MCall) (s : MNet) : OwnQueue s (exec c s).2 := by
  cases c with
  | write d => exact rel_write d s
  | newLine => exact rel_newLine s
  | read size => exact rel_read size s
  | clear => exact rel_clear s
  | flush => exact rel_onBuf StringIO.flush s
  | sendData d => exact rel_sendData d s
  | sendEof => exact rel_send _ s
  | sendError e => exact rel_send _ s
  | sendWarning e => exact rel_send _ s
  | close e => exact rel_close e s
  | closed => exact OwnQueue.refl s
  | readable => exact OwnQueue.refl s
  | writable => exact OwnQueue.refl s
  | setTimeout t => exact ⟨rfl, rfl, ⟨[], by simp [exec, setTimeout]⟩, fun _ _ => rfl⟩
  | setAggressive a => exact ⟨rfl, rfl, ⟨[], by simp [exec, setAggressive]⟩, fun _ _ => rfl⟩

end Mirror

/-! ## With room in the queue, what a mirror sends does not depend on the others -/

/-- Messages added to a queue. -/
def Net.sendAll (n : Net) (q : Nat) (sent : List QMsg) : Net :=
  { n with queues := fun i => if i = q then n.queues q ++ sent else n.queues i }

theorem Net.sendAll_nil (n : Net) (q : Nat) : n.sendAll q [] = n := by
  cases n
  simp only [Net.sendAll, Net.mk.injEq, List.append_nil, and_true]
  funext i; split
  · subst_vars; rfl
  · rfl

theorem Net.sendAll_sendAll (n : Net) (q : Nat) (a b : List QMsg) :
    (n.sendAll q a).sendAll q b = n.sendAll q (a ++ b) := by
  simp only [Net.sendAll, Net.mk.injEq, and_true, if_true]
  funext i; split
  · simp
  · rfl

@[simp] theorem Net.sendAll_queues (n : Net) (q : Nat) (a : List QMsg) :
    (n.sendAll q a).queues q = n.queues q ++ a := by simp [Net.sendAll]

namespace Mirror

/-- With room in the queue the result, the new mirror and the messages sent depend only on the mirror
and on whether it is stopped; all messages sent satisfy `P`. -/
def Loc {α : Type} (P : QMsg → Prop) (f : Py MNet α) : Prop := ∀ (m : Mirror) (cl : Option Bool),
  ∃ r m' sent, m'.queue = m.queue ∧ (∀ x ∈ sent, P x) ∧
    ∀ n : Net, n.closed = cl → n.room = [] → f (m, n) = (r, (m', n.sendAll m.queue sent))

namespace Loc
variable {α β : Type} {P : QMsg → Prop}

theorem bind {f : Py MNet α} {g : α → Py MNet β} (hf : Loc P f) (hg : ∀ a, Loc P (g a)) :
    Loc P (f >>= g) := by
  intro m cl
  obtain ⟨r, m1, s1, q1, p1, h1⟩ := hf m cl
  cases r with
  | error e =>
    exact ⟨.error e, m1, s1, q1, p1, fun n hn hr => by rw [Py.bind_error (h1 n hn hr)]⟩
  | ok a =>
    obtain ⟨r2, m2, s2, q2, p2, h2⟩ := hg a m1 cl
    refine ⟨r2, m2, s1 ++ s2, q2.trans q1, ?_, fun n hn hr => ?_⟩
    · intro x hx
      rcases List.mem_append.1 hx with h | h
      · exact p1 x h
      · exact p2 x h
    · rw [Py.bind_ok (h1 n hn hr), h2 _ (by exact hn) (by exact hr), q1, Net.sendAll_sendAll]

theorem pure (a : α) : Loc P (Pure.pure a : Py MNet α) := fun m _ =>
  ⟨.ok a, m, [], rfl, by simp, fun n _ _ => by rw [Net.sendAll_nil]; rfl⟩

theorem raise (e : Exc) : Loc P (Py.raise e : Py MNet α) := fun m _ =>
  ⟨.error e, m, [], rfl, by simp, fun n _ _ => by rw [Net.sendAll_nil]; rfl⟩

theorem gets (f : Mirror → Option Bool → α) : Loc P (Py.gets fun s : MNet => f s.1 s.2.closed) :=
  fun m cl => ⟨.ok (f m cl), m, [], rfl, by simp, fun n hn _ => by
    rw [Net.sendAll_nil]; simp [hn]⟩

theorem onBuf {α : Type} (f : Py StringIO α) : Loc P (Mirror.onBuf f) := fun m _ =>
  ⟨(f m.buf).1, { m with buf := (f m.buf).2 }, [], rfl, by simp, fun n _ _ => by
    rw [Net.sendAll_nil]; rfl⟩

theorem put (msg : QMsg) (h : P msg) : Loc P (Mirror.put msg) := fun m _ =>
  ⟨.ok (), m, [msg], rfl, by simpa using h, fun n _ hr => by
    cases n
    simp only at hr
    subst hr
    simp only [Mirror.put, Net.put, Net.sendAll, List.headD_nil, List.tail_nil]
    cases m.block <;> cases m.timeout <;> simp⟩

theorem ite {c : Prop} [Decidable c] {f g : Py MNet α} (hf : Loc P f) (hg : Loc P g) :
    Loc P (if c then f else g) := by
  split
  · exact hf
  · exact hg

end Loc

section
variable {P : QMsg → Prop}

local macro "loc_leaf" : tactic => `(tactic| first
  | exact Loc.pure _ | exact Loc.raise _ | exact Loc.onBuf _
  | exact Loc.gets (fun m _ => m.buf.closed) | exact Loc.gets (fun m _ => !m.buf.closed)
  | exact Loc.gets (fun m _ => m.aggressive)
  | exact Loc.gets (fun m c => m.hasState && c.getD false))

theorem loc_closed : Loc P closed := Loc.gets (fun m _ => m.buf.closed)

theorem loc_sendData (hP : ∀ d, P (.str d)) (d : PyStr) : Loc P (sendData d) := by
  unfold sendData
  refine Loc.bind loc_closed fun _ => Loc.ite (by loc_leaf) (Loc.put _ (hP d))

theorem loc_writeCore (hP : ∀ d, P (.str d)) (d : PyStr) : Loc P (writeCore d) := by
  unfold writeCore
  refine Loc.bind (by loc_leaf) fun _ => Loc.ite (by loc_leaf) ?_
  refine Loc.bind (by loc_leaf) fun _ => Loc.ite ?_ ?_
  · exact Loc.bind (loc_sendData hP _) fun _ => by loc_leaf
  refine Loc.ite ?_ (Loc.ite (by loc_leaf) (by loc_leaf))
  refine Loc.bind (by loc_leaf) fun _ => Loc.bind (by loc_leaf) fun _ =>
    Loc.bind (loc_sendData hP _) fun _ => Loc.bind (by loc_leaf) fun _ =>
    Loc.bind (by loc_leaf) fun _ => by loc_leaf

theorem loc_write (hP : ∀ d, P (.str d)) (d : PyStr) : Loc P (write d) := by
  unfold write
  exact Loc.bind (Loc.gets (fun m _ => !m.buf.closed)) fun _ =>
    Loc.ite (by loc_leaf) (loc_writeCore hP d)

theorem loc_newLine (hP : ∀ d, P (.str d)) : Loc P newLine := by
  unfold newLine
  exact Loc.bind (by loc_leaf) fun _ => Loc.ite
    (Loc.bind (loc_writeCore hP _) fun _ => by loc_leaf) (by loc_leaf)

theorem loc_send (hP : ∀ d, P (.str d)) (msg : QMsg) (hm : P msg) : Loc P (do
    if ← closed then return ()
    newLine
    put msg : Py MNet Unit) := by
  exact Loc.bind loc_closed fun _ => Loc.ite (by loc_leaf)
    (Loc.bind (loc_newLine hP) fun _ => Loc.put _ hm)

theorem loc_clear : Loc P clear := by
  unfold clear
  exact Loc.bind (by loc_leaf) fun _ => by loc_leaf

theorem loc_close (hP : ∀ d, P (.str d)) (exc : Option ExcObj) (he : P (endMsg exc)) :
    Loc P (close exc) := by
  unfold close
  refine Loc.bind loc_closed fun _ => Loc.ite (by loc_leaf) ?_
  cases exc with
  | none => exact Loc.bind (loc_send hP _ he) fun _ => Loc.bind loc_clear fun _ => by loc_leaf
  | some e => exact Loc.bind (loc_send hP _ he) fun _ => Loc.bind loc_clear fun _ => by loc_leaf

theorem loc_read (size : Option Int) : Loc P (read size) := by
  unfold read
  refine Loc.bind (Loc.gets (fun m _ => !m.buf.closed)) fun _ => Loc.ite (by loc_leaf) ?_
  cases size <;> loc_leaf

end

/-- `Loc` for a call with its result. -/
def LocCall (P : QMsg → Prop) (c : MCall) : Prop := ∀ (m : Mirror) (cl : Option Bool),
  ∃ r m' sent, m'.queue = m.queue ∧ (∀ x ∈ sent, P x) ∧
    ∀ n : Net, n.closed = cl → n.room = [] → exec c (m, n) = (r, (m', n.sendAll m.queue sent))

theorem locCall_of {α : Type} {P : QMsg → Prop} {f : Py MNet α} (h : Loc P f) (g : α → MRet) (c : MCall)
    (hc : ∀ s, exec c s = (MRet.of g (f s).1, (f s).2)) : LocCall P c := by
  intro m cl
  obtain ⟨r, m', sent, h1, h2, h3⟩ := h m cl
  exact ⟨MRet.of g r, m', sent, h1, h2, fun n hn hr => by rw [hc, h3 n hn hr]⟩

/-- Calls other than those that send an end signal. -/
def isBodyCall : MCall → Bool
  | .sendEof => false
  | .sendError _ => false
  | .close _ => false
  | _ => true

theorem exec_loc (P : QMsg → Prop) (hs : ∀ d, P (.str d)) (hw : ∀ g, P (.warning g)) (c : MCall)
    (hc : isBodyCall c = true ∨ (P .close ∧ ∀ g, P (.error g))) : LocCall P c := by
  have hend : ∀ {c}, c = MCall.sendEof ∨ (∃ e, c = .sendError e) ∨ (∃ e, c = .close e) →
      isBodyCall c = true ∨ (P .close ∧ ∀ g, P (.error g)) → (P .close ∧ ∀ g, P (.error g)) := by
    rintro c (rfl | ⟨e, rfl⟩ | ⟨e, rfl⟩) (h | h)
    all_goals first | cases h; done | exact h
  cases c with
  | write d => exact locCall_of (loc_write hs d) _ _ fun _ => rfl
  | newLine => exact locCall_of (loc_newLine hs) _ _ fun _ => rfl
  | read size => exact locCall_of (loc_read size) _ _ fun _ => rfl
  | clear => exact locCall_of loc_clear _ _ fun _ => rfl
  | flush => exact locCall_of (Loc.onBuf StringIO.flush) _ _ fun _ => rfl
  | sendData d => exact locCall_of (loc_sendData hs d) _ _ fun _ => rfl
  | sendEof => exact locCall_of (loc_send hs _ (hend (.inl rfl) hc).1) _ _ fun _ => rfl
  | sendError e =>
    exact locCall_of (loc_send hs _ ((hend (.inr (.inl ⟨e, rfl⟩)) hc).2 _)) _ _ fun _ => rfl
  | sendWarning e => exact locCall_of (loc_send hs _ (hw _)) _ _ fun _ => rfl
  | close e =>
    refine locCall_of (loc_close hs e ?_) _ _ fun _ => rfl
    have := hend (.inr (.inr ⟨e, rfl⟩)) hc
    cases e with
    | none => exact this.1
    | some e => exact this.2 _
  | closed => exact locCall_of loc_closed _ _ fun _ => rfl
  | readable => exact locCall_of (Loc.gets (fun m _ => !m.buf.closed)) _ _ fun _ => rfl
  | writable => exact locCall_of (Loc.gets (fun m _ => !m.buf.closed)) _ _ fun _ => rfl
  | setTimeout t =>
    exact fun m _ => ⟨.unit, { m with timeout := t, block := t.isNone }, [], rfl, by simp,
      fun n _ _ => by rw [Net.sendAll_nil]; rfl⟩
  | setAggressive a =>
    exact fun m _ => ⟨.unit, { m with aggressive := a }, [], rfl, by simp,
      fun n _ _ => by rw [Net.sendAll_nil]; rfl⟩

end Mirror
end SyncStream
