import Verif.Lemmas.Sending
/-!
# Lemmas on references that share a mirror object: counting end signals
-/

namespace SyncStream
open Spec

namespace Mirror

/-- Messages that satisfy `P` are added to the own queue. -/
def Sends (P : QMsg → Prop) (s s' : MNet) : Prop :=
  s'.1.queue = s.1.queue ∧ ∃ sent, s'.2.queues s.1.queue = s.2.queues s.1.queue ++ sent ∧ ∀ x ∈ sent, P x

variable {P : QMsg → Prop}

theorem Sends.refl (s : MNet) : Sends P s s := ⟨rfl, [], by simp, by simp⟩

theorem Sends.trans (a b c : MNet) (h1 : Sends P a b) (h2 : Sends P b c) : Sends P a c := by
  obtain ⟨q1, s1, e1, p1⟩ := h1
  obtain ⟨q2, s2, e2, p2⟩ := h2
  refine ⟨q2.trans q1, s1 ++ s2, ?_, ?_⟩
  · rw [q1] at e2; rw [e2, e1, List.append_assoc]
  · intro x hx
    rcases List.mem_append.1 hx with h | h
    · exact p1 x h
    · exact p2 x h

theorem sends_onBuf {α : Type} (f : Py StringIO α) : Py.Rel (Sends P) (onBuf f) :=
  fun _ => ⟨rfl, [], by simp [onBuf], by simp⟩

theorem sends_put (msg : QMsg) (hP : P msg) : Py.Rel (Sends P) (put msg) := by
  intro s
  have h := Net.put_spec s.1.queue msg s.1.block s.1.timeout s.2
  refine ⟨rfl, ?_⟩
  rcases h.2 with ⟨_, h2⟩ | ⟨e, _, h2⟩
  · exact ⟨[msg], by simp only [put]; rw [h2]; simp [Net.appended], by simpa using hP⟩
  · exact ⟨[], by simp only [put]; rw [h2]; simp, by simp⟩

local macro "sends_bind" : tactic => `(tactic| refine Py.Rel.bind Sends.trans ?_ (fun _ => ?_))
local macro "sends_leaf" : tactic => `(tactic| first
  | exact Py.Rel.pure Sends.refl _ | exact Py.Rel.raise Sends.refl _
  | exact Py.Rel.gets Sends.refl _ | exact sends_onBuf _)

theorem sends_sendData (hP : ∀ d, P (.str d)) (d : PyStr) : Py.Rel (Sends P) (sendData d) := by
  unfold sendData
  sends_bind
  · exact Py.Rel.gets Sends.refl _
  · exact Py.Rel.ite (by sends_leaf) (sends_put _ (hP d))

theorem sends_writeCore (hP : ∀ d, P (.str d)) (d : PyStr) : Py.Rel (Sends P) (writeCore d) := by
  unfold writeCore
  sends_bind
  · sends_leaf
  refine Py.Rel.ite (by sends_leaf) ?_
  sends_bind
  · sends_leaf
  refine Py.Rel.ite ?_ ?_
  · sends_bind
    · exact sends_sendData hP _
    · sends_leaf
  refine Py.Rel.ite ?_ (Py.Rel.ite (by sends_leaf) (by sends_leaf))
  sends_bind
  · sends_leaf
  sends_bind
  · sends_leaf
  sends_bind
  · exact sends_sendData hP _
  sends_bind
  · sends_leaf
  sends_bind
  · sends_leaf
  · sends_leaf

theorem sends_newLine (hP : ∀ d, P (.str d)) : Py.Rel (Sends P) newLine := by
  unfold newLine
  sends_bind
  · sends_leaf
  · refine Py.Rel.ite ?_ (by sends_leaf)
    sends_bind
    · exact sends_writeCore hP _
    · sends_leaf

theorem sends_clear : Py.Rel (Sends P) clear := by
  unfold clear
  sends_bind <;> sends_leaf

/-- Calls that send no end signal add no end signal. -/
theorem exec_sends (hP : ∀ d, P (.str d)) (hw : ∀ g, P (.warning g)) (c : MCall) (hc : isBodyCall c = true)
    (s : MNet) : Sends P s (exec c s).2 := by
  cases c with
  | write d =>
    refine (?_ : Py.Rel (Sends P) (write d)) s
    unfold write
    sends_bind
    · exact Py.Rel.gets Sends.refl _
    · exact Py.Rel.ite (by sends_leaf) (sends_writeCore hP d)
  | newLine => exact sends_newLine hP s
  | read size =>
    refine (?_ : Py.Rel (Sends P) (read size)) s
    unfold read
    sends_bind
    · exact Py.Rel.gets Sends.refl _
    · refine Py.Rel.ite (by sends_leaf) ?_
      cases size <;> sends_leaf
  | clear => exact sends_clear s
  | flush => exact sends_onBuf StringIO.flush s
  | sendData d => exact sends_sendData hP d s
  | sendEof => cases hc
  | sendError e => cases hc
  | sendWarning e =>
    refine (?_ : Py.Rel (Sends P) (sendWarning e)) s
    unfold sendWarning
    sends_bind
    · exact Py.Rel.gets Sends.refl _
    · refine Py.Rel.ite (by sends_leaf) ?_
      sends_bind
      · exact sends_newLine hP
      · exact sends_put _ (hw _)
  | close e => cases hc
  | closed => exact Sends.refl s
  | readable => exact Sends.refl s
  | writable => exact Sends.refl s
  | setTimeout t => exact ⟨rfl, [], by simp [exec, setTimeout], by simp⟩
  | setAggressive a => exact ⟨rfl, [], by simp [exec, setAggressive], by simp⟩

/-- `close` adds at most one end signal, and then the mirror is closed. -/
theorem exec_close_sends (m : Mirror) (h : MReach m.queue m) (n : Net) (exc : Option ExcObj) :
    ∃ sent, (exec (.close exc) (m, n)).2.2.queues m.queue = n.queues m.queue ++ sent ∧
      (∀ x ∈ sent, IsBody x ∨ IsEnd x) ∧
      (sent.countP isEnd = 0 ∨
        (sent.countP isEnd = 1 ∧ m.buf.closed = false ∧ (exec (.close exc) (m, n)).2.1.buf.closed = true)) := by
  rcases hc : m.buf.closed with _ | _
  · have hm := mreach_open h hc
    generalize m.buf.buf = p at hm
    have hs := sends_newLine (P := IsBody) (fun _ => trivial) (m, n)
    rw [hm] at hs ⊢
    obtain ⟨p', n', hnl⟩ := newLine_norm m p n
    simp only [exec, close_open]
    cases hx : newLine (m.withBuf p, n) with
    | mk r s =>
      rw [hx] at hs hnl
      simp only at hs hnl
      subst hnl
      obtain ⟨_, s1, e1, p1⟩ := hs
      simp only [withBuf_queue] at e1 ⊢
      have hz : s1.countP isEnd = 0 :=
        List.countP_eq_zero.2 fun x hx => by simp [not_isEnd_of_body (p1 x hx)]
      cases r with
      | error e => exact ⟨s1, e1, fun x hx => .inl (p1 x hx), .inl hz⟩
      | ok u =>
        simp only [put_apply]
        have hput := Net.put_spec m.queue (endMsg exc) m.block m.timeout n'
        simp only [withBuf_netPut]
        have hnp : netPut m (endMsg exc) n' = Net.put m.queue (endMsg exc) m.block m.timeout n' := rfl
        rw [hnp]
        cases hq : Net.put m.queue (endMsg exc) m.block m.timeout n' with
        | mk r n2 =>
          rw [hq] at hput
          simp only at hput ⊢
          rcases hput.2 with ⟨hr, h2⟩ | ⟨e, hr, h2⟩
          · subst hr
            simp only [clear_close]
            refine ⟨s1 ++ [endMsg exc], ?_, ?_, .inr ⟨?_, trivial, rfl⟩⟩
            · rw [h2]; simp [Net.appended, e1]
            · intro x hx
              rcases List.mem_append.1 hx with g | g
              · exact .inl (p1 x g)
              · rw [List.mem_singleton.1 g]; right; cases exc <;> trivial
            · rw [List.countP_append, hz]
              cases exc <;> rfl
          · subst hr
            refine ⟨s1, ?_, fun x hx => .inl (p1 x hx), .inl hz⟩
            simp only
            rw [h2]; exact e1
  · have := C19_after_close _ m h n hc [.close exc]
    simp only [run] at this
    exact ⟨[], by rw [this.2.1]; simp, by simp, .inl rfl⟩

end Mirror

/-! ## Counting -/

/-- The closed objects that someone has. -/
def closedHeld (s : SendSys) : Finset Nat :=
  s.ref.toFinset.filter fun o => (s.heap.obj o).mirror.buf.closed = true

/-- The end signals received so far and those in the queue are at most as many as closed objects. -/
structure Counted (s : SendSys) : Prop where
  inv : SendInv s
  queue : ∀ i, i < s.heap.size → (s.heap.obj i).mirror.queue = s.main.mirror.queue
  msgs : ∀ x ∈ s.net.queues s.main.mirror.queue, IsBody x ∨ IsEnd x
  ends : (s.ref.length : Int) - s.main.nMirrors + (s.net.queues s.main.mirror.queue).countP isEnd ≤
    (closedHeld s).card

theorem counted_new {maxlen : Int} {room : List Room} {s : SendSys} (h : SendSys.new maxlen room = .ok s) :
    Counted s := by
  obtain ⟨hi, p0, hp, rfl, h1, h2⟩ := SendSys.inv_new h
  refine ⟨hi, fun _ _ => rfl, by simp, ?_⟩
  simp [h2]

namespace SendSys

/-- An object that stays open or is closed already changes; the queue gets ordinary messages. -/
theorem counted_put {s : SendSys} (h : Counted s) {o : Nat} (x : MObj) (net : Net)
    (hi : SendInv { s with heap := s.heap.put o x, net := net })
    (hq : x.mirror.queue = (s.heap.obj o).mirror.queue) {t : Nat} (ho : s.holds t = some o) (sent : List QMsg)
    (hs : net.queues s.main.mirror.queue = s.net.queues s.main.mirror.queue ++ sent)
    (hb : ∀ m ∈ sent, IsBody m ∨ IsEnd m)
    (hc : (s.heap.obj o).mirror.buf.closed = true → x.mirror.buf.closed = true)
    (he : sent.countP isEnd = 0 ∨ (sent.countP isEnd = 1 ∧ (s.heap.obj o).mirror.buf.closed = false ∧
      x.mirror.buf.closed = true)) :
    Counted { s with heap := s.heap.put o x, net := net } := by
  refine ⟨hi, fun i hlt => ?_, ?_, ?_⟩
  · by_cases e : i = o
    · subst e; simp only [Heap.put_same, hq]; exact h.queue i hlt
    · simp only [Heap.put_other e]; exact h.queue i hlt
  · intro m hm
    simp only [hs] at hm
    rcases List.mem_append.1 hm with g | g
    · exact h.msgs m g
    · exact hb m g
  · have hsub : closedHeld s ⊆ closedHeld { s with heap := s.heap.put o x, net := net } := by
      intro i hm
      simp only [closedHeld, Finset.mem_filter] at hm ⊢
      refine ⟨hm.1, ?_⟩
      by_cases e : i = o
      · subst e; simp only [Heap.put_same]; exact hc hm.2
      · simp only [Heap.put_other e]; exact hm.2
    have hend := h.ends
    simp only [hs, List.countP_append]
    rcases he with he | ⟨he, h1, h2⟩
    · have := Finset.card_le_card hsub
      rw [he]
      push_cast
      omega
    · have hss : insert o (closedHeld s) ⊆ closedHeld { s with heap := s.heap.put o x, net := net } := by
        intro i hm
        rcases Finset.mem_insert.1 hm with rfl | hm
        · simp only [closedHeld, Finset.mem_filter, Heap.put_same]
          exact ⟨List.mem_toFinset.2 (holds_mem ho), h2⟩
        · exact hsub hm
      have := Finset.card_le_card hss
      rw [Finset.card_insert_of_notMem (by simp [closedHeld, h1])] at this
      rw [he]
      push_cast
      omega

theorem counted_use {s : SendSys} (h : Counted s) (t : Nat) (c : MCall)
    (hc : Mirror.isBodyCall c = true ∨ ∃ exc, c = .close exc) : Counted (use t c s).2 := by
  cases ho : s.holds t with
  | none => rw [use_none ho]; exact h
  | some o =>
    have hi := inv_use h.inv t c
    rw [use_some ho] at hi ⊢
    have hlt := h.inv.ref _ (holds_mem ho)
    have hr := h.inv.reach o hlt
    have hn := Mirror.exec_norm c _ s.net (mreach_norm hr).1
    have hq := h.queue o hlt
    have hkeep : (s.heap.obj o).mirror.buf.closed = true →
        (Mirror.exec c ((s.heap.obj o).mirror, s.net)).2.1.buf.closed = true := by
      intro hcl
      have := C19_after_close _ _ hr s.net hcl [c]
      simp only [Mirror.run] at this
      exact this.2.2
    rcases hc with hc | ⟨exc, rfl⟩
    · obtain ⟨_, sent, e1, e2⟩ := Mirror.exec_sends (P := IsBody) (fun _ => trivial) (fun _ => trivial) c hc
        ((s.heap.obj o).mirror, s.net)
      simp only [hq] at e1
      exact counted_put h _ _ hi hn.2.1 ho sent e1 (fun x hx => .inl (e2 x hx)) hkeep
        (.inl (List.countP_eq_zero.2 fun x hx => by simp [not_isEnd_of_body (e2 x hx)]))
    · obtain ⟨sent, e1, e2, e3⟩ := Mirror.exec_close_sends _ hr s.net exc
      rw [hq] at e1
      exact counted_put h _ _ hi hn.2.1 ho sent e1 e2 hkeep e3

theorem counted_send {s : SendSys} (h : Counted s) (ts : List Nat) : Counted (send ts s).2 := by
  cases hs : send ts s with
  | mk r s' =>
    cases r with
    | error e => rw [send_error hs]; exact h
    | ok u =>
      have hi := inv_send h.inv ts
      rw [hs] at hi
      obtain ⟨h1, h2, h3, h4, h5, h6, h7, h8, h9, h10⟩ := send_spec h.inv ts hs
      refine ⟨hi, fun i hlt => ?_, by simp only [h1, h2]; exact h.msgs, ?_⟩
      · simp only [h1]
        rcases Nat.lt_or_ge i s.heap.size with g | g
        · rw [h6 i g]; exact h.queue i g
        · obtain ⟨t, _, o, ho, hp⟩ := h10 i g hlt
          rw [(MObj.pickle_ok hp).2.2.2]
          exact h.queue o (h.inv.ref _ (holds_mem ho))
      · have hsub : closedHeld s ⊆ closedHeld s' := by
          intro i hm
          simp only [closedHeld, Finset.mem_filter, List.mem_toFinset] at hm ⊢
          obtain ⟨t, ht⟩ := List.getElem?_of_mem hm.1
          have hnt : t ∉ ts := by
            intro hin
            obtain ⟨o', _, _, _, hp⟩ := h8 t i hin ht
            have := (MObj.pickle_ok hp).1
            rw [hm.2] at this; cases this
          have : s'.holds t = some i := by rw [h7 t hnt]; exact ht
          exact ⟨holds_mem this, by rw [h6 i (h.inv.ref i hm.1)]; exact hm.2⟩
        have := Finset.card_le_card hsub
        have := h.ends
        simp only [h1, h2, h4]
        omega

theorem counted_fork {s : SendSys} (h : Counted s) (t : Nat) : Counted (exec (.fork t) s).2 := by
  have hi := inv_exec h.inv (.fork t)
  simp only [exec] at hi ⊢
  cases ho : s.holds t with
  | none => exact h
  | some o =>
    rw [ho] at hi
    have hlt := h.inv.ref _ (holds_mem ho)
    have htl : t < s.ref.length := by
      rcases Nat.lt_or_ge t s.ref.length with g | g
      · exact g
      · rw [holds_none_iff.2 g] at ho; cases ho
    refine ⟨hi, fun i hi' => ?_, h.msgs, ?_⟩
    · rcases Nat.lt_or_ge i s.heap.size with g | g
      · simp only [Heap.add_old g]; exact h.queue i g
      · simp only [Heap.add_size] at hi'
        have : i = s.heap.size := by omega
        subst this; simp only [Heap.add_new]; exact h.queue o hlt
    · have hcard : (closedHeld s).card ≤ (closedHeld
          { s with heap := s.heap.add (s.heap.obj o), ref := s.ref.set t s.heap.size }).card := by
        refine Finset.card_le_card_of_injOn (fun i => if i = o then s.heap.size else i) ?_ ?_
        · intro i hm
          simp only [closedHeld, Finset.coe_filter, List.mem_toFinset, Set.mem_ofPred_eq] at hm ⊢
          by_cases e : i = o
          · subst e
            simp only [if_true, Heap.add_new]
            exact ⟨List.mem_set htl s.heap.size, hm.2⟩
          · simp only [e, if_false]
            rw [Heap.add_old (h.inv.ref i hm.1)]
            refine ⟨?_, hm.2⟩
            obtain ⟨j, hj⟩ := List.getElem?_of_mem hm.1
            refine List.mem_of_getElem? (i := j) ?_
            rw [List.getElem?_set_ne]
            · exact hj
            · rintro rfl
              have : s.ref[t]? = some o := ho
              rw [hj] at this; exact e (Option.some.inj this)
        · intro i hm j hm' e
          have hl : ∀ k, k ∈ closedHeld s → k < s.heap.size := by
            intro k hk
            simp only [closedHeld, Finset.mem_filter, List.mem_toFinset] at hk
            exact h.inv.ref k hk.1
          have := hl i hm
          have := hl j hm'
          simp only at e
          split at e <;> split at e <;> omega
      have := h.ends
      simp only [List.length_set]
      omega

theorem counted_receive {s : SendSys} (h : Counted s) : Counted (onMain ProcBuf.receive s).2 := by
  cases hq : s.net.queues s.main.mirror.queue with
  | nil =>
    simp only [onMain]
    rw [receive_empty _ _ hq]
    exact h
  | cons m ms =>
    have hend := h.ends
    rw [hq, List.countP_cons] at hend
    have hm := h.msgs m (by rw [hq]; exact List.mem_cons_self)
    obtain ⟨f, hf, hr⟩ := receive_local m
    have hrec := hr s.main s.net ms hq
    have hn : (ProcBuf.receive (s.main, s.net)).2.1.nMirrors =
        s.main.nMirrors - (if isEnd m = true then 1 else 0) := by
      have hg : ProcBuf.get (s.main, s.net) = (.ok m, (s.main, ProcBuf.qset s.net s.main.mirror.queue ms)) := by
        simp only [ProcBuf.get]; rw [hq]; rfl
      unfold ProcBuf.receive
      rw [Py.bind_ok hg]
      cases m with
      | str d =>
        simp only [Py.bind_apply, ProcBuf.onBase, Py.onPart_apply]
        cases LineBuf.write d s.main.base with
        | mk r b => cases r <;> simp [isEnd]
      | error g => simp [isEnd]; rfl
      | warning g => simp [isEnd]; rfl
      | close => simp [isEnd]; rfl
      | stop => rcases hm with hm | hm <;> cases hm
      | other => rcases hm with hm | hm <;> cases hm
    have hmir := receive_mirror s.main s.net
    have hnet : (ProcBuf.receive (s.main, s.net)).2.2 = ProcBuf.qset s.net s.main.mirror.queue ms := by
      rw [hrec]
    refine ⟨inv_main h.inv _, ?_, ?_, ?_⟩
    · simp only [onMain, hmir]; exact h.queue
    · simp only [onMain, hmir, hnet, ProcBuf.qset_queues]
      exact fun x hx => h.msgs x (by rw [hq]; exact List.mem_cons_of_mem _ hx)
    · simp only [onMain, hmir, hnet, hn, ProcBuf.qset_queues]
      change _ ≤ ((closedHeld s).card : Int)
      push_cast at hend
      cases he : isEnd m <;> simp only [he, if_true, Bool.false_eq_true, if_false] at hend ⊢ <;> push_cast at hend <;> omega

theorem counted_exec {s : SendSys} (h : Counted s) (op : SOp) (hop : Ordinary op) : Counted (exec op s).2 := by
  cases op with
  | take =>
    refine ⟨inv_exec h.inv .take, h.queue, h.msgs, ?_⟩
    have hsub : closedHeld s ⊆ closedHeld (exec .take s).2 := by
      intro i hm
      simp only [closedHeld, Finset.mem_filter, List.mem_toFinset] at hm ⊢
      exact ⟨List.mem_append_left _ hm.1, hm.2⟩
    have := Finset.card_le_card hsub
    have h1 := h.ends
    have h2 : (exec .take s).2.ref.length = s.ref.length + 1 := by
      simp [exec, onMain, ProcBuf.takeMirror]
    have h3 : (exec .take s).2.main.nMirrors = s.main.nMirrors + 1 := rfl
    have h4 : (exec .take s).2.net.queues (exec .take s).2.main.mirror.queue =
      s.net.queues s.main.mirror.queue := rfl
    rw [h2, h3, h4]
    push_cast
    omega
  | send ts => exact counted_send h ts
  | fork t => exact counted_fork h t
  | use t c =>
    refine counted_use h t c (.inl ?_)
    cases c <;> first | rfl | exact hop.elim
  | enter t =>
    have hi := inv_exec h.inv (.enter t)
    simp only [exec] at hi ⊢
    cases ho : s.holds t with
    | none => exact h
    | some o =>
      rw [ho] at hi
      exact counted_put h _ _ hi rfl ho [] (by simp) (by simp) (fun hc => hc) (.inl rfl)
  | leave t exc =>
    simp only [exec]
    cases ho : s.holds t with
    | none => exact h
    | some o =>
      refine counted_use ?_ _ _ (.inr ⟨exc, rfl⟩)
      exact counted_put h { s.heap.obj o with saved := false } s.net
        (inv_put h.inv { s.heap.obj o with saved := false } s.net (h.inv.reach o) (h.inv.fresh o)) rfl ho []
        (by simp) (by simp) (fun hc => hc) (.inl rfl)
  | receive => exact counted_receive h
  | stopAll => exact ⟨inv_main h.inv ProcBuf.stopAll, h.queue, h.msgs, h.ends⟩
  | forceStop => exact hop.elim
  | reset => exact hop.elim
  | buffer c =>
    cases c with
    | write d => exact ⟨inv_main h.inv (ProcBuf.write d), h.queue, h.msgs, h.ends⟩
    | _ => exact ⟨⟨h.inv.own, h.inv.ref, h.inv.reach, h.inv.fresh⟩, h.queue, h.msgs, h.ends⟩

theorem counted_run {s : SendSys} (h : Counted s) (os : List SOp) (hos : ∀ o ∈ os, Ordinary o) :
    Counted (run os s) := by
  induction os generalizing s with
  | nil => exact h
  | cons o os ih =>
    exact ih (counted_exec h o (hos o List.mem_cons_self)) fun x hx => hos x (List.mem_cons_of_mem _ hx)

end SendSys

/-- `wait` does not return while there are fewer end signals in the queue than mirrors counted. -/
theorem waitLoop_not_ok (fuel : Nat) (p : ProcBuf) (n : Net) (ms : List QMsg)
    (hq : n.queues p.mirror.queue = ms) (hm : ∀ x ∈ ms, IsBody x ∨ IsEnd x)
    (hk : (ms.countP isEnd : Int) < p.nMirrors) : (ProcBuf.waitLoop fuel (p, n)).1 ≠ .ok () := by
  induction ms generalizing fuel p n with
  | nil =>
    cases fuel with
    | zero => simp [ProcBuf.waitLoop]
    | succ fuel =>
      simp only [ProcBuf.waitLoop]
      rw [Py.bind_error (receive_empty p n hq)]
      simp
  | cons m ms ih =>
    cases fuel with
    | zero => simp [ProcBuf.waitLoop]
    | succ fuel =>
      have hx := hm m List.mem_cons_self
      have hg : ProcBuf.get (p, n) = (.ok m, (p, ProcBuf.qset n p.mirror.queue ms)) := by
        simp only [ProcBuf.get]; rw [hq]; rfl
      have key : (∃ e s, ProcBuf.receive (p, n) = (.error e, s)) ∨
          ∃ p', ProcBuf.receive (p, n) = (.ok true, (p', ProcBuf.qset n p.mirror.queue ms)) ∧
            p'.mirror = p.mirror ∧ (ms.countP isEnd : Int) < p'.nMirrors := by
        rw [List.countP_cons] at hk
        unfold ProcBuf.receive
        rw [Py.bind_ok hg]
        cases m with
        | str d =>
          simp only [Py.bind_apply, ProcBuf.onBase, Py.onPart_apply]
          cases LineBuf.write d p.base with
          | mk r b =>
            cases r with
            | error e => exact .inl ⟨_, _, rfl⟩
            | ok k => exact .inr ⟨_, rfl, rfl, by simpa [isEnd] using hk⟩
        | error g =>
          simp only [isEnd, if_true] at hk
          refine .inr ⟨{ p with base := { p.base with storage := p.base.storage.append (.msg g) },
                                nMirrors := p.nMirrors - 1 }, ?_, rfl, ?_⟩
          · have : (decide (p.nMirrors - 1 > 0)) = true := decide_eq_true (by omega)
            rw [← this]; rfl
          · simp only; omega
        | warning g => exact .inr ⟨_, rfl, rfl, by simpa [isEnd] using hk⟩
        | close =>
          simp only [isEnd, if_true] at hk
          refine .inr ⟨{ p with nMirrors := p.nMirrors - 1 }, ?_, rfl, ?_⟩
          · have : (decide (p.nMirrors - 1 > 0)) = true := decide_eq_true (by omega)
            rw [← this]; rfl
          · simp only; omega
        | stop => rcases hx with h | h <;> cases h
        | other => rcases hx with h | h <;> cases h
      simp only [ProcBuf.waitLoop]
      rcases key with ⟨e, s, h⟩ | ⟨p', h, h1, h2⟩
      · rw [Py.bind_error h]; simp
      · rw [Py.bind_ok h]
        simp only [if_true]
        exact ih fuel p' _ (by rw [h1]; simp) (fun x hx => hm x (List.mem_cons_of_mem _ hx)) h2

/-- Two references with one object: there are fewer objects than references. -/
theorem shared_card {l : List Nat} {i j o : Nat} (hne : i ≠ j) (hi : l[i]? = some o) (hj : l[j]? = some o) :
    l.toFinset.card < l.length := by
  rw [List.card_toFinset]
  have hnd : ¬ l.Nodup := by
    intro h
    have hil : i < l.length := (List.getElem?_eq_some_iff.1 hi).1
    have := (List.Nodup.getElem_inj_iff (hi := hil) (hj := (List.getElem?_eq_some_iff.1 hj).1) h).1 (by
      rw [(List.getElem?_eq_some_iff.1 hi).2, (List.getElem?_eq_some_iff.1 hj).2])
    exact hne this
  have hle := (List.dedup_sublist l).length_le
  rcases Nat.lt_or_ge l.dedup.length l.length with g | g
  · exact g
  · exfalso
    apply hnd
    have : l.dedup = l := (List.dedup_sublist l).eq_of_length_le g
    rw [← this]; exact List.nodup_dedup l

/-- While two references have the same object, `wait` does not return. -/
theorem counted_shared {s : SendSys} (h : Counted s) {i j o : Nat} (hne : i ≠ j) (hi : s.holds i = some o)
    (hj : s.holds j = some o) : (ProcBuf.wait (s.main, s.net)).1 ≠ .ok () := by
  refine waitLoop_not_ok _ _ _ _ rfl h.msgs ?_
  have h1 := shared_card hne hi hj
  have h2 : (closedHeld s).card ≤ s.ref.toFinset.card := Finset.card_filter_le _ _
  have h3 := h.ends
  omega

end SyncStream
