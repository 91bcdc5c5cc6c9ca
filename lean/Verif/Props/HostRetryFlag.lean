import Verif.Props.HostFlag
import Verif.Props.HostRetries
/-!
# Property C83: stopping and resuming the mirrors, with the attempts of `urllib3` and late requests
-/

namespace SyncStream
open Spec LineBuf HostBuf Conc

/-- What a call of the clients asks for. -/
theorem retry_flags (m : HMirror) (c : HTCall) (hc : HTCall.Usual c) :
    (retryClient m c).Within fun o => o.Usual ∧ (o.sets = none ∨ o.sets = HTCall.sets c) := by
  cases c with
  | mirror c ts =>
    refine HMAsk.within_bind' (tried_within (Q := Req.Polite) (fun r hr => ?_) _ (HMAsk.exec_polite c m) _) fun _ => trivial
    rcases hr with rfl | ⟨x, rfl⟩
    · exact ⟨trivial, .inl rfl⟩
    · exact ⟨trivial, .inl rfl⟩
  | reader c ts =>
    refine HMAsk.within_bind' (tried_within (Q := fun r => (HOp.req r.wire).Usual ∧ ((HOp.req r.wire).sets = none ∨ (HOp.req r.wire).sets = HTCall.sets (.reader c ts)))
      (fun r hr => hr) (RdCall.exec c) ?_ _) fun _ => trivial
    refine ⟨?_, fun _ => trivial⟩
    cases c with
    | stopAll => exact ⟨rfl, .inr rfl⟩
    | resetStates => exact ⟨trivial, .inr rfl⟩
    | _ => exact ⟨trivial, .inl rfl⟩
  | late r =>
    refine ⟨?_, fun _ => trivial⟩
    cases r with
    | statePost b =>
      cases hc b rfl
      exact ⟨rfl, .inr rfl⟩
    | stateDelete => exact ⟨trivial, .inr rfl⟩
    | post b => cases b <;> exact ⟨trivial, .inl rfl⟩
    | _ => exact ⟨trivial, .inl rfl⟩
  | stopAll => exact ⟨⟨trivial, .inr rfl⟩, fun _ => trivial⟩
  | reset => exact ⟨⟨trivial, .inr rfl⟩, fun _ => trivial⟩

/-- A write with its attempts: a closed mirror asks nothing; otherwise it asks for the flag first. -/
theorem write_tried {m1 m2 : HMirror} {x : PyStr} {ts : List Attempt} {l : List (HOp × HRet)} {r : HSRet}
    (h : Asks (retryClient m1 (.mirror (.write x) ts)) l (.done (r, m2))) :
    (l = [] ∧ m1.buf.closed = true ∧ r = .mirror (.exc .osError)) ∨
    (m1.buf.closed = false ∧ (∀ y ∈ l, y.1 = .req (.stateGet (some (lit "closed")))) ∧ ∃ w ∈ ts, ∃ e, error? w = some e ∧ r = .mirror (.exc e)) ∨
    ∃ l0 y l', m1.buf.closed = false ∧ l = l0 ++ (.req (.stateGet (some (lit "closed"))), y) :: l' ∧
      (∀ y ∈ l0, y.1 = .req (.stateGet (some (lit "closed")))) ∧
      (y = found (.bool true) → l' = [] ∧ r = .mirror (.exc .stopIteration) ∧ m2 = m1) ∧
      (y = found (.bool false) → ∃ z ts', (∀ w ∈ ts', w ∈ ts) ∧ Asks ((HMAsk.writeCore x false m1).tried ts') l' (.done z) ∧ r = .mirror (HMRet.of .nat z.1)) := by
  obtain ⟨a, h1, h2⟩ := asks_bind_done _ _ h
  cases h2
  have e : HMAsk.exec (.write x) m1 = Ask.bind (HMAsk.write x m1) fun z => .done (HMRet.of .nat z.1, z.2) := rfl
  rw [e, tried_done] at h1
  obtain ⟨z, h3, h4⟩ := asks_bind_done _ _ h1
  cases h4
  have e1 : HMAsk.write x m1 = (if !!m1.buf.closed then (HMAsk.raise .osError : HMAsk Nat) else HMAsk.writeCore x true) m1 := rfl
  cases hc : m1.buf.closed with
  | true =>
    rw [e1, hc] at h3
    cases h3
    exact .inl ⟨rfl, rfl, rfl⟩
  | false =>
    rw [e1, hc] at h3
    have e2 : (if !!false then (HMAsk.raise .osError : HMAsk Nat) else HMAsk.writeCore x true) m1 = HMAsk.writeCore x true m1 := rfl
    rw [e2, writeCore_asks m1 x hc] at h3
    obtain ⟨l1, l2, ts', rfl, g1, g2, ⟨w, hw, e3, g3, g4⟩ | ⟨l0, y, rfl, g4⟩⟩ := urlopen_result ts h3
    · cases g4
      exact .inr (.inl ⟨rfl, fun y hy => g1 y ((List.append_nil _).subst (motive := fun l => y ∈ l) hy), w, hw, e3, g3, rfl⟩)
    · refine .inr (.inr ⟨l0, y, l2, rfl, by simp [Req.wire], fun y hy => g1 y (List.mem_append_left _ hy), ?_, ?_⟩)
      · rintro rfl
        cases g4
        exact ⟨rfl, rfl, rfl⟩
      · rintro rfl
        exact ⟨z, ts', g2, g4, rfl⟩

theorem goes_tried {α : Type} (p : Ask Req (Except Exc Resp) (Except Exc α × HMirror)) : Goes p → ∀ {ts : List Attempt} {l : List (HOp × HRet)}
    {a : Except Exc α × HMirror}, (∀ w ∈ ts, error? w ≠ some .stopIteration) → Asks (p.tried ts) l (.done a) → a.1 ≠ .error .stopIteration := by
  induction p with
  | done a => intro h ts l a' hts h1; cases h1; exact h
  | ask r k ih =>
    intro h ts l a hts h1
    obtain ⟨l1, l2, ts', rfl, -, g2, ⟨w, hw, e3, g3, g4⟩ | ⟨l0, y, rfl, g4⟩⟩ := urlopen_result ts h1
    · refine ih _ (h _ fun e => hts w hw ?_) (fun w hw => hts w (g2 w hw)) g4
      injection e with e
      rw [g3, e]
    · refine ih _ (h _ ?_) (fun w hw => hts w (g2 w hw)) g4
      cases y with
      | resp => exact nofun
      | «local» => exact nofun

theorem open_tried {α : Type} (p : Ask Req (Except Exc Resp) (α × HMirror)) : StaysOpen p → ∀ {ts : List Attempt} {l : List (HOp × HRet)} {a : α × HMirror},
    Asks (p.tried ts) l (.done a) → a.2.buf.closed = false := by
  induction p with
  | done a => intro h ts l a' h1; cases h1; exact h
  | ask r k ih =>
    intro h ts l a h1
    obtain ⟨l1, l2, ts', rfl, -, -, ⟨w, hw, e3, g3, g4⟩ | ⟨l0, y, rfl, g4⟩⟩ := urlopen_result ts h1
    · exact ih _ (h _) g4
    · exact ih _ (h _) g4

/-- A mirror that was open and that its process has not closed is open. -/
theorem open_retry {i : Nat} {m m' : HMirror} {hist : List (HEvent HTCall HSRet HOp HRet)} {rest : Option (HTCall × Ask HOp HRet (HSRet × HMirror))}
    (hr : ClientRun retryClient i m hist m' rest) (hc : ∀ e ts, HEvent.inv i (.mirror (.close e) ts) ∉ hist) (hm : m.buf.closed = false) :
    m'.buf.closed = false := by
  induction hr with
  | nil => exact hm
  | within => exact hm
  | call m m1 m' c l r h rest h1 h2 ih =>
    refine ih (fun e os hx => hc e os (by simp [hx])) ?_
    cases c with
    | mirror c ts =>
      obtain ⟨x, h3, h4⟩ := asks_bind_done _ _ h1
      cases h4
      refine open_tried _ (HMAsk.exec_opens c (fun e he => ?_) m hm) h3
      subst he
      exact hc e ts List.mem_cons_self
    | reader c ts =>
      obtain ⟨x, h3, h4⟩ := asks_bind_done _ _ h1
      cases h4
      exact hm
    | late q => cases h1 with | cons _ _ _ _ _ h1 => cases h1; exact hm
    | stopAll => cases h1 with | cons _ _ _ _ _ h1 => cases h1; exact hm
    | reset => cases h1 with | cons _ _ _ _ _ h1 => cases h1; exact hm

/-- A reader's method that returned a value has been processed. -/
theorem reader_sets {m m' : HMirror} {c : RdCall} {ts : List Attempt} {l : List (HOp × HRet)} {r : HSRet} {v : Bool}
    (hv : (HOp.req c.req.wire).sets = some v) (hr : ∀ e, r ≠ .reader (.exc e)) (h : Asks (retryClient m (.reader c ts)) l (.done (r, m'))) :
    ∃ x ∈ l, x.1.sets = some v := by
  obtain ⟨x, k1, k2⟩ := asks_bind_done _ _ h
  cases k2
  rcases urlopen_ends (f := c.answer) (fun _ _ => rfl) ts (k1 : Asks (Ask.urlopen c.req (fun x ts => .done (c.answer x)) ts {}) l (.done x)) with
    ⟨w, g6, e1, g7, rfl⟩ | ⟨l1, y, rfl, rfl⟩
  · exact absurd rfl (hr e1)
  · exact ⟨_, List.mem_append_right _ (List.mem_singleton_self _), hv⟩

/-- **C83** Any number of processes use mirrors and readers, in any way; every request is attempted as `urllib3` does it, attempts fail in any
way, and requests that were given up may be processed later.  Process `i` stops the mirrors — as the owner of the buffer, or with a reader
whose method returns a value — and no call, and no late request, that lets them go on is under way then or begins before the end of the
write of process `j` that begins after the stop has returned.  Then that write raises `StopIteration`, or the exception of one of its
attempts (or `OSError`, if the mirror of `j` is closed), and the service is asked for nothing by it but the flag: no text is sent. -/
theorem C83_stop (env : HEnv) (h0 : HostBuf) (obj : Nat → HMirror) (tr : List (Ev HTCall HSRet)) (κ : Conf HostBuf HLock HMirror HTCall HSRet)
    (hx : Exec (retrySystem env fun _ c => HTCall.Usual c) (init h0 obj) tr κ) :
    ∃ (h : List (HEvent HTCall HSRet HOp HRet)) (t : HostBuf), seen h = tr ∧ Serves (AtOnce env) h0 (opsOf h) t ∧
      ((∀ i, κ.cur i = none) → κ.st = t) ∧
      ∀ i j c text ts r r' a b d e f, (c = .stopAll ∨ ∃ ts, c = .reader .stopAll ts ∧ ∀ e, r ≠ .reader (.exc e)) →
        tr = a ++ .inv i c :: b ++ .ret i r :: d ++ .inv j (.mirror (.write text) ts) :: e ++ .ret j r' :: f →
        (∀ x ∈ b, ¬ ofThread i x) → (∀ x ∈ e, ¬ ofThread j x) →
        Over (fun c' => HTCall.sets c' = some false) a (a ++ .inv i c :: b ++ .ret i r :: d ++ .inv j (.mirror (.write text) ts) :: e) →
        (r' = .mirror (.exc .stopIteration) ∨ r' = .mirror (.exc .osError) ∨ ∃ w ∈ ts, ∃ e, error? w = some e ∧ r' = .mirror (.exc e)) ∧
        ((obj j).buf.closed = false → (∀ x ts', Ev.inv j (.mirror (.close x) ts') ∉ a ++ .inv i c :: b ++ .ret i r :: d) →
          r' = .mirror (.exc .stopIteration) ∨ ∃ w ∈ ts, ∃ e, error? w = some e ∧ r' = .mirror (.exc e)) ∧
        ∃ p q g, h = p ++ .inv j (.mirror (.write text) ts) :: q ++ .ret j r' :: g ∧ seen p = a ++ .inv i c :: b ++ .ret i r :: d ∧ seen q = e ∧
          ∀ x ∈ mine j (opsOf q), x.1 = .req (.stateGet (some (lit "closed"))) := by
  obtain ⟨h, rest, t, h1, h2, h3, h4, h5⟩ := retry_history env _ h0 obj tr κ hx
  refine ⟨h, t, h1, h2, h5, fun i j c text ts r r' a b d e f hc htr hb he hover => ?_⟩
  have hsure : ∀ m l m', Asks (retryClient m c) l (.done (r, m')) → ∃ x ∈ l, x.1.sets = some true := by
    intro m l m' h
    rcases hc with rfl | ⟨ts, rfl, hr⟩
    · cases h with | cons _ y _ _ _ h => exact ⟨_, List.mem_cons_self, rfl⟩
    · exact reader_sets rfl hr h
  obtain ⟨p, q, g, l, m1, m2, e1, e2, e3, e4, e5, e6, e7⟩ := flag_history retry_flags h2 h3
    (fun i c hm => exec_calls_ok hx (h1 ▸ mem_seen hm)) hsure (h1.trans htr) hb he hover
  have opens : (obj j).buf.closed = false → (∀ x ts', Ev.inv j (.mirror (.close x) ts') ∉ a ++ .inv i c :: b ++ .ret i r :: d) → m1.buf.closed = false :=
    fun g1 g2 => open_retry e6 (fun x os hx => g2 x os (e2 ▸ mem_seen (List.mem_of_mem_filter hx))) g1
  have el : mine j (opsOf q) = l := by
    rw [← (own_view (i := j) q).2.2, e4]
    exact (asOps_view l).2
  rcases write_tried e5 with ⟨rfl, g1, rfl⟩ | ⟨g1, g2, g3⟩ | ⟨l0, y, l', g1, rfl, g0, g2, -⟩
  · refine ⟨.inr (.inl rfl), fun k1 k2 => ?_, p, q, g, e1, e2, e3, by rw [el]; nofun⟩
    rw [opens k1 k2] at g1
    cases g1
  · exact ⟨.inr (.inr g3), fun _ _ => .inr g3, p, q, g, e1, e2, e3, by rw [el]; exact g2⟩
  · have hm : HEvent.op j (.req (.stateGet (some (lit "closed")))) y ∈ own j q := by
      rw [e4]; exact List.mem_map.2 ⟨_, List.mem_append_right _ List.mem_cons_self, rfl⟩
    obtain ⟨q1, q2, rfl⟩ := List.append_of_mem (List.mem_of_mem_filter hm)
    obtain ⟨s, s1, s2, s3⟩ := e7 q1 _ rfl
    cases s2 with
    | cons _ _ _ _ _ _ _ s4 s5 =>
    have ey : y = found (.bool true) := by rw [s4.1, flag_answer s3]
    obtain ⟨rfl, rfl, -⟩ := g2 ey
    refine ⟨.inl rfl, fun _ _ => .inl rfl, p, _, g, e1, e2, e3, ?_⟩
    rw [el]
    intro x hx
    rcases List.mem_append.1 hx with hx | hx
    · exact g0 x hx
    · cases List.mem_singleton.1 hx; rfl

/-- **C83** Likewise: after a call that lets the mirrors go on and returns a value, as long as nobody stops them and no late request does, no
write raises `StopIteration`. -/
theorem C83_resume (env : HEnv) (h0 : HostBuf) (obj : Nat → HMirror) (tr : List (Ev HTCall HSRet)) (κ : Conf HostBuf HLock HMirror HTCall HSRet)
    (hx : Exec (retrySystem env fun _ c => HTCall.Usual c) (init h0 obj) tr κ) (i j : Nat) (c : HTCall) (text : PyStr) (ts : List Attempt)
    (r r' : HSRet) (a b d e f : List (Ev HTCall HSRet)) (hc : c = .reset ∨ ∃ ts, c = .reader .resetStates ts ∧ ∀ e, r ≠ .reader (.exc e))
    (hts : ∀ w ∈ ts, error? w ≠ some .stopIteration)
    (htr : tr = a ++ .inv i c :: b ++ .ret i r :: d ++ .inv j (.mirror (.write text) ts) :: e ++ .ret j r' :: f)
    (hb : ∀ x ∈ b, ¬ ofThread i x) (he : ∀ x ∈ e, ¬ ofThread j x)
    (hover : Over (fun c' => HTCall.sets c' = some true) a (a ++ .inv i c :: b ++ .ret i r :: d ++ .inv j (.mirror (.write text) ts) :: e)) :
    r' ≠ .mirror (.exc .stopIteration) := by
  obtain ⟨h, rest, t, h1, h2, h3, h4, h5⟩ := retry_history env _ h0 obj tr κ hx
  have hsure : ∀ m l m', Asks (retryClient m c) l (.done (r, m')) → ∃ x ∈ l, x.1.sets = some false := by
    intro m l m' h
    rcases hc with rfl | ⟨ts, rfl, hr⟩
    · cases h with | cons _ y _ _ _ h => exact ⟨_, List.mem_cons_self, rfl⟩
    · exact reader_sets rfl hr h
  obtain ⟨p, q, g, l, m1, m2, e1, e2, e3, e4, e5, e6, e7⟩ := flag_history retry_flags h2 h3
    (fun i c hm => exec_calls_ok hx (h1 ▸ mem_seen hm)) hsure (h1.trans htr) hb he hover
  rcases write_tried e5 with ⟨rfl, g1, rfl⟩ | ⟨g1, g2, w, hw, x, g3, rfl⟩ | ⟨l0, y, l', g1, rfl, g0, -, g2⟩
  · exact nofun
  · intro e
    injection e with e
    injection e with e
    exact hts w hw (by rw [g3, e])
  · have hm : HEvent.op j (.req (.stateGet (some (lit "closed")))) y ∈ own j q := by
      rw [e4]; exact List.mem_map.2 ⟨_, List.mem_append_right _ List.mem_cons_self, rfl⟩
    obtain ⟨q1, q2, rfl⟩ := List.append_of_mem (List.mem_of_mem_filter hm)
    obtain ⟨s, s1, s2, s3⟩ := e7 q1 _ rfl
    cases s2 with
    | cons _ _ _ _ _ _ _ s4 s5 =>
    have ey : y = found (.bool false) := by rw [s4.1, flag_answer s3]
    obtain ⟨z, ts', k0, k1, rfl⟩ := g2 ey
    have := goes_tried _ (HMAsk.going_unchecked text m1) (fun w hw => hts w (k0 w hw)) k1
    intro e
    apply this
    obtain ⟨r, m⟩ := z
    cases r with
    | ok n => cases e
    | error x => injection e with e; injection e with e; rw [e]

/-- A stop by a reader at the second attempt; a write whose question is made again; a resumption that is processed twice; another write. -/
def stopAndRetry : List (Move HTCall) :=
  [.start 2 (.reader .stopAll [.refused true .connectionError])] ++ List.replicate 6 (.go 2) ++
    [.start 0 (.mirror (.write (lit "b\n")) [.noReply .connectionError])] ++ List.replicate 11 (.go 0) ++
    [.start 2 (.reader .resetStates [.noReply .connectionError])] ++ List.replicate 9 (.go 2) ++
    [.start 0 (.mirror (.write (lit "c\n")) [.lost .connectionError, .answered, .refused false .connectionError])] ++ List.replicate 18 (.go 0)

/-- The calls and results that can be observed, as numbers. -/
def retryView : Ev HTCall HSRet → Nat × Nat
  | .inv i (.mirror (.write _) _) => (i, 0)
  | .inv i .stopAll => (i, 1)
  | .inv i (.reader .stopAll _) => (i, 1)
  | .inv i (.reader .resetStates _) => (i, 2)
  | .inv i (.late .stateDelete) => (i, 3)
  | .inv i _ => (i, 9)
  | .ret i (.mirror (.nat n)) => (i, 10 + n)
  | .ret i (.mirror (.exc .stopIteration)) => (i, 20)
  | .ret i .local => (i, 21)
  | .ret i (.reader (.bool true)) => (i, 22)
  | .ret i _ => (i, 99)

/-- An execution of `C83_stop` and `C83_resume`. -/
example : (moves (retrySystem sampleEnv fun _ c => HTCall.Usual c) 3 stopAndRetry
    (init (hb { cap := 9 } [(lit "closed", .bool false), (lit "maxlen", .int 9)]) fun _ => {})).any (fun p =>
      p.1.map retryView == [(2, 1), (2, 22), (0, 0), (0, 20), (2, 2), (2, 22), (0, 0), (0, 12)] &&
      textsIn p.2.st.base.storage.items == [lit "c"]) = true := by decide +kernel

/-- A request to go on that was given up and is processed after a later stop. -/
def lateReset : List (Move HTCall) :=
  [.start 1 .stopAll] ++ List.replicate 4 (.go 1) ++ [.start 2 (.late .stateDelete)] ++ List.replicate 5 (.go 2) ++
    [.start 0 (.mirror (.write (lit "c\n")) [])] ++ List.replicate 18 (.go 0)

/-- In `C83_stop` late requests cannot be left out: here the stop has returned, and the write is not stopped. -/
example : (moves (retrySystem sampleEnv fun _ c => HTCall.Usual c) 3 lateReset
    (init (hb { cap := 9 } [(lit "closed", .bool false), (lit "maxlen", .int 9)]) fun _ => {})).any (fun p =>
      p.1.map retryView == [(1, 1), (1, 21), (2, 3), (2, 21), (0, 0), (0, 12)]) = true := by decide +kernel

end SyncStream
