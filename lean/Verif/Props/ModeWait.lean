import Verif.Model.ModeWait
import Verif.Spec.ModeWait
import Verif.Props.ModeOverride
/-!
# Property C91: waiting for the mirrors with a user's `parse_lines`
-/

namespace SyncStream
open Spec LineBuf

variable {U : Type}

namespace OvProc

/-- The net without the messages received. -/
def leaving (net : Net) (q : Nat) (ms : List QMsg) : Net :=
  { net with queues := fun i => if i = q then ms else net.queues i }

theorem leaving_leaving (net : Net) (q : Nat) (ms ms' : List QMsg) : leaving (leaving net q ms) q ms' = leaving net q ms' := by
  unfold leaving
  congr 1
  funext i
  dsimp only
  split <;> rfl

theorem waitLoop_spec {p : Override U} (hp : KeepsDeque fun ls => (p ls).seq) (ms : List QMsg) :
    ∀ (fuel : Nat) (_ : ms.length < fuel) (l : OvLog U) (_ : Ovr.Sound l) (n : Int) (m : Mirror) (q : Nat) (net : Net)
      (_ : net.queues m.queue = ms),
      ∃ r l' n' ms', Waits (fun ls => (p ls).seq) l n ms r l' n' ms' ∧
        waitLoop p fuel (⟨⟨(Ovr.rep l).base, n, m, q⟩, l.own⟩, net) =
          (r, (⟨⟨(Ovr.rep l').base, n', m, q⟩, l'.own⟩, leaving net m.queue ms')) := by
  induction ms with
  | nil =>
    rintro (_ | fuel) hf l hl n m q net hq
    · omega
    refine ⟨_, l, n, [], .more l n, ?_⟩
    simp only [waitLoop, receive]
    have e : leaving net m.queue [] = net := by
      unfold leaving
      have : (fun i => if i = m.queue then [] else net.queues i) = net.queues := by
        funext i
        split
        · rename_i h; rw [h, hq]
        · rfl
      rw [this]
    rw [e]
    simp [Py.bind_apply, inherited, ProcBuf.get, hq]
  | cons x ms ih =>
    rintro (_ | fuel) hf l hl n m q net hq
    · omega
    have hf : ms.length < fuel := by simp at hf; omega
    have hg : (inherited ProcBuf.get : Py (OvNet U) QMsg) (⟨⟨(Ovr.rep l).base, n, m, q⟩, l.own⟩, net) =
        (.ok x, (⟨⟨(Ovr.rep l).base, n, m, q⟩, l.own⟩, leaving net m.queue ms)) := by
      simp [inherited, ProcBuf.get, hq, leaving]
    have hq' : (leaving net m.queue ms).queues m.queue = ms := by simp [leaving]
    -- what follows a receive that gives `true`
    have go : ∀ (l1 : OvLog U) (n1 : Int), Ovr.Sound l1 →
        receive p (⟨⟨(Ovr.rep l).base, n, m, q⟩, l.own⟩, net) =
          (.ok true, (⟨⟨(Ovr.rep l1).base, n1, m, q⟩, l1.own⟩, leaving net m.queue ms)) →
        ∃ r l' n' ms', Waits (fun ls => (p ls).seq) l1 n1 ms r l' n' ms' ∧
          waitLoop p (fuel + 1) (⟨⟨(Ovr.rep l).base, n, m, q⟩, l.own⟩, net) =
            (r, (⟨⟨(Ovr.rep l').base, n', m, q⟩, l'.own⟩, leaving net m.queue ms')) := by
      intro l1 n1 h1 hr
      obtain ⟨r, l', n', ms', i1, i2⟩ := ih fuel hf l1 h1 n1 m q _ hq'
      refine ⟨r, l', n', ms', i1, ?_⟩
      rw [leaving_leaving] at i2
      simp only [waitLoop]
      rw [Py.bind_ok hr]
      exact i2
    -- what follows one that gives `false`
    have fin : ∀ (l1 : OvLog U) (n1 : Int),
        receive p (⟨⟨(Ovr.rep l).base, n, m, q⟩, l.own⟩, net) =
          (.ok false, (⟨⟨(Ovr.rep l1).base, n1, m, q⟩, l1.own⟩, leaving net m.queue ms)) →
          waitLoop p (fuel + 1) (⟨⟨(Ovr.rep l).base, n, m, q⟩, l.own⟩, net) =
            (.ok (), (⟨⟨(Ovr.rep l1).base, n1, m, q⟩, l1.own⟩, leaving net m.queue ms)) := by
      intro l1 n1 hr
      simp only [waitLoop]
      rw [Py.bind_ok hr]
      rfl
    have snd : ∀ g : GMsg, Ovr.Sound (l.storing (.msg g)) := fun g => ⟨hl.1, Deque.append_isDeque hl.2 _⟩
    cases x with
    | str d =>
      obtain ⟨l1, s1, ⟨k, w1, w2⟩ | ⟨e, w1, w2⟩⟩ := Ovr.write_seq hp hl d
      · obtain ⟨r, l', n', ms', i1, i2⟩ := go l1 n s1 (by
          simp only [receive]
          rw [Py.bind_ok hg]
          have hw : (onLines (Ovr.write (Ovr.method p) d) : Py (OvNet U) Nat)
              (⟨⟨(Ovr.rep l).base, n, m, q⟩, l.own⟩, leaving net m.queue ms) =
              (.ok k, (⟨⟨(Ovr.rep l1).base, n, m, q⟩, l1.own⟩, leaving net m.queue ms)) := by
            simp only [onLines, Py.onPart_apply]
            rw [show (⟨(Ovr.rep l).base, l.own⟩ : OvBuf U) = Ovr.rep l from rfl, w1]
            rfl
          exact (Py.bind_ok hw).trans rfl)
        exact ⟨r, l', n', ms', .text _ _ _ _ _ _ _ _ _ _ w2 i1, i2⟩
      · refine ⟨_, l1, n, ms, .raised _ _ _ _ _ _ w2, ?_⟩
        simp only [waitLoop]
        have hr : receive p (⟨⟨(Ovr.rep l).base, n, m, q⟩, l.own⟩, net) =
            (.error e, (⟨⟨(Ovr.rep l1).base, n, m, q⟩, l1.own⟩, leaving net m.queue ms)) := by
          simp only [receive]
          rw [Py.bind_ok hg]
          have hw : (onLines (Ovr.write (Ovr.method p) d) : Py (OvNet U) Nat)
              (⟨⟨(Ovr.rep l).base, n, m, q⟩, l.own⟩, leaving net m.queue ms) =
              (.error e, (⟨⟨(Ovr.rep l1).base, n, m, q⟩, l1.own⟩, leaving net m.queue ms)) := by
            simp only [onLines, Py.onPart_apply]
            rw [show (⟨(Ovr.rep l).base, l.own⟩ : OvBuf U) = Ovr.rep l from rfl, w1]
            rfl
          exact Py.bind_error hw
        exact Py.bind_error hr
    | warning g =>
      obtain ⟨r, l', n', ms', i1, i2⟩ := go (l.storing (.msg g)) n (snd g) (by
        simp only [receive]; rw [Py.bind_ok hg]; rfl)
      exact ⟨r, l', n', ms', .warning _ _ _ _ _ _ _ _ i1, i2⟩
    | error g =>
      have hr : receive p (⟨⟨(Ovr.rep l).base, n, m, q⟩, l.own⟩, net) =
          (.ok (decide (n - 1 > 0)), (⟨⟨(Ovr.rep (l.storing (.msg g))).base, n - 1, m, q⟩, l.own⟩, leaving net m.queue ms)) := by
        simp only [receive]; rw [Py.bind_ok hg]; rfl
      by_cases hn : 1 < n
      · rw [show decide (n - 1 > 0) = true from decide_eq_true (by omega)] at hr
        obtain ⟨r, l', n', ms', i1, i2⟩ := go (l.storing (.msg g)) _ (snd g) hr
        exact ⟨r, l', n', ms', .error _ _ _ _ _ _ _ _ hn i1, i2⟩
      · rw [show decide (n - 1 > 0) = false from decide_eq_false (by omega)] at hr
        exact ⟨_, _, _, _, .lastError l n g ms (by omega), fin (l.storing (.msg g)) _ hr⟩
    | close =>
      have hr : receive p (⟨⟨(Ovr.rep l).base, n, m, q⟩, l.own⟩, net) =
          (.ok (decide (n - 1 > 0)), (⟨⟨(Ovr.rep l).base, n - 1, m, q⟩, l.own⟩, leaving net m.queue ms)) := by
        simp only [receive]; rw [Py.bind_ok hg]; rfl
      by_cases hn : 1 < n
      · rw [show decide (n - 1 > 0) = true from decide_eq_true (by omega)] at hr
        obtain ⟨r, l', n', ms', i1, i2⟩ := go l _ hl hr
        exact ⟨r, l', n', ms', .close _ _ _ _ _ _ _ hn i1, i2⟩
      · rw [show decide (n - 1 > 0) = false from decide_eq_false (by omega)] at hr
        exact ⟨_, _, _, _, .lastClose l n ms (by omega), fin l _ hr⟩
    | stop =>
      exact ⟨_, _, _, _, .stop l n ms, fin l 0 (by simp only [receive]; rw [Py.bind_ok hg]; rfl)⟩
    | other =>
      exact ⟨_, _, _, _, .other l n ms, fin l n (by simp only [receive]; rw [Py.bind_ok hg]; rfl)⟩

end OvProc

/-- **C91, wait** Waiting for the mirrors with any override: every message is received in turn, as C91 says, until all mirrors have ended, or a
stop is received, or the override raises; then `wait` ends (in the last case with the exception), the messages after that one are still in the
queue, and nothing else has changed. -/
theorem C91_wait (p : Override U) (hp : KeepsDeque fun ls => (p ls).seq) (s : OvSys U) (st : Deque Item) (part : PyStr) (u : U)
    (hst : IsDeque st) (hpart : NoBreak part) (hs : (⟨s.main.main.base, s.main.own⟩ : OvBuf U) = ovOpen st part u) :
    ∃ l k ms, Waits (fun ls => (p ls).seq) ⟨part, st, u⟩ s.main.main.nMirrors (s.net.queues s.main.main.mirror.queue)
        (OvProc.wait p (s.main, s.net)).1 l k ms ∧
      (OvProc.wait p (s.main, s.net)).2 =
        ({ main := { s.main.main with base := (ovOpen l.store l.part l.own).base, nMirrors := k }, own := l.own },
          { s.net with queues := fun i => if i = s.main.main.mirror.queue then ms else s.net.queues i }) := by
  obtain ⟨⟨⟨b, n, m, q⟩, v⟩, mi, net⟩ := s
  have hs : (⟨b, v⟩ : OvBuf U) = Ovr.rep ⟨part, st, u⟩ := hs
  obtain ⟨hb, hv⟩ := OvBuf.mk.inj hs
  dsimp only at hb hv
  subst hb
  cases hv
  obtain ⟨r, l, k, ms, h1, h2⟩ := OvProc.waitLoop_spec hp _ ((net.queues m.queue).length + 1) (Nat.lt_succ_self _)
    ⟨part, st, u⟩ ⟨hpart, hst⟩ n m q net rfl
  have h3 : OvProc.wait p (⟨⟨(Ovr.rep ⟨part, st, u⟩).base, n, m, q⟩, u⟩, net) = _ := h2
  refine ⟨l, k, ms, ?_, ?_⟩
  · have h4 := congrArg Prod.fst h3
    dsimp only at h4
    exact h4 ▸ h1
  · exact congrArg Prod.snd h3

/-! ## Without an override -/

theorem OvProc.receive_default (s : OvNet U) : OvProc.receive Override.default s =
    ((ProcBuf.receive (s.1.main, s.2)).1,
      (⟨(ProcBuf.receive (s.1.main, s.2)).2.1, s.1.own⟩, (ProcBuf.receive (s.1.main, s.2)).2.2)) := by
  obtain ⟨⟨⟨b, n, m, q⟩, u⟩, net⟩ := s
  simp only [OvProc.receive, ProcBuf.receive]
  cases hq : net.queues m.queue with
  | nil =>
    rw [Py.bind_error (e := .blocked) (s' := (⟨⟨b, n, m, q⟩, u⟩, net)) (by simp [OvProc.inherited, ProcBuf.get, hq]),
      Py.bind_error (e := .blocked) (s' := (⟨b, n, m, q⟩, net)) (by simp [ProcBuf.get, hq])]
  | cons x xs =>
    have hg : (OvProc.inherited ProcBuf.get : Py (OvNet U) QMsg) (⟨⟨b, n, m, q⟩, u⟩, net) =
        (.ok x, (⟨⟨b, n, m, q⟩, u⟩, { net with queues := fun i => if i = m.queue then xs else net.queues i })) := by
      simp [OvProc.inherited, ProcBuf.get, hq]
    have hg' : ProcBuf.get (⟨b, n, m, q⟩, net) =
        (.ok x, (⟨b, n, m, q⟩, { net with queues := fun i => if i = m.queue then xs else net.queues i })) := by
      simp [ProcBuf.get, hq]
    rw [Py.bind_ok hg, Py.bind_ok hg']
    cases x with
    | str d =>
      simp only [Py.bind_apply, OvProc.onLines, ProcBuf.onBase, Py.onPart_apply, Ovr.seq_write_default]
      rcases LineBuf.write d b with ⟨_ | _, b'⟩ <;> rfl
    | _ => rfl

theorem OvProc.waitLoop_default (fuel : Nat) (s : OvNet U) : OvProc.waitLoop Override.default fuel s =
    ((ProcBuf.waitLoop fuel (s.1.main, s.2)).1,
      (⟨(ProcBuf.waitLoop fuel (s.1.main, s.2)).2.1, s.1.own⟩, (ProcBuf.waitLoop fuel (s.1.main, s.2)).2.2)) := by
  induction fuel generalizing s with
  | zero => rfl
  | succ fuel ih =>
    simp only [OvProc.waitLoop, ProcBuf.waitLoop, Py.bind_apply, OvProc.receive_default]
    rcases ProcBuf.receive (s.1.main, s.2) with ⟨_ | x, y⟩
    · rfl
    · cases x with
      | true => exact ih _
      | false => rfl

/-- How waiting ends, and what is left, does not depend on an override that does not raise. -/
theorem waits_same {V : Type} {par : List Item → Py (Deque Item × U) Unit} {par' : List Item → Py (Deque Item × V) Unit}
    (hn : ∀ ls x, ∃ y, par ls x = (.ok (), y)) (hn' : ∀ ls x, ∃ y, par' ls x = (.ok (), y))
    {l l1 : OvLog U} {m m1 : OvLog V} {k k1 k2 : Int} {ms ms1 ms2 : List QMsg} {r r' : Except Exc Unit}
    (h : Waits par l k ms r l1 k1 ms1) (h' : Waits par' m k ms r' m1 k2 ms2) : r = r' ∧ k1 = k2 ∧ ms1 = ms2 := by
  have no : ∀ {W : Type} {f : List Item → Py (Deque Item × W) Unit}, (∀ ls x, ∃ y, f ls x = (.ok (), y)) →
      ∀ {a b : OvLog W} {d e}, ¬ OvStep f a 0 (.write d) (.exc e) b := by
    intro W f hf a b d e hstep
    cases hstep with
    | writeRaise _ _ ls _ st u _ _ g =>
      obtain ⟨y, hy⟩ := hf (ls.map .str) (a.store, a.own)
      rw [hy] at g
      cases congrArg Prod.fst g
  induction h generalizing m with
  | more => cases h'; exact ⟨rfl, rfl, rfl⟩
  | text l l1 l' k k' d n ms ms' r _ _ ih =>
    cases h' with
    | text _ _ _ _ _ _ _ _ _ _ _ g => exact ih g
    | raised _ _ _ _ _ _ g => exact absurd g (no hn')
  | raised _ _ _ _ _ _ g => exact absurd g (no hn)
  | warning l l' k k' g ms ms' r _ ih => cases h' with | warning _ _ _ _ _ _ _ _ g => exact ih g
  | error l l' k k' g ms ms' r hk _ ih =>
    cases h' with
    | error _ _ _ _ _ _ _ _ _ g => exact ih g
    | lastError => omega
  | lastError l k g ms hk => cases h' with
    | error => omega
    | lastError => exact ⟨rfl, rfl, rfl⟩
  | close l l' k k' ms ms' r hk _ ih =>
    cases h' with
    | close _ _ _ _ _ _ _ _ g => exact ih g
    | lastClose => omega
  | lastClose l k ms hk => cases h' with
    | close => omega
    | lastClose => exact ⟨rfl, rfl, rfl⟩
  | stop => cases h'; exact ⟨rfl, rfl, rfl⟩
  | other => cases h'; exact ⟨rfl, rfl, rfl⟩

/-- **C91, wait** If the override does not raise, `wait` ends as without an override: with the same result, the same number of mirrors and the
same messages in the queues. -/
theorem C91_wait_same (p : Override U) (hp : KeepsDeque fun ls => (p ls).seq) (hn : ∀ ls x, ∃ y, (p ls).seq x = (.ok (), y))
    (s : OvSys U) (st : Deque Item) (part : PyStr) (u : U) (hst : IsDeque st) (hpart : NoBreak part)
    (hs : (⟨s.main.main.base, s.main.own⟩ : OvBuf U) = ovOpen st part u) :
    (OvProc.wait p (s.main, s.net)).1 = (ProcBuf.wait (s.main.main, s.net)).1 ∧
      (OvProc.wait p (s.main, s.net)).2.1.main.nMirrors = (ProcBuf.wait (s.main.main, s.net)).2.1.nMirrors ∧
      (OvProc.wait p (s.main, s.net)).2.2 = (ProcBuf.wait (s.main.main, s.net)).2.2 := by
  have hd : KeepsDeque fun ls => ((Override.default : Override U) ls).seq := by
    rintro ls ⟨d, x⟩ ⟨h1, h2⟩
    show IsDeque (d.extend ls)
    rw [Deque.extend_eq _ _ h2 h1]
    exact ⟨h1, length_lastN_le _ _⟩
  obtain ⟨l, k, ms, h1, h2⟩ := C91_wait p hp s st part u hst hpart hs
  obtain ⟨l', k', ms', h3, h4⟩ := C91_wait Override.default hd s st part u hst hpart hs
  have e : OvProc.wait Override.default (s.main, s.net) = _ := OvProc.waitLoop_default _ (s.main, s.net)
  obtain ⟨g1, g2, g3⟩ := waits_same hn (fun _ _ => ⟨_, rfl⟩) h1 h3
  have e' : ProcBuf.wait (s.main.main, s.net) =
    ((OvProc.wait Override.default (s.main, s.net)).1, ((OvProc.wait Override.default (s.main, s.net)).2.1.main,
      (OvProc.wait Override.default (s.main, s.net)).2.2)) := by rw [e]; rfl
  rw [e', h2, h4, g1, g2, g3]
  exact ⟨rfl, rfl, rfl⟩

/-- Two mirrors write and end; the override is that of `ovTwoMirrors`. -/
def ovWaiting : List ProcOp :=
  [.take, .take, .mirror 0 (.write (lit "aE\nb")), .mirror 1 (.write (lit "x\n")), .mirror 1 .sendEof,
    .mirror 0 (.sendError {}), .forceStop]

example : let s := OvSys.run countE.noting ovWaiting (newOvSys 5 (0, []))
    let z := OvProc.wait countE.noting (s.main, s.net)
    ((match z.1 with | .ok () => true | _ => false), ovItemTexts z.2.1.main.base.storage.items, ovItemTexts z.2.1.own.2,
      z.2.1.main.nMirrors, (z.2.2.queues 0).length) =
      (true, [some (lit "aE"), none], [some (lit "aE"), some (lit "bx")], 0, 1) := by decide +kernel

end SyncStream
