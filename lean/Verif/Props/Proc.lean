import Verif.Lemmas.ProcBuf
import Verif.Props.Mirror
/-!
# Properties C23-C28: `LineProcBuffer` receiving from mirrors
-/

namespace SyncStream
open Spec LineBuf

/-- The buffer behaves like the log `l`: every history of calls returns what it would return on
`l`. -/
def Holds (b : LineBuf) (l : Log) : Prop := ∀ cs, ∃ l', Log.Steps l cs (LineBuf.run cs b).1 l'

theorem holds_rep {l : Log} (ok : Ok l) : Holds (rep l) l := fun cs =>
  let ⟨l', h, _⟩ := run_refines cs l ok
  ⟨l', h⟩

/-- In particular `read()` shows the log's view. -/
theorem holds_read {b : LineBuf} {l : Log} (h : Holds b l) (ho : l.closed = false) :
    (LineBuf.exec (.read none) b).1 = .items l.view := by
  obtain ⟨l', hs⟩ := h [.read none]
  simp only [LineBuf.run] at hs
  cases hs with
  | cons _ _ _ _ _ _ _ h1 _ =>
    exact (step_unique h1 (.readAll l ho)).1

/-- A new `LineProcBuffer(maxlen)` from which `k` mirrors have been taken. -/
def Started (maxlen : Int) (k : Nat) (p : ProcBuf) : Prop :=
  ∃ p0, ProcBuf.new maxlen = .ok p0 ∧ p = { p0 with nMirrors := k }

theorem started_rep {maxlen : Int} {k : Nat} {p : ProcBuf} (h : Started maxlen k p) :
    p.base = rep { cap := maxlen.toNat } ∧ Ok { cap := maxlen.toNat } ∧ p.nMirrors = k := by
  obtain ⟨p0, h1, rfl⟩ := h
  simp only [ProcBuf.new, LineBuf.new] at h1
  split at h1
  · cases h1
  · rename_i hm
    cases h1
    exact ⟨by simp [rep, opened], ⟨by simp; omega, noBreak_nil, by simp⟩, rfl⟩

/-- `k` times taking a mirror gives such a buffer. -/
theorem started_take (maxlen : Int) (p0 : ProcBuf) (h : ProcBuf.new maxlen = .ok p0) (n : Net)
    (k : Nat) : ∃ p, Started maxlen k p ∧
      (List.replicate k ()).foldl (fun s _ => (ProcBuf.takeMirror s).2) (p0, n) = (p, n) := by
  have h0 : p0.nMirrors = 0 := by
    simp only [ProcBuf.new, LineBuf.new] at h
    split at h
    · cases h
    · cases h; rfl
  refine ⟨_, ⟨p0, h, rfl⟩, ?_⟩
  suffices H : ∀ j : Int, (List.replicate k ()).foldl (fun s _ => (ProcBuf.takeMirror s).2)
      ({ p0 with nMirrors := j }, n) = ({ p0 with nMirrors := j + k }, n) by
    have := H 0
    rw [show ({ p0 with nMirrors := 0 } : ProcBuf) = p0 by rw [← h0]] at this
    simpa using this
  induction k with
  | zero => intro j; simp
  | succ k ih =>
    intro j
    rw [List.replicate_succ, List.foldl_cons]
    refine (ih (j + 1)).trans ?_
    simp only [Prod.mk.injEq, ProcBuf.mk.injEq, and_true, true_and]
    push_cast; omega

/-! ## C24, C25 -/

/-- **C24, C25** `N ≥ 1` mirrors were taken and each sends a proper stream (ordinary messages, then one
end signal).  For every interleaving `msgs` of the streams in the queue, followed by anything:
`wait()` returns, it has consumed exactly `msgs`, no mirror is counted any more, and the buffer
behaves like a log to which the messages arrived in queue order. -/
theorem C24_wait_returns (maxlen : Int) (p : ProcBuf) (n : Net) (streams : List (List QMsg))
    (msgs later : List QMsg) (hN : streams ≠ []) (hp : Started maxlen streams.length p)
    (hs : ∀ s ∈ streams, ProperStream s) (hm : Merge streams msgs)
    (hq : n.queues p.mirror.queue = msgs ++ later) :
    ∃ p' n' l, ProcBuf.wait (p, n) = (.ok (), (p', n')) ∧
      n'.queues p.mirror.queue = later ∧ p'.nMirrors = 0 ∧
      Replays { cap := maxlen.toNat } msgs l ∧ Holds p'.base l := by
  obtain ⟨hb, ok, hk⟩ := started_rep hp
  obtain ⟨pre, e, rfl, he, hpre, hcount⟩ := merge_proper hm hs hN
  have hc := cont_ends pre p.nMirrors hpre (by rw [hk]; omega)
  have hg : goes (p.nMirrors - pre.countP isEnd) e = (false, 0) := by
    have : p.nMirrors - pre.countP isEnd = 1 := by rw [hk]; omega
    rw [this]
    cases e <;> first | rfl | cases he
  have hw := ProcBuf.wait_returns pre e later _ ok rfl p n hb
    (by rw [hq]; simp) _ hc (by rw [hg])
  refine ⟨_, _, _, hw, ?_, by rw [hg], replays_foldl _ _ noBreak_nil, ?_⟩
  · exact ProcBuf.qset_queues _ _ _
  · exact holds_rep (foldl_arrive_ok _ _ ok rfl)

/-- **C24** While only a proper prefix of the interleaving has arrived, `wait()` does not return: it
waits for more messages. -/
theorem C24_wait_waits (maxlen : Int) (p : ProcBuf) (n : Net) (streams : List (List QMsg))
    (some_ rest : List QMsg) (hp : Started maxlen streams.length p)
    (hs : ∀ s ∈ streams, ProperStream s) (hm : Merge streams (some_ ++ rest)) (hr : rest ≠ [])
    (hq : n.queues p.mirror.queue = some_) :
    (ProcBuf.wait (p, n)).1 = .error .blocked := by
  obtain ⟨hb, ok, hk⟩ := started_rep hp
  have hN : streams ≠ [] := by
    rintro rfl
    cases hx : some_ ++ rest with
    | nil => simp at hx; exact hr hx.2
    | cons x xs =>
      rw [hx] at hm
      cases hm with
      | take _ i _ _ _ hi _ => simp at hi
  obtain ⟨pre, e, hpe, he, hpre, hcount⟩ := merge_proper hm hs hN
  obtain ⟨mid, hmid⟩ : ∃ mid, pre = some_ ++ mid := by
    rcases List.eq_nil_or_concat rest with h | ⟨mid, x, rfl⟩
    · exact absurd h hr
    · refine ⟨mid, ?_⟩
      have : (some_ ++ mid) ++ [x] = pre ++ [e] := by rw [← hpe]; simp
      exact (List.append_inj' this rfl).1.symm
  subst hmid
  have hc := cont_ends some_ p.nMirrors (fun m hm => hpre m (by simp [hm])) (by
    rw [hk]
    rw [List.countP_append] at hcount
    omega)
  rw [ProcBuf.wait_blocked some_ _ ok rfl p n hb hq _ hc]

/-- **C24** The condition is needed: with a mirror that sends two end signals, `wait()` returns early and
leaves the text of the other mirror unread. -/
theorem C24_two_ends_return_early :
    ∃ p p' n', Started 5 2 p ∧
      ProcBuf.wait (p, { queues := fun _ => [.close, .close, .str (lit "late\n"), .close] }) =
        (.ok (), (p', n')) ∧ n'.queues 0 = [.str (lit "late\n"), .close] ∧
      (LineBuf.exec (.read none) p'.base).1 = .items [] :=
  ⟨_, _, _, ⟨_, rfl, rfl⟩, rfl, rfl, rfl⟩

/-- Two mirrors, one interleaving of their streams. -/
example : ∃ p, Started 5 2 p ∧
    (∀ s ∈ [[QMsg.str (lit "a\n"), .close], [.warning (GMsg.new .none), .error (GMsg.new .none)]], ProperStream s) ∧
    Merge [[QMsg.str (lit "a\n"), .close], [.warning (GMsg.new .none), .error (GMsg.new .none)]]
      [.warning (GMsg.new .none), .str (lit "a\n"), .close, .error (GMsg.new .none)] := by
  refine ⟨_, ⟨_, rfl, rfl⟩, ?_, ?_⟩
  · intro s hs
    simp only [List.mem_cons, List.not_mem_nil, or_false] at hs
    rcases hs with rfl | rfl
    · exact ⟨[.str (lit "a\n")], .close, rfl, by simp [IsBody], trivial⟩
    · exact ⟨[.warning (GMsg.new .none)], .error (GMsg.new .none), rfl, by simp [IsBody], trivial⟩
  · exact .take _ 1 _ _ _ rfl (.take _ 0 _ _ _ rfl (.take _ 0 _ _ _ rfl (.take _ 1 _ _ _ rfl
      (.done _ (by simp)))))

/-- **C25** The messages of one mirror keep their order in the queue. -/
theorem C25_streams_keep_order (streams : List (List QMsg)) (msgs : List QMsg)
    (h : Merge streams msgs) : ∀ s ∈ streams, s.Sublist msgs :=
  merge_sublist h

/-! ## C27, C26: order of items, and records of one process only -/

/-- The text ends with a line terminator. -/
def EndsLine (d : PyStr) : Prop := ∃ c ∈ breakChars, d.getLast? = some c

/-- The items that a single message should contribute: its lines, or the message. -/
inductive ItemsOf : QMsg → List Item → Prop
  | str (d : PyStr) (ls : List PyStr) (r : PyStr) : Lines d ls r → ItemsOf (.str d) (ls.map .str)
  | error (m : GMsg) : ItemsOf (.error m) [.msg m]
  | warning (m : GMsg) : ItemsOf (.warning m) [.msg m]
  | close : ItemsOf .close []
  | stop : ItemsOf .stop []
  | other : ItemsOf .other []

/-- The items of a sequence of messages, in order. -/
inductive AllItems : List QMsg → List Item → Prop
  | nil : AllItems [] []
  | cons (m : QMsg) (ms : List QMsg) (a b : List Item) :
      ItemsOf m a → AllItems ms b → AllItems (m :: ms) (a ++ b)

theorem endsLine_rest {d : PyStr} {ls : List PyStr} {r : PyStr} (h : Lines d ls r)
    (he : EndsLine d) : r = [] := by
  have h1 := segFrom_eq_of_lines h
  have h2 := (segFrom_rest_nil_iff d).2 (.inr (by
    obtain ⟨c, hc, hd⟩ := he
    exact ⟨c, hd, (isBreak_iff c).2 hc⟩))
  rw [h1] at h2
  exact h2

/-- **C26, C27** If every text ends with a line terminator, the log is exactly the sequence of the
items of the single messages, in order: every text record is a line of one message, and an item sent
earlier is shown earlier. -/
theorem C27_order_partial (cap : Nat) (msgs : List QMsg) (l : Log)
    (h : Replays { cap := cap } msgs l) (he : ∀ d, .str d ∈ msgs → EndsLine d) :
    AllItems msgs l.done ∧ l.part = [] := by
  suffices H : ∀ (l0 : Log), l0.part = [] → Replays l0 msgs l →
      ∃ its, AllItems msgs its ∧ l.done = l0.done ++ its ∧ l.part = [] by
    obtain ⟨its, h1, h2, h3⟩ := H { cap := cap } rfl h
    simp only [List.nil_append] at h2
    exact ⟨h2 ▸ h1, h3⟩
  clear h
  induction msgs with
  | nil => intro l0 h0 h; cases h; exact ⟨[], .nil, by simp, h0⟩
  | cons m ms ih =>
    intro l0 h0 h
    cases h with
    | cons _ l1 _ _ _ ha hr =>
      have ih' := fun h1 => ih (fun d hd => he d (List.mem_cons_of_mem _ hd)) l1 h1 hr
      cases ha with
      | text d ls r hl =>
        rw [h0, List.nil_append] at hl
        have hr0 := endsLine_rest hl (he d List.mem_cons_self)
        obtain ⟨its, h1, h2, h3⟩ := ih' hr0
        exact ⟨ls.map .str ++ its, .cons _ _ _ _ (.str d ls r hl) h1, by rw [h2]; simp, h3⟩
      | error g =>
        obtain ⟨its, h1, h2, h3⟩ := ih' h0
        exact ⟨[.msg g] ++ its, .cons _ _ _ _ (.error g) h1, by rw [h2]; simp, h3⟩
      | warning g =>
        obtain ⟨its, h1, h2, h3⟩ := ih' h0
        exact ⟨[.msg g] ++ its, .cons _ _ _ _ (.warning g) h1, by rw [h2]; simp, h3⟩
      | close => 
        obtain ⟨its, h1, h2, h3⟩ := ih' h0
        exact ⟨[] ++ its, .cons _ _ _ _ .close h1, h2, h3⟩
      | stop => 
        obtain ⟨its, h1, h2, h3⟩ := ih' h0
        exact ⟨[] ++ its, .cons _ _ _ _ .stop h1, h2, h3⟩
      | other => 
        obtain ⟨its, h1, h2, h3⟩ := ih' h0
        exact ⟨[] ++ its, .cons _ _ _ _ .other h1, h2, h3⟩

/-- **C26** (under the same condition) Every text record is a line of a text sent by one mirror. -/
theorem C26_one_process_partial (cap : Nat) (streams : List (List QMsg)) (msgs : List QMsg)
    (hm : Merge streams msgs) (l : Log) (h : Replays { cap := cap } msgs l)
    (he : ∀ d, .str d ∈ msgs → EndsLine d) (t : PyStr) (ht : Item.str t ∈ l.all) :
    ∃ s ∈ streams, ∃ d ls r, .str d ∈ s ∧ Lines d ls r ∧ t ∈ ls := by
  obtain ⟨h1, h2⟩ := C27_order_partial cap msgs l h he
  have ht' : Item.str t ∈ l.done := by simpa [Log.all, h2] using ht
  have key : ∃ d ls r, .str d ∈ msgs ∧ Lines d ls r ∧ t ∈ ls := by
    generalize l.done = its at h1 ht'
    clear h h2 ht he hm
    induction h1 with
    | nil => cases ht'
    | cons m ms a b ha _ ih =>
      rcases List.mem_append.1 ht' with h | h
      · cases ha with
        | str d ls r hl =>
          obtain ⟨x, hx, hxt⟩ := List.mem_map.1 h
          cases hxt
          exact ⟨d, ls, r, List.mem_cons_self, hl, hx⟩
        | error g => simp at h
        | warning g => simp at h
        | close => cases h
        | stop => cases h
        | other => cases h
      · obtain ⟨d, ls, r, h1, h2⟩ := ih h
        exact ⟨d, ls, r, List.mem_cons_of_mem _ h1, h2⟩
  obtain ⟨d, ls, r, hd, hl, htl⟩ := key
  obtain ⟨s, hs, hds⟩ := merge_mem hm hd
  exact ⟨s, hs, d, ls, r, hds, hl, htl⟩

/-- **C26** The condition is met if every `write` of the mirror either contains no line terminator or
ends with one (as `print` without embedded line breaks does): then every text sent ends with one. -/
theorem C26_mirror_sends_whole_lines (q : Nat) (timeout : Option Nat) (n : Net)
    (cs : List MCall) (hc : ∀ c ∈ cs, c.isText = true)
    (hw : ∀ d, .write d ∈ cs → NoBreak d ∨ EndsLine d)
    (hok : ∀ r ∈ (Mirror.run cs (Mirror.new q false timeout, n)).1, r.failed = false) :
    ∃ texts : List PyStr,
      (Mirror.run cs (Mirror.new q false timeout, n)).2.2.queues q =
        n.queues q ++ texts.map .str ∧ ∀ t ∈ texts, EndsLine t := by
  suffices H : ∀ (m : Mirror) (p : PyStr) (n : Net), m.aggressive = false → m.queue = q →
      (∀ r ∈ (Mirror.run cs (m.withBuf p, n)).1, r.failed = false) →
      ∃ texts : List PyStr, (Mirror.run cs (m.withBuf p, n)).2.2.queues q =
        n.queues q ++ texts.map .str ∧ ∀ t ∈ texts, EndsLine t by
    exact H (Mirror.new q false timeout) [] n rfl rfl hok
  clear hok
  have hput : ∀ (m : Mirror) (msg : QMsg) (n n' : Net) u, m.netPut msg n = (.ok u, n') →
      n'.queues m.queue = n.queues m.queue ++ [msg] := by
    intro m msg n n' u h
    rcases (Net.put_spec m.queue msg m.block m.timeout n).2 with ⟨_, h2⟩ | ⟨e, h1, _⟩
    · rw [show Net.put m.queue msg m.block m.timeout n = _ from h] at h2
      rw [h2]; simp [Net.appended]
    · rw [show Net.put m.queue msg m.block m.timeout n = _ from h] at h1; cases h1
  have hlast : ∀ (p d : PyStr), EndsLine d → EndsLine (p ++ d) := by
    rintro p d ⟨c, hc, hd⟩
    refine ⟨c, hc, ?_⟩
    rw [List.getLast?_append, hd]; rfl
  have hnl : EndsLine (lit "\n") := ⟨10, by decide, rfl⟩
  have core : ∀ (m : Mirror) (p d : PyStr) (n : Net), m.aggressive = false → m.queue = q →
      (NoBreak d ∨ EndsLine d) → (∃ k, (Mirror.writeCore d (m.withBuf p, n)).1 = .ok k) →
      ∃ (p' : PyStr) (n' : Net) (ts : List PyStr),
        (Mirror.writeCore d (m.withBuf p, n)).2 = (m.withBuf p', n') ∧
        n'.queues q = n.queues q ++ ts.map .str ∧ ∀ t ∈ ts, EndsLine t := by
    intro m p d n ha hq hd hr
    rw [Mirror.writeCore_open] at hr ⊢
    split at hr
    · obtain ⟨k, hk⟩ := hr; cases hk
    · rename_i hs
      rw [if_neg hs]
      simp only [ha, Bool.false_eq_true, if_false] at hr ⊢
      split at hr
      · rename_i hb
        exact ⟨p ++ d, n, [], by rw [if_pos hb], by simp, by simp⟩
      · rename_i hb
        rw [if_neg hb]
        cases hx : m.netPut (.str (p ++ d)) n with
        | mk r n' =>
          rw [hx] at hr
          cases r with
          | error e => obtain ⟨k, hk⟩ := hr; cases hk
          | ok u =>
            refine ⟨[], n', [p ++ d], rfl, ?_, ?_⟩
            · rw [← hq, hput m _ n n' u hx]; rfl
            · intro t ht
              simp only [List.mem_singleton] at ht
              subst ht
              exact hlast p d (hd.resolve_left hb)
  induction cs with
  | nil => intro m p n _ _ _; exact ⟨[], by simp [Mirror.run], by simp⟩
  | cons c cs ih =>
    intro m p n ha hq hok
    have hstep : ∃ (p' : PyStr) (n' : Net) (ts : List PyStr),
        (Mirror.exec c (m.withBuf p, n)).2 = (m.withBuf p', n') ∧
        n'.queues q = n.queues q ++ ts.map .str ∧ ∀ t ∈ ts, EndsLine t := by
      have hf := hok (Mirror.exec c (m.withBuf p, n)).1 (by simp [Mirror.run])
      cases c with
      | write d =>
        have := core m p d n ha hq (hw d List.mem_cons_self) (by
          simp only [Mirror.exec, Mirror.write_open] at hf
          cases hr : (Mirror.writeCore d (m.withBuf p, n)).1 with
          | ok k => exact ⟨k, rfl⟩
          | error e => rw [hr] at hf; simp [MRet.of, MRet.failed] at hf)
        simpa only [Mirror.exec, Mirror.write_open] using this
      | newLine =>
        by_cases hp : p = []
        · refine ⟨p, n, [], ?_, by simp, by simp⟩
          simp only [Mirror.exec, Mirror.newLine_open, hp, if_true]
        · have := core m p (lit "\n") n ha hq (.inr hnl) (by
            simp only [Mirror.exec, Mirror.newLine_open, hp, if_false] at hf
            cases hr : (Mirror.writeCore (lit "\n") (m.withBuf p, n)).1 with
            | ok k => exact ⟨k, rfl⟩
            | error e => rw [hr] at hf; simp [MRet.of, MRet.failed, Except.map] at hf)
          simpa only [Mirror.exec, Mirror.newLine_open, hp, if_false] using this
      | _ => have := hc _ List.mem_cons_self; cases this
    obtain ⟨p1, n1, t1, h1, h2, h3⟩ := hstep
    obtain ⟨t2, g1, g2⟩ := ih (fun c h => hc c (List.mem_cons_of_mem _ h))
      (fun d h => hw d (List.mem_cons_of_mem _ h)) m p1 n1 ha hq (fun r hr => hok r (by
        simp only [Mirror.run, h1]; exact List.mem_cons_of_mem _ hr))
    refine ⟨t1 ++ t2, ?_, ?_⟩
    · simp only [Mirror.run, h1, g1, h2]; simp
    · intro t ht
      rcases List.mem_append.1 ht with h | h
      · exact h3 t h
      · exact g2 t h

/-- **C26** is false in general: one mirror writes `a\nb` (and sends the unfinished `b` too), the other
one writes `c\n`; the record `bc` was written by neither. -/
theorem C26_violated : ∃ (p p' : ProcBuf) (n' : Net) (s1 s2 : List QMsg),
    Started 5 2 p ∧
    (Mirror.run [.write (lit "a\nb")] (Mirror.new 0, {})).2.2.queues 0 = s1 ∧
    (Mirror.run [.write (lit "c\n")] (Mirror.new 0, {})).2.2.queues 0 = s2 ∧
    ProcBuf.wait (p, { queues := fun _ => s1 ++ s2 ++ [.close, .close] }) = (.ok (), (p', n')) ∧
    (LineBuf.exec (.read none) p'.base).1 = .items [.str (lit "a"), .str (lit "bc")] := by
  obtain ⟨p, hp⟩ : ∃ p, Started 5 2 p := ⟨_, _, rfl, rfl⟩
  obtain ⟨p', n', l, h1, _, _, h4, h5⟩ := C24_wait_returns 5 p
    { queues := fun _ => [.str (lit "a\nb"), .str (lit "c\n"), .close, .close] }
    [[.str (lit "a\nb"), .close], [.str (lit "c\n"), .close]]
    [.str (lit "a\nb"), .str (lit "c\n"), .close, .close] [] (by simp) hp
    (by
      intro s hs
      simp only [List.mem_cons, List.not_mem_nil, or_false] at hs
      rcases hs with rfl | rfl
      · exact ⟨[.str (lit "a\nb")], .close, rfl, by simp [IsBody], trivial⟩
      · exact ⟨[.str (lit "c\n")], .close, rfl, by simp [IsBody], trivial⟩)
    (.take _ 0 _ _ _ rfl (.take _ 1 _ _ _ rfl (.take _ 0 _ _ _ rfl (.take _ 1 _ _ _ rfl
      (.done _ (by simp))))))
    (by simp)
  refine ⟨p, p', n', [.str (lit "a\nb")], [.str (lit "c\n")], hp, rfl, rfl, h1, ?_⟩
  have e := replays_unique h4 (replays_foldl _ _ noBreak_nil)
  subst e
  rw [holds_read h5 rfl]
  rfl

theorem wait_late_text (g : GMsg) : ∃ (p p' : ProcBuf) (n' : Net), Started 5 1 p ∧
    ProcBuf.wait (p, { queues := fun _ => [.str (lit "a"), .warning g, .close] }) =
      (.ok (), (p', n')) ∧
    (LineBuf.exec (.read none) p'.base).1 = .items [.msg g, .str (lit "a")] := by
  obtain ⟨p, hp⟩ : ∃ p, Started 5 1 p := ⟨_, _, rfl, rfl⟩
  obtain ⟨p', n', l, h1, _, _, h4, h5⟩ := C24_wait_returns 5 p
    { queues := fun _ => [.str (lit "a"), .warning g, .close] }
    [[.str (lit "a"), .warning g, .close]] [.str (lit "a"), .warning g, .close] [] (by simp) hp
    (by
      intro s hs
      simp only [List.mem_singleton] at hs
      subst hs
      exact ⟨[.str (lit "a"), .warning g], .close, rfl, by simp [IsBody], trivial⟩)
    (.take _ 0 _ _ _ rfl (.take _ 0 _ _ _ rfl (.take _ 0 _ _ _ rfl (.done _ (by simp)))))
    (by simp)
  refine ⟨p, p', n', hp, h1, ?_⟩
  have e := replays_unique h4 (replays_foldl _ _ noBreak_nil)
  subst e
  rw [holds_read h5 rfl]
  rfl

/-- **C27** is false in general: a mirror in aggressive mode writes `a` and then sends a warning; the
warning is shown first. -/
theorem C27_violated (e : ExcObj) : ∃ (p p' : ProcBuf) (n' : Net) (s : List QMsg),
    Started 5 1 p ∧
    (Mirror.run [.write (lit "a"), .sendWarning e] (Mirror.new 0 true, {})).2.2.queues 0 = s ∧
    ProcBuf.wait (p, { queues := fun _ => s ++ [.close] }) = (.ok (), (p', n')) ∧
    (LineBuf.exec (.read none) p'.base).1 =
      .items [.msg (GMsg.new (.exc e)), .str (lit "a")] := by
  obtain ⟨p, p', n', h1, h2, h3⟩ := wait_late_text (GMsg.new (.exc e))
  exact ⟨p, p', n', [.str (lit "a"), .warning (GMsg.new (.exc e))], h1, rfl, h2, h3⟩

example : EndsLine (lit "ab\r\n") ∧ ¬ EndsLine (lit "a\nb") := by
  refine ⟨⟨10, by decide, rfl⟩, ?_⟩
  rintro ⟨c, hc, h⟩
  have : c = 98 := by
    have : (lit "a\nb").getLast? = some 98 := rfl
    rw [this] at h; simpa using h.symm
  subst this
  exact absurd hc (by decide)

/-! ## C23 -/

/-- What `read()` shows in the main buffer after a single mirror wrote the pieces and closed, and
`wait()` returned. -/
def singleMirrorRead (p : ProcBuf) (aggressive : Bool) (ds : List PyStr) : Except Exc Ret :=
  let n := (Mirror.run (ds.map .write ++ [.close none]) (Mirror.new 0 aggressive, {})).2.2
  match ProcBuf.wait (p, n) with
  | (.ok _, (p', _)) => .ok (LineBuf.exec (.read none) p'.base).1
  | (.error e, _) => .error e

/-- Putting into a queue with room. -/
theorem netPut_room (m : Mirror) (msg : QMsg) (n : Net) (h : n.room = []) (hb : m.block = true)
    (ht : m.timeout = none) : m.netPut msg n = (.ok (), { n with queues := n.appended m.queue msg }) := by
  cases n
  simp only at h
  subst h
  simp [Mirror.netPut, Net.put, hb, ht]
  rfl

theorem foldl_arrive_noBreak (ms : List QMsg) (l : Log) (hl : NoBreak l.part) :
    NoBreak (ms.foldl arrive l).part := by
  induction ms generalizing l with
  | nil => exact hl
  | cons m ms ih => exact ih _ (arrive_noBreak l m hl)

/-- The messages sent after each write, and what is pending: aggressive and non-aggressive mirrors
side by side. -/
theorem modes_agree (ds : List PyStr) (q0 q1 : Net) (p : PyStr) (hp : NoBreak p)
    (l : Log) (hl : NoBreak l.part)
    (ma mn : Mirror) (ha : ma.aggressive = true) (hn : mn.aggressive = false)
    (hba : ma.block = true ∧ ma.timeout = none ∧ ma.queue = 0)
    (hbn : mn.block = true ∧ mn.timeout = none ∧ mn.queue = 0)
    (hra : q0.room = [] ∧ q0.closed = some false) (hrn : q1.room = [] ∧ q1.closed = some false)
    (h0 : (∀ m ∈ q0.queues 0, IsBody m) ∧ (∀ m ∈ q1.queues 0, IsBody m))
    (hla : (q0.queues 0).foldl arrive l =
      { (q1.queues 0).foldl arrive l with part := ((q1.queues 0).foldl arrive l).part ++ p }) :
    ∃ (q0' q1' : Net) (p' : PyStr),
      (Mirror.run (ds.map .write) (ma.withBuf [], q0)).2 = (ma.withBuf [], q0') ∧
      (Mirror.run (ds.map .write) (mn.withBuf p, q1)).2 = (mn.withBuf p', q1') ∧
      NoBreak p' ∧ (q0'.room = [] ∧ q0'.closed = some false) ∧
      (q1'.room = [] ∧ q1'.closed = some false) ∧
      ((∀ m ∈ q0'.queues 0, IsBody m) ∧ (∀ m ∈ q1'.queues 0, IsBody m)) ∧
      (q0'.queues 0) = q0.queues 0 ++ ds.map .str ∧
      (q0'.queues 0).foldl arrive l =
      { (q1'.queues 0).foldl arrive l with part := ((q1'.queues 0).foldl arrive l).part ++ p' } := by
  induction ds generalizing q0 q1 p with
  | nil => exact ⟨q0, q1, p, rfl, rfl, hp, hra, hrn, h0, by simp, hla⟩
  | cons d ds ih =>
    have hsa : ma.stopped q0 = false := by simp [Mirror.stopped, hra.2]
    have hsn : mn.stopped q1 = false := by simp [Mirror.stopped, hrn.2]
    have ea : Mirror.exec (.write d) (ma.withBuf [], q0) =
        (.nat d.length, (ma.withBuf [], { q0 with queues := q0.appended 0 (.str d) })) := by
      simp only [Mirror.exec, Mirror.write_open, Mirror.writeCore_open, hsa, ha, if_true,
        netPut_room ma _ q0 hra.1 hba.1 hba.2.1, hba.2.2]
      rfl
    have hqa : ({ q0 with queues := q0.appended 0 (.str d) } : Net).queues 0 =
        q0.queues 0 ++ [.str d] := by simp [Net.appended]
    have en : ∃ (q1' : Net) (p' : PyStr), Mirror.exec (.write d) (mn.withBuf p, q1) =
        (.nat d.length, (mn.withBuf p', q1')) ∧ NoBreak p' ∧
        (q1'.room = [] ∧ q1'.closed = some false) ∧ (∀ m ∈ q1'.queues 0, IsBody m) ∧
        (q0.queues 0 ++ [QMsg.str d]).foldl arrive l =
          { (q1'.queues 0).foldl arrive l with
            part := ((q1'.queues 0).foldl arrive l).part ++ p' } := by
      have hpart : NoBreak ((q1.queues 0).foldl arrive l).part := by
        exact foldl_arrive_noBreak _ l hl
      by_cases hb : NoBreak d
      · refine ⟨q1, p ++ d, ?_, noBreak_append.2 ⟨hp, hb⟩, hrn, h0.2, ?_⟩
        · simp only [Mirror.exec, Mirror.write_open, Mirror.writeCore_open, hsn, hn, hb, if_true]
          rfl
        · rw [List.foldl_append, hla]
          simp only [List.foldl_cons, List.foldl_nil, arrive, segFrom_noBreak _ _ hb]
          simp
      · refine ⟨{ q1 with queues := q1.appended 0 (.str (p ++ d)) }, [], ?_, noBreak_nil, hrn, ?_, ?_⟩
        · simp only [Mirror.exec, Mirror.write_open, Mirror.writeCore_open, hsn, hn, hb,
            netPut_room mn _ q1 hrn.1 hbn.1 hbn.2.1, hbn.2.2]
          rfl
        · intro m hm
          simp only [Net.appended, if_true, List.mem_append, List.mem_singleton] at hm
          rcases hm with h | rfl
          · exact h0.2 m h
          · trivial
        · simp only [Net.appended, if_true]
          rw [List.foldl_append, List.foldl_append, hla]
          simp only [List.foldl_cons, List.foldl_nil, arrive, List.append_nil]
          rw [segFrom_prefix _ _ _ hp]
    obtain ⟨q1', p', e1, e2, e3, e4, e5⟩ := en
    obtain ⟨qa, qn, pf, f1, f2, f3, f4, f5, f6, f7, f8⟩ :=
      ih { q0 with queues := q0.appended 0 (.str d) } q1' p' e2 hra e3
        ⟨by
          rw [hqa]
          intro m hm
          simp only [List.mem_append, List.mem_singleton] at hm
          rcases hm with h | rfl
          · exact h0.1 m h
          · trivial, e4⟩
        (by rw [hqa]; exact e5)
    refine ⟨qa, qn, pf, ?_, ?_, f3, f4, f5, f6, ?_, f8⟩
    · simp only [List.map_cons, Mirror.run, ea, f1]
    · simp only [List.map_cons, Mirror.run, e1, f2]
    · rw [f7, hqa]; simp

theorem mrun_append (cs ds : List MCall) (s : MNet) :
    (Mirror.run (cs ++ ds) s).2 = (Mirror.run ds (Mirror.run cs s).2).2 := by
  induction cs generalizing s with
  | nil => rfl
  | cons c cs ih => simp only [List.cons_append, Mirror.run, ih]

theorem mrun_append_fst (cs ds : List MCall) (s : MNet) :
    (Mirror.run (cs ++ ds) s).1 = (Mirror.run cs s).1 ++ (Mirror.run ds (Mirror.run cs s).2).1 := by
  induction cs generalizing s with
  | nil => rfl
  | cons c cs ih => simp only [List.cons_append, Mirror.run, ih]

theorem foldl_texts (ds : List PyStr) (l : Log) (hl : NoBreak l.part) :
    ∃ ls r, Feeds l.part ds ls r ∧
      (ds.map QMsg.str).foldl arrive l = { l with done := l.done ++ ls.map .str, part := r } := by
  induction ds generalizing l with
  | nil => exact ⟨[], l.part, .nil _, by simp⟩
  | cons d ds ih =>
    obtain ⟨ls, r, h1, h2⟩ := ih (arrive l (.str d)) (arrive_noBreak l _ hl)
    refine ⟨(segFrom l.part d).1 ++ ls, r, .cons _ _ _ _ _ _ _ (lines_segFrom _ _ hl) h1, ?_⟩
    simp only [List.map_cons, List.foldl_cons, h2]
    simp [arrive]

/-- **C23** For a single mirror the mode does not matter for what `read()` shows in the main buffer after
`wait()`: in both modes it is the newest `maxlen` entries of the completed lines followed by the
unfinished line.  (Without any condition on how `\r\n` is cut.) -/
theorem C23_modes_agree (maxlen : Int) (p : ProcBuf) (hp : Started maxlen 1 p) (ds : List PyStr) :
    ∃ ls r, Feeds [] ds ls r ∧ ∀ aggressive,
      singleMirrorRead p aggressive ds =
        .ok (.items (lastN maxlen.toNat (ls.map .str ++ if r = [] then [] else [.str r]))) := by
  obtain ⟨hb, ok, hk⟩ := started_rep hp
  have hq : p.mirror.queue = 0 := by
    obtain ⟨p0, h1, rfl⟩ := hp
    simp only [ProcBuf.new, LineBuf.new] at h1
    split at h1
    · cases h1
    · cases h1; rfl
  obtain ⟨qa, qn, p', h1, h2, h3, h4, h5, h6, h7, h8⟩ :=
    modes_agree ds {} {} [] noBreak_nil { cap := maxlen.toNat } noBreak_nil
      (Mirror.new 0 true) (Mirror.new 0 false) rfl rfl ⟨rfl, rfl, rfl⟩ ⟨rfl, rfl, rfl⟩
      ⟨rfl, rfl⟩ ⟨rfl, rfl⟩ ⟨by simp, by simp⟩ rfl
  obtain ⟨ls, r, hf, hfold⟩ := foldl_texts ds { cap := maxlen.toNat } noBreak_nil
  refine ⟨ls, r, hf, ?_⟩
  have h7' : qa.queues 0 = ds.map .str := by simpa using h7
  rw [h7', hfold] at h8
  simp only [List.nil_append] at h8
  -- the read of a buffer that received `ms` and the end signal
  have fin : ∀ (n : Net) (ms : List QMsg), n.queues 0 = ms ++ [.close] → (∀ m ∈ ms, IsBody m) →
      (ms.foldl arrive { cap := maxlen.toNat }).view =
        lastN maxlen.toNat (ls.map .str ++ if r = [] then [] else [.str r]) →
      (match ProcBuf.wait (p, n) with
        | (.ok _, (p', _)) => .ok (LineBuf.exec (.read none) p'.base).1
        | (.error e, _) => .error e : Except Exc Ret) =
        .ok (.items (lastN maxlen.toNat (ls.map .str ++ if r = [] then [] else [.str r]))) := by
    intro n ms hqn hbody hview
    have hz : ms.countP isEnd = 0 :=
      List.countP_eq_zero.2 (fun m hm => by simp [not_isEnd_of_body (hbody m hm)])
    have hc := cont_ends ms p.nMirrors (fun m hm => .inl (hbody m hm)) (by rw [hk, hz]; decide)
    rw [hz, hk] at hc
    rw [ProcBuf.wait_returns ms .close [] _ ok rfl p n hb (by rw [hq, hqn]) 1
      (by rw [hk]; simpa using hc) rfl]
    dsimp only
    rw [List.foldl_append]
    simp only [List.foldl_cons, List.foldl_nil, arrive]
    rw [holds_read (holds_rep (foldl_arrive_ok ms _ ok rfl)) (foldl_arrive_closed ms _), hview]
  have hclose : ∀ (m : Mirror) (q : Net) (pp : PyStr), m.block = true → m.timeout = none →
      m.queue = 0 → q.room = [] → q.closed = some false → (m.aggressive = true → pp = []) →
      (Mirror.run [.close none] (m.withBuf pp, q)).2.2.queues 0 =
        q.queues 0 ++ (if pp = [] then [] else [.str (pp ++ lit "\n")]) ++ [.close] := by
    intro m q pp b1 b2 b3 b4 b5 b6
    have hst : m.stopped q = false := by simp [Mirror.stopped, b5]
    simp only [Mirror.run, Mirror.exec, Mirror.close_open, Mirror.newLine_open' m pp q b6, hst]
    by_cases hpp : pp = []
    · simp only [hpp, if_true, Mirror.put_apply, Mirror.withBuf_netPut]
      rw [netPut_room m _ q b4 b1 b2]
      dsimp only
      rw [Mirror.clear_close]
      simp [Net.appended, b3, Mirror.endMsg]
    · simp only [hpp, if_false, netPut_room m _ q b4 b1 b2, Bool.false_eq_true, Mirror.put_apply,
        Mirror.withBuf_netPut]
      rw [netPut_room m _ _ (by exact b4) b1 b2]
      dsimp only
      rw [Mirror.clear_close]
      simp [Net.appended, b3, Mirror.endMsg]
  intro aggressive
  unfold singleMirrorRead
  dsimp only
  rw [mrun_append]
  cases aggressive with
  | true =>
    rw [show Mirror.new 0 true = (Mirror.new 0 true).withBuf [] from rfl, h1]
    apply fin _ (ds.map .str)
    · rw [hclose _ qa [] rfl rfl rfl h4.1 h4.2 (fun _ => rfl), h7']; simp
    · intro m hm; obtain ⟨d, _, rfl⟩ := List.mem_map.1 hm; trivial
    · rw [hfold]; simp [Log.view, Log.all]
  | false =>
    rw [show Mirror.new 0 false = (Mirror.new 0 false).withBuf [] from rfl, h2]
    apply fin _ (qn.queues 0 ++ (if p' = [] then [] else [.str (p' ++ lit "\n")]))
    · rw [hclose _ qn p' rfl rfl rfl h5.1 h5.2 (by intro h; cases h)]
    · intro m hm
      rcases List.mem_append.1 hm with h | h
      · exact h6.2 m h
      · split at h
        · cases h
        · simp only [List.mem_singleton] at h; subst h; trivial
    · rw [List.foldl_append]
      generalize (qn.queues 0).foldl arrive { cap := maxlen.toNat } = l at h8
      cases l with
      | mk c dn pt cl =>
        simp only [Log.mk.injEq] at h8
        obtain ⟨rfl, rfl, rfl, rfl⟩ := h8
        by_cases hp' : p' = []
        · subst hp'; simp [Log.view, Log.all]
        · simp only [hp', if_false, List.foldl_cons, List.foldl_nil, arrive]
          rw [segFrom_prefix _ _ _ h3]
          have e : segFrom (pt ++ p') (lit "\n") = ([pt ++ p'], []) := by
            show segFrom _ [10] = _
            rw [segFrom_break _ _ _ (by decide) (by simp)]; simp
          simp [e, Log.view, Log.all, hp']

/-- A case with a `\r\n` cut in two. -/
example : ∃ p, Started 3 1 p ∧
    singleMirrorRead p true [lit "a\r", lit "\nb"] =
      .ok (.items [.str (lit "a"), .str [], .str (lit "b")]) :=
  ⟨_, ⟨_, rfl, rfl⟩, rfl⟩

end SyncStream
