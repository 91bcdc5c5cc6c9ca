import Verif.Lemmas.Proc
import Verif.Lemmas.Merge
/-!
# Closed forms of `receive` and `wait`
-/

namespace SyncStream
open Spec LineBuf

/-- `Arrives` as a function. -/
def arrive (l : Log) : QMsg → Log
  | .str d => { l with
                done := l.done ++ (segFrom l.part d).1.map .str
                part := (segFrom l.part d).2 }
  | .error m => { l with done := l.done ++ [.msg m] }
  | .warning m => { l with done := l.done ++ [.msg m] }
  | .close => l
  | .stop => l
  | .other => l

theorem arrives_arrive (l : Log) (m : QMsg) (h : NoBreak l.part) : Arrives l m (arrive l m) := by
  cases m with
  | str d => exact .text l d _ _ (lines_segFrom _ _ h)
  | error m => exact .error l m
  | warning m => exact .warning l m
  | close => exact .close l
  | stop => exact .stop l
  | other => exact .other l

theorem arrives_unique {l l1 l2 : Log} {m : QMsg} (h1 : Arrives l m l1) (h2 : Arrives l m l2) :
    l1 = l2 := by
  cases h1 <;> cases h2 <;> try rfl
  rename_i ls r h ls' r' h'
  obtain ⟨rfl, rfl⟩ := lines_unique h h'
  rfl

theorem arrive_noBreak (l : Log) (m : QMsg) (h : NoBreak l.part) : NoBreak (arrive l m).part := by
  cases m <;> try exact h
  exact segFrom_cur_noBreak _ _ h

theorem arrive_cap (l : Log) (m : QMsg) : (arrive l m).cap = l.cap := by cases m <;> rfl
theorem arrive_closed (l : Log) (m : QMsg) : (arrive l m).closed = l.closed := by cases m <;> rfl

theorem arrive_ok {l : Log} (m : QMsg) (h : Ok l) (ho : l.closed = false) : Ok (arrive l m) :=
  ⟨by rw [arrive_cap]; exact h.cap, arrive_noBreak l m h.part,
    by rw [arrive_closed, ho]; intro h; cases h⟩

theorem foldl_arrive_cap (ms : List QMsg) (l : Log) : (ms.foldl arrive l).cap = l.cap := by
  induction ms generalizing l with
  | nil => rfl
  | cons m ms ih => simp only [List.foldl_cons, ih, arrive_cap]

theorem foldl_arrive_closed (ms : List QMsg) (l : Log) : (ms.foldl arrive l).closed = l.closed := by
  induction ms generalizing l with
  | nil => rfl
  | cons m ms ih => simp only [List.foldl_cons, ih, arrive_closed]

theorem foldl_arrive_ok (ms : List QMsg) (l : Log) (h : Ok l) (ho : l.closed = false) :
    Ok (ms.foldl arrive l) := by
  induction ms generalizing l with
  | nil => exact h
  | cons m ms ih => exact ih _ (arrive_ok m h ho) (by rw [arrive_closed]; exact ho)

theorem replays_foldl (ms : List QMsg) (l : Log) (h : NoBreak l.part) :
    Replays l ms (ms.foldl arrive l) := by
  induction ms generalizing l with
  | nil => exact .nil l
  | cons m ms ih => exact .cons _ _ _ _ _ (arrives_arrive l m h) (ih _ (arrive_noBreak l m h))

theorem replays_unique {l l1 l2 : Log} {ms : List QMsg} (h1 : Replays l ms l1)
    (h2 : Replays l ms l2) : l1 = l2 := by
  induction h1 with
  | nil => cases h2; rfl
  | cons l l' l'' m ms ha _ ih =>
    cases h2 with
    | cons _ k _ _ _ hb hr =>
      have := arrives_unique ha hb
      subst this
      exact ih hr

/-- What a message does to the number of mirrors, and whether `wait` goes on. -/
def goes (k : Int) : QMsg → Bool × Int
  | .str _ => (true, k)
  | .error _ => (decide (k - 1 > 0), k - 1)
  | .warning _ => (true, k)
  | .close => (decide (k - 1 > 0), k - 1)
  | .stop => (false, 0)
  | .other => (false, k)

/-- The counter after the messages, if `wait` goes on after each of them. -/
def cont (k : Int) : List QMsg → Option Int
  | [] => some k
  | m :: ms => if (goes k m).1 then cont (goes k m).2 ms else none

namespace ProcBuf

/-- The queues after taking messages. -/
def qset (n : Net) (q : Nat) (ms : List QMsg) : Net :=
  { n with queues := fun i => if i = q then ms else n.queues i }

@[simp] theorem qset_queues (n : Net) (q : Nat) (ms : List QMsg) : (qset n q ms).queues q = ms := by
  simp [qset]

@[simp] theorem qset_qset (n : Net) (q : Nat) (ms ms' : List QMsg) :
    qset (qset n q ms) q ms' = qset n q ms' := by
  simp only [qset, Net.mk.injEq, and_true]
  funext i; split <;> rfl

theorem qset_self (n : Net) (q : Nat) (ms : List QMsg) (h : n.queues q = ms) : qset n q ms = n := by
  cases n
  simp only [qset, Net.mk.injEq, and_true]
  funext i; split
  · subst_vars; rfl
  · rfl

theorem store_rep (i : Item) (l : Log) (ho : l.closed = false) (p : ProcBuf) (n : Net)
    (hb : p.base = rep l) :
    store i (p, n) = (.ok (), ({ p with base := rep { l with done := l.done ++ [i] } }, n)) := by
  have h := Deque.append_eq (α := Item) { maxlen := l.cap, items := lastN l.cap l.done } i
    (length_lastN_le _ _)
  have hr : rep { l with done := l.done ++ [i] } =
      opened l.cap (lastN l.cap (l.done ++ [i])) l.part := rep_open (by exact ho)
  simp only [store, onBase, onStorage, Py.onPart_apply, Py.modify_apply, hb, rep_open ho, opened,
    hr, h, lastN_lastN_append]

theorem receive_rep (m : QMsg) (ms : List QMsg) (l : Log) (ok : Ok l) (ho : l.closed = false)
    (p : ProcBuf) (n : Net) (hb : p.base = rep l) (hq : n.queues p.mirror.queue = m :: ms) :
    receive (p, n) = (.ok (goes p.nMirrors m).1,
      ({ p with base := rep (arrive l m), nMirrors := (goes p.nMirrors m).2 },
        qset n p.mirror.queue ms)) := by
  have hg : get (p, n) = (.ok m, (p, qset n p.mirror.queue ms)) := by
    simp only [get]
    rw [hq]
    rfl
  unfold receive
  rw [Py.bind_ok hg]
  cases m with
  | str d =>
    dsimp only
    have hw : onBase (LineBuf.write d) (p, qset n p.mirror.queue ms) =
        (.ok (writeRet d), ({ p with base := rep (arrive l (.str d)) }, qset n p.mirror.queue ms)) := by
      have hr : rep (arrive l (.str d)) = opened l.cap (lastN l.cap (arrive l (.str d)).done)
        (arrive l (.str d)).part := rep_open (by exact ho)
      simp only [onBase, Py.onPart_apply, hb, rep_open ho,
        write_opened _ _ _ _ (length_lastN_le _ _) ok.cap, hr, lastN_lastN_append]
      rfl
    rw [Py.bind_ok hw]
    rfl
  | error g =>
    dsimp only
    rw [Py.bind_ok (store_rep (.msg g) l ho p _ hb)]
    rfl
  | warning g =>
    dsimp only
    rw [Py.bind_ok (store_rep (.msg g) l ho p _ hb)]
    rfl
  | close => dsimp only [checkClose, goes, arrive]; rw [← hb]; rfl
  | stop => dsimp only [goes, arrive]; rw [← hb]; rfl
  | other => dsimp only [goes, arrive]; rw [← hb]; rfl

/-- `wait` while every message says to go on: it takes them all and waits for more. -/
theorem waitLoop_blocked (ms : List QMsg) (fuel : Nat) (hf : ms.length < fuel) (l : Log) (ok : Ok l)
    (ho : l.closed = false) (p : ProcBuf) (n : Net) (hb : p.base = rep l)
    (hq : n.queues p.mirror.queue = ms) (k : Int) (hk : cont p.nMirrors ms = some k) :
    waitLoop fuel (p, n) = (.error .blocked,
      ({ p with base := rep (ms.foldl arrive l), nMirrors := k }, qset n p.mirror.queue [])) := by
  induction ms generalizing fuel l p n with
  | nil =>
    cases fuel with
    | zero => simp at hf
    | succ fuel =>
      have hg : get (p, n) = (.error .blocked, (p, n)) := by
        simp only [get]; rw [hq]
      simp only [waitLoop]
      have hr : receive (p, n) = (.error .blocked, (p, n)) := by
        unfold receive; rw [Py.bind_error hg]
      rw [Py.bind_error hr]
      simp only [cont, Option.some.injEq] at hk
      subst hk
      simp only [List.foldl_nil]
      rw [← hb, qset_self n _ _ hq]
  | cons m ms ih =>
    cases fuel with
    | zero => simp at hf
    | succ fuel =>
      simp only [cont] at hk
      split at hk
      · rename_i hgo
        simp only [waitLoop]
        rw [Py.bind_ok (receive_rep m ms l ok ho p n hb hq), hgo]
        simp only [if_true]
        rw [ih fuel (by simpa using hf) (arrive l m) (arrive_ok m ok ho)
          (by rw [arrive_closed]; exact ho) _ _ rfl (qset_queues _ _ _) hk]
        simp
      · cases hk

/-- `wait` returns at the first message that says to stop, and leaves the rest in the queue. -/
theorem waitLoop_returns (ms : List QMsg) (m : QMsg) (later : List QMsg) (fuel : Nat)
    (hf : ms.length < fuel) (l : Log) (ok : Ok l)
    (ho : l.closed = false) (p : ProcBuf) (n : Net) (hb : p.base = rep l)
    (hq : n.queues p.mirror.queue = ms ++ m :: later) (k : Int)
    (hk : cont p.nMirrors ms = some k) (hs : (goes k m).1 = false) :
    waitLoop fuel (p, n) = (.ok (),
      ({ p with base := rep ((ms ++ [m]).foldl arrive l), nMirrors := (goes k m).2 },
        qset n p.mirror.queue later)) := by
  induction ms generalizing fuel l p n with
  | nil =>
    cases fuel with
    | zero => simp at hf
    | succ fuel =>
      simp only [cont, Option.some.injEq] at hk
      subst hk
      simp only [waitLoop]
      rw [Py.bind_ok (receive_rep m later l ok ho p n hb hq), hs]
      simp
  | cons m' ms ih =>
    cases fuel with
    | zero => simp at hf
    | succ fuel =>
      simp only [cont] at hk
      split at hk
      · rename_i hgo
        simp only [waitLoop]
        rw [Py.bind_ok (receive_rep m' (ms ++ m :: later) l ok ho p n hb hq), hgo]
        simp only [if_true]
        rw [ih fuel (by simpa using hf) (arrive l m') (arrive_ok m' ok ho)
          (by rw [arrive_closed]; exact ho) _ _ rfl (qset_queues _ _ _) hk]
        simp
      · cases hk

theorem wait_blocked (ms : List QMsg) (l : Log) (ok : Ok l)
    (ho : l.closed = false) (p : ProcBuf) (n : Net) (hb : p.base = rep l)
    (hq : n.queues p.mirror.queue = ms) (k : Int) (hk : cont p.nMirrors ms = some k) :
    wait (p, n) = (.error .blocked,
      ({ p with base := rep (ms.foldl arrive l), nMirrors := k }, qset n p.mirror.queue [])) := by
  unfold wait
  exact waitLoop_blocked ms _ (by simp [hq]) l ok ho p n hb hq k hk

theorem wait_returns (ms : List QMsg) (m : QMsg) (later : List QMsg) (l : Log) (ok : Ok l)
    (ho : l.closed = false) (p : ProcBuf) (n : Net) (hb : p.base = rep l)
    (hq : n.queues p.mirror.queue = ms ++ m :: later) (k : Int)
    (hk : cont p.nMirrors ms = some k) (hs : (goes k m).1 = false) :
    wait (p, n) = (.ok (),
      ({ p with base := rep ((ms ++ [m]).foldl arrive l), nMirrors := (goes k m).2 },
        qset n p.mirror.queue later)) := by
  unfold wait
  exact waitLoop_returns ms m later _ (by simp [hq]; omega) l ok ho p n hb hq k hk hs

end ProcBuf

/-! ## Counting end signals -/

/-- `IsEnd` as a test. -/
def isEnd : QMsg → Bool
  | .close => true
  | .error _ => true
  | _ => false

theorem isEnd_iff (m : QMsg) : isEnd m = true ↔ IsEnd m := by cases m <;> simp [isEnd, IsEnd]

theorem not_isEnd_of_body {m : QMsg} (h : IsBody m) : isEnd m = false := by
  cases m <;> simp_all [isEnd, IsBody]

/-- While fewer end signals than mirrors have come, `wait` goes on. -/
theorem cont_ends (ms : List QMsg) (k : Int) (h : ∀ m ∈ ms, IsBody m ∨ IsEnd m)
    (hk : (ms.countP isEnd : Int) < k) : cont k ms = some (k - ms.countP isEnd) := by
  induction ms generalizing k with
  | nil => simp [cont]
  | cons m ms ih =>
    have ih' := fun k hk => ih k (fun m hm => h m (List.mem_cons_of_mem _ hm)) hk
    rw [List.countP_cons] at hk ⊢
    have hm := h m List.mem_cons_self
    cases m with
    | str d =>
      simp only [cont, goes, if_true, isEnd, Bool.false_eq_true, if_false] at *
      rw [ih' k (by simpa using hk)]; simp
    | warning g =>
      simp only [cont, goes, if_true, isEnd, Bool.false_eq_true, if_false] at *
      rw [ih' k (by simpa using hk)]; simp
    | close =>
      simp only [isEnd, if_true] at hk ⊢
      have hgo : goes k .close = (true, k - 1) := by
        simp only [goes]; rw [decide_eq_true (by omega)]
      simp only [cont, hgo, if_true]
      rw [ih' _ (by omega)]
      congr 1; omega
    | error g =>
      simp only [isEnd, if_true] at hk ⊢
      have hgo : goes k (.error g) = (true, k - 1) := by
        simp only [goes]; rw [decide_eq_true (by omega)]
      simp only [cont, hgo, if_true]
      rw [ih' _ (by omega)]
      congr 1; omega
    | stop => rcases hm with h | h <;> cases h
    | other => rcases hm with h | h <;> cases h

theorem proper_count {s : List QMsg} (h : ProperStream s) : s.countP isEnd = 1 := by
  obtain ⟨body, e, rfl, hb, he⟩ := h
  rw [List.countP_append, List.countP_eq_zero.2 (fun m hm => by simp [not_isEnd_of_body (hb m hm)])]
  simp [(isEnd_iff e).2 he]

/-- An interleaving of proper streams: it ends with an end signal, which is the last one. -/
theorem merge_proper {streams : List (List QMsg)} {out : List QMsg} (h : Merge streams out)
    (hp : ∀ s ∈ streams, ProperStream s) (hn : streams ≠ []) :
    ∃ pre e, out = pre ++ [e] ∧ IsEnd e ∧ (∀ m ∈ pre, IsBody m ∨ IsEnd m) ∧
      pre.countP isEnd + 1 = streams.length := by
  have hc := merge_perm_count h isEnd
  have hsum : (streams.map (List.countP isEnd)).sum = streams.length := by
    clear hc h hn
    induction streams with
    | nil => rfl
    | cons s ss ih =>
      simp only [List.map_cons, List.sum_cons, List.length_cons]
      rw [ih (fun s hs => hp s (List.mem_cons_of_mem _ hs)), proper_count (hp s List.mem_cons_self)]
      omega
  rw [hsum] at hc
  rcases List.eq_nil_or_concat out with rfl | ⟨pre, e, rfl⟩
  · cases streams with
    | nil => exact absurd rfl hn
    | cons s ss => simp at hc
  · obtain ⟨s, hs, t, ht⟩ := merge_last (pre := pre) (x := e) h (by simp)
    obtain ⟨body, e', hse, _, he⟩ := hp s hs
    rw [ht] at hse
    obtain ⟨_, h2⟩ := List.append_inj' hse rfl
    have : e = e' := by simpa using h2
    subst this
    refine ⟨pre, e, by simp, he, ?_, ?_⟩
    · intro m hm
      obtain ⟨s', hs', hms⟩ := merge_mem h (x := m) (by simp [hm])
      obtain ⟨body', e', rfl, hb, he'⟩ := hp s' hs'
      rcases List.mem_append.1 hms with h1 | h1
      · exact .inl (hb m h1)
      · simp only [List.mem_singleton] at h1; subst h1; exact .inr he'
    · simp only [List.concat_eq_append, List.countP_append, List.countP_singleton,
        (isEnd_iff e).2 he, if_true] at hc
      exact hc

end SyncStream
