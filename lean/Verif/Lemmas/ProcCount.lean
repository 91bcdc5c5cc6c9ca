import Verif.Lemmas.Owner
import Verif.Lemmas.ProcThreads
import Verif.Spec.Counting
/-!
# Counting the mirrors in use
-/

namespace SyncStream
open Conc Prog Spec

namespace PThr

/-- What the count is about: `n_mirrors`, the number of the queue, the queues. -/
def count (w : PWorld) : Int × Nat × (Nat → List QMsg) := (w.main.nMirrors, w.main.mirror.queue, w.net.queues)

/-- Nobody has forced a stop, and the count is `n` more than the end signals that are waiting. -/
def Right (n : Int) (x : Int × Nat × (Nat → List QMsg)) : Prop :=
  (∀ m ∈ x.2.2 x.2.1, m ≠ .stop) ∧ x.1 = n + ends (x.2.2 x.2.1)

variable {α : Type}

theorem leaves_line (q : TProg α) : (line q).Leaves count .config := by
  refine .onPart ?_ ?_ q
  · exact fun _ _ => rfl
  · exact fun _ => nofun

theorem leaves_atom {m : Py PNet α} (h : ∀ s, (m s).2.1.nMirrors = s.1.nMirrors ∧ (m s).2.1.mirror = s.1.mirror ∧
    (m s).2.2.queues = s.2.queues) : (atom m).Leaves count .config := by
  refine .atom fun w => ?_
  obtain ⟨h1, h2, h3⟩ := h (w.main, w.net)
  show ((m (w.main, w.net)).2.1.nMirrors, (m (w.main, w.net)).2.1.mirror.queue, (m (w.main, w.net)).2.2.queues) = _
  rw [h1, h2, h3]
  rfl

theorem leaves_buffer (lk : MProg MLock) (p : Nat) (c : Call) : (prog lk p (.buffer c)).Leaves count .config := by
  cases c with
  | write d => exact .bind (leaves_atom fun _ => ⟨rfl, rfl, rfl⟩).outcome fun _ => trivial
  | _ => exact .bind (leaves_line _) fun _ => trivial

theorem leaves_stopAll (lk : MProg MLock) (p : Nat) : (prog lk p .stopAll).Leaves count .config := by
  refine .bind (Leaves.outcome (Leaves.withLock ?_ ?_)) fun _ => trivial
  · nofun
  · exact leaves_atom fun _ => ⟨rfl, rfl, rfl⟩

/-- An end signal is counted. -/
theorem inside_checkClose (x : Int × Nat × (Nat → List QMsg)) :
    checkClose.Inside count .config (fun _ y => y = (x.1 - 1, x.2)) x := by
  refine .bind (.atom fun s hs => ?_)
  show Inside _ _ _ _ (count s)
  rw [hs]
  have hn : s.main.nMirrors = x.1 := congrArg (·.1) hs
  refine .bind (.atom fun s' hs' => ?_)
  show Inside _ _ _ _ (s.main.nMirrors - 1, (count s').2)
  rw [hs', hn]
  refine .bind (.atom fun s'' hs'' => ?_)
  exact hs''

/-- What is done with a message. -/
theorem inside_process (msg : QMsg) (hm : msg ≠ .stop) (x : Int × Nat × (Nat → List QMsg)) :
    (process msg).Inside count .config (fun _ y => y = (x.1 - ends [msg], x.2)) x := by
  have deliver : ∀ (i : Item) (g : Unit → PProg Bool) (Q : Except Exc Bool → Int × Nat × (Nat → List QMsg) → Prop),
      (g ()).Inside count .config Q x → (line (Thr.deliver i) >>= g).Inside count .config Q x := by
    intro i g Q hg s hs
    have : count { s with main := { s.main with base := (LineBuf.onStorage (Py.modify (Deque.append i)) s.main.base).2 } } = x := hs
    exact this ▸ hg
  have e0 : ∀ m, ends [m] = 0 → (x.1 - ends [m], x.2) = x := fun m h => by rw [h, Int.sub_zero]
  cases msg with
  | str d =>
    refine .bind ((Inside.leaves (leaves_line (Thr.write d)) x).mono fun r y hy => ?_)
    subst hy
    rw [e0 _ rfl]
    cases r <;> rfl
  | error m => exact deliver _ _ _ (inside_checkClose x)
  | warning m =>
    refine deliver _ _ _ ?_
    rw [e0 _ rfl]
    rfl
  | close => exact inside_checkClose x
  | stop => exact absurd rfl hm
  | other => rw [e0 _ rfl]; rfl

theorem ends_cons (m : QMsg) (ms : List QMsg) : ends (m :: ms) = ends [m] + ends ms := by
  cases m <;> simp only [ends] <;> omega

/-- `queue.get()` -/
theorem inside_get (q : Nat) (x : Int × Nat × (Nat → List QMsg)) :
    (get q).Inside count .config (fun r y => (r = .error .blocked ∧ y = x) ∨
      ∃ m ms, x.2.2 q = m :: ms ∧ r = .ok m ∧ y = (x.1, x.2.1, fun i => if i = q then ms else x.2.2 i)) x := by
  refine .atom fun s hs => ?_
  subst hs
  cases h : s.net.queues q with
  | nil =>
    refine .inl ?_
    simp only [Py.onPart, h]
    exact ⟨trivial, trivial⟩
  | cons m ms =>
    refine .inr ⟨m, ms, h, ?_⟩
    simp only [Py.onPart, h]
    exact ⟨trivial, rfl⟩

/-- The body of `receive`. -/
theorem inside_receive (n : Int) (x : Int × Nat × (Nat → List QMsg)) (hx : Right n x) :
    (do
      let q ← atom (Py.gets (·.1.mirror.queue))
      let data ← get q
      process data : PProg Bool).Inside count .config (fun _ y => Right n y) x := by
  have hq : (atom (Py.gets (·.1.mirror.queue))).Inside count .config (fun r y => r = .ok x.2.1 ∧ y = x) x :=
    .atom fun s hs => ⟨congrArg (fun y : Int × Nat × (Nat → List QMsg) => (Except.ok y.2.1 : Except Exc Nat)) hs, hs⟩
  refine .bind (hq.mono fun r y ⟨h1, h2⟩ => ?_)
  subst h1 h2
  refine .bind ((inside_get y.2.1 y).mono fun r z hz => ?_)
  rcases hz with ⟨rfl, rfl⟩ | ⟨m, ms, hm, rfl, rfl⟩
  · exact hx
  · obtain ⟨h1, h2⟩ := hx
    rw [hm] at h1 h2
    refine (inside_process m (h1 m (List.mem_cons_self ..)) _).mono fun r z hz => ?_
    subst hz
    refine ⟨?_, ?_⟩
    · show ∀ m ∈ (if y.2.1 = y.2.1 then ms else _), m ≠ .stop
      rw [if_pos rfl]
      exact fun m' hm' => h1 m' (List.mem_cons_of_mem _ hm')
    · show y.1 - ends [m] = n + ends (if y.2.1 = y.2.1 then ms else _)
      rw [if_pos rfl, h2, ends_cons m ms]
      omega

/-- A `receive` keeps the count right, if it is right whenever `__config_lock` is free. -/
theorem keeps_receive (lk : MProg MLock) (p : Nat) (n : Int) :
    (prog lk p .receive).Keeps count .config (Right n) (fun _ h => h = none) none := by
  refine .bind (Keeps.outcome (Keeps.withLock fun x hx => (inside_receive n x hx).mono fun r y hy => ⟨hy, ?_⟩))
  rfl

theorem owns_receive (lk : MProg MLock) (p : Nat) (n : Int) (x : Int × Nat × (Nat → List QMsg)) (hx : Right n x) :
    (prog lk p .receive).Owns count (fun _ y => Right n y) x := by
  refine .bind (Owns.outcome (Owns.withLock ((inside_receive n x hx).owns.mono fun r y hy => ?_)))
  exact hy

theorem owns_take (lk : MProg MLock) (p p' : Nat) (n : Int) (x : Int × Nat × (Nat → List QMsg)) (hx : Right n x) :
    (prog lk p (.take p')).Owns count (fun _ y => Right (n + 1) y) x := by
  have h1 : (atom (Py.gets (·.1.nMirrors))).Owns count (fun r y => r = .ok x.1 ∧ y = x) x :=
    .atom fun s hs => ⟨congrArg (fun y : Int × Nat × (Nat → List QMsg) => (Except.ok y.1 : Except Exc Int)) hs, hs⟩
  refine .bind (Owns.outcome (.bind (h1.mono fun r y ⟨e1, e2⟩ => ?_)))
  subst e1 e2
  refine .bind (.atom fun s hs => ?_)
  refine Owns.atom fun t ht => ?_
  show Right (n + 1) (count t)
  rw [ht]
  show Right (n + 1) (y.1 + 1, (count s).2)
  rw [hs]
  exact ⟨hx.1, by have := hx.2; show y.1 + 1 = n + 1 + ends (y.2.2 y.2.1); omega⟩

end PThr

/-! ### Observations -/

theorem taken_append (a b : List (Ev PCall PRet)) : taken (a ++ b) = taken a + taken b := by
  induction a with
  | nil => show taken b = 0 + taken b; omega
  | cons e a ih =>
    cases e with
    | inv i c => cases c <;> simp only [List.cons_append, taken, ih] <;> omega
    | ret i r => simp only [List.cons_append, taken, ih]

/-- The calls of the threads are allowed ones. -/
theorem exec_ok {σ L O C R : Type} [DecidableEq L] {sys : Sys σ L O C R} {κ κ' : Conc.Conf σ L O C R}
    {tr : List (Ev C R)} (h : Exec sys κ tr κ') : ∀ i c, .inv i c ∈ tr → sys.ok i c := by
  induction h with
  | nil => exact fun _ _ h => nomatch h
  | snoc κ1 κ2 tr e h1 h2 ih =>
    intro i c hm
    rcases List.mem_append.1 hm with hm | hm
    · exact ih i c hm
    · cases h2 with
      | inv i c hi hok =>
        cases List.mem_singleton.1 hm
        exact hok
      | ret => cases List.mem_singleton.1 hm
      | act => cases hm
      | acq => cases hm
      | rel => cases hm

/-- How many mirrors a thread is given. -/
def takes : List PCall → Int
  | [] => 0
  | .take _ :: cs => takes cs + 1
  | _ :: cs => takes cs

theorem takes_snoc (cs : List PCall) (c : PCall) : takes (cs ++ [c]) = takes cs + takes [c] := by
  induction cs with
  | nil => show takes [c] = 0 + takes [c]; omega
  | cons d cs ih => cases d <;> simp only [List.cons_append, takes, ih] <;> omega

/-- If all mirrors are taken by one thread. -/
theorem taken_callsBy (t : Nat) (tr : List (Ev PCall PRet)) (h : ∀ i p, .inv i (.take p) ∈ tr → i = t) :
    taken tr = takes (callsBy t tr) := by
  induction tr with
  | nil => rfl
  | cons e tr ih =>
    have ih := ih fun i p hm => h i p (List.mem_cons_of_mem _ hm)
    cases e with
    | ret i r => exact ih
    | inv i c =>
      by_cases hi : i = t
      · subst hi
        have : callsBy i (Ev.inv i c :: tr) = c :: callsBy i tr := by simp [callsBy]
        rw [this]
        cases c <;> simp only [taken, takes, ih]
      · have : callsBy t (Ev.inv i c :: tr) = callsBy t tr := by simp [callsBy, hi]
        rw [this]
        cases c with
        | take p => exact absurd (h i p (List.mem_cons_self ..)) hi
        | _ => exact ih

/-- If no mirror is taken. -/
theorem taken_none (tr : List (Ev PCall PRet)) (h : ∀ i p, .inv i (.take p) ∉ tr) : taken tr = 0 := by
  induction tr with
  | nil => rfl
  | cons e tr ih =>
    have ih := ih fun i p hm => h i p (List.mem_cons_of_mem _ hm)
    cases e with
    | ret i r => exact ih
    | inv i c =>
      cases c with
      | take p => exact absurd (List.mem_cons_self ..) (h i p)
      | _ => exact ih

end SyncStream
