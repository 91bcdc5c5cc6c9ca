import Verif.Lemmas.Races
import Verif.Props.Threads
/-!
# Properties C02, C57, C58, C59: what every race on one buffer guarantees

Any number of threads make any calls on one buffer, also the calls that are not atomic (`clear`, `close`,
`len`, delivering an item).
-/

namespace SyncStream

open Spec LineBuf Conc Prog

/-- All calls are allowed. -/
def AnyCall (_ : Nat) (_ : TCall) : Prop := True

/-- All calls except `close`. -/
def NoClose (_ : Nat) (c : TCall) : Prop := c ≠ .call .close

namespace Thr

theorem call_guar {G : LineBuf → LineBuf → Prop} {c : TCall} (h : (prog c).Guar G) :
    (do return (← prog c, ()) : TProg (Ret × Unit)).Guar G := .bind h fun _ => trivial

/-- From the body of a method to the call. -/
theorem call_meets {α : Type} {G : LineBuf → LineBuf → Prop} (hG : Steady G) {Q : Except Exc α → LineBuf → Prop}
    {p : TProg α} {b : LineBuf} (h : p.Meets G Q b) (F : α → Ret) {P : Ret → LineBuf → Prop}
    (hP : ∀ r t, Q r t → ∀ u, G t u → P (Ret.of F r) u) :
    (do return (← (do return Ret.of F (← p.outcome) : TProg Ret), ()) : TProg (Ret × Unit)).Meets G
      (fun x t => ∀ y, x = .ok y → P y.1 t) b := by
  refine Meets.bind hG (Q := fun x t => ∃ r, x = .ok r ∧ ∀ u, G t u → P r u) (Meets.bind hG h.outcome ?_ ?_) ?_ ?_
  · rintro x t ⟨_, e, hq⟩
    cases e
    exact fun u hu => ⟨_, rfl, fun v hv => hP _ _ hq v (hG.trans hu hv)⟩
  · rintro e t ⟨_, e, _⟩
    cases e
  · rintro r t ⟨_, e, hp⟩
    cases e
    refine fun u hu y hy => ?_
    cases hy
    exact hp u hu
  · rintro e t ⟨_, e, _⟩
    cases e

/-- What is true of the results of the call `c` in a whole system of threads. -/
theorem results {ok : Nat → TCall → Prop} {G : LineBuf → LineBuf → Prop} (hG : Steady G)
    (hs : ∀ i c, ok i c → (prog c).Guar G) {A : LineBuf → Prop} (hA : ∀ s t, A s → G s t → A t)
    {κ κ' : Conf LineBuf Unit Unit TCall Ret} {tr : List (Ev TCall Ret)} (h : Exec (threads ok) κ tr κ')
    (hk : AllGuar G κ) (hA0 : A κ.st) {i : Nat} {c : TCall} {r : Ret} (hr : Returns tr i c r)
    {P : Ret → LineBuf → Prop}
    (hP : (∃ i, ok i c) → ∀ b, A b → (do return (← prog c, ()) : TProg (Ret × Unit)).Meets G
      (fun x t => ∀ y, x = .ok y → P y.1 t) b) :
    ∃ s, P r s ∧ G s κ'.st := by
  obtain ⟨s, h1, h2⟩ := (exec_meets (Q := fun _ c' r s => c' = c → P r s) hG (fun i _ c hc => call_guar (hs i c hc)) hA
    (fun i _ c' hc s hs => by
      by_cases e : c' = c
      · subst e
        exact (hP ⟨i, hc⟩ s hs).mono fun r t h y hy _ => h y hy
      · exact .any (fun _ _ _ _ e' => absurd e' e) _ _) h hk hA0).2 i c r hr
  exact ⟨s, h1 rfl, h2⟩

theorem setting_calm (E : Exc → Prop) (h : E .valueError) : Setting Calm (fun _ => True) E where
  steady := calm
  kept := kept_calm
  stable _ _ _ _ := trivial
  closed _ _ _ := h

theorem setting_open (E : Exc → Prop) : Setting Open (fun b => b.lastLine.closed = false) E where
  steady := open_steady
  kept := kept_open
  stable _ _ h h' := h'.closed h
  closed b h h' := by rw [h] at h'; cases h'

end Thr

/-! ## C02 -/

/-- The buffers that can be reached: what is needed here. -/
theorem reach_bounds {maxlen : Int} {b : LineBuf} (h : Reach maxlen b) :
    1 ≤ b.storage.maxlen ∧ b.storage.maxlen = maxlen.toNat ∧ b.storage.items.length ≤ b.storage.maxlen := by
  obtain ⟨l, rfl, ok, hc, hm⟩ := reach_rep h
  have := ok.cap
  cases hcl : l.closed with
  | true => rw [rep_closed hcl]; exact ⟨this, hc, Nat.zero_le _⟩
  | false => rw [rep_open hcl]; exact ⟨this, hc, length_lastN_le _ _⟩

/-- **C02** for threads: in every moment of every race of any calls on one buffer, the buffer stores at most
`maxlen` items. -/
theorem C02_threads (maxlen : Int) (b : LineBuf) (h : Reach maxlen b) (tr : List (Ev TCall Ret))
    (κ : Conf LineBuf Unit Unit TCall Ret) (hx : Exec (threads AnyCall) (init b fun _ => ()) tr κ) :
    κ.st.storage.items.length ≤ maxlen.toNat := by
  obtain ⟨_, h2, h3⟩ := reach_bounds h
  obtain ⟨h4, _⟩ := exec_guar Thr.calm (fun i _ c _ => Thr.call_guar (Thr.guar_calm c)) hx (init_guar _ _)
  have := h4.length h3
  rw [h4.maxlen] at this
  exact h2 ▸ this

/-- Not vacuous: while `read` of a buffer with `maxlen = 1` has the only item in its hands, an item is delivered,
then a `write` is made. -/
example : ((moves (threads AnyCall) 2 (deliverMoves 9 (.msg (GMsg.new (.exc boom))) ++
      [.start 1 (.call (.write (lit "z\n")))] ++ List.replicate 11 (.go 1))
      (init (opened 1 [.str (lit "x")] (lit "y")) fun _ => ())).map fun p => p.2.st.storage.items) =
    some [.str (lit "yz")] := rfl

/-! ## C57 -/

/-- **C57**, what remains of it: in every race of any calls, `len()` returns at least 1 and at most `maxlen`.
(Missing: that the number is right in some moment of the call, which is false, see `C57_violated`.) -/
theorem C57_bounds_partial (maxlen : Int) (b : LineBuf) (h : Reach maxlen b) (tr : List (Ev TCall Ret))
    (κ : Conf LineBuf Unit Unit TCall Ret) (hx : Exec (threads AnyCall) (init b fun _ => ()) tr κ)
    (i : Nat) (r : Ret) (hr : Returns tr i (.call .len) r) :
    ∃ n, r = .nat n ∧ 1 ≤ n ∧ n ≤ maxlen.toNat := by
  obtain ⟨h1, h2, h3⟩ := reach_bounds h
  obtain ⟨_, h, _⟩ := Thr.results (A := Thr.Calm b) (P := fun r _ => ∃ n, r = .nat n ∧ 1 ≤ n ∧ n ≤ maxlen.toNat)
    Thr.calm (fun i c _ => Thr.guar_calm c) (fun _ _ h h' => Thr.calm.trans h h') hx (init_guar _ _) (Thr.calm.refl _)
    hr fun _ b' hb => Thr.call_meets Thr.calm (Thr.len_between b' (hb.maxlen ▸ h1) (hb.length h3)) .nat
      (P := fun r _ => ∃ n, r = .nat n ∧ 1 ≤ n ∧ n ≤ maxlen.toNat) (by
        rintro _ _ ⟨k, hk, rfl⟩ _ _
        have := hb.maxlen
        exact ⟨_, rfl, by omega, by omega⟩)
  exact h

/-- Not vacuous: the observation of `C57_violated`. -/
example : Returns ([.inv 0 (.call (.read (some 1))), .inv 1 (.call .len), .ret 0 (.items [.str (lit "x")]),
    .ret 1 (.nat 1)] : List (Ev TCall Ret)) 1 (.call .len) (.nat 1) :=
  ⟨[_], [_], [], rfl, by simp [ofThread]⟩

/-! ## C58 -/

/-- **C58**, what remains of it for calls that come after: in every race of any calls, once a call of `close` has
returned (even with an exception, because two threads have closed at the same time), every call that starts
afterwards returns what a closed log with this `maxlen` returns (for `len`: with any number of lines).
(Missing: calls that overlap the `close`, see `C58_violated` and `C58_raises_partial`.) -/
theorem C58_after_partial (maxlen : Int) (b : LineBuf) (h : Reach maxlen b) (tr1 tr2 : List (Ev TCall Ret))
    (κ1 κ2 : Conf LineBuf Unit Unit TCall Ret) (hx1 : Exec (threads AnyCall) (init b fun _ => ()) tr1 κ1)
    (i : Nat) (r : Ret) (hr : Returns tr1 i (.call .close) r) (hx2 : Exec (threads AnyCall) κ1 tr2 κ2)
    (j : Nat) (c : Call) (r' : Ret) (hr' : Returns tr2 j (.call c) r') :
    ∃ l : Log, l.closed = true ∧ l.cap = maxlen.toNat ∧ Log.Step l c r' l := by
  obtain ⟨h1, h2, h3⟩ := reach_bounds h
  obtain ⟨g1, g2⟩ := exec_guar Thr.calm (fun i _ c _ => Thr.call_guar (Thr.guar_calm c)) hx1 (init_guar _ _)
  obtain ⟨s, hs, hs'⟩ := Thr.results (A := fun _ => True) (P := fun _ b => b.lastLine.closed = true)
    Thr.calm (fun i c _ => Thr.guar_calm c) (fun _ _ _ _ => trivial) hx1 (init_guar _ _) trivial hr
    fun _ b' _ => Thr.call_meets Thr.calm (Thr.closes b') (fun _ => .unit)
      (P := fun _ b => b.lastLine.closed = true) fun _ _ h _ hu => hu.closed h
  have hcl := hs'.closed hs
  let Q : Ret → LineBuf → Prop := fun r _ => ∃ l : Log, l.closed = true ∧ l.cap = maxlen.toNat ∧ Log.Step l c r l
  suffices hq : ∀ b', (b'.lastLine.closed = true ∧ Thr.Calm b b') →
      (do return (← Thr.prog (.call c), ()) : TProg (Ret × Unit)).Meets Thr.Calm
      (fun x t => ∀ y, x = .ok y → Q y.1 t) b' by
    obtain ⟨_, h, _⟩ := Thr.results (A := fun b' => b'.lastLine.closed = true ∧ Thr.Calm b b') (P := Q)
      Thr.calm (fun i c _ => Thr.guar_calm c) (fun _ _ h h' => ⟨h'.closed h.1, Thr.calm.trans h.2 h'⟩) hx2 g2 ⟨hcl, g1⟩ hr'
      fun _ => hq
    exact h
  rintro b' ⟨hb1, hb2⟩
  have det : ∀ {α : Type} {p : TProg α} {x : Except Exc α} (F : α → Ret), Thr.Det p x →
      (∀ l : Log, l.closed = true → l.cap = maxlen.toNat → Log.Step l c (Ret.of F x) l) →
      (do return (← (do return Ret.of F (← p.outcome) : TProg Ret), ()) : TProg (Ret × Unit)).Meets Thr.Calm
      (fun x t => ∀ y, x = .ok y → Q y.1 t) b' := fun F hp hl =>
    Thr.call_meets Thr.calm (hp b' hb1) F (P := Q) fun r _ e _ _ =>
      ⟨{ cap := maxlen.toNat, closed := true }, rfl, rfl, e.2 ▸ hl _ rfl rfl⟩
  cases c with
  | write d => exact det _ (Thr.det_write d) fun l h _ => .writeClosed l d h
  | newLine => exact det _ Thr.det_newLine fun l h _ => .newLineClosed l h
  | read n => exact det _ (Thr.det_read n) fun l h _ => .readClosed l n h
  | maxlen =>
    refine Thr.call_meets Thr.calm (Q := fun r _ => r = .ok maxlen.toNat) (.atom fun t ht u _ => ?_) .nat (P := Q) ?_
    · exact congrArg Except.ok ((Thr.calm.trans hb2 ht).maxlen.trans h2)
    · rintro _ _ rfl _ _
      exact ⟨{ cap := maxlen.toNat, closed := true }, rfl, rfl, .maxlen _⟩
  | clear => exact det _ Thr.det_clear fun l h _ => .clearClosed l h
  | flush => exact det _ (.locked (.last Thr.same_flush Thr.shut_flush)) fun l h _ => .flushClosed l h
  | close => exact det _ Thr.det_close fun l h _ => .closeClosed l h
  | closed => exact det _ (.locked (.gets fun _ h => h)) fun l h _ => by have := Log.Step.closed l; rw [h] at this; exact this
  | readable => exact det _ (.locked (.gets fun _ h => by rw [h])) fun l h _ => by have := Log.Step.readable l; rw [h] at this; exact this
  | writable => exact det _ (.locked (.gets fun _ h => by rw [h])) fun l h _ => by have := Log.Step.writable l; rw [h] at this; exact this
  | len =>
    refine Thr.call_meets Thr.calm (Thr.len_between b' (hb2.maxlen ▸ h1) (hb2.length h3)) .nat (P := Q) ?_
    rintro _ _ ⟨k, hk, rfl⟩ _ _
    have := hb2.maxlen
    refine ⟨{ cap := maxlen.toNat, done := List.replicate k (.str []), closed := true }, rfl, rfl, ?_⟩
    have e : Ret.of Ret.nat (.ok (min b'.storage.maxlen (k + 1))) =
        .nat (min maxlen.toNat ((lastN maxlen.toNat (List.replicate k (Item.str []))).length + 1)) := by
      rw [length_lastN, List.length_replicate, this, h2, Nat.min_eq_right (by omega : k ≤ maxlen.toNat)]
      rfl
    rw [e]
    exact .len _

/-- Two threads close at the same time: one of them gets `ValueError`; a `write` that starts afterwards raises
`OSError`, `len()` returns 1. -/
example : ((moves (threads AnyCall) 2
      ([.start 0 (.call .close), .start 1 (.call .close)] ++ List.replicate 3 (.go 0) ++ List.replicate 3 (.go 1) ++
        List.replicate 9 (.go 0) ++ List.replicate 4 (.go 1) ++ [.start 1 (.call (.write (lit "z")))] ++
        List.replicate 4 (.go 1) ++ [.start 0 (.call .len)] ++ List.replicate 6 (.go 0))
      (init (opened 3 [.str (lit "x")] (lit "y")) fun _ => ())).map fun p => p.1) =
    some [.inv 0 (.call .close), .inv 1 (.call .close), .ret 0 .unit, .ret 1 (.exc .valueError),
      .inv 1 (.call (.write (lit "z"))), .ret 1 (.exc .osError), .inv 0 (.call .len), .ret 0 (.nat 1)] := rfl

/-- **C58**, what remains of it for calls that overlap the `close`: in every race of any calls, an exception raised
by a call is one of those in `MayRaise`: `OSError` and `ValueError` for `write`, also `IndexError` for `read`,
`ValueError` for `new_line`, `flush`, `clear` and `close`, none for the others.
(Missing: that only `OSError` is possible, which is false, see `C58_violated`.) -/
theorem C58_raises_partial (b : LineBuf) (tr : List (Ev TCall Ret)) (κ : Conf LineBuf Unit Unit TCall Ret)
    (hx : Exec (threads AnyCall) (init b fun _ => ()) tr κ) (i : Nat) (c : TCall) (e : Exc)
    (hr : Returns tr i c (.exc e)) : MayRaise c e := by
  let Q : Ret → LineBuf → Prop := fun r _ => ∀ e, r = .exc e → MayRaise c e
  suffices hq : ∀ b', (do return (← Thr.prog c, ()) : TProg (Ret × Unit)).Meets Thr.Calm
      (fun x t => ∀ y, x = .ok y → Q y.1 t) b' by
    obtain ⟨_, h, _⟩ := Thr.results (A := fun _ => True) (P := Q)
      Thr.calm (fun i c _ => Thr.guar_calm c) (fun _ _ _ _ => trivial) hx (init_guar _ _) trivial hr fun _ b _ => hq b
    exact h e rfl
  intro b'
  have only : ∀ {α : Type} {p : TProg α} {E : Exc → Prop} (F : α → Ret), Thr.Only Thr.Calm (fun _ => True) E p →
      (∀ e, E e → MayRaise c e) → (∀ a e, F a ≠ .exc e) →
      (do return (← (do return Ret.of F (← p.outcome) : TProg Ret), ()) : TProg (Ret × Unit)).Meets Thr.Calm
      (fun x t => ∀ y, x = .ok y → Q y.1 t) b' := fun F hp hE hF =>
    Thr.call_meets Thr.calm (hp b' trivial) F (P := Q) fun r _ h _ _ e he => by
      cases r with
      | ok a => exact absurd he (hF a e)
      | error e' => cases he; exact hE _ (h.2 _ rfl)
  have sv := fun (E : Exc → Prop) (h : E .valueError) => Thr.setting_calm E h
  have quiet : ∀ {α : Type} (p : TProg α), (∀ b, p.Meets Thr.Calm (fun r _ => ∀ e, r ≠ .error e) b) →
      Thr.Only Thr.Calm (fun _ => True) (fun _ => False) p :=
    fun p h b _ => (h b).mono fun r _ hr => ⟨trivial, fun e he => hr e he⟩
  have look : ∀ {α : Type} (f : LineBuf → α), Thr.Only Thr.Calm (fun _ => True) (fun _ => False) (Thr.gets f) :=
    fun f => quiet _ fun b => .atom fun _ _ _ _ _ h => nomatch h
  have quiet_len : ∀ b, Thr.len.Meets Thr.Calm (fun r _ => ∀ e, r ≠ .error e) b := fun b =>
    .bind Thr.calm (Q := fun r _ => ∀ e, r ≠ .error e) (.atom fun _ _ _ _ _ h => nomatch h) (fun _ _ _ =>
    .bind Thr.calm (Q := fun r _ => ∀ e, r ≠ .error e) (.atom fun _ _ _ _ _ h => nomatch h) (fun _ _ _ =>
    .bind Thr.calm (Q := fun r _ => ∀ e, r ≠ .error e)
      (.withLock (.bind Thr.calm (Q := fun r _ => ∀ e, r ≠ .error e) (.atom fun _ _ _ _ _ h => nomatch h)
        (fun _ _ _ _ _ _ => nofun) fun _ _ h _ he => h _ (by cases he; rfl))) (fun _ _ _ _ _ _ => nofun) fun _ _ h _ he => h _ (by cases he; rfl))
      fun _ _ h _ he => h _ (by cases he; rfl)) fun _ _ h _ he => h _ (by cases he; rfl)
  cases c with
  | deliver x => exact only _ (quiet _ fun b => .atom fun _ _ _ _ _ h => nomatch h) (fun _ h => h.elim) (fun _ _ => nofun)
  | call c =>
    cases c with
    | write d =>
      exact only (E := MayRaise (.call (.write d))) _ (Thr.only_write (sv _ (.inr rfl)) (fun _ _ _ => .inl rfl) d)
        (fun _ h => h) (fun _ _ => nofun)
    | read n =>
      exact only (E := MayRaise (.call (.read n))) _ (Thr.only_read (sv _ (.inr (.inl rfl)))
        (fun _ _ _ => .inl rfl) (.inr (.inr rfl)) n) (fun _ h => h) (fun _ _ => nofun)
    | newLine =>
      exact only (E := MayRaise (.call .newLine)) _ (Thr.only_newLine (sv _ rfl)) (fun _ h => h) (fun _ _ => nofun)
    | flush =>
      exact only (E := MayRaise (.call .flush)) _ (.locked (Thr.only_last (sv (MayRaise (.call .flush)) rfl) Thr.same_flush Thr.err_flush))
        (fun _ h => h) (fun _ _ => nofun)
    | clear =>
      exact only (E := MayRaise (.call .clear)) _ (Thr.only_clear (sv _ rfl)) (fun _ h => h) (fun _ _ => nofun)
    | close =>
      exact only (E := MayRaise (.call .close)) _ (Thr.only_close (sv _ rfl)) (fun _ h => h) (fun _ _ => nofun)
    | maxlen => exact only _ (look _) (fun _ h => h.elim) (fun _ _ => nofun)
    | closed => exact only _ (.locked (look _)) (fun _ h => h.elim) (fun _ _ => nofun)
    | readable => exact only _ (.locked (look _)) (fun _ h => h.elim) (fun _ _ => nofun)
    | writable => exact only _ (.locked (look _)) (fun _ h => h.elim) (fun _ _ => nofun)
    | len => exact only _ (quiet _ quiet_len) (fun _ h => h.elim) (fun _ _ => nofun)

/-- A `read` that has found the buffer open before it is closed raises `ValueError`. -/
example : ((moves (threads AnyCall) 2
      ([.start 0 (.call .close), .start 1 (.call (.read none))] ++ List.replicate 3 (.go 1) ++ List.replicate 12 (.go 0) ++
        List.replicate 4 (.go 1))
      (init (opened 3 [.str (lit "x")] (lit "y")) fun _ => ())).map fun p => p.1) =
    some [.inv 0 (.call .close), .inv 1 (.call (.read none)), .ret 0 .unit, .ret 1 (.exc .valueError)] := rfl

/-! ## C59 -/

/-- **C59**, what remains of it: if no thread closes the open buffer, then in every race of all other calls only
`read` can raise, and it can raise only `IndexError`.
(Missing: that `read` does not raise either, which is false, see `C59_violated`.) -/
theorem C59_raises_partial (b : LineBuf) (ho : b.lastLine.closed = false) (tr : List (Ev TCall Ret))
    (κ : Conf LineBuf Unit Unit TCall Ret) (hx : Exec (threads NoClose) (init b fun _ => ()) tr κ) (i : Nat) (c : TCall)
    (e : Exc) (hr : Returns tr i c (.exc e)) : (∃ n, c = .call (.read n)) ∧ e = .indexError := by
  let Q : Ret → LineBuf → Prop := fun r _ => ∀ e, r = .exc e → (∃ n, c = .call (.read n)) ∧ e = .indexError
  suffices hq : c ≠ .call .close → ∀ b', b'.lastLine.closed = false →
      (do return (← Thr.prog c, ()) : TProg (Ret × Unit)).Meets Thr.Open (fun x t => ∀ y, x = .ok y → Q y.1 t) b' by
    obtain ⟨_, h, _⟩ := Thr.results (A := fun b => b.lastLine.closed = false) (P := Q)
      Thr.open_steady (fun i c hc => Thr.guar_prog Thr.kept_open c hc) (fun _ _ h h' => h'.closed h) hx (init_guar _ _) ho hr
      fun ⟨i, hi⟩ b hb => hq hi b hb
    exact h e rfl
  intro hc b' hb
  have only : ∀ {α : Type} {p : TProg α} (E : Exc → Prop) (F : α → Ret),
      Thr.Only Thr.Open (fun b => b.lastLine.closed = false) E p →
      (∀ e, E e → (∃ n, c = .call (.read n)) ∧ e = .indexError) → (∀ a e, F a ≠ .exc e) →
      (do return (← (do return Ret.of F (← p.outcome) : TProg Ret), ()) : TProg (Ret × Unit)).Meets Thr.Open
      (fun x t => ∀ y, x = .ok y → Q y.1 t) b' := fun E F hp hE hF =>
    Thr.call_meets Thr.open_steady (hp b' hb) F (P := Q) fun r _ h _ _ e he => by
      cases r with
      | ok a => exact absurd he (hF a e)
      | error e' => cases he; exact hE _ (h.2 _ rfl)
  have so := Thr.setting_open fun _ => False
  have no : ∀ b : LineBuf, b.lastLine.closed = false → b.lastLine.closed = true → False :=
    fun b h h' => by rw [h] at h'; cases h'
  cases c with
  | deliver x => exact only (fun _ => False) _ (Thr.only_modify so (Thr.len_append x)) (fun _ h => h.elim) (fun _ _ => nofun)
  | call c =>
    cases c with
    | write d =>
      exact only (fun _ => False) _ (Thr.only_write so no d) (fun _ h => h.elim) (fun _ _ => nofun)
    | read n =>
      exact only (· = .indexError) _ (Thr.only_read (Thr.setting_open (· = .indexError)) (fun b h h' => (no b h h').elim) rfl n)
        (fun _ h => ⟨⟨n, rfl⟩, h⟩) (fun _ _ => nofun)
    | newLine =>
      exact only (fun _ => False) _ (Thr.only_newLine so) (fun _ h => h.elim) (fun _ _ => nofun)
    | flush =>
      exact only (fun _ => False) _ (.locked (Thr.only_last so Thr.same_flush Thr.err_flush)) (fun _ h => h.elim)
        (fun _ _ => nofun)
    | clear =>
      exact only (fun _ => False) _ (Thr.only_clear so) (fun _ h => h.elim) (fun _ _ => nofun)
    | close => exact absurd rfl hc
    | maxlen => exact only (fun _ => False) _ (Thr.only_gets so _) (fun _ h => h.elim) (fun _ _ => nofun)
    | closed => exact only (fun _ => False) _ (.locked (Thr.only_gets so _)) (fun _ h => h.elim) (fun _ _ => nofun)
    | readable => exact only (fun _ => False) _ (.locked (Thr.only_gets so _)) (fun _ h => h.elim) (fun _ _ => nofun)
    | writable => exact only (fun _ => False) _ (.locked (Thr.only_gets so _)) (fun _ h => h.elim) (fun _ _ => nofun)
    | len => exact only (fun _ => False) _ (Thr.only_len so) (fun _ h => h.elim) (fun _ _ => nofun)

/-- Not vacuous: the `IndexError` of `C59_violated` is such a result. -/
example : Returns ([.inv 1 (.call (.write (lit "y"))), .ret 1 (.nat 1), .inv 1 (.call (.read none)),
    .ret 0 .unit, .ret 1 (.exc .indexError)] : List (Ev TCall Ret)) 1 (.call (.read none)) (.exc .indexError) :=
  ⟨[_, _], [_], [], rfl, by simp [ofThread]⟩

end SyncStream
