import Verif.Lemmas.Mix
/-!
# Processes with a service that performs each operation in one moment

Every execution of processes that share something and ask a service is, for them, one in which the service performs each operation in one
moment.
-/

namespace SyncStream

open Spec Conc

namespace Mixed
variable {σ L Q A τ M C R : Type}

/-! ## Where an operation is -/

/-- Nothing asked, asked, performed. -/
inductive SStat (Q A : Type) where
  | idle
  | asked (q : Q)
  | answered (a : A)

/-- The events of thread `i` with the service. -/
inductive SPath (i : Nat) : List (HEvent Q A Q A) → SStat Q A → Prop
  | nil : SPath i [] .idle
  | inv (l : List (HEvent Q A Q A)) (q : Q) : SPath i l .idle → SPath i (l ++ [.inv i q]) (.asked q)
  | op (l : List (HEvent Q A Q A)) (q : Q) (a : A) : SPath i l (.asked q) → SPath i (l ++ [.op i q a]) (.answered a)
  | ret (l : List (HEvent Q A Q A)) (a : A) : SPath i l (.answered a) → SPath i (l ++ [.ret i a]) .idle

theorem SPath.inv_last {i j : Nat} {l : List (HEvent Q A Q A)} {q : Q} {st : SStat Q A} (h : SPath i (l ++ [.inv j q]) st) :
    st = .asked q ∧ SPath i l .idle := by
  generalize hx : l ++ [HEvent.inv j q] = x at h
  cases h with
  | nil => simp at hx
  | inv l' q' h' => obtain ⟨rfl, e⟩ := List.append_inj' hx rfl; cases e; exact ⟨rfl, h'⟩
  | op l' q' a h' => obtain ⟨rfl, e⟩ := List.append_inj' hx rfl; cases e
  | ret l' a h' => obtain ⟨rfl, e⟩ := List.append_inj' hx rfl; cases e

theorem SPath.op_last {i j : Nat} {l : List (HEvent Q A Q A)} {q : Q} {a : A} {st : SStat Q A} (h : SPath i (l ++ [.op j q a]) st) :
    st = .answered a ∧ SPath i l (.asked q) := by
  generalize hx : l ++ [HEvent.op j q a] = x at h
  cases h with
  | nil => simp at hx
  | inv l' q' h' => obtain ⟨rfl, e⟩ := List.append_inj' hx rfl; cases e
  | op l' q' a h' => obtain ⟨rfl, e⟩ := List.append_inj' hx rfl; cases e; exact ⟨rfl, h'⟩
  | ret l' a h' => obtain ⟨rfl, e⟩ := List.append_inj' hx rfl; cases e

theorem SPath.ret_last {i j : Nat} {l : List (HEvent Q A Q A)} {a : A} {st : SStat Q A} (h : SPath i (l ++ [.ret j a]) st) :
    st = .idle ∧ SPath i l (.answered a) := by
  generalize hx : l ++ [HEvent.ret j a] = x at h
  cases h with
  | nil => simp at hx
  | inv l' q' h' => obtain ⟨rfl, e⟩ := List.append_inj' hx rfl; cases e
  | op l' q' a h' => obtain ⟨rfl, e⟩ := List.append_inj' hx rfl; cases e
  | ret l' a h' => obtain ⟨rfl, e⟩ := List.append_inj' hx rfl; cases e; exact ⟨rfl, h'⟩

/-- A client whose calls are the operations. -/
def straight (q : Q) : Ask Q A (A × Unit) := .ask q fun a => .done (a, ())

theorem straight_path {i : Nat} {o o' : Unit} {h : List (HEvent Q A Q A)} {rest : Option (Q × Ask Q A (A × Unit))}
    (hr : ClientRun (fun _ => straight) i o h o' rest) : ∀ {l : List (HEvent Q A Q A)}, SPath i l .idle → ∃ st, SPath i (l ++ h) st := by
  induction hr with
  | nil => exact fun hl => ⟨_, by simpa using hl⟩
  | call o o1 o' c l r h rest h1 h2 ih =>
    intro l0 hl
    cases h1 with
    | cons _ a _ l' _ h1 =>
      cases h1
      have := ih (((hl.inv _ c).op _ c _).ret _ r)
      simpa [asOps] using this
  | within o c l q h1 =>
    intro l0 hl
    cases h1 with
    | nil => exact ⟨_, by simpa [asOps] using hl.inv _ c⟩
    | cons _ a _ l' _ h1 =>
      cases h1
      exact ⟨_, by simpa [asOps] using (hl.inv _ c).op _ c a⟩

/-! ## Runs with operations in one moment -/

/-- The processes; a thread in a call with what remains to be done. -/
structure VConf (σ L Q A C R : Type) where
  st : Nat → σ
  held : Nat → Nat × L → List Bool
  cur : Nat → Option (C × Mix σ L Q A (R × Unit))

variable [DecidableEq L] [DecidableEq M]

/-- A run in which the service performs each operation in one moment and gives some answer. -/
inductive VRun (proc : Nat → Nat) (call : C → Mix σ L Q A (R × Unit)) (ok : Nat → C → Prop) (re : L → Prop) (s : Nat → σ) :
    List (HEvent C R Q A) → VConf σ L Q A C R → Prop
  | nil : VRun proc call ok re s [] ⟨s, fun _ _ => [], fun _ => none⟩
  | inv (h : List (HEvent C R Q A)) (v : VConf σ L Q A C R) (i : Nat) (c : C) : VRun proc call ok re s h v → v.cur i = none → ok i c →
      VRun proc call ok re s (h ++ [.inv i c]) { v with cur := upd v.cur i (some (c, call c)) }
  | act (h : List (HEvent C R Q A)) (v : VConf σ L Q A C R) (i : Nat) (c : C) (f : σ → σ) (k : σ → Mix σ L Q A (R × Unit)) :
      VRun proc call ok re s h v → v.cur i = some (c, .act f k) →
      VRun proc call ok re s h { v with
        st := upd v.st (proc i) (f (v.st (proc i))), cur := upd v.cur i (some (c, k (v.st (proc i)))) }
  | acq (h : List (HEvent C R Q A)) (v : VConf σ L Q A C R) (i : Nat) (c : C) (l : L) (w : Bool) (k : Mix σ L Q A (R × Unit)) :
      VRun proc call ok re s h v → v.cur i = some (c, .acq l w k) → (v.held i (proc i, l) = [] ∨ re l) →
      (∀ j, j ≠ i → true ∉ v.held j (proc i, l) ∧ (w = true → v.held j (proc i, l) = [])) →
      VRun proc call ok re s h { v with
        held := upd v.held i (taken (v.held i) (proc i, l) w), cur := upd v.cur i (some (c, k)) }
  | rel (h : List (HEvent C R Q A)) (v : VConf σ L Q A C R) (i : Nat) (c : C) (l : L) (w : Bool) (k : Mix σ L Q A (R × Unit)) :
      VRun proc call ok re s h v → v.cur i = some (c, .rel l w k) →
      VRun proc call ok re s h { v with
        held := upd v.held i (given (v.held i) (proc i, l)), cur := upd v.cur i (some (c, k)) }
  | ret (h : List (HEvent C R Q A)) (v : VConf σ L Q A C R) (i : Nat) (c : C) (r : R) :
      VRun proc call ok re s h v → v.cur i = some (c, .ret (r, ())) →
      VRun proc call ok re s (h ++ [.ret i r]) { v with cur := upd v.cur i none }
  | op (h : List (HEvent C R Q A)) (v : VConf σ L Q A C R) (i : Nat) (c : C) (q : Q) (k : A → Mix σ L Q A (R × Unit)) (a : A) :
      VRun proc call ok re s h v → v.cur i = some (c, .ask q k) →
      VRun proc call ok re s (h ++ [.op i q a]) { v with cur := upd v.cur i (some (c, k a)) }

/-- A thread, its operation, and what remains to be done. -/
inductive View : MThread σ L Q A C R → SStat Q A → Option (C × Mix σ L Q A (R × Unit)) → Prop
  | idle : View .idle .idle none
  | run (c : C) (g : Mix σ L Q A (R × Unit)) : View (.run c g) .idle (some (c, g))
  | asked (c : C) (q : Q) (k : A → Mix σ L Q A (R × Unit)) : View (.asked c q k) (.asked q) (some (c, .ask q k))
  | answered (c : C) (q : Q) (k : A → Mix σ L Q A (R × Unit)) (a : A) : View (.asked c q k) (.answered a) (some (c, k a))

/-- The calls, and the moments of the operations. -/
def hist (K : List (KEv C R (HEvent Q A Q A))) : List (HEvent C R Q A) := K.filterMap fun
  | .call (.inv i c) => some (.inv i c)
  | .call (.ret i r) => some (.ret i r)
  | .svc (.op i q a) => some (.op i q a)
  | _ => none

theorem hist_append (K K' : List (KEv C R (HEvent Q A Q A))) : hist (K ++ K') = hist K ++ hist K' := List.filterMap_append ..

theorem hist_seen (K : List (KEv C R (HEvent Q A Q A))) : seen (hist K) = calls K := by
  induction K with
  | nil => rfl
  | cons x K ih =>
    rw [← List.singleton_append, hist_append, calls_append, seen_append, ih]
    congr 1
    rcases x with (⟨_⟩ | ⟨_⟩) | _ | (⟨_⟩ | ⟨_⟩ | ⟨_⟩) <;> rfl

theorem hist_ops (K : List (KEv C R (HEvent Q A Q A))) : opsOf (hist K) = opsOf (svcs K) := by
  induction K with
  | nil => rfl
  | cons x K ih =>
    rw [← List.singleton_append, hist_append, svcs_append, opsOf_append, opsOf_append, ih]
    congr 1
    rcases x with (⟨_⟩ | ⟨_⟩) | _ | (⟨_⟩ | ⟨_⟩ | ⟨_⟩) <;> rfl

section
variable {svc : Sys τ M Unit Q A} {proc : Nat → Nat} {call : C → Mix σ L Q A (R × Unit)} {ok : Nat → C → Prop} {re : L → Prop}

theorem views {thr : Nat → MThread σ L Q A C R} {st st' : Nat → SStat Q A} {cur : Nat → Option (C × Mix σ L Q A (R × Unit))}
    (h : ∀ i, View (thr i) (st i) (cur i)) {i : Nat} (hst : ∀ j, j ≠ i → st j = st' j) {x : MThread σ L Q A C R}
    {y : Option (C × Mix σ L Q A (R × Unit))} (hi : View x (st' i) y) (j : Nat) : View (upd thr i x j) (st' j) (upd cur i y j) := by
  by_cases e : j = i
  · subst e; simpa only [upd_same] using hi
  · simp only [upd_other _ _ e, ← hst j e]; exact h j

/-- The moments of the operations put in the place of the questions and answers. -/
theorem KRun.moments {s : Nat → σ} {K : List (KEv C R (HEvent Q A Q A))} {m : MConf σ L Q A C R} (hr : KRun proc call ok re (start s) K m) :
    ∀ {st : Nat → SStat Q A}, (∀ i, SPath i (own i (svcs K)) (st i)) →
    ∃ cur, VRun proc call ok re s (hist K) ⟨m.st, m.held, cur⟩ ∧ ∀ i, View (m.thr i) (st i) (cur i) := by
  induction hr with
  | nil =>
    intro st hst
    refine ⟨fun _ => none, .nil, fun i => ?_⟩
    have := hst i
    generalize hl : own i (svcs ([] : List (KEv C R (HEvent Q A Q A)))) = l at this
    generalize st i = x at this
    cases this with
    | nil => exact .idle
    | _ => simp [own, svcs] at hl
  | op K m i q a h1 ih =>
    intro st hst
    have hi := hst i
    rw [svcs_append, own_append, show own i (svcs [(KEv.svc (.op i q a) : KEv C R (HEvent Q A Q A))]) = [.op i q a] from own_same rfl] at hi
    obtain ⟨e1, e2⟩ := hi.op_last
    have hst' : ∀ j, SPath j (own j (svcs K)) (upd st i (.asked q) j) := by
      intro j
      by_cases e : j = i
      · subst e; simpa only [upd_same] using e2
      · have := hst j
        rw [svcs_append, own_append, show own j (svcs [(KEv.svc (.op i q a) : KEv C R (HEvent Q A Q A))]) = [] from own_other (Ne.symm e),
          List.append_nil] at this
        simpa only [upd_other _ _ e] using this
    obtain ⟨cur, k1, k2⟩ := ih hst'
    have hv := k2 i
    rw [upd_same] at hv
    generalize hx : m.thr i = x at hv
    generalize hy : cur i = y at hv
    cases hv with
    | asked c q k =>
      refine ⟨upd cur i (some (c, k a)), ?_, fun j => ?_⟩
      · rw [hist_append]
        exact k1.op _ _ i c q k a hy
      · have := views k2 (i := i) (st' := st) (fun j e => upd_other _ _ e) (x := m.thr i) (y := some (c, k a)) (by rw [hx, e1]; exact .answered ..) j
        rwa [upd_self] at this
  | step K m e m' h1 h2 ih =>
    intro st hst
    have quiet : ∀ {x : KEv C R (HEvent Q A Q A)}, svcs [x] = [] → (∀ i, SPath i (own i (svcs (K ++ [x]))) (st i)) →
        ∀ i, SPath i (own i (svcs K)) (st i) := by
      intro x hx hh i
      have := hh i
      rwa [svcs_append, hx, List.append_nil] at this
    cases h2 with
    | inv i c hi hok =>
      obtain ⟨cur, k1, k2⟩ := ih (quiet rfl hst)
      have hv := k2 i
      rw [hi] at hv
      generalize hs : st i = x at hv
      generalize hy : cur i = y at hv
      cases hv
      refine ⟨upd cur i (some (c, call c)), ?_, views k2 (fun _ _ => rfl) (by rw [hs]; exact .run ..)⟩
      rw [hist_append]
      exact k1.inv _ _ i c hy hok
    | act i c f k hi =>
      obtain ⟨cur, k1, k2⟩ := ih (quiet rfl hst)
      have hv := k2 i
      rw [hi] at hv
      generalize hs : st i = x at hv
      generalize hy : cur i = y at hv
      cases hv
      refine ⟨_, ?_, views k2 (fun _ _ => rfl) (by rw [hs]; exact .run ..)⟩
      rw [hist_append, show hist [up KEv.tau] = ([] : List (HEvent C R Q A)) from rfl, List.append_nil]
      exact k1.act _ _ i c f k hy
    | acq i c l w k hi ha hb =>
      obtain ⟨cur, k1, k2⟩ := ih (quiet rfl hst)
      have hv := k2 i
      rw [hi] at hv
      generalize hs : st i = x at hv
      generalize hy : cur i = y at hv
      cases hv
      refine ⟨_, ?_, views k2 (fun _ _ => rfl) (by rw [hs]; exact .run ..)⟩
      rw [hist_append, show hist [up KEv.tau] = ([] : List (HEvent C R Q A)) from rfl, List.append_nil]
      exact k1.acq _ _ i c l w k hy ha hb
    | rel i c l w k hi =>
      obtain ⟨cur, k1, k2⟩ := ih (quiet rfl hst)
      have hv := k2 i
      rw [hi] at hv
      generalize hs : st i = x at hv
      generalize hy : cur i = y at hv
      cases hv
      refine ⟨_, ?_, views k2 (fun _ _ => rfl) (by rw [hs]; exact .run ..)⟩
      rw [hist_append, show hist [up KEv.tau] = ([] : List (HEvent C R Q A)) from rfl, List.append_nil]
      exact k1.rel _ _ i c l w k hy
    | ret i c r hi =>
      obtain ⟨cur, k1, k2⟩ := ih (quiet rfl hst)
      have hv := k2 i
      rw [hi] at hv
      generalize hs : st i = x at hv
      generalize hy : cur i = y at hv
      cases hv
      refine ⟨_, ?_, views k2 (fun _ _ => rfl) (by rw [hs]; exact .idle)⟩
      rw [hist_append]
      exact k1.ret _ _ i c r hy
    | ask i c q k hi =>
      have hh := hst i
      rw [svcs_append, own_append, show own i (svcs [(up (.svc (.inv i q)) : KEv C R (HEvent Q A Q A))]) = [.inv i q] from own_same rfl] at hh
      obtain ⟨e1, e2⟩ := hh.inv_last
      have hst' : ∀ j, SPath j (own j (svcs K)) (upd st i .idle j) := by
        intro j
        by_cases e : j = i
        · subst e; simpa only [upd_same] using e2
        · have := hst j
          rw [svcs_append, own_append, show own j (svcs [(up (.svc (.inv i q)) : KEv C R (HEvent Q A Q A))]) = [] from own_other (Ne.symm e),
            List.append_nil] at this
          simpa only [upd_other _ _ e] using this
      obtain ⟨cur, k1, k2⟩ := ih hst'
      have hv := k2 i
      rw [upd_same, hi] at hv
      generalize hy : cur i = y at hv
      cases hv
      refine ⟨cur, ?_, fun j => ?_⟩
      · rw [hist_append, show hist [up (.svc (.inv i q))] = ([] : List (HEvent C R Q A)) from rfl, List.append_nil]
        exact k1
      · have := views k2 (i := i) (st' := st) (fun j e => upd_other _ _ e) (x := .asked c q k) (y := cur i) (by rw [hy, e1]; exact .asked ..) j
        rwa [upd_self] at this
    | answer i c q k a hi =>
      have hh := hst i
      rw [svcs_append, own_append, show own i (svcs [(up (.svc (.ret i a)) : KEv C R (HEvent Q A Q A))]) = [.ret i a] from own_same rfl] at hh
      obtain ⟨e1, e2⟩ := hh.ret_last
      have hst' : ∀ j, SPath j (own j (svcs K)) (upd st i (.answered a) j) := by
        intro j
        by_cases e : j = i
        · subst e; simpa only [upd_same] using e2
        · have := hst j
          rw [svcs_append, own_append, show own j (svcs [(up (.svc (.ret i a)) : KEv C R (HEvent Q A Q A))]) = [] from own_other (Ne.symm e),
            List.append_nil] at this
          simpa only [upd_other _ _ e] using this
      obtain ⟨cur, k1, k2⟩ := ih hst'
      have hv := k2 i
      rw [upd_same, hi] at hv
      generalize hy : cur i = y at hv
      cases hv
      refine ⟨cur, ?_, fun j => ?_⟩
      · rw [hist_append, show hist [up (.svc (.ret i a))] = ([] : List (HEvent C R Q A)) from rfl, List.append_nil]
        exact k1
      · have := views k2 (i := i) (st' := st) (fun j e => upd_other _ _ e) (x := .run c (k a)) (y := cur i) (by rw [hy, e1]; exact .run ..) j
        rwa [upd_self] at this

theorem prog_bind_ret {α : Type} (p : Prog τ M α) : p.bind Prog.ret = p := by
  induction p with
  | ret a => rfl
  | raise e => rfl
  | act f k ih => simp only [Prog.bind, ih]
  | acq l w k ih => simp only [Prog.bind, ih]
  | rel l w k ih => simp only [Prog.bind, ih]

theorem straight_clients (svc : Sys τ M Unit Q A) : clients svc (fun _ _ => straight) svc.ok = svc := by
  cases svc with
  | mk call ok re =>
    simp only [clients, Sys.mk.injEq, and_true]
    funext i o c
    exact prog_bind_ret _

/-- Every execution of the whole is, for the processes, a run in which the service performs each operation in one moment. -/
theorem atOnce {rank : M → Nat} {P : Parts τ M} {S : Q → M} (hs : OrderlySys svc rank) (hd : Disciplined P S svc fun _ _ => True)
    (hw : ∀ i c, ok i c → (call c).Within (svc.ok i)) {s : (Nat → σ) × τ} (hI : P.I s.2) {tr : List (Ev C R)}
    {κ : Conf ((Nat → σ) × τ) (Nat × L ⊕ M) Unit C R} (hx : Exec (mixSys svc proc call ok re) (init s fun _ => ()) tr κ) :
    ∃ h v t, VRun proc call ok re s.1 h v ∧ seen h = tr ∧ Serves (Performs svc) s.2 (opsOf h) t ∧ v.st = κ.st.1 ∧
      (∀ i, v.cur i = none ↔ κ.cur i = none) ∧ ((∀ i, κ.cur i = none) → ∀ l, P.eqS l κ.st.2 t) := by
  obtain ⟨J, m, κs, hat, hc⟩ := apart hw hx
  have hex := hat.exec
  rw [← straight_clients svc] at hex
  obtain ⟨h, rest, t, h1, h2, h3, h4, h5⟩ := exec_clients (cl := fun _ _ => straight) hs hd (fun i o c hc => ⟨hc, fun _ => trivial⟩) hI hex
  obtain ⟨K, k1, k2, k3⟩ := weave hat.run h1
  have hp : ∀ i, ∃ st, SPath i (own i (svcs K)) st := fun i => by
    rw [k3]
    simpa using straight_path (h3 i) .nil
  choose st hst using hp
  obtain ⟨cur, v1, v2⟩ := k1.moments hst
  have hn : ∀ i, cur i = none ↔ κ.cur i = none := by
    intro i
    have a1 := v2 i
    have a2 := hat.rel.thr i
    generalize cur i = x at a1
    generalize st i = z at a1
    generalize m.thr i = y at a1 a2
    generalize κ.cur i = w at a2
    generalize κs.cur i = u at a2
    cases a2 <;> cases a1 <;> simp
  refine ⟨hist K, _, t, v1, by rw [hist_seen, k2, hc], by rw [hist_ops, k3]; exact h2, hat.rel.st1.symm, hn, fun hq l => ?_⟩
  rw [hat.rel.st2]
  refine h5 (fun i => ?_) l
  have a2 := hat.rel.thr i
  rw [hq i] at a2
  generalize m.thr i = y at a2
  generalize κs.cur i = u at a2
  cases a2
  rfl

end
end Mixed
end SyncStream
