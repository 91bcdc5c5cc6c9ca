import Verif.Lemmas.Clients
import Verif.Lemmas.Coarse
import Verif.Model.Mix
/-!
# Executions of processes and a service, taken apart

An execution of `mixSys` is a run of the processes, in which the service is asked and answers, together with an execution of the service
alone.  If the service has a history in which it performs each operation in one moment, these moments can be put into the run of the
processes.
-/

namespace SyncStream

open Spec Conc

/-- All operations asked for are among `P`, whatever the answers. -/
def Mix.Within {σ L Q A α : Type} (P : Q → Prop) : Mix σ L Q A α → Prop
  | .ret _ => True
  | .raise _ => True
  | .act _ k => ∀ s, (k s).Within P
  | .acq _ _ k => k.Within P
  | .rel _ _ k => k.Within P
  | .ask q k => P q ∧ ∀ a, (k a).Within P

namespace Mixed
variable {σ L Q A τ M C R S : Type}

/-- What happens: a call begins or ends, a process does a step, or something happens with the service. -/
inductive KEv (C R S : Type) where
  | call (e : Ev C R)
  | tau
  | svc (e : S)

/-- The calls. -/
def calls (l : List (KEv C R S)) : List (Ev C R) := l.filterMap fun
  | .call e => some e
  | _ => none

/-- What happens with the service. -/
def svcs (l : List (KEv C R S)) : List S := l.filterMap fun
  | .svc e => some e
  | _ => none

theorem calls_append (l l' : List (KEv C R S)) : calls (l ++ l') = calls l ++ calls l' := List.filterMap_append ..
theorem svcs_append (l l' : List (KEv C R S)) : svcs (l ++ l') = svcs l ++ svcs l' := List.filterMap_append ..

/-- A thread of a process: in no call, in a call, or waiting for the service. -/
inductive MThread (σ L Q A C R : Type) where
  | idle
  | run (c : C) (g : Mix σ L Q A (R × Unit))
  | asked (c : C) (q : Q) (k : A → Mix σ L Q A (R × Unit))

/-- The processes. -/
structure MConf (σ L Q A C R : Type) where
  st : Nat → σ
  held : Nat → Nat × L → List Bool
  thr : Nat → MThread σ L Q A C R

variable [DecidableEq L] [DecidableEq M]

/-- One step of a process. -/
inductive MStep (proc : Nat → Nat) (call : C → Mix σ L Q A (R × Unit)) (ok : Nat → C → Prop) (re : L → Prop) :
    MConf σ L Q A C R → KEv C R (Ev Q A) → MConf σ L Q A C R → Prop
  | inv (m : MConf σ L Q A C R) (i : Nat) (c : C) : m.thr i = .idle → ok i c →
      MStep proc call ok re m (.call (.inv i c)) { m with thr := upd m.thr i (.run c (call c)) }
  | act (m : MConf σ L Q A C R) (i : Nat) (c : C) (f : σ → σ) (k : σ → Mix σ L Q A (R × Unit)) : m.thr i = .run c (.act f k) →
      MStep proc call ok re m .tau { m with
        st := upd m.st (proc i) (f (m.st (proc i))), thr := upd m.thr i (.run c (k (m.st (proc i)))) }
  | acq (m : MConf σ L Q A C R) (i : Nat) (c : C) (l : L) (w : Bool) (k : Mix σ L Q A (R × Unit)) : m.thr i = .run c (.acq l w k) →
      (m.held i (proc i, l) = [] ∨ re l) → (∀ j, j ≠ i → true ∉ m.held j (proc i, l) ∧ (w = true → m.held j (proc i, l) = [])) →
      MStep proc call ok re m .tau { m with
        held := upd m.held i (taken (m.held i) (proc i, l) w), thr := upd m.thr i (.run c k) }
  | rel (m : MConf σ L Q A C R) (i : Nat) (c : C) (l : L) (w : Bool) (k : Mix σ L Q A (R × Unit)) : m.thr i = .run c (.rel l w k) →
      MStep proc call ok re m .tau { m with
        held := upd m.held i (given (m.held i) (proc i, l)), thr := upd m.thr i (.run c k) }
  | ret (m : MConf σ L Q A C R) (i : Nat) (c : C) (r : R) : m.thr i = .run c (.ret (r, ())) →
      MStep proc call ok re m (.call (.ret i r)) { m with thr := upd m.thr i .idle }
  | ask (m : MConf σ L Q A C R) (i : Nat) (c : C) (q : Q) (k : A → Mix σ L Q A (R × Unit)) : m.thr i = .run c (.ask q k) →
      MStep proc call ok re m (.svc (.inv i q)) { m with thr := upd m.thr i (.asked c q k) }
  | answer (m : MConf σ L Q A C R) (i : Nat) (c : C) (q : Q) (k : A → Mix σ L Q A (R × Unit)) (a : A) : m.thr i = .asked c q k →
      MStep proc call ok re m (.svc (.ret i a)) { m with thr := upd m.thr i (.run c (k a)) }

/-- Steps one after the other. -/
inductive MRun (proc : Nat → Nat) (call : C → Mix σ L Q A (R × Unit)) (ok : Nat → C → Prop) (re : L → Prop) (m0 : MConf σ L Q A C R) :
    List (KEv C R (Ev Q A)) → MConf σ L Q A C R → Prop
  | nil : MRun proc call ok re m0 [] m0
  | snoc (J : List (KEv C R (Ev Q A))) (m : MConf σ L Q A C R) (e : KEv C R (Ev Q A)) (m' : MConf σ L Q A C R) :
      MRun proc call ok re m0 J m → MStep proc call ok re m e m' → MRun proc call ok re m0 (J ++ [e]) m'

/-- The beginning. -/
def start (s : Nat → σ) : MConf σ L Q A C R := ⟨s, fun _ _ => [], fun _ => .idle⟩

/-- A thread of the whole, the thread of its process, and its operation in the service. -/
inductive TRel (svc : Sys τ M Unit Q A) (p i : Nat) :
    Option (C × Prog ((Nat → σ) × τ) (Nat × L ⊕ M) (R × Unit)) → MThread σ L Q A C R → Option (Q × Prog τ M (A × Unit)) → Prop
  | idle : TRel svc p i none .idle none
  | run (c : C) (g : Mix σ L Q A (R × Unit)) : g.Within (svc.ok i) → TRel svc p i (some (c, g.fine svc p i)) (.run c g) none
  | asked (c : C) (q : Q) (k : A → Mix σ L Q A (R × Unit)) (ps : Prog τ M (A × Unit)) : (∀ a, (k a).Within (svc.ok i)) →
      TRel svc p i (some (c, (ps.onPart (·.2) (fun t s => (s.1, t)) .inr).bind fun x => (k x.1).fine svc p i)) (.asked c q k) (some (q, ps))

/-- The whole, the processes and the service. -/
structure MRel (svc : Sys τ M Unit Q A) (proc : Nat → Nat) (κ : Conf ((Nat → σ) × τ) (Nat × L ⊕ M) Unit C R) (m : MConf σ L Q A C R)
    (κs : Conf τ M Unit Q A) : Prop where
  st1 : κ.st.1 = m.st
  st2 : κ.st.2 = κs.st
  heldL : ∀ i x, κ.held i (.inl x) = m.held i x
  heldR : ∀ i y, κ.held i (.inr y) = κs.held i y
  thr : ∀ i, TRel svc (proc i) i (κ.cur i) (m.thr i) (κs.cur i)

section
variable {svc : Sys τ M Unit Q A} {proc : Nat → Nat} {call : C → Mix σ L Q A (R × Unit)} {ok : Nat → C → Prop} {re : L → Prop}

/-- The whole after a run of the processes and an execution of the service. -/
structure At (svc : Sys τ M Unit Q A) (proc : Nat → Nat) (call : C → Mix σ L Q A (R × Unit)) (ok : Nat → C → Prop) (re : L → Prop)
    (m0 : MConf σ L Q A C R) (κs0 : Conf τ M Unit Q A) (κ : Conf ((Nat → σ) × τ) (Nat × L ⊕ M) Unit C R) (J : List (KEv C R (Ev Q A)))
    (m : MConf σ L Q A C R) (κs : Conf τ M Unit Q A) : Prop where
  run : MRun proc call ok re m0 J m
  exec : Exec svc κs0 (svcs J) κs
  rel : MRel svc proc κ m κs

/-- Thread `i` is about to do a step of its process, or a step of the service. -/
def Ready (m : MConf σ L Q A C R) (κs : Conf τ M Unit Q A) (i : Nat) (c : C) : Prop :=
  (∃ g, m.thr i = .run c g ∧ ∀ q k, g ≠ .ask q k) ∨ ∃ q k ps, m.thr i = .asked c q k ∧ κs.cur i = some (q, ps) ∧ ∀ x, ps ≠ .ret x

variable {m0 : MConf σ L Q A C R} {κs0 : Conf τ M Unit Q A} {κ κ' : Conf ((Nat → σ) × τ) (Nat × L ⊕ M) Unit C R}

theorem At.asks {J : List (KEv C R (Ev Q A))} {m : MConf σ L Q A C R} {κs : Conf τ M Unit Q A} (h : At svc proc call ok re m0 κs0 κ J m κs)
    {i : Nat} {c : C} {q : Q} {k : A → Mix σ L Q A (R × Unit)} (hi : m.thr i = .run c (.ask q k)) :
    At svc proc call ok re m0 κs0 κ (J ++ [.svc (.inv i q)]) { m with thr := upd m.thr i (.asked c q k) }
      { κs with cur := upd κs.cur i (some (q, svc.call i () q)) } := by
  have ht := h.rel.thr i
  rw [hi] at ht
  generalize hx : κ.cur i = x at ht
  generalize hy : κs.cur i = y at ht
  cases ht with
  | run c g hg =>
    refine ⟨.snoc _ _ _ _ h.run (.ask _ _ _ _ _ hi), ?_, ⟨h.rel.st1, h.rel.st2, h.rel.heldL, h.rel.heldR, fun j => ?_⟩⟩
    · rw [svcs_append]
      exact .snoc _ _ _ _ _ h.exec (.inv _ i q hy hg.1)
    · by_cases e : j = i
      · subst e
        simp only [upd_same, hx]
        exact .asked c q k _ hg.2
      · simp only [upd_other _ _ e]
        exact h.rel.thr j

theorem At.answered {J : List (KEv C R (Ev Q A))} {m : MConf σ L Q A C R} {κs : Conf τ M Unit Q A} (h : At svc proc call ok re m0 κs0 κ J m κs)
    {i : Nat} {c : C} {q : Q} {k : A → Mix σ L Q A (R × Unit)} {a : A} (hi : m.thr i = .asked c q k) (hs : κs.cur i = some (q, .ret (a, ()))) :
    At svc proc call ok re m0 κs0 κ (J ++ [.svc (.ret i a)]) { m with thr := upd m.thr i (.run c (k a)) }
      { κs with obj := upd κs.obj i (), cur := upd κs.cur i none } := by
  have ht := h.rel.thr i
  rw [hi, hs] at ht
  generalize hx : κ.cur i = x at ht
  cases ht with
  | asked c q k ps hg =>
    refine ⟨.snoc _ _ _ _ h.run (.answer _ _ _ _ _ _ hi), ?_, ⟨h.rel.st1, h.rel.st2, h.rel.heldL, h.rel.heldR, fun j => ?_⟩⟩
    · rw [svcs_append]
      exact .snoc _ _ _ _ _ h.exec (.ret _ i q a () hs)
    · by_cases e : j = i
      · subst e
        simp only [upd_same, hx]
        exact .run c (k a) (hg a)
      · simp only [upd_other _ _ e]
        exact h.rel.thr j

theorem settleRun {i : Nat} {c : C} (g : Mix σ L Q A (R × Unit)) : ∀ {J : List (KEv C R (Ev Q A))} {m : MConf σ L Q A C R} {κs : Conf τ M Unit Q A},
    At svc proc call ok re m0 κs0 κ J m κs → m.thr i = .run c g →
    ∃ J' m' κs', At svc proc call ok re m0 κs0 κ J' m' κs' ∧ calls J' = calls J ∧ Ready m' κs' i c := by
  induction g with
  | ask q k ih =>
    intro J m κs h hi
    have h1 := h.asks hi
    have hthr : (upd m.thr i (.asked c q k)) i = .asked c q k := upd_same ..
    have hcur : (upd κs.cur i (some (q, svc.call i () q))) i = some (q, svc.call i () q) := upd_same ..
    by_cases hr : ∃ x, svc.call i () q = .ret x
    · obtain ⟨⟨a, u⟩, hr⟩ := hr
      obtain ⟨J', m', κs', g1, g2, g3⟩ := ih a (h1.answered hthr (by dsimp only; rw [hcur, hr])) (upd_same ..)
      exact ⟨J', m', κs', g1, by rw [g2, calls_append, calls_append]; simp [calls], g3⟩
    · exact ⟨_, _, _, h1, by rw [calls_append]; simp [calls], .inr ⟨q, k, _, hthr, hcur, fun x e => hr ⟨x, e⟩⟩⟩
  | _ => exact fun h hi => ⟨_, _, _, h, rfl, .inl ⟨_, hi, nofun⟩⟩

theorem At.settle {J : List (KEv C R (Ev Q A))} {m : MConf σ L Q A C R} {κs : Conf τ M Unit Q A} (h : At svc proc call ok re m0 κs0 κ J m κs)
    {i : Nat} {c : C} {p : Prog ((Nat → σ) × τ) (Nat × L ⊕ M) (R × Unit)} (hi : κ.cur i = some (c, p)) :
    ∃ J' m' κs', At svc proc call ok re m0 κs0 κ J' m' κs' ∧ calls J' = calls J ∧ Ready m' κs' i c := by
  have ht := h.rel.thr i
  rw [hi] at ht
  generalize hx : m.thr i = x at ht
  generalize hy : κs.cur i = y at ht
  cases ht with
  | run c g hg => exact settleRun g h hx
  | asked c q k ps hg =>
    by_cases hr : ∃ x, ps = .ret x
    · obtain ⟨⟨a, u⟩, rfl⟩ := hr
      obtain ⟨J', m', κs', g1, g2, g3⟩ := settleRun (k a) (h.answered hx hy) (upd_same ..)
      exact ⟨J', m', κs', g1, by rw [g2, calls_append]; simp [calls], g3⟩
    · exact ⟨_, _, _, h, rfl, .inr ⟨q, k, ps, hx, hy, fun x e => hr ⟨x, e⟩⟩⟩

/-- A step of the whole is some steps of a process and of the service. -/
theorem At.step {J : List (KEv C R (Ev Q A))} {m : MConf σ L Q A C R} {κs : Conf τ M Unit Q A} (h : At svc proc call ok re m0 κs0 κ J m κs)
    (hw : ∀ i c, ok i c → (call c).Within (svc.ok i)) {e : Option (Ev C R)} (hs : Step (mixSys svc proc call ok re) κ e κ') :
    ∃ J' m' κs', At svc proc call ok re m0 κs0 κ' J' m' κs' ∧ calls J' = calls J ++ e.toList := by
  rcases hs.cases' with ⟨i, c, h1, h2, rfl, rfl⟩ | ⟨i, c, p, h1, h2⟩
  · have ht := h.rel.thr i
    rw [h1] at ht
    generalize hx : m.thr i = x at ht
    generalize hy : κs.cur i = y at ht
    cases ht
    refine ⟨_, _, κs, ⟨.snoc _ _ _ _ h.run (.inv _ i c hx h2), by rw [svcs_append]; simpa [svcs] using h.exec,
      ⟨h.rel.st1, h.rel.st2, h.rel.heldL, h.rel.heldR, fun j => ?_⟩⟩, calls_append ..⟩
    by_cases e : j = i
    · subst e
      simp only [upd_same, hy]
      exact .run c _ (hw j c h2)
    · simp only [upd_other _ _ e]
      exact h.rel.thr j
  · obtain ⟨J1, m1, κs1, h, hc, hr⟩ := h.settle h1
    rw [← hc]
    clear hc
    have ht := h.rel.thr i
    rw [h1] at ht
    rcases hr with ⟨g, hx, hg⟩ | ⟨q, k, ps, hx, hy, hp⟩
    · rw [hx] at ht
      generalize hy : κs1.cur i = y at ht
      cases ht with
      | run c g hin =>
      have other : ∀ {thr' : MThread σ L Q A C R} {cur' : Option (C × Prog ((Nat → σ) × τ) (Nat × L ⊕ M) (R × Unit))},
          TRel svc (proc i) i cur' thr' none → ∀ j, TRel svc (proc j) j (upd κ.cur i cur' j) (upd m1.thr i thr' j) (κs1.cur j) := by
        intro thr' cur' hn j
        by_cases e : j = i
        · subst e
          simpa only [upd_same, hy] using hn
        · simp only [upd_other _ _ e]
          exact h.rel.thr j
      cases g with
      | ask q k => exact absurd rfl (hg q k)
      | raise e => cases h2
      | ret x =>
        cases h2
        exact ⟨_, _, κs1, ⟨.snoc _ _ _ _ h.run (.ret _ i c _ hx), by rw [svcs_append]; simpa [svcs] using h.exec,
          ⟨h.rel.st1, h.rel.st2, h.rel.heldL, h.rel.heldR, other .idle⟩⟩, calls_append ..⟩
      | act f k =>
        cases h2
        refine ⟨_, _, κs1, ⟨.snoc _ _ _ _ h.run (.act _ i c f k hx), by rw [svcs_append]; simpa [svcs] using h.exec,
          ⟨by dsimp only; rw [h.rel.st1], h.rel.st2, h.rel.heldL, h.rel.heldR, ?_⟩⟩, by rw [calls_append]; rfl⟩
        dsimp only
        rw [h.rel.st1]
        exact other (.run c _ (hin _))
      | acq l w k =>
        cases h2 with
        | acq _ _ _ hcan =>
        refine ⟨_, _, κs1, ⟨.snoc _ _ _ _ h.run (.acq _ i c l w k hx (by rw [← h.rel.heldL]; exact hcan.1) fun j hj => by
            rw [← h.rel.heldL]; exact hcan.2 j hj), by rw [svcs_append]; simpa [svcs] using h.exec,
          ⟨h.rel.st1, h.rel.st2, fun j x => ?_, fun j y => ?_, other (.run c _ hin)⟩⟩, by rw [calls_append]; rfl⟩
        · by_cases e : j = i
          · subst e
            simp only [upd_same, taken, h.rel.heldL, Sum.inl.injEq]
          · simp only [upd_other _ _ e, h.rel.heldL]
        · by_cases e : j = i
          · subst e
            simp only [upd_same, taken, h.rel.heldR, reduceCtorEq, if_false]
          · simp only [upd_other _ _ e, h.rel.heldR]
      | rel l w k =>
        cases h2
        refine ⟨_, _, κs1, ⟨.snoc _ _ _ _ h.run (.rel _ i c l w k hx), by rw [svcs_append]; simpa [svcs] using h.exec,
          ⟨h.rel.st1, h.rel.st2, fun j x => ?_, fun j y => ?_, other (.run c _ hin)⟩⟩, by rw [calls_append]; rfl⟩
        · by_cases e : j = i
          · subst e
            simp only [upd_same, given, h.rel.heldL, Sum.inl.injEq]
          · simp only [upd_other _ _ e, h.rel.heldL]
        · by_cases e : j = i
          · subst e
            simp only [upd_same, given, h.rel.heldR, reduceCtorEq, if_false]
          · simp only [upd_other _ _ e, h.rel.heldR]
    · rw [hx, hy] at ht
      cases ht with
      | asked c q k ps hin =>
      have other : ∀ {ps' : Prog τ M (A × Unit)}, ∀ j, TRel svc (proc j) j
          (upd κ.cur i (some (c, (ps'.onPart (·.2) (fun t s => (s.1, t)) .inr).bind fun x => (k x.1).fine svc (proc i) i)) j) (m1.thr j)
          (upd κs1.cur i (some (q, ps')) j) := by
        intro ps' j
        by_cases e : j = i
        · subst e
          simp only [upd_same, hx]
          exact .asked c q k ps' hin
        · simp only [upd_other _ _ e]
          exact h.rel.thr j
      cases ps with
      | ret x => exact absurd rfl (hp x)
      | raise e => cases h2
      | act f k' =>
        cases h2
        have hex := Exec.snoc _ _ _ _ _ h.exec (.act _ i q f k' hy)
        rw [Option.toList_none, List.append_nil] at hex
        refine ⟨_, _, _, ⟨h.run, hex, ⟨h.rel.st1, by dsimp only; rw [h.rel.st2],
          h.rel.heldL, h.rel.heldR, ?_⟩⟩, by simp⟩
        dsimp only
        rw [h.rel.st2]
        exact other
      | acq l w k' =>
        cases h2 with
        | acq _ _ _ hcan =>
        have hex := Exec.snoc _ _ _ _ _ h.exec (.acq _ i q l w k' hy ⟨by rw [← h.rel.heldR]; exact hcan.1, fun j hj => by
            rw [← h.rel.heldR]; exact hcan.2 j hj⟩)
        rw [Option.toList_none, List.append_nil] at hex
        refine ⟨_, _, _, ⟨h.run, hex, ⟨h.rel.st1, h.rel.st2, fun j x => ?_, fun j y => ?_, other⟩⟩, by simp⟩
        · by_cases e : j = i
          · subst e
            simp only [upd_same, taken, h.rel.heldL, reduceCtorEq, if_false]
          · simp only [upd_other _ _ e, h.rel.heldL]
        · by_cases e : j = i
          · subst e
            simp only [upd_same, taken, h.rel.heldR, Sum.inr.injEq]
          · simp only [upd_other _ _ e, h.rel.heldR]
      | rel l w k' =>
        cases h2
        have hex := Exec.snoc _ _ _ _ _ h.exec (.rel _ i q l w k' hy)
        rw [Option.toList_none, List.append_nil] at hex
        refine ⟨_, _, _, ⟨h.run, hex, ⟨h.rel.st1, h.rel.st2, fun j x => ?_,
          fun j y => ?_, other⟩⟩, by simp⟩
        · by_cases e : j = i
          · subst e
            simp only [upd_same, given, h.rel.heldL, reduceCtorEq, if_false]
          · simp only [upd_other _ _ e, h.rel.heldL]
        · by_cases e : j = i
          · subst e
            simp only [upd_same, given, h.rel.heldR, Sum.inr.injEq]
          · simp only [upd_other _ _ e, h.rel.heldR]

/-- An execution of the whole is a run of the processes and an execution of the service. -/
theorem apart (hw : ∀ i c, ok i c → (call c).Within (svc.ok i)) {s : (Nat → σ) × τ} {tr : List (Ev C R)}
    (hx : Exec (mixSys svc proc call ok re) (init s fun _ => ()) tr κ) :
    ∃ J m κs, At svc proc call ok re (start s.1) (init s.2 fun _ => ()) κ J m κs ∧ calls J = tr := by
  generalize hκ : init s (fun _ => ()) = κ0 at hx
  induction hx with
  | nil =>
    subst hκ
    exact ⟨[], _, _, ⟨.nil, .nil _, ⟨rfl, rfl, fun _ _ => rfl, fun _ _ => rfl, fun _ => .idle⟩⟩, rfl⟩
  | snoc κ' κ'' tr e h1 h2 ih =>
    obtain ⟨J, m, κs, h, hc⟩ := ih
    obtain ⟨J', m', κs', h', hc'⟩ := h.step hw h2
    exact ⟨J', m', κs', h', by rw [hc', hc]⟩

/-! ## The moments of the operations -/

/-- The same event in a history. -/
def up : KEv C R (Ev Q A) → KEv C R (HEvent Q A Q A)
  | .call e => .call e
  | .tau => .tau
  | .svc (.inv i q) => .svc (.inv i q)
  | .svc (.ret i a) => .svc (.ret i a)

/-- A run of the processes with the moments in which the service performs the operations. -/
inductive KRun (proc : Nat → Nat) (call : C → Mix σ L Q A (R × Unit)) (ok : Nat → C → Prop) (re : L → Prop) (m0 : MConf σ L Q A C R) :
    List (KEv C R (HEvent Q A Q A)) → MConf σ L Q A C R → Prop
  | nil : KRun proc call ok re m0 [] m0
  | step (K : List (KEv C R (HEvent Q A Q A))) (m : MConf σ L Q A C R) (e : KEv C R (Ev Q A)) (m' : MConf σ L Q A C R) :
      KRun proc call ok re m0 K m → MStep proc call ok re m e m' → KRun proc call ok re m0 (K ++ [up e]) m'
  | op (K : List (KEv C R (HEvent Q A Q A))) (m : MConf σ L Q A C R) (i : Nat) (q : Q) (a : A) :
      KRun proc call ok re m0 K m → KRun proc call ok re m0 (K ++ [.svc (.op i q a)]) m

theorem KRun.ops {K : List (KEv C R (HEvent Q A Q A))} {m : MConf σ L Q A C R} (h : KRun proc call ok re m0 K m) {l : List (HEvent Q A Q A)}
    (hl : seen l = []) : KRun proc call ok re m0 (K ++ l.map .svc) m := by
  induction l generalizing K with
  | nil => simpa using h
  | cons x l ih =>
    cases x with
    | op i q a => simpa using ih (h.op _ _ i q a) hl
    | inv i q => cases hl
    | ret i a => cases hl

theorem calls_svc (l : List S) : calls (l.map .svc : List (KEv C R S)) = [] := by
  induction l with
  | nil => rfl
  | cons x l ih => simpa [calls] using ih

theorem svcs_svc (l : List S) : svcs (l.map .svc : List (KEv C R S)) = l := by
  induction l with
  | nil => rfl
  | cons x l ih => simpa [svcs] using ih

/-- The moments of a history can be put into a run. -/
theorem weave {J : List (KEv C R (Ev Q A))} {m : MConf σ L Q A C R} (hr : MRun proc call ok re m0 J m) : ∀ {h : List (HEvent Q A Q A)},
    seen h = svcs J → ∃ K, KRun proc call ok re m0 K m ∧ calls K = calls J ∧ svcs K = h := by
  induction hr with
  | nil =>
    intro h hh
    exact ⟨[] ++ h.map .svc, KRun.nil.ops hh, by rw [List.nil_append]; exact calls_svc h, by simpa using svcs_svc h⟩
  | snoc J m e m' h1 h2 ih =>
    intro h hh
    rw [svcs_append] at hh
    have plain : svcs [e] = [] → calls [up e] = calls [e] → svcs [up e] = [] →
        ∃ K, KRun proc call ok re m0 K m' ∧ calls K = calls (J ++ [e]) ∧ svcs K = h := by
      intro e1 e2 e3
      rw [e1, List.append_nil] at hh
      obtain ⟨K, k1, k2, k3⟩ := ih hh
      exact ⟨K ++ [up e], k1.step _ _ _ _ h2, by rw [calls_append, calls_append, k2, e2], by rw [svcs_append, k3, e3, List.append_nil]⟩
    cases e with
    | call e => exact plain rfl rfl rfl
    | tau => exact plain rfl rfl rfl
    | svc e =>
      obtain ⟨h1', x, h2', rfl, g1, g2, g3⟩ := seen_split (a := svcs J) (e := e) (b := []) (by simpa [svcs] using hh)
      obtain ⟨K, k1, k2, k3⟩ := ih g1
      have hup : up (.svc e : KEv C R (Ev Q A)) = .svc x := by
        cases x <;> cases g2 <;> rfl
      have := (k1.step _ _ _ _ h2).ops g3
      rw [hup] at this
      refine ⟨_, this, ?_, ?_⟩
      · rw [calls_append, calls_append, calls_svc, k2, calls_append]
        simp [calls]
      · rw [svcs_append, svcs_append, svcs_svc, k3]
        simp [svcs]

end
end Mixed
end SyncStream
