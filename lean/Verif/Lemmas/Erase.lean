import Verif.Lemmas.Blocks
import Verif.Lemmas.HostWorld
import Verif.Model.WebThreads
/-!
# Leaving out a part of the state

A program with more state, which behaves like another one if this state is left out.
-/

namespace SyncStream
open Conc

/-- The first program is the second one, with more steps on the part of the state that `π` leaves out. -/
inductive Prog.Erases {σ τ L α : Type} (π : σ → τ) : Prog σ L α → Prog τ L α → Prop
  | ret (a : α) : Erases π (.ret a) (.ret a)
  | raise (e : Exc) : Erases π (.raise e) (.raise e)
  | act (f : σ → σ) (g : τ → τ) (k : σ → Prog σ L α) (h : τ → Prog τ L α) : (∀ s, π (f s) = g (π s)) → (∀ s, Erases π (k s) (h (π s))) →
      Erases π (.act f k) (.act g h)
  | skip (f : σ → σ) (k : σ → Prog σ L α) (q : Prog τ L α) : (∀ s, π (f s) = π s) → (∀ s, Erases π (k s) q) → Erases π (.act f k) q
  | acq (l : L) (w : Bool) (p : Prog σ L α) (q : Prog τ L α) : Erases π p q → Erases π (.acq l w p) (.acq l w q)
  | rel (l : L) (w : Bool) (p : Prog σ L α) (q : Prog τ L α) : Erases π p q → Erases π (.rel l w p) (.rel l w q)

namespace Prog.Erases
variable {σ τ L α β : Type} {π : σ → τ}

theorem bind {p : Prog σ L α} {q : Prog τ L α} {g : α → Prog σ L β} {h : α → Prog τ L β} (hp : Erases π p q) (hg : ∀ a, Erases π (g a) (h a)) :
    Erases π (p.bind g) (q.bind h) := by
  induction hp with
  | ret a => exact hg a
  | raise e => exact .raise e
  | act f f' k k' h1 _ ih => exact .act _ _ _ _ h1 ih
  | skip f k q h1 _ ih => exact .skip _ _ _ h1 ih
  | acq l w p q _ ih => exact .acq _ _ _ _ ih
  | rel l w p q _ ih => exact .rel _ _ _ _ ih

end Prog.Erases

/-- Only steps that are left out; the program ends with a result for which `Q` holds. -/
def Prog.Skips {σ τ L α : Type} (π : σ → τ) (Q : α → Prop) : Prog σ L α → Prop
  | .ret a => Q a
  | .raise _ => False
  | .act f k => (∀ s, π (f s) = π s) ∧ ∀ s, (k s).Skips π Q
  | .acq _ _ _ => False
  | .rel _ _ _ => False

namespace Prog.Skips
variable {σ τ L α β : Type} {π : σ → τ}

theorem bind {Q : β → Prop} {p : Prog σ L α} {g : α → Prog σ L β} (h : p.Skips π fun a => (g a).Skips π Q) : (p >>= g).Skips π Q := by
  change (p.bind g).Skips π Q
  induction p with
  | ret a => exact h
  | raise e => exact h
  | act f k ih => exact ⟨h.1, fun s => ih s (h.2 s)⟩
  | acq l w k ih => exact h
  | rel l w k ih => exact h

theorem imp {Q Q' : α → Prop} {p : Prog σ L α} (h : p.Skips π Q) (hQ : ∀ a, Q a → Q' a) : p.Skips π Q' := by
  induction p with
  | ret a => exact hQ a h
  | raise e => exact h
  | act f k ih => exact ⟨h.1, fun s => ih s (h.2 s)⟩
  | acq l w k ih => exact h
  | rel l w k ih => exact h

theorem erases {Q : α → Prop} {p : Prog σ L α} {g : α → Prog σ L β} {q : Prog τ L β} (h : p.Skips π Q) (hg : ∀ a, Q a → Erases π (g a) q) :
    Erases π (p.bind g) q := by
  induction p with
  | ret a => exact hg a h
  | raise e => exact h.elim
  | act f k ih => exact .skip _ _ _ h.1 fun s => ih s (h.2 s)
  | acq l w k ih => exact h.elim
  | rel l w k ih => exact h.elim

end Prog.Skips

/-! ## Mirrors without responses and pools -/

namespace WMThr
open Prog

theorem web_skips {α : Type} {m : Py WebT α} (hm : ∀ w, ∃ a, (m w).1 = .ok a) : (web m).Skips Prod.fst fun _ => True := by
  refine ⟨fun s => rfl, fun s => ?_⟩
  obtain ⟨a, ha⟩ := hm s.2
  show Skips _ _ (match (m s.2).1 with
    | .ok a => ret a
    | .error e => raise e)
  rw [ha]
  trivial

theorem http_skips : http.Skips Prod.fst fun _ => True := by
  refine .bind ((web_skips fun w => ⟨_, rfl⟩).imp fun o _ => ?_)
  cases o with
  | none =>
    refine .bind ((web_skips fun w => ⟨_, rfl⟩).imp fun p _ => ?_)
    refine .bind ((web_skips fun w => ⟨_, rfl⟩).imp fun _ _ => ?_)
    refine .bind ((web_skips fun w => ⟨_, rfl⟩).imp fun q _ => ?_)
    refine .bind ((web_skips fun w => ⟨_, rfl⟩).imp fun _ _ => ?_)
    exact .bind ((web_skips fun w => ⟨_, rfl⟩).imp fun _ _ => trivial)
  | some p => exact .bind ((web_skips fun w => ⟨_, rfl⟩).imp fun _ _ => trivial)

theorem block_skips (r : Req) (resp : Resp) (n : Nat) : (block r resp n).Skips Prod.fst fun _ => True := by
  have back : (do web (WebT.note (.released n)); web (WebT.note (.closed n)) : WMProg Unit).Skips Prod.fst fun _ => True :=
    .bind ((web_skips fun w => ⟨_, rfl⟩).imp fun _ _ => web_skips fun w => ⟨_, rfl⟩)
  unfold block
  split
  · exact .bind ((web_skips fun w => ⟨_, rfl⟩).imp fun _ _ => back)
  · exact back

/-- The request remains. -/
theorem request_erases (env : HEnv) (r : Req) {α : Type} {g : Except Exc Resp → WMProg α} {h : Except Exc Resp → HMProg α}
    (hg : ∀ x, Erases Prod.fst (g x) (h x)) :
    Erases Prod.fst ((request env r).bind g) (.act (fun s => (s.1, (HNet.request env r s.2).2)) fun s => h (HNet.request env r s.2).1) := by
  have key : ∀ p, Erases Prod.fst ((do
      match ← answered env p r with
      | .error e => return .error e
      | .ok (resp, n) => do
        block r resp n
        return .ok resp : WMProg (Except Exc Resp)).bind g)
      (.act (fun s => (s.1, (HNet.request env r s.2).2)) fun s => h (HNet.request env r s.2).1) := by
    intro p
    refine .act _ _ _ _ (fun s => ?_) fun s => ?_
    · show (s.1.1, (WebT.request env p r (s.1.2, s.2)).2.1) = (s.1.1, (HNet.request env r s.1.2).2)
      unfold WebT.request
      rcases HNet.request env r s.1.2 with ⟨_ | resp, n⟩ <;> rfl
    · show Erases Prod.fst ((match (WebT.request env p r (s.1.2, s.2)).1 with
        | .error e => (pure (.error e) : WMProg (Except Exc Resp))
        | .ok (resp, n) => do
          block r resp n
          return .ok resp).bind g) (h (HNet.request env r s.1.2).1)
      unfold WebT.request
      rcases HNet.request env r s.1.2 with ⟨_ | resp, n⟩
      · exact hg _
      · have hb : (do
            block r resp s.2.resps
            return .ok resp : WMProg (Except Exc Resp)).Skips Prod.fst (fun x => x = .ok resp) :=
          .bind ((block_skips r resp s.2.resps).imp fun _ _ => show Except.ok resp = Except.ok resp from rfl)
        exact hb.erases fun x hx => hx ▸ hg _
  unfold request
  rw [show ∀ (a : WMProg Nat) (b : Nat → WMProg (Except Exc Resp)), (a >>= b).bind g = a.bind fun x => (b x).bind g from
    fun a b => Prog.bind_assoc' a b g]
  exact http_skips.erases fun p _ => key p

end WMThr

theorem web_erases (env : HEnv) {α : Type} (g : HMixed α) : Prog.Erases Prod.fst (g.web env) (g.alone env) := by
  induction g with
  | ret a => exact .ret a
  | raise e => exact .raise e
  | act f k ih => exact .act _ _ _ _ (fun s => rfl) fun s => ih s.1.1
  | acq l w k ih => exact .acq _ _ _ _ ih
  | rel l w k ih => exact .rel _ _ _ _ ih
  | ask r k ih => exact WMThr.request_erases env r ih

/-! ## Executions -/

namespace Conc
variable {σ τ L O C R : Type} [DecidableEq L] {π : σ → τ} {sys : Sys σ L O C R} {sys' : Sys τ L O C R}

/-- The same configuration, with a part of the state left out. -/
structure Erased (π : σ → τ) (κ : Conf σ L O C R) (κ' : Conf τ L O C R) : Prop where
  st : κ'.st = π κ.st
  held : κ'.held = κ.held
  obj : κ'.obj = κ.obj
  idle : ∀ i, κ.cur i = none → κ'.cur i = none
  cur : ∀ i c p, κ.cur i = some (c, p) → ∃ q, κ'.cur i = some (c, q) ∧ Prog.Erases π p q

theorem exec_erases (hok : ∀ i c, sys.ok i c → sys'.ok i c) (hre : ∀ l, sys.reentrant l → sys'.reentrant l)
    (hcall : ∀ i o c, Prog.Erases π (sys.call i o c) (sys'.call i o c)) {s : σ} {obj : Nat → O} {tr : List (Ev C R)} {κ : Conf σ L O C R}
    (h : Exec sys (init s obj) tr κ) : ∃ κ', Exec sys' (init (π s) obj) tr κ' ∧ Erased π κ κ' := by
  generalize hk : (init s obj : Conf σ L O C R) = κ0 at h
  induction h with
  | nil =>
    subst hk
    exact ⟨_, .nil _, rfl, rfl, rfl, fun _ _ => rfl, nofun⟩
  | snoc κ1 κ2 tr e h1 h2 ih =>
    obtain ⟨κ', h3, h4⟩ := ih
    have next : ∀ {i c} {p : Prog σ L (R × O)} {q : Prog τ L (R × O)}, Prog.Erases π p q →
        (∀ j, upd κ1.cur i (some (c, p)) j = none → upd κ'.cur i (some (c, q)) j = none) ∧
        ∀ j c' p', upd κ1.cur i (some (c, p)) j = some (c', p') → ∃ q', upd κ'.cur i (some (c, q)) j = some (c', q') ∧ Prog.Erases π p' q' := by
      intro i c p q hpq
      refine ⟨fun j hj => ?_, fun j c' p' hj => ?_⟩
      · by_cases e : j = i
        · subst e; rw [upd_same] at hj; cases hj
        · rw [upd_other _ _ e] at hj ⊢; exact h4.idle j hj
      · by_cases e : j = i
        · subst e; rw [upd_same] at hj ⊢; cases hj; exact ⟨q, rfl, hpq⟩
        · rw [upd_other _ _ e] at hj ⊢; exact h4.cur j c' p' hj
    cases h2 with
    | inv i c hi ho =>
      have hn := next (i := i) (c := c) (hcall i (κ1.obj i) c)
      refine ⟨_, .snoc _ _ _ _ _ h3 (.inv κ' i c (h4.idle i hi) (hok i c ho)), h4.st, h4.held, h4.obj, ?_, ?_⟩
      · dsimp only; rw [h4.obj]; exact hn.1
      · dsimp only; rw [h4.obj]; exact hn.2
    | act i c f k hi =>
      obtain ⟨q, hq, hpq⟩ := h4.cur i c _ hi
      cases hpq with
      | act _ g _ h' e1 e2 =>
        have hn := next (i := i) (c := c) (e2 κ1.st)
        refine ⟨_, .snoc _ _ _ _ _ h3 (.act κ' i c g h' hq), ?_, h4.held, h4.obj, ?_, ?_⟩
        · dsimp only; rw [h4.st, e1]
        · dsimp only; rw [h4.st]; exact hn.1
        · dsimp only; rw [h4.st]; exact hn.2
      | skip _ _ _ e1 e2 =>
        have hn := next (i := i) (c := c) (e2 κ1.st)
        have hu : upd κ'.cur i (some (c, q)) = κ'.cur := by
          funext j
          by_cases e : j = i
          · subst e; rw [upd_same, hq]
          · rw [upd_other _ _ e]
        rw [hu] at hn
        refine ⟨κ', by simpa using h3, ?_, h4.held, h4.obj, hn.1, hn.2⟩
        dsimp only; rw [h4.st, e1]
    | acq i c l w k hi ht =>
      obtain ⟨q, hq, hpq⟩ := h4.cur i c _ hi
      cases hpq with
      | acq _ _ _ q' e =>
        have hn := next (i := i) (c := c) e
        refine ⟨_, .snoc _ _ _ _ _ h3 (.acq κ' i c l w q' hq ?_), h4.st, ?_, h4.obj, hn.1, hn.2⟩
        · unfold CanTake at ht ⊢
          rw [h4.held]
          exact ⟨ht.1.imp id (hre l), ht.2⟩
        · dsimp only; rw [h4.held]
    | rel i c l w k hi =>
      obtain ⟨q, hq, hpq⟩ := h4.cur i c _ hi
      cases hpq with
      | rel _ _ _ q' e =>
        have hn := next (i := i) (c := c) e
        refine ⟨_, .snoc _ _ _ _ _ h3 (.rel κ' i c l w q' hq), h4.st, ?_, h4.obj, hn.1, hn.2⟩
        dsimp only; rw [h4.held]
    | ret i c r o hi =>
      obtain ⟨q, hq, hpq⟩ := h4.cur i c _ hi
      cases hpq
      refine ⟨_, .snoc _ _ _ _ _ h3 (.ret κ' i c r o hq), h4.st, h4.held, ?_, fun j hj => ?_, fun j c' p' hj => ?_⟩
      · dsimp only; rw [h4.obj]
      · dsimp only at hj ⊢
        by_cases e : j = i
        · subst e; rw [upd_same]
        · rw [upd_other _ _ e] at hj ⊢; exact h4.idle j hj
      · dsimp only at hj ⊢
        by_cases e : j = i
        · subst e; rw [upd_same] at hj; cases hj
        · rw [upd_other _ _ e] at hj ⊢; exact h4.cur j c' p' hj

end Conc

end SyncStream
