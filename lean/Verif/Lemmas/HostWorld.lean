import Verif.Lemmas.MixRun
import Verif.Model.HostWorld
import Verif.Props.HostSystem
import Verif.Spec.HostWorld
/-!
# The host mode as a whole, seen from one process

The methods of `Model/HostWorld.lean` are those of `Model/HostMirrorThreads.lean`, and what the threads of a process do in the host mode as
a whole is an execution of `hostMirrorThreads`, with an oracle that tells what the service does for the others.
-/

namespace SyncStream

open Spec Conc

/-- A program with requests that are answered at once by a service with an oracle. -/
def Mix.alone {α : Type} (env : HEnv) : Mix HMProc Nat Req (Except Exc Resp) α → HMProg α
  | .ret a => .ret a
  | .raise e => .raise e
  | .act f k => .act (fun s => (f s.1, s.2)) fun s => (k s.1).alone env
  | .acq l w k => .acq l w (k.alone env)
  | .rel l w k => .rel l w (k.alone env)
  | .ask r k => .act (fun s => (s.1, (HNet.request env r s.2).2)) fun s => (k (HNet.request env r s.2).1).alone env

namespace HMixed
open Mix
variable {α β : Type} (env : HEnv)

theorem bind_eq' (p : HMixed α) (g : α → HMixed β) : (p >>= g) = p.bind g := rfl

theorem alone_bind (p : HMixed α) (g : α → HMixed β) : (p >>= g).alone env = p.alone env >>= fun a => (g a).alone env := by
  simp only [bind_eq', Prog.bind_eq]
  induction p with
  | ret a => rfl
  | raise e => rfl
  | act f k ih => simp only [Mix.bind, alone, Prog.bind, ih]
  | acq l w k ih => simp only [Mix.bind, alone, Prog.bind, ih]
  | rel l w k ih => simp only [Mix.bind, alone, Prog.bind, ih]
  | ask q k ih => simp only [Mix.bind, alone, Prog.bind, ih]

theorem alone_outcome (p : HMixed α) : p.outcome.alone env = (p.alone env).outcome := by
  induction p with
  | ret a => rfl
  | raise e => rfl
  | act f k ih => simp only [Mix.outcome, alone, Prog.outcome, ih]
  | acq l w k ih => simp only [Mix.outcome, alone, Prog.outcome, ih]
  | rel l w k ih => simp only [Mix.outcome, alone, Prog.outcome, ih]
  | ask q k ih => simp only [Mix.outcome, alone, Prog.outcome, ih]

theorem alone_andRelease (l : Nat) (w : Bool) (p : HMixed α) : (p.andRelease l w).alone env = (p.alone env).andRelease l w := by
  induction p with
  | ret a => rfl
  | raise e => rfl
  | act f k ih => simp only [Mix.andRelease, alone, Prog.andRelease, ih]
  | acq l w k ih => simp only [Mix.andRelease, alone, Prog.andRelease, ih]
  | rel l w k ih => simp only [Mix.andRelease, alone, Prog.andRelease, ih]
  | ask q k ih => simp only [Mix.andRelease, alone, Prog.andRelease, ih]

theorem alone_withLock (l : Nat) (w : Bool) (p : HMixed α) : (Mix.withLock l w p).alone env = Prog.withLock l w (p.alone env) := by
  simp only [Mix.withLock, alone, Prog.withLock, alone_andRelease]

theorem alone_pure (a : α) : (pure a : HMixed α).alone env = pure a := rfl

theorem alone_raise (e : Exc) : (Mix.raise e : HMixed α).alone env = .raise e := rfl

theorem alone_gets (f : HMProc → α) : (gets f).alone env = HMThr.gets fun s => f s.1 := rfl

theorem alone_onBuf (m : Py StringIO α) : (onBuf m).alone env = HMThr.onBuf m := by
  simp only [onBuf, atom, Mix.atom, alone, HMThr.onBuf, HMThr.atom, Prog.atom, HMirror.onBuf]
  congr 1
  funext s
  simp only [Py.onPart_apply]
  cases (m s.1.mirror.buf).1 <;> rfl

theorem alone_request (r : Req) : (request r).alone env = HMThr.request env r := by
  simp only [request, alone, HMThr.request, HMThr.atom, Prog.atom, HMirror.request]
  congr 1
  funext s
  simp only [Py.onPart_apply]
  cases (HNet.request env r s.2).1 <;> rfl

theorem alone_ite {p : Prop} [Decidable p] (a b : HMixed α) : (if p then a else b).alone env = if p then a.alone env else b.alone env := by
  split <;> rfl

theorem alone_lazyLock : lazyLock.alone env = HMThr.lazyLock := by
  simp only [lazyLock, HMThr.lazyLock, alone_bind, alone_gets, alone_ite, alone_pure]
  rfl

theorem alone_locked (p : HMixed α) : (locked p).alone env = HMThr.locked (p.alone env) := by
  simp only [locked, HMThr.locked, alone_bind, alone_lazyLock, alone_withLock]

theorem alone_fail (r : Resp) : (fail r : HMixed α).alone env = HMThr.fail r := by
  unfold fail HMThr.fail
  cases r.body <;> rfl

theorem alone_expectOk (r : Req) : (expectOk r).alone env = HMThr.expectOk env r := by
  simp only [expectOk, HMThr.expectOk, alone_bind, alone_request, alone_ite, alone_pure, alone_fail]

theorem alone_closed : closed.alone env = HMThr.closed := by simp only [closed, HMThr.closed, alone_locked, alone_gets]
theorem alone_readable : readable.alone env = HMThr.readable := by simp only [readable, HMThr.readable, alone_locked, alone_gets]
theorem alone_writable : writable.alone env = HMThr.writable := by simp only [writable, HMThr.writable, alone_locked, alone_gets]
theorem alone_clear : clear.alone env = HMThr.clear := by simp only [clear, HMThr.clear, alone_locked, alone_bind, alone_onBuf]
theorem alone_flush : flush.alone env = HMThr.flush := by simp only [flush, HMThr.flush, alone_locked, alone_onBuf]

theorem alone_sendData (d : PyStr) : (sendData d).alone env = HMThr.sendData env d := by
  simp only [sendData, HMThr.sendData, alone_bind, alone_closed, alone_ite, alone_pure, alone_expectOk]

theorem alone_checkAnswer (r : Resp) : (checkAnswer r).alone env = HMThr.checkAnswer r := by
  unfold checkAnswer HMThr.checkAnswer
  rw [alone_ite, alone_fail]
  congr 1
  cases r.body with
  | none => rfl
  | some j =>
    dsimp only
    generalize j.get (lit "data") Json.null = v
    cases v with
    | bool b => cases b <;> rfl
    | _ => rfl

theorem alone_checkStates : checkStates.alone env = HMThr.checkStates env := by
  simp only [checkStates, HMThr.checkStates, alone_bind, alone_closed, alone_ite, alone_pure, alone_request, alone_checkAnswer]

theorem alone_writeCore (d : PyStr) (k : Bool) : (writeCore d k).alone env = HMThr.writeCore env d k := by
  simp only [writeCore, HMThr.writeCore, alone_bind, alone_gets, alone_ite, alone_pure, alone_checkStates, alone_sendData, alone_onBuf]

theorem alone_write (d : PyStr) : (write d).alone env = HMThr.write env d := by
  simp only [write, HMThr.write, alone_bind, alone_writable, alone_ite, alone_locked, alone_writeCore, alone_raise]

theorem alone_newLine (k : Bool) : (newLine k).alone env = HMThr.newLine env k := by
  simp only [newLine, HMThr.newLine, alone_bind, alone_onBuf, alone_ite, alone_locked, alone_writeCore, alone_pure]

theorem alone_sendEnd (k : Bool) (m : Json) : (sendEnd k m).alone env = HMThr.sendEnd env k m := by
  simp only [sendEnd, HMThr.sendEnd, alone_bind, alone_closed, alone_ite, alone_newLine, alone_expectOk, alone_pure]

theorem alone_close (e : Option ExcObj) : (close e).alone env = HMThr.close env e := by
  cases e <;>
  simp only [close, HMThr.close, alone_bind, alone_closed, alone_ite, sendEof, sendError, HMThr.sendEof, HMThr.sendError, alone_sendEnd,
    alone_clear, alone_locked, alone_onBuf, alone_pure]

theorem alone_read : HMixed.read.alone env = HMThr.read := by
  simp only [HMixed.read, HMThr.read, alone_bind, alone_readable, alone_ite, alone_locked, alone_onBuf, alone_raise]

/-- The methods are those of `Model/HostMirrorThreads.lean`. -/
theorem alone_prog (c : HMCall) : (prog c).alone env = HMThr.prog env c := by
  cases c <;> simp only [prog, HMThr.prog, alone_bind, alone_outcome, alone_pure, alone_write, alone_newLine, alone_read, alone_clear, alone_flush,
    alone_sendData, sendEof, sendError, sendWarning, HMThr.sendEof, HMThr.sendError, HMThr.sendWarning, alone_sendEnd, alone_checkStates,
    alone_close, alone_closed, alone_readable, alone_writable]
  rfl

end HMixed

/-! ## What is asked for -/

namespace Mixed
variable {σ L Q A : Type} {P : Q → Prop} {α β : Type}

theorem within_bind {p : Mix σ L Q A α} {g : α → Mix σ L Q A β} (hp : p.Within P) (hg : ∀ a, (g a).Within P) : (p.bind g).Within P := by
  induction p with
  | ret a => exact hg a
  | raise e => exact trivial
  | act f k ih => exact fun s => ih s (hp s)
  | acq l w k ih => exact ih hp
  | rel l w k ih => exact ih hp
  | ask q k ih => exact ⟨hp.1, fun a => ih a (hp.2 a)⟩

theorem within_outcome {p : Mix σ L Q A α} (hp : p.Within P) : p.outcome.Within P := by
  induction p with
  | ret a => exact trivial
  | raise e => exact trivial
  | act f k ih => exact fun s => ih s (hp s)
  | acq l w k ih => exact ih hp
  | rel l w k ih => exact ih hp
  | ask q k ih => exact ⟨hp.1, fun a => ih a (hp.2 a)⟩

theorem within_andRelease {l : L} {w : Bool} {p : Mix σ L Q A α} (hp : p.Within P) : (p.andRelease l w).Within P := by
  induction p with
  | ret a => exact trivial
  | raise e => exact trivial
  | act f k ih => exact fun s => ih s (hp s)
  | acq l w k ih => exact ih hp
  | rel l w k ih => exact ih hp
  | ask q k ih => exact ⟨hp.1, fun a => ih a (hp.2 a)⟩

theorem within_ofExcept (x : Except Exc α) : (Mix.ofExcept x : Mix σ L Q A α).Within P := by cases x <;> exact trivial

theorem within_atom (m : Py σ α) : (Mix.atom m : Mix σ L Q A α).Within P := fun _ => within_ofExcept _

theorem within_sent {P : Req → Prop} {Q : HOp → Prop} (hP : ∀ r, P r → Q (.req r.wire)) (p : Mix σ L Req (Except Exc Resp) α) :
    p.Within P → ∀ os, (p.sent os).Within Q := by
  induction p with
  | ret a => exact fun _ _ => trivial
  | raise e => exact fun _ _ => trivial
  | act f k ih => exact fun hp os s => ih s (hp s) os
  | acq l w k ih => exact fun hp os => ih hp os
  | rel l w k ih => exact fun hp os => ih hp os
  | ask r k ih =>
    intro hp os
    cases ho : os.headD .ok with
    | ok => simp only [Mix.sent, ho]; exact ⟨hP _ hp.1, fun x => ih _ (hp.2 _) _⟩
    | lost e => simp only [Mix.sent, ho]; exact fun _ => ih _ (hp.2 _) _
    | noReply e => simp only [Mix.sent, ho]; exact ⟨hP _ hp.1, fun x => ih _ (hp.2 _) _⟩

theorem within_ofAsk {p : Ask Q A α} (hp : p.Within P) : (Mix.ofAsk p : Mix σ L Q A α).Within P := by
  induction p with
  | done a => exact trivial
  | ask q k ih => exact ⟨hp.1, fun a => ih a (hp.2 a)⟩

end Mixed

namespace HMixed
variable {α β : Type}

/-- All requests are those of mirrors. -/
abbrev Pol (p : HMixed α) : Prop := p.Within Req.Polite

theorem Pol.bind {p : HMixed α} {g : α → HMixed β} (h : Pol p) (hg : ∀ a, Pol (g a)) : Pol (p >>= g) := Mixed.within_bind h hg
theorem Pol.pure (a : α) : Pol (pure a : HMixed α) := trivial
theorem Pol.raise (e : Exc) : Pol (Mix.raise e : HMixed α) := trivial
theorem Pol.gets (f : HMProc → α) : Pol (gets f) := Mixed.within_atom _
theorem Pol.onBuf (p : Py StringIO α) : Pol (onBuf p) := Mixed.within_atom _
theorem Pol.request {r : Req} (h : r.Polite) : Pol (request r) := ⟨h, fun _ => Mixed.within_ofExcept _⟩
theorem Pol.ite {c : Prop} [Decidable c] {p q : HMixed α} (h1 : Pol p) (h2 : Pol q) : Pol (if c then p else q) := by
  by_cases h : c
  · rw [if_pos h]; exact h1
  · rw [if_neg h]; exact h2
theorem pol_lazyLock : Pol lazyLock := .bind (.gets _) fun _ =>
  .ite (.bind (Mixed.within_atom _) fun _ => .bind (.gets _) fun _ => .pure _) (.bind (.gets _) fun _ => .pure _)
theorem Pol.locked {p : HMixed α} (h : Pol p) : Pol (locked p) := .bind pol_lazyLock fun _ => Mixed.within_andRelease h

theorem pol_fail (r : Resp) : Pol (fail r : HMixed α) := by
  unfold fail
  cases r.body <;> exact .raise _

theorem pol_expectOk (m : HMsg) : Pol (expectOk (.post (.json m.post))) :=
  .bind (.request (.inr ⟨m, rfl⟩)) fun _ => .ite (.pure _) (pol_fail _)

theorem pol_clear : Pol clear := .locked (.bind (.onBuf _) fun _ => .onBuf _)
theorem pol_closed : Pol closed := .locked (.gets _)

theorem pol_sendData (d : PyStr) : Pol (sendData d) := .bind pol_closed fun _ => .ite (.pure _) (pol_expectOk (.text d))

theorem pol_checkStates : Pol checkStates := by
  refine .bind pol_closed fun _ => .ite (.pure _) (.bind (.request (.inl rfl)) fun r => .ite ?_ (pol_fail _))
  cases r.body with
  | none => exact .raise _
  | some j =>
    dsimp only
    generalize j.get (lit "data") .null = x
    cases x with
    | bool b => cases b <;> first | exact .raise _ | exact .pure _
    | _ => exact .pure _

theorem pol_writeCore (d : PyStr) (check : Bool) : Pol (writeCore d check) :=
  .bind (.ite pol_checkStates (.pure _)) fun _ => .bind (.gets _) fun _ =>
    .ite (.bind (pol_sendData d) fun _ => .pure _)
      (.ite (.bind (.onBuf _) fun _ => .bind (.onBuf _) fun _ => .bind (pol_sendData _) fun _ => .bind (.onBuf _) fun _ => .bind (.onBuf _) fun _ => .pure _)
        (.ite (.onBuf _) (.pure _)))

theorem pol_newLine (check : Bool) : Pol (newLine check) :=
  .locked (.bind (.onBuf _) fun _ => .ite (.bind (pol_writeCore _ _) fun _ => .pure _) (.pure _))

theorem pol_sendEnd (check : Bool) (m : HMsg) : Pol (sendEnd check m.post) :=
  .bind pol_closed fun _ => .ite (.pure _) (.bind (pol_newLine check) fun _ => pol_expectOk _)

theorem pol_close (exc : Option ExcObj) : Pol (close exc) := by
  cases exc with
  | none => exact .bind pol_closed fun _ => .ite (.pure _) (.bind (pol_sendEnd _ .close) fun _ => .bind pol_clear fun _ => .locked (.onBuf _))
  | some e => exact .bind pol_closed fun _ => .ite (.pure _) (.bind (pol_sendEnd _ (.error _)) fun _ => .bind pol_clear fun _ => .locked (.onBuf _))

theorem Pol.result {p : HMixed α} (h : Pol p) (f : α → HMRet) : Pol (p.outcome >>= fun x => (return HMRet.of f x : HMixed HMRet)) :=
  .bind (Mixed.within_outcome h) fun _ => .pure _

theorem prog_polite (c : HMCall) : Pol (prog c) := by
  cases c with
  | write d => exact Pol.result (.bind (.locked (.gets _)) fun _ => .ite (.raise _) (.locked (pol_writeCore d true))) _
  | newLine k => exact Pol.result (pol_newLine k) _
  | read => exact Pol.result (.bind (.locked (.gets _)) fun _ => .ite (.raise _) (.locked (.onBuf _))) _
  | clear => exact Pol.result pol_clear _
  | flush => exact Pol.result (.locked (.onBuf _)) _
  | sendData d => exact Pol.result (pol_sendData d) _
  | sendEof => exact Pol.result (pol_sendEnd _ .close) _
  | sendError e => exact Pol.result (pol_sendEnd _ (.error _)) _
  | sendWarning e => exact Pol.result (pol_sendEnd _ (.warning _)) _
  | checkStates => exact Pol.result pol_checkStates _
  | close e => exact Pol.result (pol_close e) _
  | closed => exact Pol.result pol_closed _
  | readable => exact Pol.result (.locked (.gets _)) _
  | writable => exact Pol.result (.locked (.gets _)) _
  | setAggressive b => exact Pol.result (Mixed.within_atom _) _

end HMixed

/-- Nothing but requests and what the owner of the buffer asks for. -/
theorem worldCall_within (c : HSCall) : (worldCall c).Within fun o => match o with | .buffer _ => False | _ => True := by
  cases c with
  | mirror c os => exact Mixed.within_bind (Mixed.within_sent (fun _ _ => trivial) _ (HMixed.prog_polite c) os) fun _ => trivial
  | reader c os => exact Mixed.within_bind (Mixed.within_ofAsk (sent_within (fun _ => trivial) _ _)) fun _ => trivial
  | stopAll => exact ⟨trivial, fun _ => trivial⟩
  | reset => exact ⟨trivial, fun _ => trivial⟩

/-! ## One process -/

namespace World
open Mixed
variable {env : HEnv} {proc : Nat → Nat} {ok : Nat → HSCall → Prop} {p : Nat}

/-- A program that only asks, and returns no result of a mirror. -/
inductive Plain : Mix HMProc Nat HOp HRet (HSRet × Unit) → Prop
  | ret (r : HSRet) : (∀ x, r ≠ .mirror x) → Plain (.ret (r, ()))
  | ask (q : HOp) (k : HRet → Mix HMProc Nat HOp HRet (HSRet × Unit)) : (∀ a, Plain (k a)) → Plain (.ask q k)

theorem plain_ofAsk (a : Ask HOp HRet RdRet) : Plain ((Mix.ofAsk a).bind fun r => .ret (.reader r, ())) := by
  induction a with
  | done a => exact .ret _ nofun
  | ask q k ih => exact .ask _ _ ih

theorem plain_call {c : HSCall} (h : ∀ c' os, c ≠ .mirror c' os) : Plain (worldCall c) := by
  cases c with
  | mirror c os => exact absurd rfl (h c os)
  | reader c os => exact plain_ofAsk _
  | stopAll => exact .ask _ _ fun _ => .ret _ nofun
  | reset => exact .ask _ _ fun _ => .ret _ nofun

/-- The end of a call on a mirror. -/
def mret (r : HMRet) : Mix HMProc Nat HOp HRet (HSRet × Unit) := .ret (.mirror r, ())

/-- A thread in the whole and in process `p`. -/
inductive PRel (env : HEnv) (p : Nat) (q : Nat) : Option (HSCall × Mix HMProc Nat HOp HRet (HSRet × Unit)) →
    Option (HMCall × Prog (HMProc × HNet) Nat (HMRet × Unit)) → Prop
  | idle : PRel env p q none none
  | mirror (c : HMCall) (os os' : List Outcome) (g0 : HMixed HMRet) (g : Mix HMProc Nat HOp HRet (HSRet × Unit)) :
      q = p → (∀ o ∈ os', o ∈ os) → g0.Within Req.Polite → g = (g0.sent os').bind mret →
      PRel env p q (some (.mirror c os, g)) (some (c, (g0.alone env).bind fun r => .ret (r, ())))
  | far (c : HSCall) (g : Mix HMProc Nat HOp HRet (HSRet × Unit)) : q ≠ p → PRel env p q (some (c, g)) none
  | plain (c : HSCall) (g : Mix HMProc Nat HOp HRet (HSRet × Unit)) : (∀ c' os, c ≠ .mirror c' os) → Plain g → PRel env p q (some (c, g)) none

/-- The threads of process `p` with an oracle. -/
structure Here (env : HEnv) (p : Nat) (v : VConf HMProc Nat HOp HRet HSCall HSRet) (t : HostBuf) (W : List (Fate × Option HOp))
    (pend : List HOp) (cp : Nat → Option (HMCall × Prog (HMProc × HNet) Nat (HMRet × Unit))) (F' : List Fate)
    (κ : Conf (HMProc × HNet) Nat Unit HMCall HMRet) : Prop where
  st : κ.st.1 = v.st p
  fates : κ.st.2.fates = F'
  service : HostBuf.run env pend κ.st.2.service = t
  sent : κ.st.2.sent.map (fun r => HOp.req r.wire) = W.filterMap (·.2)
  polite : ∀ r ∈ κ.st.2.sent, r.Polite
  held : ∀ i l, κ.held i l = v.held i (p, l)
  cur : κ.cur = cp

/-- What is known of the calls that are going on. -/
structure Known (proc : Nat → Nat) (p : Nat) (h : List (HEvent HSCall HSRet HOp HRet)) (v : VConf HMProc Nat HOp HRet HSCall HSRet) : Prop where
  begun : ∀ i c g, v.cur i = some (c, g) → .inv i c ∈ h
  sorts : ∀ i c g, v.cur i = some (c, g) → ((sortOps proc p h).cur i = true ↔ proc i = p ∧ ∃ c' os, c = .mirror c' os)

/-- The run of the whole, seen from process `p`. -/
structure Seen (env : HEnv) (proc : Nat → Nat) (ok : Nat → HSCall → Prop) (p : Nat) (s : Nat → HMProc) (h0 : HostBuf)
    (h : List (HEvent HSCall HSRet HOp HRet)) (v : VConf HMProc Nat HOp HRet HSCall HSRet) (t : HostBuf) (W : List (Fate × Option HOp))
    (pend : List HOp) (cp : Nat → Option (HMCall × Prog (HMProc × HNet) Nat (HMRet × Unit))) : Prop where
  fates : Fates proc p h W pend
  known : Known proc p h v
  thr : ∀ i, PRel env p (proc i) (v.cur i) (cp i)
  exec : ∀ F', ∃ κ, Exec (hostMirrorThreads env (okHere proc ok p)) (init (s p, { service := h0, fates := W.map (·.1) ++ F' }) fun _ => ())
    (mirrorEvents proc p (seen h)) κ ∧ Here env p v t W pend cp F' κ

theorem sortOps_snoc (h : List (HEvent HSCall HSRet HOp HRet)) (e : HEvent HSCall HSRet HOp HRet) :
    sortOps proc p (h ++ [e]) = (sortOps proc p h).next proc p e := by simp [sortOps]

theorem mirrorEvents_append (a b : List (Ev HSCall HSRet)) : mirrorEvents proc p (a ++ b) = mirrorEvents proc p a ++ mirrorEvents proc p b :=
  List.filterMap_append ..

theorem prels {env : HEnv} {cur : Nat → Option (HSCall × Mix HMProc Nat HOp HRet (HSRet × Unit))}
    {cur' : Nat → Option (HMCall × Prog (HMProc × HNet) Nat (HMRet × Unit))} (h : ∀ i, PRel env p (proc i) (cur i) (cur' i)) {i : Nat}
    {x : Option (HSCall × Mix HMProc Nat HOp HRet (HSRet × Unit))} {y : Option (HMCall × Prog (HMProc × HNet) Nat (HMRet × Unit))}
    (hi : PRel env p (proc i) x y) (j : Nat) : PRel env p (proc j) (upd cur i x j) (upd cur' i y j) := by
  by_cases e : j = i
  · subst e; simpa only [upd_same] using hi
  · simp only [upd_other _ _ e]; exact h j

/-- The whole goes on, in one thread, within its call; nothing of it concerns the threads of `p`. -/
theorem prels_away {env : HEnv} {cur : Nat → Option (HSCall × Mix HMProc Nat HOp HRet (HSRet × Unit))}
    {cur' : Nat → Option (HMCall × Prog (HMProc × HNet) Nat (HMRet × Unit))} (h : ∀ i, PRel env p (proc i) (cur i) (cur' i)) {i : Nat}
    {x : Option (HSCall × Mix HMProc Nat HOp HRet (HSRet × Unit))} (hn : cur' i = none) (hi : PRel env p (proc i) x none) (j : Nat) :
    PRel env p (proc j) (upd cur i x j) (cur' j) := by
  have := prels h (i := i) (x := x) (y := none) hi j
  rwa [← hn, upd_self] at this

theorem Known.within {h : List (HEvent HSCall HSRet HOp HRet)} {v : VConf HMProc Nat HOp HRet HSCall HSRet} (hk : Known proc p h v) {i : Nat}
    {c : HSCall} {g g' : Mix HMProc Nat HOp HRet (HSRet × Unit)} (hi : v.cur i = some (c, g)) {st : Nat → HMProc} {held : Nat → Nat × Nat → List Bool} :
    Known proc p h ⟨st, held, upd v.cur i (some (c, g'))⟩ := by
  constructor
  · intro j c' g1 hj
    by_cases e : j = i
    · subst e; simp only [upd_same, Option.some.injEq, Prod.mk.injEq] at hj; rw [← hj.1]; exact hk.begun j c g hi
    · simp only [upd_other _ _ e] at hj; exact hk.begun j c' g1 hj
  · intro j c' g1 hj
    by_cases e : j = i
    · subst e; simp only [upd_same, Option.some.injEq, Prod.mk.injEq] at hj; rw [← hj.1]; exact hk.sorts j c g hi
    · simp only [upd_other _ _ e] at hj; exact hk.sorts j c' g1 hj

theorem sorted_op_cur (x : Sorted) (i : Nat) (q : HOp) (a : HRet) : (x.next proc p (.op i q a)).cur = x.cur := by
  simp only [Sorted.next]
  split <;> rfl

theorem Known.op {h : List (HEvent HSCall HSRet HOp HRet)} {v : VConf HMProc Nat HOp HRet HSCall HSRet} (hk : Known proc p h v) (i : Nat)
    (q : HOp) (a : HRet) : Known proc p (h ++ [.op i q a]) v :=
  ⟨fun j c g hj => List.mem_append_left _ (hk.begun j c g hj), fun j c g hj => by rw [sortOps_snoc, sorted_op_cur]; exact hk.sorts j c g hj⟩

theorem Known.inv {h : List (HEvent HSCall HSRet HOp HRet)} {v : VConf HMProc Nat HOp HRet HSCall HSRet} (hk : Known proc p h v) (i : Nat)
    (c : HSCall) (g : Mix HMProc Nat HOp HRet (HSRet × Unit)) : Known proc p (h ++ [.inv i c]) { v with cur := upd v.cur i (some (c, g)) } := by
  constructor
  · intro j c' g1 hj
    by_cases e : j = i
    · subst e; simp only [upd_same, Option.some.injEq, Prod.mk.injEq] at hj; rw [← hj.1]; simp
    · simp only [upd_other _ _ e] at hj; exact List.mem_append_left _ (hk.begun j c' g1 hj)
  · intro j c' g1 hj
    rw [sortOps_snoc]
    by_cases e : j = i
    · subst e
      simp only [upd_same, Option.some.injEq, Prod.mk.injEq] at hj
      rw [← hj.1]
      cases c <;> simp [Sorted.next]
    · simp only [upd_other _ _ e] at hj
      have := hk.sorts j c' g1 hj
      cases c <;> simpa only [Sorted.next, upd_other _ _ e] using this

theorem Known.ret {h : List (HEvent HSCall HSRet HOp HRet)} {v : VConf HMProc Nat HOp HRet HSCall HSRet} (hk : Known proc p h v) (i : Nat)
    (r : HSRet) : Known proc p (h ++ [.ret i r]) { v with cur := upd v.cur i none } := by
  constructor
  · intro j c' g1 hj
    by_cases e : j = i
    · subst e; simp at hj
    · simp only [upd_other _ _ e] at hj; exact List.mem_append_left _ (hk.begun j c' g1 hj)
  · intro j c' g1 hj
    rw [sortOps_snoc]
    by_cases e : j = i
    · subst e; simp at hj
    · simp only [upd_other _ _ e] at hj; simpa only [Sorted.next, upd_other _ _ e] using hk.sorts j c' g1 hj

theorem _root_.SyncStream.Spec.Fates.quiet {h : List (HEvent HSCall HSRet HOp HRet)} {W : List (Fate × Option HOp)} {pend : List HOp} (hf : Fates proc p h W pend)
    {e : HEvent HSCall HSRet HOp HRet} (he : ∀ i q a, e ≠ .op i q a) : Fates proc p (h ++ [e]) W pend := by
  have h1 : opsOf [e] = [] := by
    cases e with
    | op i q a => exact absurd rfl (he i q a)
    | _ => rfl
  have h2 : (sortOps proc p (h ++ [e])).own = (sortOps proc p h).own ∧ (sortOps proc p (h ++ [e])).others = (sortOps proc p h).others := by
    rw [sortOps_snoc]
    cases e with
    | op i q a => exact absurd rfl (he i q a)
    | ret => exact ⟨rfl, rfl⟩
    | inv i c => cases c <;> exact ⟨rfl, rfl⟩
  refine ⟨by rw [opsOf_append, h1, List.append_nil]; exact hf.all, by rw [h2.1]; exact hf.own, by rw [h2.2]; exact hf.others, hf.lost,
    fun x hx => ?_⟩
  rcases hf.from_ x hx with h | ⟨i, c, os, h1, h2, h3⟩
  · exact .inl h
  · exact .inr ⟨i, c, os, h1, List.mem_append_left _ h2, h3⟩

/-- An operation for others. -/
theorem _root_.SyncStream.Spec.Fates.other {h : List (HEvent HSCall HSRet HOp HRet)} {W : List (Fate × Option HOp)} {pend : List HOp} (hf : Fates proc p h W pend)
    {i : Nat} (hi : (sortOps proc p h).cur i = false) (q : HOp) (a : HRet) : Fates proc p (h ++ [.op i q a]) W (pend ++ [q]) := by
  refine ⟨?_, ?_, ?_, hf.lost, fun x hx => ?_⟩
  · rw [opsOf_append]
    simp only [asked, List.map_append] at hf ⊢
    rw [← List.append_assoc, ← hf.all]
    rfl
  · rw [sortOps_snoc, ← hf.own]; simp [Sorted.next, hi]
  · rw [sortOps_snoc, ← List.append_assoc, ← hf.others]; simp [Sorted.next, hi]
  · rcases hf.from_ x hx with h | ⟨i, c, os, h1, h2, h3⟩
    · exact .inl h
    · exact .inr ⟨i, c, os, h1, List.mem_append_left _ h2, h3⟩

/-- A request of `p` that is performed. -/
theorem _root_.SyncStream.Spec.Fates.mine {h : List (HEvent HSCall HSRet HOp HRet)} {W : List (Fate × Option HOp)} {pend : List HOp} (hf : Fates proc p h W pend)
    {i : Nat} (hi : (sortOps proc p h).cur i = true) (q : HOp) (a : HRet) {o : Outcome} (ho : ∀ e, o ≠ .lost e)
    (hfrom : o = .ok ∨ ∃ i c os, proc i = p ∧ .inv i (.mirror c os) ∈ h ∧ o ∈ os) :
    Fates proc p (h ++ [.op i q a]) (W ++ [(⟨pend, o⟩, some q)]) [] := by
  refine ⟨?_, ?_, ?_, fun x hx => ?_, fun x hx => ?_⟩
  · have := hf.all
    rw [opsOf_append]
    simp only [asked, List.map_append] at this ⊢
    rw [this]
    simp [opsOf]
  · rw [sortOps_snoc]; simp [Sorted.next, hi, hf.own]
  · rw [sortOps_snoc]; simp [Sorted.next, hi, hf.others]
  · rcases List.mem_append.1 hx with hx | hx
    · exact hf.lost x hx
    · rw [List.mem_singleton.1 hx]
      simp [ho]
  · rcases List.mem_append.1 hx with hx | hx
    · rcases hf.from_ x hx with h | ⟨i, c, os, h1, h2, h3⟩
      · exact .inl h
      · exact .inr ⟨i, c, os, h1, List.mem_append_left _ h2, h3⟩
    · rw [List.mem_singleton.1 hx]
      rcases hfrom with h | ⟨i, c, os, h1, h2, h3⟩
      · exact .inl h
      · exact .inr ⟨i, c, os, h1, List.mem_append_left _ h2, h3⟩

/-- A request of `p` that is lost. -/
theorem _root_.SyncStream.Spec.Fates.gone {h : List (HEvent HSCall HSRet HOp HRet)} {W : List (Fate × Option HOp)} {pend : List HOp} (hf : Fates proc p h W pend)
    {e : Exc} (hfrom : ∃ i c os, proc i = p ∧ .inv i (.mirror c os) ∈ h ∧ Outcome.lost e ∈ os) :
    Fates proc p h (W ++ [(⟨pend, .lost e⟩, none)]) [] := by
  refine ⟨?_, ?_, ?_, fun x hx => ?_, fun x hx => ?_⟩
  · rw [hf.all]; simp
  · rw [hf.own]; simp
  · rw [hf.others]; simp
  · rcases List.mem_append.1 hx with hx | hx
    · exact hf.lost x hx
    · rw [List.mem_singleton.1 hx]; simp
  · rcases List.mem_append.1 hx with hx | hx
    · exact hf.from_ x hx
    · rw [List.mem_singleton.1 hx]; exact .inr hfrom

theorem exec_quiet {sys : Sys (HMProc × HNet) Nat Unit HMCall HMRet} {κ0 κ κ' : Conf (HMProc × HNet) Nat Unit HMCall HMRet} {tr : List (Ev HMCall HMRet)}
    (h : Exec sys κ0 tr κ) (hs : Step sys κ none κ') : Exec sys κ0 tr κ' := by
  have := Exec.snoc _ _ _ _ _ h hs
  rwa [Option.toList_none, List.append_nil] at this

theorem serves_snoc {s u : HostBuf} {l : List (Nat × HOp × HRet)} {i : Nat} {q : HOp} {a : HRet} (h : Serves (HostBuf.AtOnce env) s (l ++ [(i, q, a)]) u) :
    ∃ t, Serves (HostBuf.AtOnce env) s l t ∧ a = HThr.result env q t ∧ u = HostBuf.step env q t := by
  obtain ⟨t, h1, h2⟩ := h.split
  cases h2 with
  | cons _ _ _ _ _ _ _ h3 h4 =>
    cases h4
    exact ⟨t, h1, h3.1, h3.2⟩

/-- The answer of a request that is performed. -/
theorem request_ok (n : HNet) (pend : List HOp) (F' : List Fate) (r : Req) (h : n.fates = ⟨pend, .ok⟩ :: F') :
    HNet.request env r n = ((HThr.result env (.req r.wire) (HostBuf.run env pend n.service)).received,
      { n with fates := F', service := HostBuf.step env (.req r.wire) (HostBuf.run env pend n.service), sent := n.sent ++ [r] }) := by
  simp only [HNet.request, h, List.headD_cons, List.tail_cons]
  rfl

theorem request_noReply (n : HNet) (pend : List HOp) (F' : List Fate) (r : Req) (e : Exc) (h : n.fates = ⟨pend, .noReply e⟩ :: F') :
    HNet.request env r n = (.error e,
      { n with fates := F', service := HostBuf.step env (.req r.wire) (HostBuf.run env pend n.service), sent := n.sent ++ [r] }) := by
  simp only [HNet.request, h, List.headD_cons, List.tail_cons]
  rfl

theorem request_lost (n : HNet) (pend : List HOp) (F' : List Fate) (r : Req) (e : Exc) (h : n.fates = ⟨pend, .lost e⟩ :: F') :
    HNet.request env r n = (.error e, { n with fates := F', service := HostBuf.run env pend n.service }) := by
  simp only [HNet.request, h, List.headD_cons, List.tail_cons]

theorem polite_snoc {l : List Req} {r : Req} (h : ∀ x ∈ l, x.Polite) (hr : r.Polite) : ∀ x ∈ l ++ [r], x.Polite := by
  intro x hx
  rcases List.mem_append.1 hx with hx | hx
  · exact h x hx
  · rw [List.mem_singleton.1 hx]; exact hr

theorem head_mem {os : List Outcome} {o : Outcome} (h : os.headD .ok = o) : o = .ok ∨ o ∈ os := by
  cases os with
  | nil => exact .inl h.symm
  | cons x os => exact .inr (h ▸ List.mem_cons_self)

theorem tail_mem {os os' : List Outcome} (h : ∀ o ∈ os', o ∈ os) : ∀ o ∈ os'.tail, o ∈ os := fun o ho => h o (List.mem_of_mem_tail ho)

theorem sent_ret {g0 : HMixed HMRet} {os : List Outcome} {r : HSRet} (h : Mix.ret (r, ()) = (g0.sent os).bind mret) :
    ∃ r0, g0 = .ret r0 ∧ r = .mirror r0 := by
  cases g0 with
  | ret r0 => cases h; exact ⟨r0, rfl, rfl⟩
  | ask q k => cases ho : os.headD .ok <;> simp only [Mix.sent, ho, Mix.bind] at h <;> cases h
  | _ => cases h

theorem sent_acq {g0 : HMixed HMRet} {os : List Outcome} {l : Nat} {w : Bool} {k : Mix HMProc Nat HOp HRet (HSRet × Unit)}
    (h : Mix.acq l w k = (g0.sent os).bind mret) : ∃ k0, g0 = .acq l w k0 ∧ k = (k0.sent os).bind mret := by
  cases g0 with
  | acq l w k0 => cases h; exact ⟨k0, rfl, rfl⟩
  | ask q k => cases ho : os.headD .ok <;> simp only [Mix.sent, ho, Mix.bind] at h <;> cases h
  | _ => cases h

theorem sent_rel {g0 : HMixed HMRet} {os : List Outcome} {l : Nat} {w : Bool} {k : Mix HMProc Nat HOp HRet (HSRet × Unit)}
    (h : Mix.rel l w k = (g0.sent os).bind mret) : ∃ k0, g0 = .rel l w k0 ∧ k = (k0.sent os).bind mret := by
  cases g0 with
  | rel l w k0 => cases h; exact ⟨k0, rfl, rfl⟩
  | ask q k => cases ho : os.headD .ok <;> simp only [Mix.sent, ho, Mix.bind] at h <;> cases h
  | _ => cases h

theorem sent_act {g0 : HMixed HMRet} {os : List Outcome} {f : HMProc → HMProc} {k : HMProc → Mix HMProc Nat HOp HRet (HSRet × Unit)}
    (h : Mix.act f k = (g0.sent os).bind mret) : (∃ k0, g0 = .act f k0 ∧ k = fun s => ((k0 s).sent os).bind mret) ∨
      ∃ r k0 e, g0 = .ask r k0 ∧ os.headD .ok = .lost e ∧ f = id ∧ k = fun _ => ((k0 (.error e)).sent os.tail).bind mret := by
  cases g0 with
  | act f k0 => cases h; exact .inl ⟨k0, rfl, rfl⟩
  | ask r k0 =>
    cases ho : os.headD .ok with
    | lost e => simp only [Mix.sent, ho, Mix.bind] at h; cases h; exact .inr ⟨r, k0, e, rfl, rfl, rfl, rfl⟩
    | _ => simp only [Mix.sent, ho, Mix.bind] at h; cases h
  | _ => cases h

theorem sent_ask {g0 : HMixed HMRet} {os : List Outcome} {q : HOp} {k : HRet → Mix HMProc Nat HOp HRet (HSRet × Unit)}
    (h : Mix.ask q k = (g0.sent os).bind mret) : ∃ r k0, g0 = .ask r k0 ∧ q = .req r.wire ∧
      ((os.headD .ok = .ok ∧ k = fun x => ((k0 x.received).sent os.tail).bind mret) ∨
        ∃ e, os.headD .ok = .noReply e ∧ k = fun _ => ((k0 (.error e)).sent os.tail).bind mret) := by
  cases g0 with
  | ask r k0 =>
    cases ho : os.headD .ok with
    | ok => simp only [Mix.sent, ho, Mix.bind] at h; cases h; exact ⟨r, k0, rfl, rfl, .inl ⟨rfl, rfl⟩⟩
    | noReply e => simp only [Mix.sent, ho, Mix.bind] at h; cases h; exact ⟨r, k0, rfl, rfl, .inr ⟨e, rfl, rfl⟩⟩
    | lost e => simp only [Mix.sent, ho, Mix.bind] at h; cases h
  | _ => cases h

/-- A program of process `p` alone, with the end of the call. -/
def aret (env : HEnv) (g : HMixed HMRet) : Prog (HMProc × HNet) Nat (HMRet × Unit) := (g.alone env).bind fun r => .ret (r, ())

theorem aret_ask (r : Req) (k : Except Exc Resp → HMixed HMRet) : aret env (.ask r k) =
    .act (fun s => (s.1, (HNet.request env r s.2).2)) fun s => aret env (k (HNet.request env r s.2).1) := rfl

/-- The run of the whole, seen from one process. -/
theorem project {s : Nat → HMProc} {h0 : HostBuf} {h : List (HEvent HSCall HSRet HOp HRet)} {v : VConf HMProc Nat HOp HRet HSCall HSRet}
    (hr : VRun proc worldCall ok (fun _ => True) s h v) : ∀ {t : HostBuf}, Serves (HostBuf.AtOnce env) h0 (opsOf h) t →
    ∃ W pend cp, Seen env proc ok p s h0 h v t W pend cp := by
  induction hr with
  | nil =>
    intro t ht
    cases ht
    exact ⟨[], [], _, ⟨rfl, rfl, rfl, nofun, nofun⟩, ⟨nofun, nofun⟩, fun _ => .idle, fun F' => ⟨_, .nil _, rfl, rfl, rfl, rfl, nofun, fun _ _ => rfl, rfl⟩⟩
  | inv h v i c h1 h2 h3 ih =>
    intro t ht
    rw [opsOf_append, show opsOf [(HEvent.inv i c : HEvent HSCall HSRet HOp HRet)] = [] from rfl, List.append_nil] at ht
    obtain ⟨W, pend, cp, hs⟩ := ih ht
    have hi := hs.thr i
    rw [h2] at hi
    generalize hx : cp i = x at hi
    cases hi
    by_cases hm : proc i = p ∧ ∃ c' os, c = .mirror c' os
    · obtain ⟨hp, c', os, rfl⟩ := hm
      refine ⟨W, pend, upd cp i (some (c', aret env (HMixed.prog c'))), hs.fates.quiet nofun, hs.known.inv i _ _,
        prels hs.thr (.mirror c' os os _ _ hp (fun _ h => h) (HMixed.prog_polite c') rfl), fun F' => ?_⟩
      obtain ⟨κ, k1, k2⟩ := hs.exec F'
      have hex := Exec.snoc _ _ _ _ _ k1 (.inv κ i c' (by rw [k2.cur, hx]) ⟨hp, os, h3⟩)
      have he : mirrorEvents proc p (seen [(HEvent.inv i (.mirror c' os) : HEvent HSCall HSRet HOp HRet)]) = [.inv i c'] := by
        simp [mirrorEvents, seen, hp]
      rw [seen_append, mirrorEvents_append, he]
      refine ⟨_, hex, k2.st, k2.fates, k2.service, k2.sent, k2.polite, k2.held, ?_⟩
      dsimp only
      rw [k2.cur, aret, HMixed.alone_prog]
      rfl
    · have he : mirrorEvents proc p (seen [(HEvent.inv i c : HEvent HSCall HSRet HOp HRet)]) = [] := by
        cases c with
        | mirror c' os =>
          have : proc i ≠ p := fun e => hm ⟨e, c', os, rfl⟩
          simp [mirrorEvents, seen, this]
        | _ => rfl
      refine ⟨W, pend, cp, hs.fates.quiet nofun, hs.known.inv i _ _, prels_away hs.thr hx ?_, fun F' => ?_⟩
      · by_cases hp : proc i = p
        · exact .plain _ _ (fun c' os e => hm ⟨hp, c', os, e⟩) (plain_call fun c' os e => hm ⟨hp, c', os, e⟩)
        · exact .far _ _ hp
      · obtain ⟨κ, k1, k2⟩ := hs.exec F'
        rw [seen_append, mirrorEvents_append, he, List.append_nil]
        exact ⟨κ, k1, k2.st, k2.fates, k2.service, k2.sent, k2.polite, k2.held, k2.cur⟩
  | ret h v i c r h1 h2 ih =>
    intro t ht
    rw [opsOf_append, show opsOf [(HEvent.ret i r : HEvent HSCall HSRet HOp HRet)] = [] from rfl, List.append_nil] at ht
    obtain ⟨W, pend, cp, hs⟩ := ih ht
    have hi := hs.thr i
    rw [h2] at hi
    generalize hx : cp i = x at hi
    have away : mirrorEvents proc p (seen [(HEvent.ret i r : HEvent HSCall HSRet HOp HRet)]) = [] → cp i = none →
        ∃ W pend cp, Seen env proc ok p s h0 (h ++ [.ret i r]) { v with cur := upd v.cur i none } t W pend cp := by
      intro he hx
      refine ⟨W, pend, cp, hs.fates.quiet nofun, hs.known.ret i r, prels_away hs.thr hx .idle, fun F' => ?_⟩
      obtain ⟨κ, k1, k2⟩ := hs.exec F'
      rw [seen_append, mirrorEvents_append, he, List.append_nil]
      exact ⟨κ, k1, k2.st, k2.fates, k2.service, k2.sent, k2.polite, k2.held, k2.cur⟩
    cases hi with
    | mirror c os os' g0 _ hp hos hw hg =>
      obtain ⟨r0, rfl, rfl⟩ := sent_ret hg
      refine ⟨W, pend, upd cp i none, hs.fates.quiet nofun, hs.known.ret i _, prels hs.thr .idle, fun F' => ?_⟩
      obtain ⟨κ, k1, k2⟩ := hs.exec F'
      have hex := Exec.snoc _ _ _ _ _ k1 (.ret κ i c r0 () (by rw [k2.cur, hx]; rfl))
      have he : mirrorEvents proc p (seen [(HEvent.ret i (.mirror r0) : HEvent HSCall HSRet HOp HRet)]) = [.ret i r0] := by
        simp [mirrorEvents, seen, hp]
      rw [seen_append, mirrorEvents_append, he]
      exact ⟨_, hex, k2.st, k2.fates, k2.service, k2.sent, k2.polite, k2.held, by dsimp only; rw [k2.cur]⟩
    | far _ _ hp =>
      refine away ?_ hx
      cases r with
      | mirror r => simp [mirrorEvents, seen, hp]
      | _ => rfl
    | plain _ _ hc hp =>
      refine away ?_ hx
      cases r with
      | mirror r => cases hp with | ret _ h => exact absurd rfl (h r)
      | _ => rfl
  | act h v i c f k h1 h2 ih =>
    intro t ht
    obtain ⟨W, pend, cp, hs⟩ := ih ht
    have hi := hs.thr i
    rw [h2] at hi
    generalize hx : cp i = x at hi
    cases hi with
    | mirror c os os' g0 _ hp hos hw hg =>
      rcases sent_act hg with ⟨k0, rfl, rfl⟩ | ⟨r, k0, e, rfl, ho, rfl, rfl⟩
      · refine ⟨W, pend, upd cp i (some (c, aret env (k0 (v.st (proc i))))), hs.fates, hs.known.within h2,
          prels hs.thr (.mirror c os os' _ _ hp hos (hw _) rfl), fun F' => ?_⟩
        obtain ⟨κ, k1, k2⟩ := hs.exec F'
        have hex := exec_quiet k1 (.act κ i c _ _ (by rw [k2.cur, hx]; rfl))
        refine ⟨_, hex, ?_, k2.fates, k2.service, k2.sent, k2.polite, k2.held, ?_⟩
        · dsimp only; rw [k2.st, hp, upd_same]
        · dsimp only; rw [k2.cur, k2.st, hp]; rfl
      · have hmem : Outcome.lost e ∈ os := by
          rcases head_mem ho with h | h
          · cases h
          · exact hos _ h
        refine ⟨_, [], upd cp i (some (c, aret env (k0 (.error e)))), hs.fates.gone ⟨i, c, os, hp, hs.known.begun i _ _ h2, hmem⟩,
          hs.known.within h2, prels hs.thr (.mirror c os os'.tail _ _ hp (tail_mem hos) (hw.2 _) rfl), fun F' => ?_⟩
        obtain ⟨κ, k1, k2⟩ := hs.exec (⟨pend, .lost e⟩ :: F')
        have hex := exec_quiet k1 (.act κ i c _ _ (by rw [k2.cur, hx]; exact congrArg (fun x => some (c, x)) (aret_ask r k0)))
        rw [request_lost _ _ _ _ _ k2.fates,
          show W.map (·.1) ++ ⟨pend, .lost e⟩ :: F' = (W ++ [((⟨pend, .lost e⟩ : Fate), (none : Option HOp))]).map (·.1) ++ F' by simp] at hex
        refine ⟨_, hex, ?_, rfl, ?_, ?_, k2.polite, k2.held, ?_⟩
        · dsimp only; rw [k2.st, id, upd_self]
        · exact k2.service
        · simpa using k2.sent
        · dsimp only; rw [k2.cur]
    | far _ _ hp =>
      have hpm : upd v.st (proc i) (f (v.st (proc i))) p = v.st p := upd_other _ _ (Ne.symm hp)
      refine ⟨W, pend, cp, hs.fates, hs.known.within h2, prels_away hs.thr hx (.far _ _ hp), fun F' => ?_⟩
      obtain ⟨κ, k1, k2⟩ := hs.exec F'
      exact ⟨κ, k1, by rw [k2.st]; exact hpm.symm, k2.fates, k2.service, k2.sent, k2.polite, k2.held, k2.cur⟩
    | plain _ _ _ hpl => cases hpl
  | acq h v i c l w k h1 h2 h3 h4 ih =>
    intro t ht
    obtain ⟨W, pend, cp, hs⟩ := ih ht
    have hi := hs.thr i
    rw [h2] at hi
    generalize hx : cp i = x at hi
    cases hi with
    | mirror c os os' g0 _ hp hos hw hg =>
      obtain ⟨k0, rfl, rfl⟩ := sent_acq hg
      refine ⟨W, pend, upd cp i (some (c, aret env k0)), hs.fates, hs.known.within h2, prels hs.thr (.mirror c os os' _ _ hp hos hw rfl), fun F' => ?_⟩
      obtain ⟨κ, k1, k2⟩ := hs.exec F'
      have hex := exec_quiet k1 (.acq κ i c l w _ (by rw [k2.cur, hx]; rfl) ⟨.inr trivial, fun j hj => by rw [k2.held, ← hp]; exact h4 j hj⟩)
      refine ⟨_, hex, k2.st, k2.fates, k2.service, k2.sent, k2.polite, fun j l' => ?_, by dsimp only; rw [k2.cur]; rfl⟩
      by_cases e : j = i
      · subst e
        simp only [upd_same, taken, k2.held, hp, Prod.mk.injEq, true_and]
      · simp only [upd_other _ _ e, k2.held]
    | far _ _ hp =>
      refine ⟨W, pend, cp, hs.fates, hs.known.within h2, prels_away hs.thr hx (.far _ _ hp), fun F' => ?_⟩
      obtain ⟨κ, k1, k2⟩ := hs.exec F'
      refine ⟨κ, k1, k2.st, k2.fates, k2.service, k2.sent, k2.polite, fun j l' => ?_, k2.cur⟩
      by_cases e : j = i
      · subst e
        simp only [upd_same, taken, k2.held, Prod.mk.injEq, Ne.symm hp, false_and, if_false]
      · simp only [upd_other _ _ e, k2.held]
    | plain _ _ _ hpl => cases hpl
  | rel h v i c l w k h1 h2 ih =>
    intro t ht
    obtain ⟨W, pend, cp, hs⟩ := ih ht
    have hi := hs.thr i
    rw [h2] at hi
    generalize hx : cp i = x at hi
    cases hi with
    | mirror c os os' g0 _ hp hos hw hg =>
      obtain ⟨k0, rfl, rfl⟩ := sent_rel hg
      refine ⟨W, pend, upd cp i (some (c, aret env k0)), hs.fates, hs.known.within h2, prels hs.thr (.mirror c os os' _ _ hp hos hw rfl), fun F' => ?_⟩
      obtain ⟨κ, k1, k2⟩ := hs.exec F'
      have hex := exec_quiet k1 (.rel κ i c l w _ (by rw [k2.cur, hx]; rfl))
      refine ⟨_, hex, k2.st, k2.fates, k2.service, k2.sent, k2.polite, fun j l' => ?_, by dsimp only; rw [k2.cur]; rfl⟩
      by_cases e : j = i
      · subst e
        simp only [upd_same, given, k2.held, hp, Prod.mk.injEq, true_and]
      · simp only [upd_other _ _ e, k2.held]
    | far _ _ hp =>
      refine ⟨W, pend, cp, hs.fates, hs.known.within h2, prels_away hs.thr hx (.far _ _ hp), fun F' => ?_⟩
      obtain ⟨κ, k1, k2⟩ := hs.exec F'
      refine ⟨κ, k1, k2.st, k2.fates, k2.service, k2.sent, k2.polite, fun j l' => ?_, k2.cur⟩
      by_cases e : j = i
      · subst e
        simp only [upd_same, given, k2.held, Prod.mk.injEq, Ne.symm hp, false_and, if_false]
      · simp only [upd_other _ _ e, k2.held]
    | plain _ _ _ hpl => cases hpl
  | op h v i c q k a h1 h2 ih =>
    intro u hu
    rw [opsOf_append] at hu
    obtain ⟨t, ht, ha, rfl⟩ := serves_snoc hu
    obtain ⟨W, pend, cp, hs⟩ := ih ht
    have hso := hs.known.sorts i _ _ h2
    have hev : mirrorEvents proc p (seen (h ++ [HEvent.op i q a])) = mirrorEvents proc p (seen h) := by
      rw [seen_append, mirrorEvents_append]; exact List.append_nil _
    have hi := hs.thr i
    rw [h2] at hi
    generalize hx : cp i = x at hi
    have away : (sortOps proc p h).cur i = false → cp i = none → PRel env p (proc i) (some (c, k a)) none →
        ∃ W pend cp, Seen env proc ok p s h0 (h ++ [.op i q a]) { v with cur := upd v.cur i (some (c, k a)) } (HostBuf.step env q t) W pend cp := by
      intro hf hx hpr
      refine ⟨W, pend ++ [q], cp, hs.fates.other hf q a, (hs.known.within h2).op i q a, prels_away hs.thr hx hpr, fun F' => ?_⟩
      obtain ⟨κ, k1, k2⟩ := hs.exec F'
      rw [hev]
      refine ⟨κ, k1, k2.st, k2.fates, ?_, k2.sent, k2.polite, k2.held, k2.cur⟩
      rw [HostBuf.run, List.foldl_append]
      exact congrArg (HostBuf.step env q) k2.service
    cases hi with
    | mirror c os os' g0 _ hp hos hw hg =>
      have hcur : (sortOps proc p h).cur i = true := hso.2 ⟨hp, c, os, rfl⟩
      obtain ⟨r, k0, rfl, rfl, ⟨ho, rfl⟩ | ⟨e, ho, rfl⟩⟩ := sent_ask hg
      · refine ⟨_, [], upd cp i (some (c, aret env (k0 a.received))), hs.fates.mine hcur _ a (o := .ok) nofun (.inl rfl),
          (hs.known.within h2).op i _ a, prels hs.thr (.mirror c os os'.tail _ _ hp (tail_mem hos) (hw.2 _) rfl), fun F' => ?_⟩
        obtain ⟨κ, k1, k2⟩ := hs.exec (⟨pend, .ok⟩ :: F')
        have hex := exec_quiet k1 (.act κ i c _ _ (by rw [k2.cur, hx]; exact congrArg (fun x => some (c, x)) (aret_ask r k0)))
        rw [request_ok _ _ _ _ k2.fates,
          show W.map (·.1) ++ ⟨pend, .ok⟩ :: F' = (W ++ [((⟨pend, .ok⟩ : Fate), (some (.req r.wire) : Option HOp))]).map (·.1) ++ F' by simp] at hex
        rw [hev]
        refine ⟨_, hex, k2.st, rfl, ?_, ?_, polite_snoc k2.polite hw.1, k2.held, ?_⟩
        · dsimp only; rw [k2.service]; rfl
        · simp [k2.sent]
        · dsimp only; rw [k2.cur, k2.service, ← ha]
      · have hmem : Outcome.noReply e ∈ os := by
          rcases head_mem ho with h | h
          · cases h
          · exact hos _ h
        refine ⟨_, [], upd cp i (some (c, aret env (k0 (.error e)))), hs.fates.mine hcur _ a (o := .noReply e) nofun
          (.inr ⟨i, c, os, hp, hs.known.begun i _ _ h2, hmem⟩),
          (hs.known.within h2).op i _ a, prels hs.thr (.mirror c os os'.tail _ _ hp (tail_mem hos) (hw.2 _) rfl), fun F' => ?_⟩
        obtain ⟨κ, k1, k2⟩ := hs.exec (⟨pend, .noReply e⟩ :: F')
        have hex := exec_quiet k1 (.act κ i c _ _ (by rw [k2.cur, hx]; exact congrArg (fun x => some (c, x)) (aret_ask r k0)))
        rw [request_noReply _ _ _ _ _ k2.fates,
          show W.map (·.1) ++ ⟨pend, .noReply e⟩ :: F' = (W ++ [((⟨pend, .noReply e⟩ : Fate), (some (.req r.wire) : Option HOp))]).map (·.1) ++ F' by simp] at hex
        rw [hev]
        refine ⟨_, hex, k2.st, rfl, ?_, ?_, polite_snoc k2.polite hw.1, k2.held, ?_⟩
        · dsimp only; rw [k2.service]; rfl
        · simp [k2.sent]
        · dsimp only; rw [k2.cur]
    | far _ _ hp =>
      refine away ?_ hx (.far _ _ hp)
      cases hb : (sortOps proc p h).cur i with
      | false => rfl
      | true => exact absurd (hso.1 hb).1 hp
    | plain _ _ hc hpl =>
      cases hpl with
      | ask _ _ hk =>
      refine away ?_ hx (.plain _ _ hc (hk a))
      cases hb : (sortOps proc p h).cur i with
      | false => rfl
      | true =>
        obtain ⟨-, c', os, e⟩ := hso.1 hb
        exact absurd e (hc c' os)

/-! ## The operations -/

theorem upd_cur {α : Type} {cur : Nat → Option α} {Q : Nat → α → Prop} (h : ∀ j x, cur j = some x → Q j x) {i : Nat} {y : Option α}
    (hi : ∀ x, y = some x → Q i x) (j : Nat) (x : α) (hj : upd cur i y j = some x) : Q j x := by
  by_cases e : j = i
  · subst e; rw [upd_same] at hj; exact hi x hj
  · rw [upd_other _ _ e] at hj; exact h j x hj

/-- Only operations that the calls ask for. -/
theorem ops_within {P : Nat → HSCall → HOp → Prop} (hc : ∀ i c, ok i c → (worldCall c).Within (P i c)) {s : Nat → HMProc}
    {h : List (HEvent HSCall HSRet HOp HRet)} {v : VConf HMProc Nat HOp HRet HSCall HSRet} (hr : VRun proc worldCall ok (fun _ => True) s h v) :
    (∀ i (x : HSCall × _), v.cur i = some x → ok i x.1 ∧ x.2.Within (P i x.1)) ∧ ∀ x ∈ opsOf h, ∃ c, ok x.1 c ∧ P x.1 c x.2.1 := by
  induction hr with
  | nil => exact ⟨nofun, nofun⟩
  | inv h v i c h1 h2 h3 ih =>
    refine ⟨upd_cur ih.1 (by rintro x ⟨⟩; exact ⟨h3, hc i c h3⟩), ?_⟩
    rw [opsOf_append]
    simpa [opsOf] using ih.2
  | act h v i c f k h1 h2 ih =>
    exact ⟨upd_cur ih.1 (by rintro x ⟨⟩; exact ⟨(ih.1 i _ h2).1, (ih.1 i _ h2).2 _⟩), ih.2⟩
  | acq h v i c l w k h1 h2 h3 h4 ih => exact ⟨upd_cur ih.1 (by rintro x ⟨⟩; exact ⟨(ih.1 i _ h2).1, (ih.1 i _ h2).2⟩), ih.2⟩
  | rel h v i c l w k h1 h2 ih => exact ⟨upd_cur ih.1 (by rintro x ⟨⟩; exact ⟨(ih.1 i _ h2).1, (ih.1 i _ h2).2⟩), ih.2⟩
  | ret h v i c r h1 h2 ih =>
    refine ⟨upd_cur ih.1 nofun, ?_⟩
    rw [opsOf_append]
    simpa [opsOf] using ih.2
  | op h v i c q k a h1 h2 ih =>
    refine ⟨upd_cur ih.1 (by rintro x ⟨⟩; exact ⟨(ih.1 i _ h2).1, (ih.1 i _ h2).2.2 _⟩), fun x hx => ?_⟩
    rw [opsOf_append] at hx
    rcases List.mem_append.1 hx with hx | hx
    · exact ih.2 x hx
    · rw [List.mem_singleton.1 hx]
      exact ⟨c, (ih.1 i _ h2).1, (ih.1 i _ h2).2.1⟩

/-- If calls on no mirror bring no messages, those for the threads of a process are those of its mirror. -/
theorem own_messages {γ : Type} {f : HOp → Option γ} (hc : ∀ i c, ok i c → (∀ c' os, c ≠ .mirror c' os) → (worldCall c).Within fun q => f q = none)
    {s : Nat → HMProc} {h : List (HEvent HSCall HSRet HOp HRet)} {v : VConf HMProc Nat HOp HRet HSCall HSRet}
    (hr : VRun proc worldCall ok (fun _ => True) s h v) :
    (mine p ((opsOf h).map fun x => (proc x.1, x.2))).filterMap (fun x => f x.1) = (sortOps proc p h).own.filterMap f := by
  have hw := fun {h v} (hr : VRun proc worldCall ok (fun _ => True) s h v) =>
    (ops_within (P := fun _ c q => (∀ c' os, c ≠ .mirror c' os) → f q = none) (fun i c hi => by
      by_cases hm : ∀ c' os, c ≠ .mirror c' os
      · have := hc i c hi hm
        generalize worldCall c = g at this
        induction g with
        | ret a => exact trivial
        | raise e => exact trivial
        | act f k ih => exact fun s => ih s (this s)
        | acq l w k ih => exact ih this
        | rel l w k ih => exact ih this
        | ask q k ih => exact ⟨fun _ => this.1, fun a => ih a (this.2 a)⟩
      · generalize worldCall c = g
        induction g with
        | ret a => exact trivial
        | raise e => exact trivial
        | act f k ih => exact fun s => ih s
        | acq l w k ih => exact ih
        | rel l w k ih => exact ih
        | ask q k ih => exact ⟨fun h => absurd h hm, fun a => ih a⟩) hr).1
  have key : Known proc p h v ∧ (mine p ((opsOf h).map fun x => (proc x.1, x.2))).filterMap (fun x => f x.1) = (sortOps proc p h).own.filterMap f := by
    have quiet : ∀ {h : List (HEvent HSCall HSRet HOp HRet)} {e : HEvent HSCall HSRet HOp HRet}, (∀ i q a, e ≠ .op i q a) →
        opsOf (h ++ [e]) = opsOf h ∧ (sortOps proc p (h ++ [e])).own = (sortOps proc p h).own := by
      intro h e he
      rw [opsOf_append, sortOps_snoc]
      cases e with
      | op i q a => exact absurd rfl (he i q a)
      | ret => exact ⟨List.append_nil _, rfl⟩
      | inv i c => exact ⟨List.append_nil _, by cases c <;> rfl⟩
    induction hr with
    | nil => exact ⟨⟨nofun, nofun⟩, rfl⟩
    | inv h v i c h1 h2 h3 ih =>
      refine ⟨ih.1.inv i c _, ?_⟩
      rw [(quiet (by intro _ _ _ e; cases e)).1, (quiet (by intro _ _ _ e; cases e)).2]
      exact ih.2
    | act h v i c f k h1 h2 ih => exact ⟨ih.1.within h2, ih.2⟩
    | acq h v i c l w k h1 h2 h3 h4 ih => exact ⟨ih.1.within h2, ih.2⟩
    | rel h v i c l w k h1 h2 ih => exact ⟨ih.1.within h2, ih.2⟩
    | ret h v i c r h1 h2 ih =>
      refine ⟨ih.1.ret i r, ?_⟩
      rw [(quiet (by intro _ _ _ e; cases e)).1, (quiet (by intro _ _ _ e; cases e)).2]
      exact ih.2
    | op h v i c q k a h1 h2 ih =>
      refine ⟨(ih.1.within h2).op i q a, ?_⟩
      have hso := ih.1.sorts i _ _ h2
      have hq := (hw h1 i _ h2).2.1
      rw [opsOf_append, sortOps_snoc]
      have e1 : mine p ((opsOf h ++ opsOf [(.op i q a : HEvent HSCall HSRet HOp HRet)]).map fun x => (proc x.1, x.2)) =
          mine p ((opsOf h).map fun x => (proc x.1, x.2)) ++ if proc i = p then [(q, a)] else [] := by
        simp only [mine, opsOf, List.map_append, List.filterMap_append, List.map_cons, List.map_nil]
        congr 1
        by_cases e : proc i = p <;> simp [e]
      rw [e1, List.filterMap_append, ih.2]
      cases hb : (sortOps proc p h).cur i with
      | true =>
        have hp := (hso.1 hb).1
        cases hf : f q <;> simp [Sorted.next, hb, hp, hf]
      | false =>
        by_cases hp : proc i = p
        · have hn : f q = none := hq fun c' os e => by
            have := hso.2 ⟨hp, c', os, e⟩
            rw [hb] at this
            cases this
          simp [Sorted.next, hb, hp, hn]
        · simp [Sorted.next, hb, hp]
  exact key.2

/-! ## One call -/

/-- What a program has asked for and been answered, and what is left. -/
inductive Runs {σ L Q A α : Type} (g : Mix σ L Q A α) : List (Q × A) → Mix σ L Q A α → Prop
  | nil : Runs g [] g
  | act (l : List (Q × A)) (f : σ → σ) (k : σ → Mix σ L Q A α) (s : σ) : Runs g l (.act f k) → Runs g l (k s)
  | acq (l : List (Q × A)) (x : L) (w : Bool) (k : Mix σ L Q A α) : Runs g l (.acq x w k) → Runs g l k
  | rel (l : List (Q × A)) (x : L) (w : Bool) (k : Mix σ L Q A α) : Runs g l (.rel x w k) → Runs g l k
  | ask (l : List (Q × A)) (q : Q) (k : A → Mix σ L Q A α) (a : A) : Runs g l (.ask q k) → Runs g (l ++ [(q, a)]) (k a)

/-- The last call of thread `i` in `h`, with what it has asked for; `g` is left. -/
def LastCall (i : Nat) (h : List (HEvent HSCall HSRet HOp HRet)) (c : HSCall) (g : Mix HMProc Nat HOp HRet (HSRet × Unit)) : Prop :=
  ∃ past mid l, h = past ++ .inv i c :: mid ∧ own i mid = asOps i l ∧ Runs (worldCall c) l g

theorem LastCall.away {i j : Nat} {h : List (HEvent HSCall HSRet HOp HRet)} {c : HSCall} {g : Mix HMProc Nat HOp HRet (HSRet × Unit)}
    (hl : LastCall i h c g) {e : HEvent HSCall HSRet HOp HRet} (he : e.who = j) (hj : i ≠ j) : LastCall i (h ++ [e]) c g := by
  obtain ⟨past, mid, l, rfl, h2, h3⟩ := hl
  exact ⟨past, mid ++ [e], l, by simp, by rw [own_append, own_other (by rw [he]; exact Ne.symm hj), List.append_nil]; exact h2, h3⟩

/-- Every call that has returned has run. -/
theorem call_runs {s : Nat → HMProc} {h : List (HEvent HSCall HSRet HOp HRet)} {v : VConf HMProc Nat HOp HRet HSCall HSRet}
    (hr : VRun proc worldCall ok (fun _ => True) s h v) : (∀ i (x : HSCall × _), v.cur i = some x → LastCall i h x.1 x.2) ∧
      ∀ i h1 r h2, h = h1 ++ .ret i r :: h2 → ∃ c, LastCall i h1 c (.ret (r, ())) := by
  have grow : ∀ {h : List (HEvent HSCall HSRet HOp HRet)} {e : HEvent HSCall HSRet HOp HRet}, (∀ i r, e ≠ .ret i r) →
      (∀ i h1 r h2, h = h1 ++ .ret i r :: h2 → ∃ c, LastCall i h1 c (.ret (r, ()))) →
      ∀ i h1 r h2, h ++ [e] = h1 ++ .ret i r :: h2 → ∃ c, LastCall i h1 c (.ret (r, ())) := by
    intro h e he hh i h1 r h2 hx
    rcases List.eq_nil_or_concat h2 with rfl | ⟨h2', z, rfl⟩
    · obtain ⟨-, e2⟩ := List.append_inj' hx rfl
      cases e2
      exact absurd rfl (he i r)
    · rw [List.concat_eq_append, ← List.cons_append, ← List.append_assoc] at hx
      exact hh i h1 r h2' (List.append_inj' hx rfl).1
  induction hr with
  | nil => exact ⟨nofun, fun i h1 r h2 e => by simp at e⟩
  | inv h v i c h1 h2 h3 ih =>
    refine ⟨fun j x hj => ?_, grow (by intro _ _ e; cases e) ih.2⟩
    by_cases e : j = i
    · subst e
      dsimp only at hj
      rw [upd_same] at hj
      cases hj
      exact ⟨h, [], [], rfl, rfl, .nil⟩
    · dsimp only at hj
      rw [upd_other _ _ e] at hj
      exact (ih.1 j x hj).away rfl e
  | act h v i c f k h1 h2 ih =>
    refine ⟨upd_cur ih.1 (by rintro x ⟨⟩; obtain ⟨past, mid, l, g1, g2, g3⟩ := ih.1 i _ h2; exact ⟨past, mid, l, g1, g2, .act _ _ _ _ g3⟩), ih.2⟩
  | acq h v i c l w k h1 h2 h3 h4 ih =>
    refine ⟨upd_cur ih.1 (by rintro x ⟨⟩; obtain ⟨past, mid, l, g1, g2, g3⟩ := ih.1 i _ h2; exact ⟨past, mid, l, g1, g2, .acq _ _ _ _ g3⟩), ih.2⟩
  | rel h v i c l w k h1 h2 ih =>
    refine ⟨upd_cur ih.1 (by rintro x ⟨⟩; obtain ⟨past, mid, l, g1, g2, g3⟩ := ih.1 i _ h2; exact ⟨past, mid, l, g1, g2, .rel _ _ _ _ g3⟩), ih.2⟩
  | ret h v i c r h1 h2 ih =>
    refine ⟨fun j x hj => ?_, fun j h1' r' h2' hx => ?_⟩
    · by_cases e : j = i
      · subst e; dsimp only at hj; rw [upd_same] at hj; cases hj
      · dsimp only at hj
        rw [upd_other _ _ e] at hj
        exact (ih.1 j x hj).away rfl e
    · rcases List.eq_nil_or_concat h2' with rfl | ⟨h2', z, rfl⟩
      · obtain ⟨rfl, e2⟩ := List.append_inj' hx rfl
        cases e2
        exact ⟨c, ih.1 i _ h2⟩
      · rw [List.concat_eq_append, ← List.cons_append, ← List.append_assoc] at hx
        exact ih.2 j h1' r' h2' (List.append_inj' hx rfl).1
  | op h v i c q k a h1 h2 ih =>
    refine ⟨fun j x hj => ?_, grow (by intro _ _ e; cases e) ih.2⟩
    by_cases e : j = i
    · subst e
      dsimp only at hj
      rw [upd_same] at hj
      cases hj
      obtain ⟨past, mid, l, rfl, g2, g3⟩ := ih.1 j _ h2
      exact ⟨past, mid ++ [.op j q a], l ++ [(q, a)], by simp, by rw [own_append, g2]; simp [own, asOps, HEvent.who], .ask _ _ _ _ g3⟩
    · dsimp only at hj
      rw [upd_other _ _ e] at hj
      exact (ih.1 j x hj).away rfl e

/-- The last element with a property is one. -/
theorem last_unique {α : Type} {P : α → Prop} {x x' y y' : List α} {e e' : α} (h : x ++ e :: y = x' ++ e' :: y') (he : P e) (he' : P e')
    (hy : ∀ z ∈ y, ¬ P z) (hy' : ∀ z ∈ y', ¬ P z) : x = x' ∧ e = e' ∧ y = y' := by
  rcases List.append_eq_append_iff.1 h with ⟨a, rfl, h2⟩ | ⟨a, rfl, h2⟩
  · cases a with
    | nil => cases h2; exact ⟨by simp, rfl, rfl⟩
    | cons b a => cases h2; exact absurd he' (hy e' (by simp))
  · cases a with
    | nil => cases h2; exact ⟨by simp, rfl, rfl⟩
    | cons b a => cases h2; exact absurd he (hy' e (by simp))

theorem own_none {i : Nat} {h : List (HEvent HSCall HSRet HOp HRet)} {l : List (HOp × HRet)} (ho : own i h = asOps i l) :
    ∀ e ∈ seen h, ¬ ofThread i e := by
  induction h generalizing l with
  | nil => exact nofun
  | cons x h ih =>
    rw [← List.singleton_append, own_append] at ho
    by_cases hx : x.who = i
    · rw [own_same hx] at ho
      cases l with
      | nil => cases ho
      | cons y l =>
        simp only [asOps, List.map_cons, List.singleton_append, List.cons.injEq] at ho
        obtain ⟨rfl, ho⟩ := ho
        exact ih ho
    · rw [own_other hx, List.nil_append] at ho
      intro e he
      cases x with
      | op => exact ih ho e he
      | inv j c =>
        rcases List.mem_cons.1 he with rfl | he
        · exact hx
        · exact ih ho e he
      | ret j r =>
        rcases List.mem_cons.1 he with rfl | he
        · exact hx
        · exact ih ho e he

/-- A call that asks for one operation. -/
theorem single_runs {c : HSCall} {q : HOp} {f : HRet → HSRet} (hw : worldCall c = .ask q fun x => .ret (f x, ())) {l : List (HOp × HRet)}
    {r : HSRet × Unit} (h : Runs (worldCall c) l (.ret r)) : ∃ y, l = [(q, y)] ∧ r = (f y, ()) := by
  have key : ∀ {l : List (HOp × HRet)} {g : Mix HMProc Nat HOp HRet (HSRet × Unit)}, Runs (worldCall c) l g →
      (l = [] ∧ g = .ask q fun x => .ret (f x, ())) ∨ ∃ y, l = [(q, y)] ∧ g = .ret (f y, ()) := by
    intro l g h
    induction h with
    | nil => exact .inl ⟨rfl, hw⟩
    | act l f k s h ih => rcases ih with ⟨-, e⟩ | ⟨y, -, e⟩ <;> cases e
    | acq l x w k h ih => rcases ih with ⟨-, e⟩ | ⟨y, -, e⟩ <;> cases e
    | rel l x w k h ih => rcases ih with ⟨-, e⟩ | ⟨y, -, e⟩ <;> cases e
    | ask l q k a h ih =>
      rcases ih with ⟨rfl, e⟩ | ⟨y, -, e⟩
      · cases e
        exact .inr ⟨a, rfl, rfl⟩
      · cases e
  rcases key h with ⟨-, e⟩ | ⟨y, e1, e2⟩
  · cases e
  · cases e2
    exact ⟨y, e1, rfl⟩

end World
end SyncStream
