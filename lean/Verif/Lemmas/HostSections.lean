import Verif.Lemmas.AtomClients
import Verif.Lemmas.HostMirrorThreads
import Verif.Spec.HostSections
/-!
# Threads that share a host mirror: the moments of all calls

The `__buffer_lock` has been made.  Then every call on the mirror (but setting the mode) is the sequence of moments of
`Spec/HostSections.lean`.
-/

namespace SyncStream
open Conc Spec

namespace HMThr
namespace Sec
variable {α β : Type} {k0 n0 : Nat}

/-- The lock exists, and no other has been made since. -/
structure Made (k0 n0 : Nat) (m : HMProc) : Prop where
  lock : m.lock = some k0
  made : m.made = n0

/-- The lock protects the mirror; the network is for all. -/
def reg (k0 n0 : Nat) : Regions (HMProc × HNet) Nat Unit where
  A _ := HMProc
  G := HNet
  get _ s := s.1
  set _ a s := (a, s.2)
  glob s := s.2
  lock _ := k0
  inv _ := Made k0 n0
  ginv _ := True
  get_same _ _ _ := rfl
  get_other _ _ _ _ h := absurd rfl h
  glob_set _ _ _ := rfl
  ext _ _ h h' := Prod.ext (h ()) h'
  lock_inj _ _ _ := rfl

theorem I_iff {s : HMProc × HNet} : (reg k0 n0).I s ↔ Made k0 n0 s.1 := ⟨fun h => h.1 (), fun h => ⟨fun _ => h, trivial⟩⟩

/-! ## Steps -/

theorem own_atom {m : Py (HMProc × HNet) α} {Q : Except Exc α → Prop}
    (h : ∀ s, Made k0 n0 s.1 → Made k0 n0 (m s).2.1 ∧ (m s).2.2 = s.2 ∧ Q (m s).1)
    (hc : ∀ a n n', (m (a, n)).1 = (m (a, n')).1 ∧ (m (a, n)).2.1 = (m (a, n')).2.1) :
    Priv (reg k0 n0) () (Prog.atom m) Q := by
  intro d com
  rw [Prog.atom_eq]
  refine .inl ⟨⟨fun s hs => ?_, fun s hs => ?_, fun _ _ _ h => absurd rfl h, fun s t hs ht e => ?_, fun s t hs ht e => ?_⟩,
    fun s hs => ?_⟩
  · rw [I_iff] at hs; exact (h s hs).1
  · rw [I_iff] at hs; exact (h s hs).2.1
  · obtain ⟨a, n⟩ := s
    obtain ⟨a', n'⟩ := t
    cases (e : a = a')
    exact (hc a n n').2
  · obtain ⟨a, n⟩ := s
    obtain ⟨a', n'⟩ := t
    cases (e : a = a')
    exact congrArg Prog.ofExcept (hc a n n').1
  · rw [I_iff] at hs
    have := (h s hs).2.2
    dsimp only
    cases hr : (m s).1 with
    | ok a => rw [hr] at this; exact ⟨rfl, rfl, this⟩
    | error e => rw [hr] at this; exact ⟨rfl, rfl, this⟩

theorem use_atom {m : Py (HMProc × HNet) α} (h : ∀ s, Made k0 n0 s.1 → Made k0 n0 (m s).2.1) : Uses (reg k0 n0) () (Prog.atom m) := by
  intro d
  rw [Prog.atom_eq]
  have e : ∀ s t : HMProc × HNet, (reg k0 n0).get () s = (reg k0 n0).get () t → (reg k0 n0).glob s = (reg k0 n0).glob t → s = t :=
    fun s t h h' => Prod.ext h h'
  refine .inr ⟨rfl, ⟨fun s hs => ?_, fun s hs => trivial, fun _ _ _ h => absurd rfl h, fun s t hs ht h1 h2 => ?_,
    fun s t hs ht h1 h2 => ?_⟩, fun s hs => ?_⟩
  · rw [I_iff] at hs; exact h s hs
  · rw [e s t h1 h2]; exact ⟨rfl, rfl⟩
  · rw [e s t h1 h2]
  · dsimp only
    cases (m s).1 <;> exact rfl

theorem own_onBuf (m : Py StringIO α) : Priv (reg k0 n0) () (onBuf m) fun _ => True :=
  own_atom (fun _ h1 => ⟨⟨h1.lock, h1.made⟩, rfl, trivial⟩) fun _ _ _ => ⟨rfl, rfl⟩

theorem own_gets {f : HMProc × HNet → α} {Q : Except Exc α → Prop} (hf : ∀ a n n', f (a, n) = f (a, n'))
    (h : ∀ s, Made k0 n0 s.1 → Q (.ok (f s))) : Priv (reg k0 n0) () (gets f) Q :=
  own_atom (fun s h1 => ⟨h1, rfl, h s h1⟩) fun a n n' => ⟨congrArg Except.ok (hf a n n'), rfl⟩

theorem own_lazyLock : Priv (reg k0 n0) () lazyLock fun r => r = .ok k0 := by
  unfold lazyLock
  refine Priv.bind (Q := fun r => r = .ok (some k0)) (own_gets (fun _ _ _ => rfl) fun s h => congrArg _ h.lock)
    (fun a ha => ?_) fun e he => nomatch he
  cases ha
  refine Priv.bind (Q := fun r => r = .ok (some k0)) (own_gets (fun _ _ _ => rfl) fun s h => congrArg _ h.lock)
    (fun a ha => ?_) fun e he => nomatch he
  cases ha
  exact .ret rfl

theorem own_locked {p : HMProg α} {Q : Except Exc α → Prop} (h : Priv (reg k0 n0) () p Q) : Priv (reg k0 n0) () (locked p) Q :=
  own_lazyLock.bind (fun _ hl => by cases hl; exact h.withOwn) fun _ he => nomatch he

theorem own_closed : Priv (reg k0 n0) () closed fun _ => True := own_locked (own_gets (fun _ _ _ => rfl) fun _ _ => trivial)

variable {env : HEnv}

theorem use_request (r : Req) : Uses (reg k0 n0) () (request env r) := use_atom fun _ h => ⟨h.lock, h.made⟩

/-- A value or an exception. -/
theorem priv_except (r : Except Exc α) : Priv (reg k0 n0) () (Prog.ofExcept r : HMProg α) fun _ => True := by
  cases r
  · exact .raise trivial
  · exact .ret trivial

/-- The end of a POST. -/
def postV (resp : Resp) : Except Exc Unit :=
  if resp.status < 400 then .ok () else match resp.body with
    | none => .error .jsonDecodeError
    | some _ => .error .connectionError

/-- The end of `check_states`. -/
def askV (resp : Resp) : Except Exc Unit :=
  if resp.status < 400 then
    match resp.body with
    | none => .error .jsonDecodeError
    | some j =>
      match j.get (lit "data") .null with
      | .bool true => .error .stopIteration
      | _ => .ok ()
  else match resp.body with
    | none => .error .jsonDecodeError
    | some _ => .error .connectionError

theorem fail_eq (resp : Resp) : (fail resp : HMProg Unit) = Prog.ofExcept (match resp.body with
    | none => .error .jsonDecodeError
    | some _ => .error .connectionError) := by
  unfold fail
  cases resp.body <;> rfl

theorem expectOk_eq (r : Req) : expectOk env r = request env r >>= fun resp => Prog.ofExcept (postV resp) := by
  refine congrArg (Prog.bind _) (funext fun resp => ?_)
  unfold postV
  split
  · rfl
  · exact fail_eq resp

theorem checkAnswer_eq (resp : Resp) : checkAnswer resp = Prog.ofExcept (askV resp) := by
  unfold checkAnswer askV
  split
  · cases resp.body with
    | none => rfl
    | some j =>
      dsimp only
      generalize j.get (lit "data") .null = v
      cases v with
      | bool b => cases b <;> rfl
      | _ => rfl
  · exact fail_eq resp

theorem expectOk_py (r : Req) (s : HMNet) : HMirror.expectOk env r s =
    ((HMirror.request env r s).1.bind postV, (HMirror.request env r s).2) := by
  unfold HMirror.expectOk
  rcases h : HMirror.request env r s with ⟨x, t⟩
  cases x with
  | error e => rw [Py.bind_error h]; rfl
  | ok resp =>
    rw [Py.bind_ok h]
    show _ = (postV resp, t)
    unfold postV
    split
    · rfl
    · unfold Resp.fail
      cases resp.body <;> rfl

theorem askState_py (s : HMNet) : askState env s =
    ((HMirror.request env (.stateGet (some (lit "closed"))) s).1.bind askV, (HMirror.request env (.stateGet (some (lit "closed"))) s).2) := by
  unfold askState
  rcases h : HMirror.request env (.stateGet (some (lit "closed"))) s with ⟨x, t⟩
  cases x with
  | error e => rw [Py.bind_error h]; rfl
  | ok resp =>
    rw [Py.bind_ok h]
    show _ = (askV resp, t)
    unfold askV
    split
    · cases resp.body with
      | none => rfl
      | some j =>
        dsimp only
        generalize j.get (lit "data") .null = v
        cases v with
        | bool b => cases b <;> rfl
        | _ => rfl
    · unfold Resp.fail
      cases resp.body <;> rfl

theorem use_then_except {r : Req} {v : Resp → Except Exc Unit} :
    Uses (reg k0 n0) () (request env r >>= fun resp => Prog.ofExcept (v resp)) :=
  (use_request r).bind fun _ => priv_except _

theorem use_sendData (d : PyStr) : Uses (reg k0 n0) () (sendData env d) :=
  own_closed.then fun b _ => by
    cases b with
    | false =>
      show Uses _ _ (expectOk env _)
      rw [expectOk_eq]
      exact use_then_except
    | true => exact (Priv.ret (Q := fun _ => True) trivial).uses

theorem use_checkStates : Uses (reg k0 n0) () (checkStates env) :=
  own_closed.then fun b _ => by
    cases b with
    | false => exact (use_request _).bind fun resp => by rw [checkAnswer_eq]; exact priv_except _
    | true => exact (Priv.ret (Q := fun _ => True) trivial).uses

/-- `__write` after the check. -/
def writeRest (env : HEnv) (data : PyStr) : HMProg Nat := do
  let messageLines := splitlines data
  if ← gets (·.1.mirror.aggressive) then
    sendData env data
    return data.length
  else
    let nLines := messageLines.length
    if nLines > 1 ∨ (nLines = 1 ∧ messageLines.head? = some []) ∨ isEndLineBreak data then
      let res ← onBuf (StringIO.write data)
      let text ← onBuf StringIO.getvalue
      sendData env text
      onBuf StringIO.seek0
      onBuf StringIO.truncate0
      return res
    else if nLines = 1 then
      onBuf (StringIO.write data)
    else
      return 0

theorem writeCore_eq (d : PyStr) : writeCore env d true = checkStates env >>= fun _ => writeRest env d := rfl

theorem use_writeRest (d : PyStr) : Uses (reg k0 n0) () (writeRest env d) := by
  unfold writeRest
  refine Priv.then (own_gets (Q := fun _ => True) (fun _ _ _ => rfl) fun _ _ => trivial) fun a _ => ?_
  extract_lets n
  split
  · exact (use_sendData d).bind fun _ => .ret trivial
  · split
    · refine (own_onBuf _).then fun _ _ => (own_onBuf _).then fun _ _ => (use_sendData _).bind fun _ => ?_
      exact (own_onBuf _).bind (fun _ _ => (own_onBuf _).bind (fun _ _ => .ret trivial) fun _ _ => trivial) fun _ _ => trivial
    · split
      · exact (own_onBuf _).uses
      · exact (Priv.ret (Q := fun _ => True) trivial).uses

theorem sim_writeRest (d : PyStr) : Sim (writeRest env d) (postRest env d) := by
  refine .bind (.gets fun s => s.1.aggressive) fun x => ?_
  extract_lets n
  refine .ite (.bind (sim_sendData env d) fun _ => .pure _) (.ite ?_ (.ite (.onBuf _) (.pure _)))
  exact .bind (.onBuf _) fun _ => .bind (.onBuf _) fun _ => .bind (sim_sendData env _) fun _ =>
    .bind (.onBuf _) fun _ => .bind (.onBuf _) fun _ => .pure _

/-- `new_line` up to the check. -/
def due (env : HEnv) (c : Bool) : HMProg Bool := do
  let pos ← onBuf StringIO.tell
  if pos > 0 then
    (if c then checkStates env else pure () : HMProg Unit)
    return true
  else return false

/-- What `new_line` does after it. -/
def dueRest (env : HEnv) : Bool → HMProg Unit
  | false => return ()
  | true => do
    let _ ← writeRest env (lit "\n")
    return ()

theorem newLine_eq (c : Bool) : newLineCore env c = due env c >>= dueRest env := by
  refine Eq.trans ?_ (Prog.bind_assoc' _ _ _).symm
  refine congrArg (Prog.bind _) (funext fun pos => ?_)
  show (if pos > 0 then writeCore env (lit "\n") c >>= _ else _) = (if pos > 0 then _ else _ : HMProg _).bind (dueRest env)
  by_cases h : pos > 0
  · rw [if_pos h, if_pos h]
    refine (Prog.bind_assoc' _ _ _).trans ?_
    exact Eq.trans rfl (Prog.bind_assoc' (if c then checkStates env else pure () : HMProg Unit) (fun _ => Prog.ret true) (dueRest env)).symm
  · rw [if_neg h, if_neg h]; rfl

theorem use_due (c : Bool) : Uses (reg k0 n0) () (due env c) :=
  (own_onBuf _).then fun _ _ => by
    split
    · cases c
      · exact (Priv.ret (Q := fun _ => True) trivial).uses
      · exact use_checkStates.bind fun _ => .ret trivial
    · exact (Priv.ret (Q := fun _ => True) trivial).uses

theorem sim_due (c : Bool) : Sim (due env c) (lineDue env c) :=
  .bind (.onBuf _) fun _ => .ite (.bind (.ite (sim_checkStates env) (.pure ())) fun _ => .pure _) (.pure _)

/-! ## The moments -/

/-- What happens to the process in a moment. -/
def step (env : HEnv) (x : HSec) (s : HMProc × HNet) : HMProc × HNet :=
  ({ s.1 with mirror := (x.exec env (view s)).2.1 }, (x.exec env (view s)).2.2)

/-- Moments as steps. -/
def run (env : HEnv) : Ask HSec HAns HMRet → HMProg HMRet
  | .done r => .ret r
  | .ask x k => .act (step env x) fun s => run env (k (x.exec env (view s)).1)

/-- The program does what happens in the moment `x`; its result is turned into the answer by `F`. -/
def Does (env : HEnv) (p : HMProg β) (F : β → HMRet) (x : HSec) : Prop := ∀ s, x.result env (view s) = (HMRet.of F (p.seq s).1, view (p.seq s).2)

theorem Sim.does {p : HMProg β} {m : Py HMNet β} (h : Sim p m) {F : β → HMRet} {x : HSec}
    (hx : ∀ s, x.result env s = (HMRet.of F (m s).1, (m s).2)) : Does env p F x := fun s => by
  rw [hx, ← (h s).1, ← (h s).2]

theorem does_state {p : HMProg β} {F : β → HMRet} {x : HSec} (hd : Does env p F x) (hu : Uses (reg k0 n0) () p) {s : HMProc × HNet}
    (hs : (reg k0 n0).I s) : step env x s = (p.seq s).2 := by
  have h2 := I_iff.1 (hu.keeps hs)
  rw [I_iff] at hs
  unfold step HSec.exec
  rw [hd s]
  rcases h : (p.seq s).2 with ⟨⟨m, l, n⟩, w⟩
  rw [h] at h2
  rcases s with ⟨⟨m', l', n'⟩, w'⟩
  have e1 : l' = some k0 := hs.lock
  have e2 : n' = n0 := hs.made
  have e3 : l = some k0 := h2.lock
  have e4 : n = n0 := h2.made
  subst e1 e2 e3 e4
  rfl

/-- The continuation of a moment with result `r`. -/
def next (K : HMRet → Ask HSec HAns HMRet) : HMRet → Ask HSec HAns HMRet
  | .exc e => .done (.exc e)
  | r => K r

theorem run_andThen (x : HSec) (K : HMRet → Ask HSec HAns HMRet) :
    run env (x.andThen K) = .act (step env x) fun s => run env (next K (x.result env (view s)).1) := by
  refine congrArg (Prog.act _) (funext fun s => congrArg (run env) ?_)
  show (match (x.result env (view s)).1 with | .exc e => _ | r => K r) = _
  cases (x.result env (view s)).1 <;> rfl

theorem ref_more {p : HMProg β} {p' : β → HMProg α} {F : β → HMRet} {x : HSec} {K : HMRet → Ask HSec HAns HMRet} {k : Except Exc α → HMProg HMRet}
    (hF : ∀ b e, F b ≠ .exc e) (hu : Uses (reg k0 n0) () p) (hd : Does env p F x) (hE : ∀ e, Ref (reg k0 n0) none (k (.error e)) (.ret (.exc e)))
    (hA : ∀ b, Ref (reg k0 n0) (some ()) (((p' b).andRelease k0 true).outcome.bind k) (run env (K (F b)))) :
    Ref (reg k0 n0) (some ()) (((p >>= p').andRelease k0 true).outcome.bind k) (run env (x.andThen K)) := by
  have e : ((p >>= p').andRelease k0 true).outcome.bind k = p.outcome >>= fun
      | .ok b => ((p' b).andRelease k0 true).outcome.bind k
      | .error e => .rel k0 true (k (.error e)) := by
    refine (congrArg (fun q => Prog.bind (Prog.outcome q) k) (Prog.andRelease_bind _ _ p p')).trans ?_
    rw [Prog.Total.outcome_bind p.outcome_total]
    refine (Prog.bind_assoc' _ _ _).trans (congrArg (Prog.bind _) (funext fun r => ?_))
    cases r <;> rfl
  have hn : ∀ b, next K (F b) = K (F b) := fun b => by
    cases h : F b with
    | exc e => exact absurd h (hF b e)
    | _ => rfl
  rw [e, run_andThen]
  refine .block () _ p.outcome _ (fun r => run env (next K (HMRet.of F r))) _ _ (hu 0).block (fun r => ?_) ?_ p.outcome_total
  · cases r with
    | ok b =>
      show Ref _ _ _ (run env (next K (F b)))
      rw [hn]
      exact hA b
    | error e => exact .rel () true _ _ (hE e)
  · intro s hs b t h
    rw [Prog.seq_outcome] at h
    cases h
    exact ⟨does_state hd hu hs, congrArg (fun x : HMRet × HMNet => run env (next K x.1)) (hd s)⟩

theorem bind_ret (p : HMProg α) : p >>= Prog.ret = p := by
  show p.bind Prog.ret = p
  induction p with
  | ret a => rfl
  | raise e => rfl
  | act f κ ih => exact congrArg (Prog.act f) (funext ih)
  | acq l w κ ih => exact congrArg (Prog.acq l w) ih
  | rel l w κ ih => exact congrArg (Prog.rel l w) ih

theorem ref_last {p : HMProg α} {F : α → HMRet} {x : HSec} {K : HMRet → Ask HSec HAns HMRet} {k : Except Exc α → HMProg HMRet}
    (hF : ∀ b e, F b ≠ .exc e) (hu : Uses (reg k0 n0) () p) (hd : Does env p F x) (hE : ∀ e, Ref (reg k0 n0) none (k (.error e)) (.ret (.exc e)))
    (hA : ∀ a, Ref (reg k0 n0) none (k (.ok a)) (run env (K (F a)))) :
    Ref (reg k0 n0) (some ()) ((p.andRelease k0 true).outcome.bind k) (run env (x.andThen K)) := by
  rw [← bind_ret p]
  exact ref_more hF hu hd hE fun a => .rel () true _ _ (hA a)

theorem ref_lazyLock {h : Option Unit} {k : Nat → HMProg α} {c : HMProg α} (hr : Ref (reg k0 n0) h (k k0) c) :
    Ref (reg k0 n0) h (lazyLock >>= k) c := by
  have e1 : ∀ s : HMProc × HNet, (reg k0 n0).I s → s.1.lock = some k0 := fun s hs => (I_iff.1 hs).lock
  refine .still h _ _ ((gets (·.1.lock) >>= fun l => Prog.ret (l.getD 0)) >>= k) c (fun s hs => ⟨rfl, ?_⟩)
    (.still h _ _ (k k0) c (fun s hs => ⟨rfl, ?_⟩) hr)
  · dsimp only [Py.gets]
    rw [e1 s hs]
    rfl
  · dsimp only [Py.gets]
    rw [e1 s hs]
    rfl

theorem total_lazyLock : lazyLock.Total := by
  intro s
  show Prog.Total (if _ then _ else _)
  split
  · exact fun _ _ => trivial
  · exact fun _ => trivial

theorem ref_locked {p : HMProg α} {k : Except Exc α → HMProg HMRet} {c : HMProg HMRet}
    (h : Ref (reg k0 n0) (some ()) ((p.andRelease k0 true).outcome.bind k) c) :
    Ref (reg k0 n0) none ((locked p).outcome.bind k) c := by
  have e : (locked p).outcome.bind k = lazyLock >>= fun l => (Prog.withLock l true p).outcome.bind k := by
    refine (congrArg (fun q => Prog.bind q k) (total_lazyLock.outcome_bind _)).trans ?_
    exact Prog.bind_assoc' _ _ _
  rw [e]
  exact ref_lazyLock (.acq () _ _ h)

/-- A method of one section and one moment. -/
theorem ref_sec {p : HMProg α} {F : α → HMRet} {x : HSec} {K : HMRet → Ask HSec HAns HMRet} {k : Except Exc α → HMProg HMRet}
    (hF : ∀ b e, F b ≠ .exc e) (hu : Uses (reg k0 n0) () p) (hd : Does env p F x) (hE : ∀ e, Ref (reg k0 n0) none (k (.error e)) (.ret (.exc e)))
    (hA : ∀ a, Ref (reg k0 n0) none (k (.ok a)) (run env (K (F a)))) :
    Ref (reg k0 n0) none ((locked p).outcome.bind k) (run env (x.andThen K)) := ref_locked (ref_last hF hu hd hE hA)

theorem outcome_bind (p : HMProg α) (q : α → HMProg β) (k : Except Exc β → HMProg HMRet) :
    (p >>= q).outcome.bind k = p.outcome.bind fun
      | .ok a => (q a).outcome.bind k
      | .error e => k (.error e) := by
  show (p.bind q).outcome.bind k = _
  induction p with
  | ret a => rfl
  | raise e => rfl
  | act f κ ih => exact congrArg (Prog.act f) (funext ih)
  | acq l w κ ih => exact congrArg (Prog.acq l w) ih
  | rel l w κ ih => exact congrArg (Prog.rel l w) ih

/-! ## The parts of the calls -/

section Parts
variable {k : Except Exc Unit → HMProg HMRet} {q : Ask HSec HAns HMRet}

theorem ref_closed {k : Except Exc Bool → HMProg HMRet} {K : HMRet → Ask HSec HAns HMRet}
    (hE : ∀ e, Ref (reg k0 n0) none (k (.error e)) (.ret (.exc e))) (hA : ∀ b, Ref (reg k0 n0) none (k (.ok b)) (run env (K (.bool b)))) :
    Ref (reg k0 n0) none (closed.outcome.bind k) (run env (HSec.andThen .isClosed K)) :=
  ref_sec (F := .bool) nofun (own_gets (Q := fun _ => True) (fun _ _ _ => rfl) fun _ _ => trivial).uses
    (Sim.does (m := Py.gets fun s : HMNet => s.1.buf.closed) (Sim.gets fun s => s.1.buf.closed) fun _ => rfl) hE hA

theorem not_gets (f : HMProc × HNet → Bool) (k : Except Exc Bool → HMProg HMRet) :
    (locked (gets fun s => !f s)).outcome.bind k = (locked (gets f)).outcome.bind fun
      | .ok b => k (.ok !b)
      | .error e => k (.error e) := by
  have h : ∀ l : Nat, (Prog.withLock l true (gets fun s => !f s)).outcome.bind k = (Prog.withLock l true (gets f)).outcome.bind fun
      | .ok b => k (.ok !b)
      | .error e => k (.error e) := fun _ => rfl
  have e : ∀ (p : HMProg Bool) (k : Except Exc Bool → HMProg HMRet), (locked p).outcome.bind k =
      lazyLock >>= fun l => (Prog.withLock l true p).outcome.bind k := fun p k =>
    (congrArg (fun q => Prog.bind q k) (total_lazyLock.outcome_bind _)).trans (Prog.bind_assoc' _ _ _)
  rw [e, e]
  exact congrArg (Prog.bind _) (funext h)

/-- `readable` and `writable`. -/
theorem ref_notClosed {k : Except Exc Bool → HMProg HMRet} {K : HMRet → Ask HSec HAns HMRet}
    (hE : ∀ e, Ref (reg k0 n0) none (k (.error e)) (.ret (.exc e))) (hA : ∀ b, Ref (reg k0 n0) none (k (.ok !b)) (run env (K (.bool b)))) :
    Ref (reg k0 n0) none (writable.outcome.bind k) (run env (HSec.andThen .isClosed K)) := by
  show Ref _ _ ((locked (gets fun s => !s.1.mirror.buf.closed)).outcome.bind k) _
  rw [not_gets]
  exact ref_closed hE hA

theorem ref_clear (hE : ∀ e, Ref (reg k0 n0) none (k (.error e)) (.ret (.exc e))) {K : HMRet → Ask HSec HAns HMRet}
    (hA : Ref (reg k0 n0) none (k (.ok ())) (run env (K .unit))) :
    Ref (reg k0 n0) none (clear.outcome.bind k) (run env (HSec.andThen .clear K)) :=
  ref_sec (F := fun _ => .unit) nofun ((own_onBuf _).bind (fun _ _ => own_onBuf _) fun _ _ => trivial : Priv _ _ _ fun _ => True).uses
    (Sim.does (m := HMirror.clear) (.bind (.onBuf _) fun _ => .onBuf _) fun _ => rfl) hE fun _ => hA

theorem ref_shut (hE : ∀ e, Ref (reg k0 n0) none (k (.error e)) (.ret (.exc e))) {K : HMRet → Ask HSec HAns HMRet}
    (hA : Ref (reg k0 n0) none (k (.ok ())) (run env (K .unit))) :
    Ref (reg k0 n0) none ((locked (onBuf StringIO.close)).outcome.bind k) (run env (HSec.andThen .shut K)) :=
  ref_sec (F := fun _ => .unit) nofun (own_onBuf _).uses (Sim.does (m := HMirror.onBuf StringIO.close) (.onBuf _) fun _ => rfl) hE fun _ => hA

theorem ref_flush (hE : ∀ e, Ref (reg k0 n0) none (k (.error e)) (.ret (.exc e))) {K : HMRet → Ask HSec HAns HMRet}
    (hA : Ref (reg k0 n0) none (k (.ok ())) (run env (K .unit))) :
    Ref (reg k0 n0) none (flush.outcome.bind k) (run env (HSec.andThen .flush K)) :=
  ref_sec (F := fun _ => .unit) nofun (own_onBuf _).uses (Sim.does (m := HMirror.flush) (.onBuf _) fun _ => rfl) hE fun _ => hA

/-- A request without the lock. -/
theorem ref_request {r : Req} {v : Resp → Except Exc Unit} {x : HSec}
    (hx : ∀ s, x.result env s = (HMRet.of (fun _ => .unit) ((HMirror.request env r s).1.bind v), (HMirror.request env r s).2))
    (hE : ∀ e, Ref (reg k0 n0) none (k (.error e)) (.ret (.exc e))) {K : HMRet → Ask HSec HAns HMRet}
    (hA : Ref (reg k0 n0) none (k (.ok ())) (run env (K .unit))) :
    Ref (reg k0 n0) none ((request env r >>= fun resp => Prog.ofExcept (v resp)).outcome.bind k) (run env (x.andThen K)) := by
  have e1 : ∀ s : HMProc × HNet, HMirror.request env r (view s) = ((HNet.request env r s.2).1, (s.1.mirror, (HNet.request env r s.2).2)) := fun s => rfl
  have e2 : step env x = fun s => (s.1, (HNet.request env r s.2).2) := by
    funext s
    unfold step HSec.exec
    rw [hx, e1]
  have e3 : ∀ s : HMProc × HNet, (x.result env (view s)).1 = HMRet.of (fun _ => .unit) ((HNet.request env r s.2).1.bind v) := fun s => by
    rw [hx, e1]
  rw [run_andThen, e2]
  simp only [e3]
  unfold request atom
  rw [Prog.atom_eq]
  refine .glob _ _ _ ⟨fun s hs => trivial, fun s hs _ => rfl, fun s t hs ht e => ?_⟩ (fun s t hs ht e => ?_) fun s hs => ?_
  · exact congrArg (fun n : HNet => (HNet.request env r n).2) e
  · exact congrArg (fun n : HNet => run env (next K (HMRet.of (fun _ => .unit) ((HNet.request env r n).1.bind v)))) e
  · show Ref _ _ ((Prog.bind (Prog.ofExcept (HNet.request env r s.2).1) fun resp => Prog.ofExcept (v resp)).outcome.bind k) _
    cases (HNet.request env r s.2).1 with
    | error e => exact hE e
    | ok resp =>
      show Ref _ _ ((Prog.ofExcept (v resp) : HMProg Unit).outcome.bind k) (run env (next K (HMRet.of (fun _ => .unit) (v resp))))
      cases v resp with
      | error e => exact hE e
      | ok u => exact hA

theorem ref_post (m : Json) (hE : ∀ e, Ref (reg k0 n0) none (k (.error e)) (.ret (.exc e))) {K : HMRet → Ask HSec HAns HMRet}
    (hA : Ref (reg k0 n0) none (k (.ok ())) (run env (K .unit))) :
    Ref (reg k0 n0) none ((expectOk env (.post (.json m))).outcome.bind k) (run env (HSec.andThen (.post m) K)) := by
  rw [expectOk_eq]
  refine ref_request (fun s => ?_) hE hA
  exact congrArg (fun y : Except Exc Unit × HMNet => (HMRet.of (fun _ => .unit) y.1, y.2)) (expectOk_py (.post (.json m)) s)

theorem ref_ask (hE : ∀ e, Ref (reg k0 n0) none (k (.error e)) (.ret (.exc e))) {K : HMRet → Ask HSec HAns HMRet}
    (hA : Ref (reg k0 n0) none (k (.ok ())) (run env (K .unit))) :
    Ref (reg k0 n0) none ((request env (.stateGet (some (lit "closed"))) >>= checkAnswer).outcome.bind k) (run env (HSec.andThen .ask K)) := by
  rw [show (checkAnswer : Resp → HMProg Unit) = fun resp => Prog.ofExcept (askV resp) from funext checkAnswer_eq]
  refine ref_request (fun s => ?_) hE hA
  exact congrArg (fun y : Except Exc Unit × HMNet => (HMRet.of (fun _ => .unit) y.1, y.2)) (askState_py s)

theorem ref_newLine (c : Bool) (hE : ∀ e, Ref (reg k0 n0) none (k (.error e)) (.ret (.exc e))) (hA : Ref (reg k0 n0) none (k (.ok ())) (run env q)) :
    Ref (reg k0 n0) none ((newLine env c).outcome.bind k) (run env (HSec.newLine c q)) := by
  refine ref_locked (p := newLineCore env c) ?_
  rw [newLine_eq]
  refine ref_more (F := .bool) nofun (use_due c) (Sim.does (sim_due c) fun _ => rfl) hE fun b => ?_
  cases b with
  | false => exact .rel () true _ _ hA
  | true =>
    exact ref_more (F := .nat) nofun (use_writeRest _) (Sim.does (sim_writeRest _) fun _ => rfl) hE fun _ => .rel () true _ _ hA

theorem ref_sendEnd (c : Bool) (m : Json) (hE : ∀ e, Ref (reg k0 n0) none (k (.error e)) (.ret (.exc e))) (hA : Ref (reg k0 n0) none (k (.ok ())) (run env q)) :
    Ref (reg k0 n0) none ((sendEnd env c m).outcome.bind k) (run env (HSec.sendEnd c m q)) := by
  unfold sendEnd
  rw [outcome_bind]
  refine ref_closed hE fun b => ?_
  cases b with
  | true => exact hA
  | false =>
    show Ref _ _ ((newLine env c >>= fun _ => expectOk env (.post (.json m))).outcome.bind k) _
    rw [outcome_bind]
    exact ref_newLine c hE (ref_post m hE hA)

end Parts

/-- Every call is the sequence of its moments. -/
theorem ref_prog {c : HMCall} (hc : HostCovered c) : Ref (reg k0 n0) none (prog env c) (run env (hostMoments c)) := by
  have hE : ∀ {α : Type} (F : α → HMRet) (e : Exc), Ref (reg k0 n0) none ((fun r => Prog.ret (HMRet.of F r) : Except Exc α → HMProg HMRet) (.error e))
    (.ret (.exc e)) := fun F e => .ret _
  cases c with
  | write d =>
    show Ref _ _ ((write env d).outcome.bind fun r => Prog.ret (HMRet.of .nat r)) _
    unfold HMThr.write
    rw [outcome_bind]
    refine ref_notClosed (hE _) fun b => ?_
    cases b with
    | true => exact .ret _
    | false =>
      refine ref_locked (p := writeCore env d true) ?_
      rw [writeCore_eq]
      refine ref_more (F := fun _ => .unit) nofun use_checkStates (Sim.does (sim_checkStates env) fun _ => rfl) (hE _) fun b => ?_
      exact ref_last (F := .nat) nofun (use_writeRest _) (Sim.does (sim_writeRest _) fun _ => rfl) (hE _) fun a => .ret _
  | newLine c => exact ref_newLine c (hE _) (.ret _)
  | read =>
    show Ref _ _ (HMThr.read.outcome.bind fun r => Prog.ret (HMRet.of .text r)) _
    unfold HMThr.read
    rw [outcome_bind]
    refine ref_notClosed (hE _) fun b => ?_
    cases b with
    | true => exact .ret _
    | false => exact ref_sec (F := .text) nofun (own_onBuf _).uses (Sim.does (m := HMirror.onBuf StringIO.getvalue) (.onBuf _) fun _ => rfl) (hE _) fun _ => .ret _
  | clear => exact ref_clear (hE _) (.ret _)
  | flush => exact ref_flush (hE _) (.ret _)
  | sendData d =>
    show Ref _ _ ((sendData env d).outcome.bind fun r => Prog.ret (HMRet.of (fun _ => .unit) r)) _
    unfold sendData
    rw [outcome_bind]
    refine ref_closed (hE _) fun b => ?_
    cases b with
    | true => exact .ret _
    | false => exact ref_post _ (hE _) (.ret _)
  | sendEof => exact ref_sendEnd _ _ (hE _) (.ret _)
  | sendError e => exact ref_sendEnd _ _ (hE _) (.ret _)
  | sendWarning e => exact ref_sendEnd _ _ (hE _) (.ret _)
  | checkStates =>
    show Ref _ _ ((checkStates env).outcome.bind fun r => Prog.ret (HMRet.of (fun _ => .unit) r)) _
    unfold checkStates
    rw [outcome_bind]
    refine ref_closed (hE _) fun b => ?_
    cases b with
    | true => exact .ret _
    | false => exact ref_ask (hE _) (.ret _)
  | close e =>
    have hend : Ref (reg k0 n0) none ((do clear; locked (onBuf StringIO.close) : HMProg Unit).outcome.bind
        fun r => Prog.ret (HMRet.of (fun _ => .unit) r)) (run env (HSec.andThen .clear fun _ => HSec.andThen .shut .done)) := by
      rw [outcome_bind]
      exact ref_clear (hE _) (ref_shut (hE _) (.ret _))
    show Ref _ _ ((close env e).outcome.bind fun r => Prog.ret (HMRet.of (fun _ => .unit) r)) _
    unfold close
    rw [outcome_bind]
    cases e with
    | none =>
      refine ref_closed (hE _) fun b => ?_
      cases b with
      | true => exact .ret _
      | false =>
        show Ref _ _ ((sendEof env >>= fun _ => do clear; locked (onBuf StringIO.close)).outcome.bind _) _
        rw [outcome_bind]
        exact ref_sendEnd _ _ (hE _) hend
    | some e =>
      refine ref_closed (hE _) fun b => ?_
      cases b with
      | true => exact .ret _
      | false =>
        show Ref _ _ ((sendError env e >>= fun _ => do clear; locked (onBuf StringIO.close)).outcome.bind _) _
        rw [outcome_bind]
        exact ref_sendEnd _ _ (hE _) hend
  | closed => exact ref_closed (hE _) fun _ => .ret _
  | readable => exact ref_notClosed (hE _) fun _ => .ret _
  | writable => exact ref_notClosed (hE _) fun _ => .ret _
  | setAggressive a => exact hc.elim

/-- What happens in a moment, with the lock in view. -/
def act (env : HEnv) (_ : Nat) (x : HSec) (s : HMProc × HNet) : HAns × (HMProc × HNet) := ((x.exec env (view s)).1, step env x s)

/-- The service. -/
abbrev sys (env : HEnv) : Sys (HMProc × HNet) Nat Unit HSec HAns := atomSys (act env)

theorem prog_client (i : Nat) (q : Ask HSec HAns HMRet) :
    (run env q >>= fun r => (Prog.ret (r, ()) : HMProg (HMRet × Unit))) = (asClient q).prog (sys env) i := by
  induction q with
  | done r => rfl
  | ask x k ih => exact congrArg (Prog.act (step env x)) (funext fun w => ih _)

end Sec

/-- Every execution is a history of the moments. -/
theorem moments_history {env : HEnv} {ok : Nat → HMCall → Prop} (hok : ∀ i c, ok i c → HostCovered c) {s : HMProc × HNet}
    (hlock : s.1.lock ≠ none) {tr : List (Ev HMCall HMRet)}
    {κ : Conc.Conf (HMProc × HNet) Nat Unit HMCall HMRet} (hx : Exec (hostMirrorThreads env ok) (init s fun _ => ()) tr κ) :
    ∃ (h : List (HEvent HMCall HMRet HSec HAns)) (rest : Nat → Option (HMCall × Ask HSec HAns (HMRet × Unit))) (t : HMNet), seen h = tr ∧
      Serves (fun s _ x a t => x.exec env s = (a, t)) (hostShared s) (opsOf h) t ∧
      (∀ i, ClientRun (fun _ c => asClient (hostMoments c)) i () (own i h) () (rest i)) ∧ t.2 = κ.st.2 ∧
      ((∀ i, κ.cur i = none) → t = hostShared κ.st ∧ ∀ i, rest i = none) := by
  obtain ⟨k0, hk⟩ : ∃ k, s.1.lock = some k := by
    cases h : s.1.lock with
    | none => exact absurd h hlock
    | some k => exact ⟨k, rfl⟩
  obtain ⟨busy, κc, h1, h2⟩ := coarse_exec (Sec.reg k0 s.1.made)
    (sys := hostMirrorThreads env ok) (sysC := clients (Sec.sys env) (fun _ _ c => asClient (hostMoments c)) ok)
    (fun i o c hc => by
      show Ref _ _ _ ((asClient (hostMoments c)).prog (Sec.sys env) i)
      rw [← Sec.prog_client]
      exact (Sec.ref_prog (hok i c hc)).bind fun _ => .ret _) (fun _ _ h => h) (Sec.I_iff.2 ⟨hk, rfl⟩) hx
  obtain ⟨h, rest, e1, e2, e3, e4⟩ := atom_history h1
  have key : ∀ {l : List (Nat × HSec × HAns)} {w' w'' : HMProc × HNet},
      Serves (fun s i q a t => Sec.act env i q s = (a, t)) w' l w'' →
      Serves (fun s _ x a t => x.exec env s = (a, t)) (hostShared w') l (hostShared w'') := by
    intro l w' w'' hs
    induction hs with
    | nil => exact .nil _
    | cons s t u i q a l ha _ ih =>
      cases ha
      exact .cons _ _ _ _ _ _ _ rfl ih
  refine ⟨h, rest, hostShared κc.st, e1, key e2, e3, h2.glob.symm, fun hi => ?_⟩
  obtain ⟨i1, i2⟩ := h2.idle hi
  refine ⟨by rw [i1], fun i => ?_⟩
  have := e4 i
  rw [i2 i] at this
  cases hr : rest i with
  | none => rfl
  | some x => rw [hr] at this; cases this

end HMThr
end SyncStream
