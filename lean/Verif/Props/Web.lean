import Verif.Lemmas.Web
/-!
# Property C74: HTTP responses and connection pools of the host mode
-/

namespace SyncStream
open Spec Web

/-! ## Nothing but the log is new -/

section same

theorem same_http {α : Type} {f : Nat → Py (HMNet × Web) α} {g : Py HMNet α} (h : ∀ p, Same (f p) g) :
    Same (WebMirror.http >>= f) g := by
  intro s w
  rw [Py.bind_apply]
  unfold WebMirror.http
  cases hw : w.http with
  | some p => exact h p s w
  | none => exact h _ s _

theorem same_expectOk (env : HEnv) (r : Req) : Same (WebMirror.expectOk env r) (HMirror.expectOk env r) :=
  same_http fun _ => same_withRequest fun _ resp => by
    by_cases h : resp.status < 400
    · simp only [h, if_true]; exact same_pure _
    · simp only [h, if_false]; exact same_load _ _

theorem same_checkStates (env : HEnv) : Same (WebMirror.checkStates env) (HMirror.checkStates env) := by
  refine (same_lift _).bind fun c => ?_
  refine Same.ite _ (same_pure _) (same_http fun p => ?_)
  intro s w
  have key : ∀ (resp : Resp) (k : Nat), Same
      ((if resp.status < 400 then load k (match resp.body with
        | none => Py.raise .jsonDecodeError
        | some j => pure (j.get (lit "data") .null))
      else load k resp.fail : Py (HMNet × Web) Json))
      (if resp.status < 400 then (match resp.body with
        | none => Py.raise .jsonDecodeError
        | some j => pure (j.get (lit "data") .null))
      else resp.fail) := fun resp k => Same.ite _ (same_load _ _) (same_load _ _)
  have := ((same_withRequest (p := p) (req := HMirror.request env (.stateGet (some (lit "closed")))) fun k resp => key resp k).bind
    (f' := fun isClosed => match isClosed with
      | .bool true => Py.raise .stopIteration
      | _ => (pure () : Py (HMNet × Web) Unit))
    (f := fun isClosed => match isClosed with
      | .bool true => Py.raise .stopIteration
      | _ => (pure () : Py HMNet Unit)) fun j => by
        split
        · exact same_raise _
        · exact same_pure _) s w
  refine this.trans ?_
  rw [Py.bind_apply, Py.bind_apply, Py.bind_apply]
  rcases hq : HMirror.request env (.stateGet (some (lit "closed"))) s with ⟨x, s'⟩
  cases x with
  | error e => rfl
  | ok resp =>
    dsimp only
    by_cases h : resp.status < 400
    · simp only [h, if_true]
      cases resp.body with
      | none => rfl
      | some j => rfl
    · simp only [h, if_false]
      unfold Resp.fail
      cases resp.body <;> rfl

theorem same_sendData (env : HEnv) (d : PyStr) : Same (WebMirror.sendData env d) (HMirror.sendData env d) :=
  (same_lift _).bind fun _ => Same.ite _ (same_pure _) (same_expectOk env _)

theorem same_writeCore (env : HEnv) (d : PyStr) (check : Bool) :
    Same (WebMirror.writeCore env d check) (HMirror.writeCore env d check) := by
  refine Same.bind ?_ fun _ => ?_
  · cases check
    · exact same_pure _
    · exact same_checkStates env
  · refine (same_lift _).bind fun _ => Same.ite _ ((same_sendData env d).bind fun _ => same_pure _) ?_
    refine Same.ite _ ?_ (Same.ite _ (same_lift _) (same_pure _))
    exact (same_lift _).bind fun _ => (same_lift _).bind fun _ => (same_sendData env _).bind fun _ =>
      (same_lift _).bind fun _ => (same_lift _).bind fun _ => same_pure _

theorem same_newLine (env : HEnv) (check : Bool) : Same (WebMirror.newLine env check) (HMirror.newLine env check) :=
  (same_lift _).bind fun _ => Same.ite _ ((same_writeCore env _ check).bind fun _ => same_pure _) (same_pure _)

theorem same_sendEof (env : HEnv) : Same (WebMirror.sendEof env) (HMirror.sendEof env) :=
  (same_lift _).bind fun _ => Same.ite _ (same_pure _) ((same_newLine env true).bind fun _ => same_expectOk env _)

theorem same_sendError (env : HEnv) (e : ExcObj) : Same (WebMirror.sendError env e) (HMirror.sendError env e) :=
  (same_lift _).bind fun _ => Same.ite _ (same_pure _) ((same_newLine env _).bind fun _ => same_expectOk env _)

theorem same_sendWarning (env : HEnv) (e : ExcObj) : Same (WebMirror.sendWarning env e) (HMirror.sendWarning env e) :=
  (same_lift _).bind fun _ => Same.ite _ (same_pure _) ((same_newLine env true).bind fun _ => same_expectOk env _)

theorem same_close (env : HEnv) (e : Option ExcObj) : Same (WebMirror.close env e) (HMirror.close env e) := by
  refine (same_lift _).bind fun _ => Same.ite _ (same_pure _) ?_
  cases e with
  | none => exact (same_sendEof env).bind fun _ => (same_lift _).bind fun _ => same_lift _
  | some e => exact (same_sendError env e).bind fun _ => (same_lift _).bind fun _ => same_lift _

theorem same_write (env : HEnv) (d : PyStr) : Same (WebMirror.write env d) (HMirror.write env d) :=
  (same_lift _).bind fun _ => Same.ite _ (same_raise _) (same_writeCore env d true)

theorem same_exec (env : HEnv) (c : HMCall) (s : HMNet) (w : Web) :
    ((WebMirror.exec env c (s, w)).1, (WebMirror.exec env c (s, w)).2.1) = HMirror.exec env c s := by
  have key : ∀ {α : Type} {m' : Py (HMNet × Web) α} {m : Py HMNet α} (f : α → HMRet), Same m' m →
      ((HMRet.of f (m' (s, w)).1), (m' (s, w)).2.1) = (HMRet.of f (m s).1, (m s).2) := by
    intro α m' m f h
    rw [← h s w]
  cases c with
  | write d => have h := key .nat (same_write env d); exact h
  | newLine k => have h := key (fun _ => .unit) (same_newLine env k); exact h
  | read => have h := key .text (same_lift HMirror.read); exact h
  | clear => have h := key (fun _ => .unit) (same_lift HMirror.clear); exact h
  | flush => have h := key (fun _ => .unit) (same_lift HMirror.flush); exact h
  | sendData d => have h := key (fun _ => .unit) (same_sendData env d); exact h
  | sendEof => have h := key (fun _ => .unit) (same_sendEof env); exact h
  | sendError e => have h := key (fun _ => .unit) (same_sendError env e); exact h
  | sendWarning e => have h := key (fun _ => .unit) (same_sendWarning env e); exact h
  | checkStates => have h := key (fun _ => .unit) (same_checkStates env); exact h
  | close e => have h := key (fun _ => .unit) (same_close env e); exact h
  | closed => have h := key .bool (same_lift HMirror.closed); exact h
  | readable => have h := key .bool (same_lift HMirror.readable); exact h
  | writable => have h := key .bool (same_lift HMirror.writable); exact h
  | setAggressive a => have h := key (fun _ => .unit) (same_lift (HMirror.setAggressive a)); exact h

theorem same_run (env : HEnv) : ∀ (cs : List HMCall) (s : HMNet) (w : Web),
    ((WebMirror.run env cs (s, w)).1, (WebMirror.run env cs (s, w)).2.1) = HMirror.run env cs s
  | [], _, _ => rfl
  | c :: cs, s, w => by
    have h := same_exec env c s w
    simp only [WebMirror.run, HMirror.run]
    rw [← h]
    rcases he : WebMirror.exec env c (s, w) with ⟨r, s', w'⟩
    have h2 := same_run env cs s' w'
    dsimp only
    rw [← h2]

theorem same_newPool : Same WebReader.newPool Reader.newPool := fun _ _ => rfl
theorem same_clearPool (p : Nat) : Same (WebReader.clearPool p) (Reader.clearPool p) := fun _ _ => rfl

theorem same_withHttp {α : Type} {f' : Nat → Py (RNet × Web) α} {f : Nat → Py RNet α} (h : ∀ p, Same (f' p) (f p)) :
    Same (WebReader.withHttp f') (Reader.withHttp f) := by
  refine (same_lift _).bind fun a => ?_
  cases a with
  | some p => exact h p
  | none =>
    refine same_newPool.bind fun p s w => ?_
    have h1 := h p s w
    rcases hf : f' p (s, w) with ⟨x, s', w'⟩
    rw [hf] at h1
    dsimp only at h1 ⊢
    rw [← h1]
    rfl

theorem same_getStates (env : HEnv) (name : PyStr) (p : Nat) : Same (WebReader.getStates env name p) (Reader.getStates env name p) :=
  same_withRequest fun _ _ => Same.ite _ (same_load _ _) (same_load _ _)

theorem same_read (env : HEnv) (size : Option Int) : Same (WebReader.read env size) (Reader.read env size) :=
  same_withHttp fun _ => same_withRequest fun _ _ =>
    Same.ite _ ((same_load _ _).bind fun _ => same_lift _) (same_load _ _)

theorem same_enter : Same WebReader.enter Reader.enter := by
  refine (same_lift _).bind fun a => ?_
  cases a with
  | none => exact same_newPool.bind fun _ => same_lift _
  | some p => exact same_pure _

theorem same_exit : Same WebReader.exit Reader.exit := by
  refine (same_lift _).bind fun _ => (same_lift _).bind fun _ => Same.ite _ ((same_lift _).bind fun a => ?_) (same_pure _)
  cases a with
  | none => exact same_pure _
  | some p => exact same_clearPool p

theorem same_clear (env : HEnv) : Same (WebReader.withHttp (WebReader.successful env .delete)) (Reader.clear env) :=
  same_withHttp fun _ => same_withRequest fun _ _ => same_load _ _

theorem same_resetStates (env : HEnv) : Same (WebReader.withHttp (WebReader.successful env .stateDelete)) (Reader.resetStates env) :=
  same_withHttp fun _ => same_withRequest fun _ _ => same_load _ _

theorem same_stopAll (env : HEnv) : Same (WebReader.withHttp (WebReader.successful env (.statePost (.json
      (.obj [(lit "state", .str (lit "closed")), (lit "value", .str (lit "true"))]))))) (Reader.stopAll env) :=
  same_withHttp fun _ => same_withRequest fun _ _ => same_load _ _

theorem same_call (env : HEnv) (c : WRCall) (s : RNet) (w : Web) :
    ((WebReader.call env c (s, w)).1, (WebReader.call env c (s, w)).2.1) = Reader.call env c s := by
  have key : ∀ {α : Type} {m' : Py (RNet × Web) α} {m : Py RNet α} (f : α → WRRet), Same m' m →
      ((WRRet.of f (m' (s, w)).1), (m' (s, w)).2.1) = (WRRet.of f (m s).1, (m s).2) := by
    intro α m' m f h
    rw [← h s w]
  cases c with
  | enter => have h := key (fun _ => .unit) same_enter; exact h
  | exit => have h := key (fun _ => .unit) same_exit; exact h
  | len => have h := key .json (same_withHttp (same_getStates env (lit "curlen"))); exact h
  | maxlen => have h := key .json (same_withHttp (same_getStates env (lit "maxlen"))); exact h
  | closed => have h := key .json (same_withHttp (same_getStates env (lit "closed"))); exact h
  | clear => have h := key .bool (same_clear env); exact h
  | resetStates => have h := key .bool (same_resetStates env); exact h
  | stopAll => have h := key .bool (same_stopAll env); exact h
  | read size => have h := key .items (same_read env size); exact h

theorem same_calls (env : HEnv) : ∀ (cs : List WRCall) (s : RNet) (w : Web),
    ((WebReader.calls env cs (s, w)).1, (WebReader.calls env cs (s, w)).2.1) = Reader.calls env cs s
  | [], _, _ => rfl
  | c :: cs, s, w => by
    have h := same_call env c s w
    simp only [WebReader.calls, Reader.calls]
    rw [← h]
    rcases he : WebReader.call env c (s, w) with ⟨r, s', w'⟩
    have h2 := same_calls env cs s' w'
    dsimp only
    rw [← h2]

end same

/-! ## Mirrors -/

/-- Nothing but responses of the pool 0. -/
def OnlyPool0 (e : WebEv) : Prop := (∀ p, e ≠ .made p) ∧ (∀ p, e ≠ .cleared p) ∧ ∀ r p st, e = .opened r p st → p = 0

/-- What holds of the log of a mirror between its calls. -/
def MirrorWeb (w : Web) : Prop :=
  Tidy (· < 400) w.log w.resps ∧
  ((w.http = none ∧ w.finalizer = none ∧ w.log = [] ∧ w.pools = 0) ∨
   (w.http = some 0 ∧ w.finalizer = some 0 ∧ ∃ l, w.log = .made 0 :: l ∧ ∀ e ∈ l, OnlyPool0 e))

theorem only_block (n st : Nat) : ∀ e ∈ [WebEv.opened n 0 st, .read n, .released n, .closed n], OnlyPool0 e := by
  intro e he
  simp only [List.mem_cons, List.not_mem_nil, or_false] at he
  rcases he with rfl | rfl | rfl | rfl
  · exact ⟨nofun, nofun, fun _ _ _ h => by cases h; rfl⟩
  · exact ⟨nofun, nofun, nofun⟩
  · exact ⟨nofun, nofun, nofun⟩
  · exact ⟨nofun, nofun, nofun⟩

theorem mirrorWeb_eff {w w' : Web} (h : MirrorWeb w) (hp : w.http = some 0) (e : Eff (· < 400) 0 w w') : MirrorWeb w' := by
  refine ⟨e.tidy h.1, ?_⟩
  obtain ⟨_, ⟨h1, _⟩ | ⟨h1, h2, l, h3, h4⟩⟩ := h
  · rw [hp] at h1; cases h1
  · refine Or.inr ?_
    rcases e with rfl | ⟨st, ⟨_, rfl⟩ | rfl⟩
    · exact ⟨h1, h2, l, h3, h4⟩
    · refine ⟨h1, h2, l ++ _, by dsimp only; rw [h3]; rfl, fun e he => ?_⟩
      rcases List.mem_append.mp he with h | h
      · exact h4 e h
      · refine only_block w.resps st e ?_
        simp only [List.mem_cons, List.not_mem_nil, or_false] at h ⊢
        rcases h with h | h | h
        · exact Or.inl h
        · exact Or.inr (Or.inr (Or.inl h))
        · exact Or.inr (Or.inr (Or.inr h))
    · refine ⟨h1, h2, l ++ _, by dsimp only; rw [h3]; rfl, fun e he => ?_⟩
      rcases List.mem_append.mp he with h | h
      · exact h4 e h
      · exact only_block w.resps st e h

theorem keeps_http {α : Type} {req : Py HMNet Resp} {body : Nat → Resp → Py (HMNet × Web) α}
    (h : ∀ k resp, Reads (· < 400) k resp (body k resp)) :
    Keeps MirrorWeb (WebMirror.http >>= fun p => withRequest p req body) := by
  rintro ⟨s, w⟩ hs
  rw [Py.bind_apply]
  unfold WebMirror.http
  cases hw : w.http with
  | some p =>
    dsimp only
    have hp : p = 0 := by
      rcases hs.2 with ⟨h1, _⟩ | ⟨h1, _⟩
      · rw [h1] at hw; cases hw
      · rw [h1] at hw; cases hw; rfl
    subst hp
    exact mirrorWeb_eff hs hw (eff_withRequest h (s, w))
  | none =>
    dsimp only
    obtain ⟨_, _, h3, h4⟩ : w.http = none ∧ w.finalizer = none ∧ w.log = [] ∧ w.pools = 0 := by
      rcases hs.2 with h | ⟨h1, _⟩
      · exact h
      · rw [h1] at hw; cases hw
    rw [h4]
    refine mirrorWeb_eff (w := { w with pools := 1, log := w.log ++ [.made 0], http := some 0, finalizer := some 0 })
      ⟨hs.1.made 0, Or.inr ⟨rfl, rfl, [], by rw [h3]; rfl, nofun⟩⟩ rfl ?_
    exact eff_withRequest h (s, _)

theorem keeps_expectOk (env : HEnv) (r : Req) : Keeps MirrorWeb (WebMirror.expectOk env r) := by
  refine keeps_http fun k resp => ?_
  by_cases h : resp.status < 400
  · simp only [h, if_true]; exact fun s => Or.inl ⟨h, rfl⟩
  · simp only [h, if_false]; exact reads_load _

theorem Web.Keeps.ite {σ α : Type} {P : Web → Prop} {m n : Py (σ × Web) α} (c : Prop) [Decidable c] (h1 : Keeps P m) (h2 : Keeps P n) :
    Keeps P (if c then m else n) := by
  split
  · exact h1
  · exact h2

theorem keeps_checkStates (env : HEnv) : Keeps MirrorWeb (WebMirror.checkStates env) := by
  refine (keeps_lift _).bind fun _ => Keeps.ite _ (keeps_pure _) ?_
  have : ∀ {α β : Type} (m : Py (HMNet × Web) Nat) (f : Nat → Py (HMNet × Web) α) (g : α → Py (HMNet × Web) β),
      (m >>= fun p => f p >>= g) = ((m >>= f) >>= g) := by
    intro α β m f g
    funext s
    simp only [Py.bind_apply]
    rcases m s with ⟨x, s'⟩
    cases x <;> rfl
  rw [this]
  refine (keeps_http fun k resp => ?_).bind fun j => ?_
  · by_cases h : resp.status < 400
    · simp only [h, if_true]; exact reads_load _
    · simp only [h, if_false]; exact reads_load _
  · split
    · exact keeps_raise _
    · exact keeps_pure _

theorem keeps_sendData (env : HEnv) (d : PyStr) : Keeps MirrorWeb (WebMirror.sendData env d) :=
  (keeps_lift _).bind fun _ => Keeps.ite _ (keeps_pure _) (keeps_expectOk env _)

theorem keeps_writeCore (env : HEnv) (d : PyStr) (check : Bool) : Keeps MirrorWeb (WebMirror.writeCore env d check) := by
  refine Keeps.bind ?_ fun _ => ?_
  · cases check
    · exact keeps_pure _
    · exact keeps_checkStates env
  · refine (keeps_lift _).bind fun _ => Keeps.ite _ ((keeps_sendData env d).bind fun _ => keeps_pure _) ?_
    refine Keeps.ite _ ?_ (Keeps.ite _ (keeps_lift _) (keeps_pure _))
    exact (keeps_lift _).bind fun _ => (keeps_lift _).bind fun _ => (keeps_sendData env _).bind fun _ =>
      (keeps_lift _).bind fun _ => (keeps_lift _).bind fun _ => keeps_pure _

theorem keeps_newLine (env : HEnv) (check : Bool) : Keeps MirrorWeb (WebMirror.newLine env check) :=
  (keeps_lift _).bind fun _ => Keeps.ite _ ((keeps_writeCore env _ check).bind fun _ => keeps_pure _) (keeps_pure _)

theorem keeps_sendEof (env : HEnv) : Keeps MirrorWeb (WebMirror.sendEof env) :=
  (keeps_lift _).bind fun _ => Keeps.ite _ (keeps_pure _) ((keeps_newLine env true).bind fun _ => keeps_expectOk env _)

theorem keeps_sendError (env : HEnv) (e : ExcObj) : Keeps MirrorWeb (WebMirror.sendError env e) :=
  (keeps_lift _).bind fun _ => Keeps.ite _ (keeps_pure _) ((keeps_newLine env _).bind fun _ => keeps_expectOk env _)

theorem keeps_sendWarning (env : HEnv) (e : ExcObj) : Keeps MirrorWeb (WebMirror.sendWarning env e) :=
  (keeps_lift _).bind fun _ => Keeps.ite _ (keeps_pure _) ((keeps_newLine env true).bind fun _ => keeps_expectOk env _)

theorem keeps_close (env : HEnv) (e : Option ExcObj) : Keeps MirrorWeb (WebMirror.close env e) := by
  refine (keeps_lift _).bind fun _ => Keeps.ite _ (keeps_pure _) ?_
  cases e with
  | none => exact (keeps_sendEof env).bind fun _ => (keeps_lift _).bind fun _ => keeps_lift _
  | some e => exact (keeps_sendError env e).bind fun _ => (keeps_lift _).bind fun _ => keeps_lift _

theorem keeps_exec (env : HEnv) (c : HMCall) (s : HMNet × Web) (h : MirrorWeb s.2) :
    MirrorWeb (WebMirror.exec env c s).2.2 := by
  cases c with
  | write d => exact ((keeps_lift _).bind fun _ => Keeps.ite _ (keeps_raise _) (keeps_writeCore env d true) :
      Keeps MirrorWeb (WebMirror.write env d)) s h
  | newLine k => exact keeps_newLine env k s h
  | read => exact h
  | clear => exact h
  | flush => exact h
  | sendData d => exact keeps_sendData env d s h
  | sendEof => exact keeps_sendEof env s h
  | sendError e => exact keeps_sendError env e s h
  | sendWarning e => exact keeps_sendWarning env e s h
  | checkStates => exact keeps_checkStates env s h
  | close e => exact keeps_close env e s h
  | closed => exact h
  | readable => exact h
  | writable => exact h
  | setAggressive a => exact h

theorem keeps_run (env : HEnv) : ∀ (cs : List HMCall) (s : HMNet × Web), MirrorWeb s.2 → MirrorWeb (WebMirror.run env cs s).2.2
  | [], _, h => h
  | c :: cs, s, h => by
    have h1 := keeps_exec env c s h
    simp only [WebMirror.run]
    rcases he : WebMirror.exec env c s with ⟨r, s'⟩
    rw [he] at h1
    exact keeps_run env cs s' h1

/-- **C74** The model with responses and pools is the model of the other properties with a log added: it does not matter for
what the calls of a mirror and of a reader return and do. -/
theorem C74_same (env : HEnv) (w : Web) :
    (∀ (cs : List HMCall) (s : HMNet),
      ((WebMirror.run env cs (s, w)).1, (WebMirror.run env cs (s, w)).2.1) = HMirror.run env cs s) ∧
    ∀ (cs : List WRCall) (s : RNet),
      ((WebReader.calls env cs (s, w)).1, (WebReader.calls env cs (s, w)).2.1) = Reader.calls env cs s :=
  ⟨fun cs s => same_run env cs s w, fun cs s => same_calls env cs s w⟩

/-- **C74** Mirrors: whatever is called, whatever the service answers and whatever fails, between the calls every response has
been given back, there is at most one response at a time, and the one pool is made before its first use and not cleared. -/
theorem C74_mirror (env : HEnv) (s : HMNet) (cs : List HMCall) :
    let log := (WebMirror.run env cs (s, {})).2.2.log
    GivenBack log ∧ OneOpen log ∧ PoolAlive log := by
  intro log
  have h : MirrorWeb (WebMirror.run env cs (s, {})).2.2 :=
    keeps_run env cs (s, {}) ⟨.nil, Or.inl ⟨rfl, rfl, rfl, rfl⟩⟩
  refine ⟨h.1.givenBack, h.1.oneOpen, ?_⟩
  intro a r p st b e
  change log = _ at e
  rcases h.2 with ⟨_, _, h3, _⟩ | ⟨_, _, l, h3, h4⟩
  · change log = _ at h3
    rw [h3] at e
    simp at e
  · change log = _ at h3
    rw [h3] at e
    cases a with
    | nil => cases e
    | cons x a =>
      obtain ⟨rfl, e'⟩ := List.cons_eq_cons.mp e
      change l = a ++ _ at e'
      have hp : p = 0 := (h4 (.opened r p st) (by rw [e']; simp)).2.2 r p st rfl
      subst hp
      refine ⟨List.mem_cons_self, fun hc => ?_⟩
      rcases List.mem_cons.mp hc with hc | hc
      · cases hc
      · exact (h4 _ (by rw [e']; exact List.mem_append_left _ hc)).2.1 0 rfl

/-- **C74** Mirrors: when the mirror is collected, its pool is cleared: once, while no response is open, after the last use. -/
theorem C74_finalizer (env : HEnv) (s : HMNet) (cs : List HMCall) :
    let log := (WebMirror.finalize (WebMirror.run env cs (s, {})).2).2.2.log
    GivenBack log ∧ ClearedIdle log ∧ PoolsEnded log := by
  have h : MirrorWeb (WebMirror.run env cs (s, {})).2.2 :=
    keeps_run env cs (s, {}) ⟨.nil, Or.inl ⟨rfl, rfl, rfl, rfl⟩⟩
  generalize (WebMirror.run env cs (s, {})).2 = t at h ⊢
  obtain ⟨ht, ⟨h1, h2, h3, _⟩ | ⟨h1, h2, l, h3, h4⟩⟩ := h
  · have hl : (WebMirror.finalize t).2.2.log = [] := by
      simp only [WebMirror.finalize, h2]; exact h3
    intro log
    have : log = [] := hl
    rw [this]
    exact ⟨nofun, by intro a p b e; simp at e, nofun⟩
  · have hl : (WebMirror.finalize t).2.2.log = t.2.log ++ [.cleared 0] := by
      simp only [WebMirror.finalize, h2]
    intro log
    have : log = t.2.log ++ [.cleared 0] := hl
    rw [this]
    refine ⟨(ht.cleared 0).givenBack, (ht.cleared 0).clearedIdle, ?_⟩
    intro p hp
    have hp0 : p = 0 := by
      rw [h3] at hp
      rcases List.mem_append.mp hp with hp | hp
      · rcases List.mem_cons.mp hp with hp | hp
        · cases hp; rfl
        · exact absurd rfl ((h4 _ hp).1 p)
      · cases List.mem_singleton.mp hp
    subst hp0
    refine ⟨t.2.log, [], rfl, fun hc => ?_, nofun⟩
    rw [h3] at hc
    rcases List.mem_cons.mp hc with hc | hc
    · cases hc
    · exact (h4 _ hc).2.1 0 rfl

/-- **C74** Mirrors: the answer to a request that the service refused (status 400 or more) has been read when it is given
back.  What is missing: accepted ones, see `C74_unread_violated`. -/
theorem C74_refused_read_partial (env : HEnv) (s : HMNet) (cs : List HMCall) (r p st : Nat)
    (h : WebEv.opened r p st ∈ (WebMirror.run env cs (s, {})).2.2.log) (hs : 400 ≤ st) :
    aboutResp r (WebMirror.run env cs (s, {})).2.2.log = [.opened r p st, .read r, .released r, .closed r] := by
  have hw : MirrorWeb (WebMirror.run env cs (s, {})).2.2 :=
    keeps_run env cs (s, {}) ⟨.nil, Or.inl ⟨rfl, rfl, rfl, rfl⟩⟩
  have hm : WebEv.opened r p st ∈ aboutResp r (WebMirror.run env cs (s, {})).2.2.log :=
    List.mem_filter.mpr ⟨h, by simp [respOf]⟩
  obtain ⟨q, st', ⟨h1, u⟩ | h1⟩ := hw.1.about r (hw.1.lt _ h r rfl)
  · rw [h1] at hm
    simp only [List.mem_cons, WebEv.opened.injEq, true_and, reduceCtorEq, or_false, List.not_mem_nil] at hm
    omega
  · rw [h1] at hm ⊢
    simp only [List.mem_cons, WebEv.opened.injEq, true_and, reduceCtorEq, or_false, List.not_mem_nil] at hm
    rw [hm.1, hm.2]

theorem readFirst_eff {p : Nat} {w w' : Web} (h : Eff (fun _ => False) p w w') : ∃ m, w'.log = w.log ++ m ∧ ReadBeforeRelease m := by
  rcases h with rfl | ⟨st, ⟨u, _⟩ | rfl⟩
  · exact ⟨[], by simp, by intro a r b e; simp at e⟩
  · exact u.elim
  · refine ⟨_, rfl, ?_⟩
    intro a r b e
    rcases a with _ | ⟨_, _ | ⟨_, _ | ⟨_, _ | ⟨_, _ | _⟩⟩⟩⟩ <;> simp at e
    obtain ⟨rfl, rfl, rfl, _⟩ := e
    exact List.mem_cons_of_mem _ (List.mem_singleton.mpr rfl)

/-- **C74** Mirrors: the answer of `check_states` is read before it is given back, also if `StopIteration` is raised. -/
theorem C74_states_read (env : HEnv) (s : HMNet) (w : Web) :
    ∃ m, (WebMirror.checkStates env (s, w)).2.2.log = w.log ++ m ∧ ReadBeforeRelease m := by
  have hreads : ∀ (k : Nat) (resp : Resp), Reads (fun _ => False) k resp
      ((if resp.status < 400 then load k (match resp.body with
        | none => Py.raise .jsonDecodeError
        | some j => pure (j.get (lit "data") .null))
      else load k resp.fail : Py (HMNet × Web) Json)) := by
    intro k resp
    split
    · exact reads_load _
    · exact reads_load _
  have hreq : ∀ (p : Nat) (w' : Web), ∃ m, ((withRequest p (HMirror.request env (.stateGet (some (lit "closed")))) (fun k resp =>
      (if resp.status < 400 then load k (match resp.body with
        | none => Py.raise .jsonDecodeError
        | some j => pure (j.get (lit "data") .null))
      else load k resp.fail : Py (HMNet × Web) Json)) >>= fun isClosed => match isClosed with
      | .bool true => Py.raise .stopIteration
      | _ => (pure () : Py (HMNet × Web) Unit)) (s, w')).2.2.log = w'.log ++ m ∧ ReadBeforeRelease m := by
    intro p w'
    have h := eff_withRequest (p := p) (req := HMirror.request env (.stateGet (some (lit "closed")))) hreads (s, w')
    rw [Py.bind_apply]
    generalize withRequest p (HMirror.request env (.stateGet (some (lit "closed")))) _ (s, w') = x at h ⊢
    obtain ⟨x, y⟩ := x
    cases x with
    | error e => exact readFirst_eff h
    | ok j =>
      dsimp only
      split
      · exact readFirst_eff h
      · exact readFirst_eff h
  unfold WebMirror.checkStates
  rw [Py.bind_apply, show lift HMirror.closed (s, w) = (.ok s.1.buf.closed, (s, w)) from rfl]
  dsimp only
  cases hc : s.1.buf.closed with
  | true => exact ⟨[], by simp [Py.pure_apply], by intro a r b e; simp at e⟩
  | false =>
    simp only [Bool.false_eq_true, if_false]
    rw [Py.bind_apply]
    unfold WebMirror.http
    cases hw : w.http with
    | some p => exact hreq p w
    | none =>
      obtain ⟨m, h1, h2⟩ := hreq w.pools { w with
        pools := w.pools + 1, log := w.log ++ [.made w.pools], http := some w.pools, finalizer := some w.pools }
      refine ⟨.made w.pools :: m, h1.trans (by simp), ?_⟩
      intro a r b e
      cases a with
      | nil => cases e
      | cons x a =>
        obtain ⟨rfl, e'⟩ := List.cons_eq_cons.mp e
        exact List.mem_cons_of_mem _ (h2 a r b e')

/-! ## Readers -/

/-- Reading calls of a reader read every response. -/
def ReaderWeb (w : Web) : Prop := Tidy (fun _ => False) w.log w.resps

theorem keeps_withRequest {α : Type} (p : Nat) {req : Py RNet Resp} {body : Nat → Resp → Py (RNet × Web) α}
    (h : ∀ k resp, Reads (fun _ => False) k resp (body k resp)) : Keeps ReaderWeb (withRequest p req body) :=
  fun s hs => (eff_withRequest (p := p) h s).tidy hs

theorem keeps_newPool : Keeps ReaderWeb WebReader.newPool := fun s hs => Tidy.made s.1.nextPool hs
theorem keeps_clearPool (p : Nat) : Keeps ReaderWeb (WebReader.clearPool p) := fun _ hs => Tidy.cleared p hs

theorem keeps_withHttp {α : Type} {f : Nat → Py (RNet × Web) α} (h : ∀ p, Keeps ReaderWeb (f p)) :
    Keeps ReaderWeb (WebReader.withHttp f) := by
  refine (keeps_lift _).bind fun a => ?_
  cases a with
  | some p => exact h p
  | none => exact keeps_newPool.bind fun p s hs => keeps_clearPool p _ (h p s hs)

theorem reads_ite {α : Type} {k : Nat} {resp : Resp} {m n : Py (RNet × Web) α} (c : Prop) [Decidable c]
    (h1 : Reads (fun _ => False) k resp m) (h2 : Reads (fun _ => False) k resp n) :
    Reads (fun _ => False) k resp (if c then m else n) := by
  split
  · exact h1
  · exact h2

theorem reads_states (k : Nat) (resp : Resp) : Reads (fun _ => False) k resp
    (if resp.status < 400 then load k (Reader.dataOf resp) else load k resp.fail : Py (RNet × Web) Json) :=
  reads_ite _ (reads_load _) (reads_load _)

theorem reads_read (k : Nat) (resp : Resp) : Reads (fun _ => False) k resp
    (if resp.status < 400 then (do
      let data ← load k (Reader.dataOf resp)
      lift fun s => ((do Reader.deserializeAll (← data.toTuple) : Except Exc (List Item)), s))
    else load k resp.fail : Py (RNet × Web) (List Item)) :=
  reads_ite _ (reads_bind (reads_load _)) (reads_load _)

theorem keeps_call (env : HEnv) (c : WRCall) (s : RNet × Web) (h : ReaderWeb s.2) : ReaderWeb (WebReader.call env c s).2.2 := by
  have hs : ∀ r p, Keeps ReaderWeb (WebReader.successful env r p) := fun r p => keeps_withRequest p fun k resp => reads_load _
  have hg : ∀ n p, Keeps ReaderWeb (WebReader.getStates env n p) := fun n p => keeps_withRequest p reads_states
  cases c with
  | enter =>
    have : Keeps ReaderWeb WebReader.enter := by
      refine (keeps_lift _).bind fun a => ?_
      cases a with
      | none => exact keeps_newPool.bind fun _ => keeps_lift _
      | some p => exact keeps_pure _
    exact this s h
  | exit =>
    have : Keeps ReaderWeb WebReader.exit := by
      refine (keeps_lift _).bind fun _ => (keeps_lift _).bind fun _ => Keeps.ite _ ((keeps_lift _).bind fun a => ?_) (keeps_pure _)
      cases a with
      | none => exact keeps_pure _
      | some p => exact keeps_clearPool p
    exact this s h
  | len => exact keeps_withHttp (hg _) s h
  | maxlen => exact keeps_withHttp (hg _) s h
  | closed => exact keeps_withHttp (hg _) s h
  | clear => exact keeps_withHttp (hs _) s h
  | resetStates => exact keeps_withHttp (hs _) s h
  | stopAll => exact keeps_withHttp (hs _) s h
  | read size => exact keeps_withHttp (fun p => keeps_withRequest p reads_read) s h

theorem keeps_calls (env : HEnv) : ∀ (cs : List WRCall) (s : RNet × Web), ReaderWeb s.2 → ReaderWeb (WebReader.calls env cs s).2.2
  | [], _, h => h
  | c :: cs, s, h => by
    have h1 := keeps_call env c s h
    simp only [WebReader.calls]
    rcases he : WebReader.call env c s with ⟨r, s'⟩
    rw [he] at h1
    exact keeps_calls env cs s' h1

/-- **C74** Readers: whatever is called, inside and outside of contexts, whatever the service answers and whatever fails:
every response is read and given back, there is at most one at a time, and pools are cleared while none is open. -/
theorem C74_reader (env : HEnv) (s : RNet) (cs : List WRCall) :
    let log := (WebReader.calls env cs (s, {})).2.2.log
    GivenBack log ∧ ReadBeforeRelease log ∧ OneOpen log ∧ ClearedIdle log := by
  have h : ReaderWeb (WebReader.calls env cs (s, {})).2.2 := keeps_calls env cs (s, {}) .nil
  exact ⟨h.givenBack, h.readFirst, h.oneOpen, h.clearedIdle⟩

/-- The calls that ask the service. -/
def WRCall.asks : WRCall → Bool
  | .enter => false
  | .exit => false
  | _ => true

/-- Nothing but responses of the pool `p`. -/
def OnlyPool (p : Nat) (e : WebEv) : Prop := (∀ q, e ≠ .made q) ∧ (∀ q, e ≠ .cleared q) ∧ ∀ r q st, e = .opened r q st → q = p

/-- Pools made, used and cleared, one after the other; `n` so far. -/
inductive Whole : List WebEv → Nat → Prop
  | nil (n : Nat) : Whole [] n
  | pool {l n} (m : List WebEv) : Whole l n → (∀ e ∈ m, OnlyPool n e) → Whole (l ++ .made n :: (m ++ [.cleared n])) (n + 1)

theorem Whole.lt {l : List WebEv} {n : Nat} (h : Whole l n) : ∀ p, n ≤ p →
    WebEv.made p ∉ l ∧ WebEv.cleared p ∉ l ∧ ∀ r st, WebEv.opened r p st ∉ l := by
  induction h with
  | nil => intro p _; exact ⟨List.not_mem_nil, List.not_mem_nil, fun _ _ => List.not_mem_nil⟩
  | pool m _ hm ih =>
    intro p hp
    obtain ⟨h1, h2, h3⟩ := ih p (by omega)
    refine ⟨fun h => ?_, fun h => ?_, fun r st h => ?_⟩ <;>
      simp only [List.mem_append, List.mem_cons, List.not_mem_nil, or_false, reduceCtorEq, false_or, WebEv.made.injEq,
        WebEv.cleared.injEq] at h
    · rcases h with h | h | h
      · exact h1 h
      · omega
      · exact (hm _ h).1 p rfl
    · rcases h with h | h | h
      · exact h2 h
      · exact (hm _ h).2.1 p rfl
      · omega
    · rcases h with h | h
      · exact h3 r st h
      · have := (hm _ h).2.2 r p st rfl
        omega

theorem Whole.alive {l : List WebEv} {n : Nat} (h : Whole l n) : PoolAlive l := by
  induction h with
  | nil => intro a r p st b e; simp at e
  | @pool l n m hw hm ih =>
    intro a r p st b e
    rcases cut_last e with ⟨b', h⟩ | ⟨c, rfl, h⟩
    · exact ih a r p st b' h
    · cases c with
      | nil => cases h
      | cons x c =>
        obtain ⟨rfl, h0⟩ := List.cons_eq_cons.mp h
        change m ++ _ = c ++ _ at h0
        rcases cut_last h0 with ⟨b', h'⟩ | ⟨d, rfl, h'⟩
        · have hp : p = n := (hm _ (by rw [h']; simp)).2.2 r p st rfl
          subst hp
          refine ⟨by simp, fun hc => ?_⟩
          simp only [List.mem_append, List.mem_cons, reduceCtorEq, false_or] at hc
          rcases hc with hc | hc
          · exact (hw.lt p (Nat.le_refl _)).2.1 hc
          · exact (hm _ (by rw [h']; exact List.mem_append_left _ hc)).2.1 p rfl
        · rcases d with _ | ⟨_, _ | _⟩ <;> simp at h'

theorem Whole.ended {l : List WebEv} {n : Nat} (h : Whole l n) : PoolsEnded l := by
  induction h with
  | nil => nofun
  | @pool l n m hw hm ih =>
    intro p hp
    by_cases hpn : p = n
    · subst hpn
      refine ⟨l ++ .made p :: m, [], by simp, fun hc => ?_, nofun⟩
      simp only [List.mem_append, List.mem_cons, reduceCtorEq, false_or] at hc
      rcases hc with hc | hc
      · exact (hw.lt p (Nat.le_refl _)).2.1 hc
      · exact (hm _ hc).2.1 p rfl
    · have hp' : WebEv.made p ∈ l := by
        simp only [List.mem_append, List.mem_cons, List.not_mem_nil, or_false, reduceCtorEq, WebEv.made.injEq] at hp
        rcases hp with hp | hp | hp
        · exact hp
        · exact absurd hp hpn
        · exact absurd rfl ((hm _ hp).1 p)
      obtain ⟨a, b, rfl, h2, h3⟩ := ih p hp'
      refine ⟨a, b ++ .made n :: (m ++ [.cleared n]), by simp, h2, fun e he => ?_⟩
      simp only [List.mem_append, List.mem_cons, List.not_mem_nil, or_false] at he
      rcases he with he | rfl | he | rfl
      · exact h3 e he
      · exact ⟨by simp, by simpa using fun h => hpn h.symm, by simp⟩
      · refine ⟨(hm e he).2.1 p, (hm e he).1 p, fun r st h => ?_⟩
        exact hpn ((hm e he).2.2 r p st h)
      · exact ⟨by simpa using fun h => hpn h.symm, by simp, by simp⟩

theorem eff_only {p : Nat} {w w' : Web} (h : Eff (fun _ => False) p w w') : ∃ m, w'.log = w.log ++ m ∧ ∀ e ∈ m, OnlyPool p e := by
  rcases h with rfl | ⟨st, ⟨u, _⟩ | rfl⟩
  · exact ⟨[], by simp, nofun⟩
  · exact u.elim
  · refine ⟨_, rfl, fun e he => ?_⟩
    simp only [List.mem_cons, List.not_mem_nil, or_false] at he
    rcases he with rfl | rfl | rfl | rfl
    · exact ⟨nofun, nofun, fun _ _ _ h => by cases h; rfl⟩
    · exact ⟨nofun, nofun, nofun⟩
    · exact ⟨nofun, nofun, nofun⟩
    · exact ⟨nofun, nofun, nofun⟩

/-- A method that asks the service through the pool `p`. -/
def Asks {α : Type} (p : Nat) (m : Py (RNet × Web) α) : Prop :=
  ∀ s, Eff (fun _ => False) p s.2 (m s).2.2 ∧ (m s).2.1.reader = s.1.reader ∧ (m s).2.1.nextPool = s.1.nextPool

theorem asks_withRequest {α : Type} (env : HEnv) (p : Nat) (r : Req) {body : Nat → Resp → Py (RNet × Web) α}
    (h : ∀ k resp, Reads (fun _ => False) k resp (body k resp)) (hb : ∀ k resp s, (body k resp s).2.1 = s.1) :
    Asks p (withRequest p (Reader.request env p r) body) := by
  rintro ⟨t, w⟩
  refine ⟨eff_withRequest h _, ?_⟩
  unfold withRequest
  rw [Py.bind_apply]
  have h0 : lift (Reader.request env p r) (t, w) = ((HNet.request env r t.net).1,
      ({ t with pools := t.pools ++ [.used p], net := (HNet.request env r t.net).2 }, w)) := rfl
  rw [h0]
  cases (HNet.request env r t.net).1 with
  | error e => exact ⟨rfl, rfl⟩
  | ok resp =>
    have h1 := hb w.resps resp ({ t with pools := t.pools ++ [.used p], net := (HNet.request env r t.net).2 },
      { w with resps := w.resps + 1, log := w.log ++ [.opened w.resps p resp.status] })
    have g1 := congrArg RNet.reader h1
    have g2 := congrArg RNet.nextPool h1
    exact ⟨g1, g2⟩

theorem state_dataOf (resp : Resp) (s : RNet) : (Reader.dataOf resp s).2 = s := by
  unfold Reader.dataOf
  cases resp.body <;> rfl

theorem state_fail {α : Type} (resp : Resp) (s : RNet) : ((resp.fail : Py RNet α) s).2 = s := by
  unfold Resp.fail
  cases resp.body <;> rfl

theorem state_successful (resp : Resp) (s : RNet) : (Reader.successful resp s).2 = s := by
  unfold Reader.successful
  split
  · cases resp.body <;> rfl
  · exact state_fail resp s

theorem asks_states (env : HEnv) (n : PyStr) (p : Nat) : Asks p (WebReader.getStates env n p) := by
  refine asks_withRequest env p _ reads_states fun k resp s => ?_
  split
  · exact state_dataOf resp s.1
  · exact state_fail resp s.1

theorem asks_successful (env : HEnv) (r : Req) (p : Nat) : Asks p (WebReader.successful env r p) :=
  asks_withRequest env p r (fun _ _ => reads_load _) fun _ resp s => state_successful resp s.1

theorem asks_read (env : HEnv) (size : Option Int) (p : Nat) :
    Asks p (withRequest p (Reader.request env p (.get (Reader.query size))) fun k resp =>
      (if resp.status < 400 then (do
        let data ← load k (Reader.dataOf resp)
        lift fun s => ((do Reader.deserializeAll (← data.toTuple) : Except Exc (List Item)), s))
      else load k resp.fail : Py (RNet × Web) (List Item))) := by
  refine asks_withRequest env p _ reads_read fun k resp s => ?_
  split
  · rw [Py.bind_apply]
    have h1 : (load k (Reader.dataOf resp) s).2.1 = s.1 := state_dataOf resp s.1
    rcases hl : load k (Reader.dataOf resp) s with ⟨x, s'⟩
    rw [hl] at h1
    cases x <;> exact h1
  · exact state_fail resp s.1

/-- What a call does to the log: the pool of the context is used, or a new one is made, used and cleared. -/
theorem call_log (env : HEnv) (c : WRCall) (hc : c.asks = true) (s : RNet × Web) :
    (WebReader.call env c s).2.1.reader = s.1.reader ∧
    match s.1.reader.http with
    | some p => (WebReader.call env c s).2.1.nextPool = s.1.nextPool ∧
        ∃ m, (WebReader.call env c s).2.2.log = s.2.log ++ m ∧ ∀ e ∈ m, OnlyPool p e
    | none => (WebReader.call env c s).2.1.nextPool = s.1.nextPool + 1 ∧
        ∃ m, (WebReader.call env c s).2.2.log = s.2.log ++ .made s.1.nextPool :: (m ++ [.cleared s.1.nextPool]) ∧
          ∀ e ∈ m, OnlyPool s.1.nextPool e := by
  have key : ∀ {α : Type} (f : Nat → Py (RNet × Web) α), (∀ p, Asks p (f p)) →
      (WebReader.withHttp f s).2.1.reader = s.1.reader ∧
      match s.1.reader.http with
      | some p => (WebReader.withHttp f s).2.1.nextPool = s.1.nextPool ∧
          ∃ m, (WebReader.withHttp f s).2.2.log = s.2.log ++ m ∧ ∀ e ∈ m, OnlyPool p e
      | none => (WebReader.withHttp f s).2.1.nextPool = s.1.nextPool + 1 ∧
          ∃ m, (WebReader.withHttp f s).2.2.log = s.2.log ++ .made s.1.nextPool :: (m ++ [.cleared s.1.nextPool]) ∧
            ∀ e ∈ m, OnlyPool s.1.nextPool e := by
    intro α f hf
    obtain ⟨t, w⟩ := s
    dsimp only
    cases hh : t.reader.http with
    | some p =>
      have e1 : WebReader.withHttp f (t, w) = f p (t, w) := by
        unfold WebReader.withHttp
        rw [Py.bind_apply, show lift (Py.gets fun s => s.reader.http) (t, w) = (.ok (some p), (t, w)) from by rw [← hh]; rfl]
      rw [e1]
      obtain ⟨h1, h2, h3⟩ := hf p (t, w)
      exact ⟨h2, h3, eff_only h1⟩
    | none =>
      have e1 : (WebReader.withHttp f (t, w)).2 = (WebReader.clearPool t.nextPool (f t.nextPool
          ({ t with nextPool := t.nextPool + 1, pools := t.pools ++ [.created t.nextPool] },
            { w with log := w.log ++ [.made t.nextPool] })).2).2 := by
        unfold WebReader.withHttp
        rw [Py.bind_apply, show lift (Py.gets fun s => s.reader.http) (t, w) = (.ok none, (t, w)) from by rw [← hh]; rfl]
        rfl
      rw [e1]
      obtain ⟨h1, h2, h3⟩ := hf t.nextPool ({ t with nextPool := t.nextPool + 1, pools := t.pools ++ [.created t.nextPool] },
        { w with log := w.log ++ [.made t.nextPool] })
      obtain ⟨m, h4, h5⟩ := eff_only h1
      refine ⟨h2, h3, m, ?_, h5⟩
      have : ∀ x : RNet × Web, (WebReader.clearPool t.nextPool x).2.2.log = x.2.log ++ [.cleared t.nextPool] := fun _ => rfl
      rw [this, h4]
      simp
  cases c with
  | enter => cases hc
  | exit => cases hc
  | len => exact key _ (asks_states env _)
  | maxlen => exact key _ (asks_states env _)
  | closed => exact key _ (asks_states env _)
  | clear => exact key _ (asks_successful env _)
  | resetStates => exact key _ (asks_successful env _)
  | stopAll => exact key _ (asks_successful env _)
  | read size => exact key _ (asks_read env size)

theorem calls_append (env : HEnv) : ∀ (cs ds : List WRCall) (s : RNet × Web),
    (WebReader.calls env (cs ++ ds) s).2 = (WebReader.calls env ds (WebReader.calls env cs s).2).2
  | [], _, _ => rfl
  | c :: cs, ds, s => calls_append env cs ds (WebReader.call env c s).2

theorem outside_log (env : HEnv) : ∀ (cs : List WRCall) (s : RNet × Web), (∀ c ∈ cs, c.asks = true) →
    s.1.reader.http = none → Whole s.2.log s.1.nextPool →
    (WebReader.calls env cs s).2.1.reader = s.1.reader ∧
    Whole (WebReader.calls env cs s).2.2.log (WebReader.calls env cs s).2.1.nextPool
  | [], _, _, _, hw => ⟨rfl, hw⟩
  | c :: cs, s, hc, hh, hw => by
    have h := call_log env c (hc c List.mem_cons_self) s
    rw [hh] at h
    obtain ⟨h1, h2, m, h3, h4⟩ := h
    have := outside_log env cs (WebReader.call env c s).2 (fun d hd => hc d (List.mem_cons_of_mem _ hd)) (by rw [h1]; exact hh)
      (by rw [h2, h3]; exact hw.pool m h4)
    exact ⟨this.1.trans h1, this.2⟩

theorem inside_log (env : HEnv) (p : Nat) : ∀ (cs : List WRCall) (s : RNet × Web), (∀ c ∈ cs, c.asks = true) →
    s.1.reader.http = some p →
    (WebReader.calls env cs s).2.1.reader = s.1.reader ∧
    (WebReader.calls env cs s).2.1.nextPool = s.1.nextPool ∧
    ∃ m, (WebReader.calls env cs s).2.2.log = s.2.log ++ m ∧ ∀ e ∈ m, OnlyPool p e
  | [], _, _, _ => ⟨rfl, rfl, [], by simp [WebReader.calls], nofun⟩
  | c :: cs, s, hc, hh => by
    have h := call_log env c (hc c List.mem_cons_self) s
    rw [hh] at h
    obtain ⟨h1, h2, m, h3, h4⟩ := h
    obtain ⟨g1, g2, m', g3, g4⟩ := inside_log env p cs (WebReader.call env c s).2 (fun d hd => hc d (List.mem_cons_of_mem _ hd))
      (by rw [h1]; exact hh)
    refine ⟨g1.trans h1, g2.trans h2, m ++ m', g3.trans (by rw [h3]; simp), fun e he => ?_⟩
    rcases List.mem_append.mp he with h | h
    · exact h4 e h
    · exact g4 e h

/-- **C74** Readers: outside of contexts every pool is used only between being made and being cleared, and every pool is
cleared.  What is missing: contexts that are nested or left before the last call (C52). -/
theorem C74_outside_partial (env : HEnv) (n : HNet) (cs : List WRCall) (hc : ∀ c ∈ cs, c.asks = true) :
    let log := (WebReader.calls env cs ({ net := n }, {})).2.2.log
    PoolAlive log ∧ PoolsEnded log := by
  have := outside_log env cs ({ net := n }, {}) hc rfl (.nil 0)
  exact ⟨this.2.alive, this.2.ended⟩

/-- **C74** Readers: the same for calls, then a context with calls. -/
theorem C74_context_partial (env : HEnv) (n : HNet) (cs ds : List WRCall) (hc : ∀ c ∈ cs, c.asks = true)
    (hd : ∀ c ∈ ds, c.asks = true) :
    let log := (WebReader.calls env (cs ++ .enter :: (ds ++ [.exit])) ({ net := n }, {})).2.2.log
    PoolAlive log ∧ PoolsEnded log := by
  suffices h : ∃ k, Whole (WebReader.calls env (cs ++ .enter :: (ds ++ [.exit])) ({ net := n }, {})).2.2.log k by
    obtain ⟨k, h⟩ := h
    exact ⟨h.alive, h.ended⟩
  obtain ⟨h1, h2⟩ := outside_log env cs ({ net := n }, {}) hc rfl (.nil 0)
  rw [calls_append]
  generalize (WebReader.calls env cs ({ net := n }, {})).2 = s at h1 h2 ⊢
  change s.1.reader = {} at h1
  obtain ⟨t, w⟩ := s
  dsimp only at h1 h2
  have he : (WebReader.call env .enter (t, w)).2 = ({ t with
      reader := { http := some t.nextPool, stack := 1 }
      nextPool := t.nextPool + 1
      pools := t.pools ++ [.created t.nextPool] }, { w with log := w.log ++ [.made t.nextPool] }) := by
    simp only [WebReader.call, WebReader.enter]
    rw [Py.bind_apply, show lift (Py.gets fun s => s.reader.http) (t, w) = (.ok none, (t, w)) from by
      change (Except.ok t.reader.http, (t, w)) = _; rw [h1]]
    obtain ⟨tr, tn, tk, tp⟩ := t
    dsimp only at h1
    subst h1
    rfl
  have hcons : ∀ l, (WebReader.calls env (.enter :: l) (t, w)).2 = (WebReader.calls env l (WebReader.call env .enter (t, w)).2).2 :=
    fun _ => rfl
  rw [hcons, calls_append, he]
  obtain ⟨g1, g2, m, g3, g4⟩ := inside_log env t.nextPool ds ({ t with
      reader := { http := some t.nextPool, stack := 1 }
      nextPool := t.nextPool + 1
      pools := t.pools ++ [.created t.nextPool] }, { w with log := w.log ++ [.made t.nextPool] }) hd rfl
  generalize (WebReader.calls env ds ({ t with
      reader := { http := some t.nextPool, stack := 1 }
      nextPool := t.nextPool + 1
      pools := t.pools ++ [.created t.nextPool] }, { w with log := w.log ++ [.made t.nextPool] })).2 = u at g1 g2 g3 ⊢
  obtain ⟨u, v⟩ := u
  dsimp only at g1 g2 g3
  have hx : (WebReader.call env .exit (u, v)).2.2.log = v.log ++ [.cleared t.nextPool] := by
    obtain ⟨ur, un, uk, up⟩ := u
    dsimp only at g1
    subst g1
    rfl
  refine ⟨t.nextPool + 1, ?_⟩
  change Whole (WebReader.call env .exit (u, v)).2.2.log _
  rw [hx, g3]
  have := h2.pool m g4
  simpa using this

/-! ## What is not so, and examples -/

/-- The environment of the examples. -/
def webEnv : HEnv := { int := fun _ => none, ext := fun _ => [] }

/-- A service of length 3. -/
def webService : HostBuf := match HostBuf.new 3 with
  | .ok h => h
  | .error _ => { base := { storage := { maxlen := 1 } }, state := [] }

/-- **C74** is false for mirrors in one respect: the answer to a text that the service accepts is not read; the connection goes
back to the pool with the answer's body still in it. -/
theorem C74_unread_violated : ¬ ∀ (env : HEnv) (s : HMNet) (cs : List HMCall),
    ReadBeforeRelease (WebMirror.run env cs (s, {})).2.2.log := by
  intro h
  have h1 := h webEnv ({}, { service := webService }) [.sendData (lit "a")]
  have h2 : (WebMirror.run webEnv [.sendData (lit "a")] ((({}, { service := webService }) : HMNet), {})).2.2.log =
      [.made 0, .opened 0 0 201] ++ .released 0 :: [.closed 0] := by decide +kernel
  have := h1 _ _ _ h2
  simp at this

/-- A mirror at work: the first request looks at the state, the second sends the line, the third is lost before it is
answered; then the main process closes the buffer, and the fourth is refused. -/
example : (WebMirror.finalize (WebMirror.run webEnv [.write (lit "a\n"), .sendData (lit "b"), .sendData (lit "c")]
    ((({}, { service := webService, fates := [{}, {}, { outcome := .lost .httpError },
      { before := [.buffer .close] }] }) : HMNet), {})).2).2.2.log =
    [.made 0, .opened 0 0 200, .read 0, .released 0, .closed 0, .opened 1 0 201, .released 1, .closed 1,
      .opened 2 0 500, .read 2, .released 2, .closed 2, .cleared 0] := by decide +kernel

/-- A reader outside and inside of a context; a request in it is lost. -/
example : (WebReader.calls webEnv [.len, .enter, .closed, .read none, .exit]
    (({ net := { service := webService, fates := [{}, { outcome := .noReply .httpError }] } } : RNet), {})).2.2.log =
    [.made 0, .opened 0 0 200, .read 0, .released 0, .closed 0, .cleared 0,
      .made 1, .opened 1 1 200, .read 1, .released 1, .closed 1, .cleared 1] := by decide +kernel

/-- The statements are not true of every log: an answer that is not given back when an exception is raised. -/
example : ¬ GivenBack [.made 0, .opened 0 0 500, .read 0] := by
  intro h
  obtain ⟨p, st, h | h⟩ := h (.read 0) (by simp) 0 rfl <;> simp [aboutResp, respOf] at h

/-- Nor of one that clears the pool before the answer is given back. -/
example : ¬ ClearedIdle [.made 0, .opened 0 0 200, .cleared 0, .read 0, .released 0, .closed 0] := by
  intro h
  exact absurd (h [.made 0, .opened 0 0 200] 0 [.read 0, .released 0, .closed 0] rfl) (by decide)

end SyncStream
