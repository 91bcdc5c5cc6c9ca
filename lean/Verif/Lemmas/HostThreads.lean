import Verif.Model.HostThreads
import Verif.Lemmas.Prog
import Verif.Lemmas.Threads
import Verif.Lemmas.Orderly
/-!
# The programs of the host service: what they do without interruption, and the order of the locks
-/

namespace SyncStream
open Conc

namespace Prog
variable {σ τ L L' α β : Type} {get : τ → σ} {set : σ → τ → τ} {ren : L → L'}

/-- Working on a part without interruption. -/
theorem seq_onPart (h1 : ∀ x t, get (set x t) = x) (h2 : ∀ x y t, set x (set y t) = set x t)
    (h3 : ∀ t, set (get t) t = t) (p : Prog σ L α) (t : τ) :
    (p.onPart get set ren).seq t = Py.onPart get set p.seq t := by
  induction p generalizing t with
  | ret a => exact Prod.ext rfl (h3 t).symm
  | raise e => exact Prod.ext rfl (h3 t).symm
  | act f k ih =>
    show ((k (get t)).onPart get set ren).seq (set (f (get t)) t) = _
    rw [ih]
    simp only [Py.onPart_apply, h1, h2]
    rfl
  | acq l w k ih => exact ih t
  | rel l w k ih => exact ih t

theorem Orderly.onPart {re : L → Prop} {re' : L' → Prop} {rank : L → Nat} {rank' : L' → Nat}
    {E H : List (L × Bool)} {H' : List (L' × Bool)} {p : Prog σ L α} (hp : Orderly re rank E H p)
    (hr : ∀ l l', rank l < rank l' → rank' (ren l) < rank' (ren l')) (hre : ∀ l, re l → re' (ren l))
    (hH : ∀ l, ∀ x ∈ H', rank' (ren l) < rank' x.1) :
    Orderly re' rank' (E.map (fun x => (ren x.1, x.2)) ++ H') (H.map (fun x => (ren x.1, x.2)) ++ H')
      (p.onPart get set ren) := by
  induction p generalizing H with
  | ret a => exact congrArg (fun z => z.map (fun x => (ren x.1, x.2)) ++ H') hp
  | raise e => exact congrArg (fun z => z.map (fun x => (ren x.1, x.2)) ++ H') hp
  | act f k ih => exact fun t => ih _ (hp (get t))
  | acq l w k ih =>
    refine ⟨?_, ih hp.2⟩
    rcases hp.1 with h | ⟨h, h'⟩
    · refine .inl fun x hx => ?_
      rcases List.mem_append.mp hx with hx | hx
      · obtain ⟨y, hy, rfl⟩ := List.mem_map.mp hx
        exact hr _ _ (h y hy)
      · exact hH l x hx
    · exact .inr ⟨hre _ h, List.mem_append_left _ (List.mem_map.mpr ⟨_, h', rfl⟩)⟩
  | rel l w k ih =>
    obtain ⟨H1, h1, h2⟩ := hp
    exact ⟨_, by rw [h1]; rfl, ih h2⟩

end Prog

namespace HThr
open HostBuf
variable {α β : Type}

theorem seq_line (p : TProg α) (h : HostBuf) : (line p).seq h = onBase p.seq h :=
  Prog.seq_onPart (get := fun b : HostBuf => b.base) (set := fun t b => { b with base := t })
    (fun _ _ => rfl) (fun _ _ _ => rfl) (fun _ => rfl) p h

theorem seq_line' (p : TProg α) : (line p).seq = onBase p.seq := funext (seq_line p)

theorem seq_bind' (p : HProg α) (g : α → HProg β) :
    (p >>= g).seq = (p.seq >>= fun a => (g a).seq : Py HostBuf β) := by
  funext s; exact Prog.seq_bind p g s

theorem seq_config (p : HProg α) : (config p).seq = p.seq := by
  funext s; exact Prog.seq_withLock _ _ p s

theorem seq_state (p : HProg α) : (state p).seq = p.seq := by
  funext s; exact Prog.seq_withLock _ _ p s

theorem seq_atom (m : Py HostBuf α) : (Prog.atom m : HProg α).seq = m := by
  funext s; exact Prog.seq_atom _ s

theorem seq_pure' (a : α) : (pure a : HProg α).seq = (pure a : Py HostBuf α) := rfl

theorem seq_raise' (e : Exc) : (Prog.raise e : HProg α).seq = Py.raise e := rfl

theorem seq_lift (x : Except Exc α) : (lift x).seq = HostBuf.lift x := by cases x <;> rfl

theorem seq_ite (c : Prop) [Decidable c] (p q : HProg α) :
    (if c then p else q).seq = if c then p.seq else q.seq := by split <;> rfl

theorem seq_deliver (x : Item) : (line (Thr.deliver x)).seq = store x := by
  rw [seq_line', Thr.deliver, Thr.seq_onStorage]; rfl

theorem seq_readSerialized (n : Option Int) : (readSerialized n).seq = HostBuf.readSerialized n := by
  simp only [readSerialized, HostBuf.readSerialized, seq_bind', seq_line', Thr.seq_read, seq_lift]

theorem seq_post (env : HEnv) (args : Json) : (post env args).seq = HostBuf.post env args := by
  simp only [post, HostBuf.post, seq_config, seq_ite]
  split
  · split
    · cases (args.get (lit "data") .null).get (lit "value") .null <;>
        simp only [seq_bind', seq_line', Thr.seq_write, seq_pure']
    · rfl
  · split
    · split
      · simp only [seq_bind', seq_line' Thr.newLine, Thr.seq_newLine, seq_lift, seq_deliver]
      · rfl
    · split
      · simp only [seq_line', Thr.seq_newLine]
      · rfl

theorem seq_get (env : HEnv) (n : Option PyStr) : (get env n).seq = HostBuf.get env n := by
  funext h
  have key : ∀ k, (config (readSerialized k)).seq h = HostBuf.readSerialized k h := fun k => by
    rw [seq_config, seq_readSerialized]
  cases n with
  | none => exact (key none).trans rfl
  | some s =>
    cases hs : env.int s with
    | none => simp only [get, HostBuf.get, hs]; rfl
    | some k => simp only [get, HostBuf.get, hs]; exact (key (some k)).trans rfl

theorem seq_delete : delete.seq = onBase LineBuf.clear := by
  simp only [delete, seq_config, seq_line', Thr.seq_clear]

theorem seq_stateGet (s : Option PyStr) : (stateGet s).seq = HostBuf.stateGet s := by
  have : Thr.len.seq = LineBuf.len := funext Thr.seq_len
  simp only [stateGet, HostBuf.stateGet, seq_config, seq_ite, seq_bind', seq_line', this, seq_pure', seq_state, seq_atom,
    seq_raise']

theorem seq_statePost (env : HEnv) (args : Json) : (statePost env args).seq = HostBuf.statePost env args := by
  simp only [statePost, HostBuf.statePost, seq_config, seq_ite, seq_state, seq_atom, seq_raise', seq_pure']

theorem seq_stopAll : stopAll.seq = HostBuf.stopAll := by
  simp only [stopAll, HostBuf.stopAll, seq_state, seq_atom]

theorem seq_resetStates : resetStates.seq = HostBuf.resetStates := by
  simp only [resetStates, HostBuf.resetStates, seq_state, seq_bind', seq_atom]

theorem seq_ret {γ : Type} (F : Except Exc α → γ) (p : HProg α) (h : HostBuf) :
    (do return F (← p.outcome) : HProg γ).seq h = (.ok (F (p.seq h).1), (p.seq h).2) :=
  (Prog.seq_bind_ok (Prog.seq_outcome p h)).trans rfl

theorem seq_answerPost (b : Body) {p : Json → HProg Unit} {m : Json → Py HostBuf Unit} (hp : ∀ j, (p j).seq = m j)
    (h : HostBuf) :
    (answerPost b p).seq h = (.ok (HostBuf.answerPost b m h).1, (HostBuf.answerPost b m h).2) := by
  unfold answerPost HostBuf.answerPost
  cases jsonArgs b with
  | error e => rfl
  | ok o =>
    cases o with
    | none => rfl
    | some j => exact (seq_ret _ _ h).trans (by rw [hp])

/-- Without interruption, a request does and is answered what the sequential model says. -/
theorem handle_seq (env : HEnv) (r : Req) (h : HostBuf) :
    (handle env r).seq h = (.ok (HostBuf.handle env r h).1, (HostBuf.handle env r h).2) := by
  cases r with
  | post b => exact seq_answerPost b (seq_post env) h
  | get n => exact (seq_ret _ _ h).trans (by rw [seq_get]; rfl)
  | delete => exact (seq_ret _ _ h).trans (by rw [seq_delete]; rfl)
  | stateGet s => exact (seq_ret _ _ h).trans (by rw [seq_stateGet]; rfl)
  | statePost b => exact seq_answerPost b (seq_statePost env) h
  | stateDelete => exact (seq_ret _ _ h).trans (by rw [seq_resetStates]; rfl)

/-- What the sequential model gives for an operation. -/
def result (env : HEnv) (o : HOp) (h : HostBuf) : HRet :=
  match o with
  | .req r => .resp (HostBuf.handle env r h).1
  | .buffer (.write _) => .local (.exc .notImplemented)
  | .buffer c => .local (LineBuf.exec c h.base).1
  | .stopAll => .local .unit
  | .reset => .local .unit

/-- Without interruption, an operation does and gives what the sequential model says. -/
theorem prog_seq (env : HEnv) (o : HOp) (h : HostBuf) :
    (prog env o).seq h = (.ok (result env o h), HostBuf.step env o h) := by
  have buf : ∀ c, (do return .local (← line (Thr.prog (.call c))) : HProg HRet).seq h
      = (.ok (.local (LineBuf.exec c h.base).1), { h with base := (LineBuf.exec c h.base).2 }) := fun c => by
    have : (line (Thr.prog (.call c))).seq h
        = (.ok (LineBuf.exec c h.base).1, { h with base := (LineBuf.exec c h.base).2 }) := by
      rw [seq_line]
      simp only [onBase, Py.onPart_apply, Thr.prog_seq]
    exact (Prog.seq_bind_ok this).trans rfl
  cases o with
  | req r => exact (Prog.seq_bind_ok (handle_seq env r h)).trans rfl
  | buffer c =>
    cases c with
    | write d => rfl
    | _ => exact buf _
  | stopAll => exact (seq_ret _ _ h).trans (by rw [seq_stopAll]; rfl)
  | reset => exact (seq_ret _ _ h).trans (by rw [seq_resetStates]; rfl)

/-! ## The order of the locks -/

/-- `__config_lock` first. -/
def rank : HLock → Nat
  | .config => 1
  | .state => 0
  | .line => 0

open Prog
variable {re : HLock → Prop} {H : List (HLock × Bool)}

theorem tidy_line {p : TProg α} (hp : Tidy (fun _ => False) (fun _ => 0) [] p) (hH : ∀ x ∈ H, 0 < rank x.1) :
    Tidy re rank H (line p) :=
  Orderly.onPart (H' := H) hp (fun _ _ h => absurd h (by simp)) (fun _ h => h.elim) fun _ => hH

theorem tidy_config {p : HProg α} (hp : Tidy re rank [(.config, true)] p) : Tidy re rank [] (config p) :=
  Tidy.withLock (.inl fun _ h => nomatch h) hp

theorem tidy_state {p : HProg α} (hp : Tidy re rank ((.state, true) :: H) p) (hH : ∀ x ∈ H, 0 < rank x.1) :
    Tidy re rank H (state p) :=
  Tidy.withLock (.inl hH) hp

theorem above_nil : ∀ x ∈ ([] : List (HLock × Bool)), 0 < rank x.1 := fun _ h => nomatch h

theorem above_config : ∀ x ∈ [(HLock.config, true)], 0 < rank x.1 := fun x h => by
  cases List.mem_singleton.mp h; decide

theorem tidy_len : Tidy (fun _ => False) (fun _ => 0) [] Thr.len :=
  .bind (Thr.tidy_gets _) fun _ => .bind (Thr.tidy_gets _) fun _ =>
    .bind (Thr.tidy_locked (.bind (Thr.tidy_gets _) fun _ => Tidy.ret _)) fun _ => Tidy.ret _

theorem tidy_newLine : Tidy (fun _ => False) (fun _ => 0) [] Thr.newLine := by
  refine Thr.tidy_locked (.bind (Thr.tidy_onLast _) fun _ => ?_)
  split
  · exact .bind (Thr.tidy_writeCore _) fun _ => Tidy.ret _
  · exact Tidy.ret _

theorem tidy_write (d : PyStr) : Tidy (fun _ => False) (fun _ => 0) [] (Thr.write d) := by
  refine .bind (Thr.tidy_locked (Thr.tidy_gets _)) fun _ => ?_
  split
  · exact Tidy.raise _
  · exact Thr.tidy_locked (Thr.tidy_writeCore d)

theorem tidy_read (n : Option Int) : Tidy (fun _ => False) (fun _ => 0) [] (Thr.read n) := by
  refine .bind (Thr.tidy_locked (Thr.tidy_gets _)) fun _ => ?_
  split
  · exact Tidy.raise _
  · refine Thr.tidy_locked ?_
    cases n with
    | none => exact Thr.tidy_readAll
    | some n =>
      show Tidy _ _ _ (if n > 0 then Thr.readN n else Prog.ret [])
      split
      · exact Thr.tidy_readN n
      · exact Tidy.ret _

theorem tidy_lift (x : Except Exc α) : Tidy re rank H (lift x) := by
  cases x with
  | ok a => exact Tidy.ret _
  | error e => exact Tidy.raise _

theorem tidy_readSerialized (n : Option Int) (hH : ∀ x ∈ H, 0 < rank x.1) :
    Tidy re rank H (readSerialized n) :=
  .bind (tidy_line (tidy_read n) hH) fun _ => tidy_lift _

theorem tidy_post (env : HEnv) (args : Json) : Tidy re rank [] (post env args) := by
  refine tidy_config ?_
  split
  · extract_lets data
    split
    · cases (args.get (lit "data") .null).get (lit "value") .null with
      | null => exact Tidy.ret _
      | _ => exact .bind (tidy_line (tidy_write _) above_config) fun _ => Tidy.ret _
    · exact Tidy.ret _
  · split
    · extract_lets data
      split
      · exact .bind (tidy_line tidy_newLine above_config) fun _ => .bind (tidy_lift _) fun _ =>
          tidy_line (Thr.tidy_onStorage _) above_config
      · exact Tidy.ret _
    · split
      · exact tidy_line tidy_newLine above_config
      · exact Tidy.raise _

theorem tidy_get (env : HEnv) (n : Option PyStr) : Tidy re rank [] (get env n) := by
  unfold get
  cases n with
  | none => exact tidy_config (tidy_readSerialized _ above_config)
  | some s =>
    dsimp only
    cases env.int s with
    | none => exact Tidy.raise _
    | some k => exact tidy_config (tidy_readSerialized _ above_config)

theorem tidy_stateGet (s : Option PyStr) : Tidy re rank [] (stateGet s) := by
  unfold stateGet
  extract_lets name
  split
  · exact Tidy.raise _
  · refine tidy_config ?_
    split
    · exact .bind (tidy_line tidy_len above_config) fun _ => Tidy.ret _
    · exact tidy_state (Tidy.atom _) above_config

theorem tidy_statePost (env : HEnv) (args : Json) : Tidy re rank [] (statePost env args) := by
  unfold statePost
  extract_lets name value
  split
  · exact Tidy.raise _
  · refine tidy_config (tidy_state ?_ above_config)
    split
    · exact Tidy.atom _
    · exact Tidy.ret _

theorem tidy_resetStates : Tidy re rank [] resetStates :=
  tidy_state (.bind (Tidy.atom _) fun _ => Tidy.atom _) above_nil

theorem tidy_answerPost (b : Body) {p : Json → HProg Unit} (hp : ∀ j, Tidy re rank [] (p j)) :
    Tidy re rank [] (answerPost b p) := by
  unfold answerPost
  split
  · exact Tidy.ret _
  · exact Tidy.ret _
  · exact .bind (hp _).outcome fun _ => Tidy.ret _

theorem tidy_handle (env : HEnv) (r : Req) : Tidy re rank [] (handle env r) := by
  cases r with
  | post b => exact tidy_answerPost b (tidy_post env)
  | get n => exact .bind (tidy_get env n).outcome fun _ => Tidy.ret _
  | delete =>
    exact .bind (tidy_config (tidy_line Thr.tidy_clear above_config)).outcome fun _ => Tidy.ret _
  | stateGet s => exact .bind (tidy_stateGet s).outcome fun _ => Tidy.ret _
  | statePost b => exact tidy_answerPost b (tidy_statePost env)
  | stateDelete => exact .bind tidy_resetStates.outcome fun _ => Tidy.ret _

theorem noRaise_onPart {σ τ L L' : Type} {get : τ → σ} {set : σ → τ → τ} {ren : L → L'} {p : Prog σ L α}
    (hp : NoRaise p) : NoRaise (p.onPart get set ren) := by
  induction p with
  | ret a => trivial
  | raise e => exact hp
  | act f k ih => exact fun t => ih _ (hp (get t))
  | acq l w k ih => exact ih hp
  | rel l w k ih => exact ih hp

theorem noRaise_of {γ : Type} (F : Except Exc α → γ) (p : HProg α) :
    NoRaise (do return F (← p.outcome) : HProg γ) :=
  (noRaise_outcome p).bind fun _ => trivial

theorem noRaise_answerPost (b : Body) (p : Json → HProg Unit) : NoRaise (answerPost b p) := by
  unfold answerPost
  split
  · trivial
  · trivial
  · exact noRaise_of _ _

theorem noRaise_handle (env : HEnv) (r : Req) : NoRaise (handle env r) := by
  cases r with
  | post b => exact noRaise_answerPost _ _
  | statePost b => exact noRaise_answerPost _ _
  | _ => exact noRaise_of _ _

theorem orderly (env : HEnv) (ok : Nat → HOp → Prop) : OrderlySys (hostThreads env ok) rank := by
  intro i o c _
  have buf : ∀ c, Tidy (fun _ => False) rank [] (do return .local (← line (Thr.prog (.call c))) : HProg HRet) ∧
      NoRaise (do return .local (← line (Thr.prog (.call c))) : HProg HRet) := fun c =>
    ⟨.bind (tidy_line (Thr.tidy_prog _) above_nil) fun _ => Tidy.ret _,
      (noRaise_onPart (Thr.noRaise_prog _)).bind fun _ => trivial⟩
  have key : Tidy (fun _ => False) rank [] (prog env c) ∧ NoRaise (prog env c) := by
    cases c with
    | req r => exact ⟨.bind (tidy_handle env r) fun _ => Tidy.ret _, (noRaise_handle env r).bind fun _ => trivial⟩
    | buffer c =>
      cases c with
      | write d => exact ⟨.bind (Tidy.atom _).outcome fun _ => Tidy.ret _, noRaise_of _ _⟩
      | _ => exact buf _
    | stopAll =>
      exact ⟨.bind (tidy_state (Tidy.atom _) above_nil).outcome fun _ => Tidy.ret _, noRaise_of _ _⟩
    | reset => exact ⟨.bind tidy_resetStates.outcome fun _ => Tidy.ret _, noRaise_of _ _⟩
  exact ⟨.bind key.1 fun _ => Tidy.ret _, key.2.bind fun _ => trivial⟩

end HThr
end SyncStream
