import Verif.Lemmas.HostThreads
import Verif.Lemmas.Conc
/-!
# The requests to the host service obey the discipline of `Lemmas/Conc.lean`

`__config_lock` protects the line buffer, `__state_lock` the dictionary of states.
-/

namespace SyncStream
open Conc HostBuf

namespace HThr
variable {α β : Type} {i : Nat}

/-- The line buffer and the states. -/
def hparts : Parts HostBuf HLock where
  I _ := True
  eqS l s t :=
    match l with
    | .config => s.base = t.base
    | .state => s.state = t.state
    | .line => True
  eqL _ _ _ := True
  mix _ _ g := g
  S_refl l _ := by cases l <;> first | rfl | trivial
  S_symm {l _ _} h := by cases l <;> first | exact Eq.symm h | trivial
  S_trans {l _ _ _} h h' := by cases l <;> first | exact Eq.trans h h' | trivial
  L_refl _ _ := trivial
  L_symm _ := trivial
  L_trans _ _ := trivial
  mix_L _ _ _ := trivial
  mix_S l _ _ _ := by cases l <;> first | rfl | trivial
  mix_O _ _ _ := trivial
  mix_eq _ := rfl
  mix_cong _ _ := rfl
  mix_I _ h := h

/-- `p` obeys the discipline inside a section. -/
def InSec (S : HLock) (i : Nat) (p : HProg α) : Prop :=
  ∀ com, WP hparts S i (some true) com p fun _ h' _ => h' = some true

/-- `p` uses what `S` protects in at most one section. -/
def Once (S : HLock) (i : Nat) (p : HProg α) : Prop :=
  WP hparts S i none false p fun _ h' _ => h' = none

variable {S : HLock}

theorem InSec.ret (a : α) : InSec S i (.ret a : HProg α) := fun _ => rfl
theorem InSec.raise (e : Exc) : InSec S i (.raise e : HProg α) := fun _ => rfl

theorem InSec.bind {p : HProg α} {g : α → HProg β} (hp : InSec S i p) (hg : ∀ a, InSec S i (g a)) :
    InSec S i (p >>= g) := fun com => WP.bind ((hp com).mono fun r h' c' hq => by
  subst hq
  cases r with
  | ok a => exact hg a _
  | error e => rfl)

/-- Methods of the line buffer, in a section with `__config_lock`. -/
theorem sec_line (p : TProg α) : InSec .config i (line p) := fun com => by
  unfold line
  induction p generalizing com with
  | ret a => rfl
  | raise e => rfl
  | act f k ih =>
    refine .inr ⟨true, rfl, ⟨fun _ _ => trivial, fun _ _ _ _ => trivial, fun s _ l hl => ?_, (nomatch ·),
      fun s t _ _ h _ => ⟨?_, trivial⟩, fun s t _ _ h _ => ?_⟩, fun s _ => ih _ _⟩
    · cases l with
      | config => exact absurd rfl hl
      | state => rfl
      | line => trivial
    · exact congrArg f h
    · exact congrArg (fun b => (k b).onPart _ _ _) h
  | acq l w k ih => exact .inl ⟨nofun, ih com⟩
  | rel l w k ih => exact .inl ⟨nofun, ih com⟩

/-- One access to the states, in a section with `__state_lock`. -/
theorem sec_atom {m : Py HostBuf α} (h1 : ∀ s, (m s).2.base = s.base)
    (h2 : ∀ s t, s.state = t.state → (m s).1 = (m t).1 ∧ (m s).2.state = (m t).2.state) :
    InSec .state i (Prog.atom m) := fun com => by
  refine .inr ⟨true, rfl, ⟨fun _ _ => trivial, fun _ _ _ _ => trivial, fun s _ l hl => ?_, (nomatch ·),
    fun s t _ _ h _ => ⟨(h2 s t h).2, trivial⟩, fun s t _ _ h _ => ?_⟩, fun s _ => ?_⟩
  · cases l with
    | config => exact h1 s
    | state => exact absurd rfl hl
    | line => trivial
  · show (match (m s).1 with | .ok a => (Prog.ret a : HProg α) | .error e => .raise e) = _
    rw [(h2 s t h).1]
    cases (m t).1 <;> rfl
  · dsimp only; split <;> rfl

theorem InSec.config {p : HProg α} (hp : InSec .config i p) : Once .config i (HThr.config p) :=
  WP.withS ((hp false).mono fun _ _ _ h => ⟨h, rfl⟩)

theorem InSec.state {p : HProg α} (hp : InSec .state i p) : Once .state i (HThr.state p) :=
  WP.withS ((hp false).mono fun _ _ _ h => ⟨h, rfl⟩)

/-- A section with `__state_lock` inside one with `__config_lock`. -/
theorem Once.inConfig {p : HProg α} (hp : Once .state i p) : Once .state i (HThr.config p) :=
  WP.withOther nofun hp

theorem once_raise (e : Exc) : Once S i (.raise e : HProg α) := rfl
theorem once_ret (a : α) : Once S i (.ret a : HProg α) := rfl

theorem sec_lift (x : Except Exc α) : InSec S i (lift x) := by
  cases x with
  | ok a => exact .ret _
  | error e => exact .raise _

theorem sec_readSerialized (n : Option Int) : InSec .config i (readSerialized n) :=
  .bind (sec_line _) fun _ => sec_lift _

theorem once_post (env : HEnv) (args : Json) : Once .config i (post env args) := by
  refine InSec.config ?_
  split
  · extract_lets data
    split
    · cases (args.get (lit "data") .null).get (lit "value") .null with
      | null => exact .ret _
      | _ => exact .bind (sec_line _) fun _ => .ret _
    · exact .ret _
  · split
    · extract_lets data
      split
      · exact .bind (sec_line _) fun _ => .bind (sec_lift _) fun _ => sec_line _
      · exact .ret _
    · split
      · exact sec_line _
      · exact .raise _

theorem once_get (env : HEnv) (n : Option PyStr) : Once .config i (get env n) := by
  unfold get
  cases n with
  | none => exact (sec_readSerialized _).config
  | some s =>
    dsimp only
    cases env.int s with
    | none => exact once_raise _
    | some k => exact (sec_readSerialized _).config

/-- The lock a GET request to the states belongs to. -/
def stateGetLock (s : Option PyStr) : HLock :=
  if strip (s.getD []) = lit "curlen" then .config else .state

theorem once_stateGet (s : Option PyStr) : Once (stateGetLock s) i (stateGet s) := by
  unfold stateGet stateGetLock
  extract_lets name
  by_cases h0 : name = []
  · rw [if_pos h0]
    exact once_raise _
  · rw [if_neg h0]
    by_cases h : name = lit "curlen"
    · rw [if_pos h, if_pos h]
      exact InSec.config (.bind (sec_line _) fun _ => .ret _)
    · rw [if_neg h, if_neg h]
      exact (InSec.state (sec_atom (fun _ => rfl) fun s t h => ⟨by simp [h], h⟩)).inConfig

theorem once_statePost (env : HEnv) (args : Json) : Once .state i (statePost env args) := by
  unfold statePost
  extract_lets name value
  split
  · exact once_raise _
  · refine Once.inConfig (InSec.state ?_)
    split
    · exact sec_atom (fun _ => rfl) fun s t h => ⟨rfl, by simp [h]⟩
    · exact .ret _

theorem once_resetStates : Once .state i resetStates :=
  InSec.state (.bind (sec_atom (fun _ => rfl) fun _ _ _ => ⟨rfl, rfl⟩) fun _ =>
    sec_atom (fun _ => rfl) fun s t h => ⟨rfl, by simp [h]⟩)

theorem once_stopAll : Once .state i stopAll :=
  InSec.state (sec_atom (fun _ => rfl) fun s t h => ⟨rfl, by simp [h]⟩)

/-- The lock an operation belongs to. -/
def opLock : HOp → HLock
  | .req (.post _) => .config
  | .req (.get _) => .config
  | .req .delete => .config
  | .req (.stateGet s) => stateGetLock s
  | .req (.statePost _) => .state
  | .req .stateDelete => .state
  | .buffer _ => .config
  | .stopAll => .state
  | .reset => .state

/-- `p` obeys the discipline and raises nothing. -/
def Fine (S : HLock) (i : Nat) (p : HProg α) : Prop :=
  WP hparts S i none false p fun r h _ => h = none ∧ ∃ x, r = .ok x

theorem Once.fine {γ : Type} {p : HProg α} (hp : Once S i p) (F : Except Exc α → γ) :
    Fine S i (do return F (← p.outcome) : HProg γ) :=
  WP.bind (WP.outcome (hp.mono fun _ _ _ h => ⟨h, _, rfl⟩))

theorem fine_answerPost (b : Body) {p : Json → HProg Unit} (hp : ∀ j, Once S i (p j)) :
    Fine S i (answerPost b p) := by
  unfold answerPost
  split
  · exact ⟨rfl, _, rfl⟩
  · exact ⟨rfl, _, rfl⟩
  · exact (hp _).fine _

theorem fine_handle (env : HEnv) (r : Req) : Fine (opLock (.req r)) i (handle env r) := by
  cases r with
  | post b => exact fine_answerPost b (once_post env)
  | get n => exact (once_get env n).fine _
  | delete => exact (sec_line _).config.fine _
  | stateGet s => exact (once_stateGet s).fine _
  | statePost b => exact fine_answerPost b (once_statePost env)
  | stateDelete => exact once_resetStates.fine _

/-- Everything but the local use of the line buffer. -/
def NotLocal : HOp → Prop
  | .buffer _ => False
  | _ => True

theorem disciplined (env : HEnv) :
    Disciplined hparts opLock (hostThreads env fun _ o => NotLocal o) (fun _ _ => True) := by
  intro i o c _ hc
  have key : Fine (opLock c) i (prog env c) := by
    cases c with
    | req r =>
      refine WP.bind (WP.mono (fine_handle env r) fun r h' c' hq => ?_)
      obtain ⟨h1, x, rfl⟩ := hq
      exact ⟨h1, _, rfl⟩
    | buffer c => exact hc.elim
    | stopAll => exact once_stopAll.fine _
    | reset => exact once_resetStates.fine _
  refine WP.bind (WP.mono key fun r h' c' hq => ?_)
  obtain ⟨h1, x, rfl⟩ := hq
  exact ⟨h1, _, _, rfl, trivial⟩

end HThr
end SyncStream
