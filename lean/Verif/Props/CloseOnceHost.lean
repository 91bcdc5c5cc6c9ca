import Verif.Props.HostMirrorShared
import Verif.Lemmas.ProcCount
/-!
# Property C69 in the host mode: two threads close one host mirror
-/

namespace SyncStream
open Conc

/-- Two threads close the mirror with an exception. -/
def twoClose (e : ExcObj) (i : Nat) (c : HMCall) : Prop := i < 2 ∧ c = .close (some e)

/-- Carry out moves of two threads; both `close()` return, and the records at the end are `items`. -/
def hostCloses (e : ExcObj) (ms : List (Move HMCall)) (n : Nat) : Bool :=
  match moves (hostMirrorThreads sampleEnv (twoClose e)) 2 ms (init hostUsed fun _ => ()) (fun _ => true) with
  | none => false
  | some (tr, κ) => (κ.cur 0).isNone && (κ.cur 1).isNone && κ.st.1.mirror.buf.closed &&
    κ.st.2.service.base.storage.items.length == n && κ.st.2.service.base.storage.items.all (fun | .msg _ => true | _ => false) &&
    match tr with
    | [.inv 0 (.close _), .inv 1 (.close _), .ret 0 .unit, .ret 1 .unit] => true
    | _ => false

/-- **C69** violated in the host mode: both threads find the mirror open, both post the error, and both `close()` return: the error is
recorded twice. -/
theorem C69_host_violated (e : ExcObj) (he : e = { formatted := [lit "KeyError"] }) :
    ∃ tr κ, Exec (hostMirrorThreads sampleEnv (twoClose e)) (init hostUsed fun _ => ()) tr κ ∧ (∀ i, κ.cur i = none) ∧
      tr = [.inv 0 (.close (some e)), .inv 1 (.close (some e)), .ret 0 .unit, .ret 1 .unit] ∧
      κ.st.1.mirror.buf.closed = true ∧ κ.st.2.service.base.storage.items.length = 2 ∧
      ∀ x ∈ κ.st.2.service.base.storage.items, ∃ m, x = .msg m := by
  subst he
  have h : hostCloses { formatted := [lit "KeyError"] } (.start 0 (.close (some { formatted := [lit "KeyError"] })) ::
      .start 1 (.close (some { formatted := [lit "KeyError"] })) :: List.replicate 15 (.go 0) ++ List.replicate 15 (.go 1) ++
      List.replicate 7 (.go 0) ++ List.replicate 7 (.go 1) ++ List.replicate 6 (.go 0) ++ List.replicate 6 (.go 1)) 2 = true := by
    decide +kernel
  unfold hostCloses at h
  split at h
  · cases h
  · rename_i tr κ e
    simp only [Bool.and_eq_true, Option.isNone_iff_eq_none, beq_iff_eq, List.all_eq_true] at h
    obtain ⟨⟨⟨⟨⟨h0, h1⟩, h2⟩, h3⟩, h4⟩, h5⟩ := h
    have hx : Exec (hostMirrorThreads sampleEnv (twoClose { formatted := [lit "KeyError"] })) (init hostUsed fun _ => ()) tr κ :=
      moves_sound (fun m hm i c em => by
        subst em
        simp at hm
        rcases hm with ⟨rfl, rfl⟩ | ⟨rfl, rfl⟩ <;> exact ⟨by omega, rfl⟩) (fun _ _ _ => rfl) e fun _ _ => trivial
    refine ⟨tr, κ, hx, fun i => ?_, ?_, h2, h3, fun x hx => ?_⟩
    · match i with
      | 0 => exact h0
      | 1 => exact h1
      | i + 2 => exact moves_idle e (Nat.le_add_left 2 i) rfl
    · split at h5
      · rename_i a b
        have ha := (exec_ok hx 0 (.close a) (by simp)).2
        have hb := (exec_ok hx 1 (.close b) (by simp)).2
        rw [ha, hb]
      · cases h5
    · have := h4 x hx
      cases x with
      | msg m => exact ⟨m, rfl⟩
      | str s => cases this
      | raw j => cases this

end SyncStream
