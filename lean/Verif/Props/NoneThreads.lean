import Verif.Lemmas.NoneThreads
import Verif.Props.NoneItems
/-!
# Property C92: reading a buffer that stores `None`, with several threads
-/

namespace SyncStream
open Spec LineBuf Conc

variable {U : Type}

theorem none_steps {p : Override U} (hp : KeepsDeque fun ls => (p ls).seq) {l : OvLog U} (hl : Ovr.Sound l)
    {tr : List (Ev Call Ret)} {a : AConf (OvBuf U × (Nat → Unit)) Call Ret}
    (hx : AExec (seqSpec (noneThreads (Ovr.method p) fun _ c => Thr.Atomic (.call c)))
      ⟨(Ovr.rep l, fun _ => ()), fun _ => .idle⟩ tr a) :
    ∃ m, AExec (fun l _ c r l' => NoneStep (fun ls => (p ls).seq) l c r l') ⟨l, fun _ => .idle⟩ tr
      ⟨m, a.stat⟩ ∧ a.st.1 = Ovr.rep m ∧ Ovr.Sound m := by
  generalize ha : (⟨(Ovr.rep l, fun _ => ()), fun _ => .idle⟩ : AConf (OvBuf U × (Nat → Unit)) Call Ret) = a0 at hx
  induction hx with
  | nil => subst ha; exact ⟨l, .nil _, rfl, hl⟩
  | snoc a' a'' tr e h1 h2 ih =>
    obtain ⟨m, ih1, ih2, ih3⟩ := ih
    cases h2 with
    | inv i c hi => exact ⟨m, .snoc _ _ _ _ _ ih1 (.inv _ _ _ hi), ih2, ih3⟩
    | ret i r hi => exact ⟨m, .snoc _ _ _ _ _ ih1 (.ret _ _ _ hi), ih2, ih3⟩
    | effect i c r st hi hsp =>
      obtain ⟨o, e1, _, e3⟩ := hsp
      obtain ⟨r', m', s1, s2, s3⟩ := Ovr.callAny_rep hp ih3 e3
      obtain ⟨_, _, t1, _, _⟩ := Ovr.step_rep hp ih3 0 e3
      have s1 := Ovr.progAny_seq s1 (fun e he => by rw [t1] at he; cases congrArg Prod.fst he)
      rw [ih2] at e1
      have e4 := (Prog.seq_bind_ok s1).symm.trans e1
      have er : r' = r := by
        have := congrArg Prod.fst e4
        injection this with this
        exact congrArg Prod.fst this
      have es : Ovr.rep m' = st.1 := congrArg Prod.snd e4
      exact ⟨m', .snoc _ _ _ _ none ih1 (.effect _ _ _ _ _ hi (er ▸ s2)), es.symm, s3⟩

/-- **C92, threads** Any number of threads making whatever `write`, `read`, `new_line`, `flush`, `readable`,
`writable` and `closed` calls they like, the steps (also those of `parse_lines`) interleaved in any way, see a
buffer on which every call takes effect in one moment and does what `NoneStep` says. -/
theorem C92_linearizable (p : Override U) (hp : KeepsDeque fun ls => (p ls).seq) (st : Deque Item)
    (part : PyStr) (u : U) (hst : IsDeque st) (hpart : NoBreak part) (tr : List (Ev Call Ret))
    (κ : Conf (OvBuf U) Unit Unit Call Ret)
    (hx : Exec (noneThreads (Ovr.method p) fun _ c => Thr.Atomic (.call c)) (init (ovOpen st part u) fun _ => ()) tr κ) :
    ∃ m stat, AExec (fun l _ c r l' => NoneStep (fun ls => (p ls).seq) l c r l') ⟨⟨part, st, u⟩, fun _ => .idle⟩ tr
        ⟨m, stat⟩ ∧
      ((∀ i, κ.cur i = none) → κ.st = ovOpen m.store m.part m.own) := by
  obtain ⟨a, h4, h5⟩ := exec_rel (Ovr.none_orderly p _) (Ovr.none_disciplined p) (s := ovOpen st part u) rfl
    (fun _ => trivial) hx
  obtain ⟨m, h6, h7, _⟩ := none_steps (l := ⟨part, st, u⟩) hp ⟨hpart, hst⟩ h4
  refine ⟨m, a.stat, h6, fun hq => ?_⟩
  obtain ⟨q1, _, _⟩ := h5.quiet hq
  have q : κ.st = a.st.1 := q1 ()
  exact q.trans h7

/-- What is seen when two threads have taken these steps. -/
def noneSeen (ms : List (Move Call)) : Option (List (Nat × List (Option PyStr)) × List (Option PyStr)) :=
  (moves (noneThreads (Ovr.method (Override.searching findE)) fun _ c => Thr.Atomic (.call c)) 2 ms
    (init (ovOpen { maxlen := 2 } [] ()) fun _ => ())).map fun z =>
      (z.1.filterMap fun | .ret i r => some (i, seenRet r) | _ => none, z.2.st.base.storage.items.map seenItem)

/-- Thread 1 has found that the buffer can be read, thread 0 writes, thread 1 reads two items: the `None` is gone from
the storage. -/
example : noneSeen ([.start 0 (.write (lit "ok\nE1\nxy")), .start 1 (.read (some 2))] ++ List.replicate 3 (.go 1) ++
      List.replicate 11 (.go 0)) = some ([(0, [])], [none, some (lit "E1")]) := by decide +kernel

example : noneSeen ([.start 0 (.write (lit "ok\nE1\nxy")), .start 1 (.read (some 2))] ++ List.replicate 3 (.go 1) ++
      List.replicate 11 (.go 0) ++ List.replicate 11 (.go 1)) =
    some ([(0, []), (1, [some (lit "E1"), some (lit "xy")])], [some (lit "E1")]) := by decide +kernel

end SyncStream
