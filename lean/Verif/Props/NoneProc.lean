import Verif.Model.NoneProc
import Verif.Spec.NoneProc
import Verif.Props.HostParsed
/-!
# Property C92 in the process mode
-/

namespace SyncStream
open Spec LineBuf

variable {U : Type}

namespace OvSys

theorem didsAny_append {par : List Item → Py (Deque Item × U) Unit} {l l1 l2 : OvLog U} {xs ys : List Did}
    (h : DidsAny par l xs l1) (h' : DidsAny par l1 ys l2) : DidsAny par l (xs ++ ys) l2 := by
  induction h with
  | nil => exact h'
  | cons l l1 l2 x xs g _ ih => exact .cons _ _ _ _ _ g (ih h')

theorem didsAny_of {par : List Item → Py (Deque Item × U) Unit} {l l1 : OvLog U} {xs : List Did}
    (h : DidSteps par l xs l1) (hx : ∀ n, Did.called (.read n) ∉ xs) : DidsAny par l xs l1 := by
  induction h with
  | nil => exact .nil _
  | cons l l1 l2 x xs g _ ih =>
    exact .cons _ _ _ _ _ (.did _ _ _ (fun n e => hx n (e ▸ List.mem_cons_self)) g) (ih fun n hn => hx n (List.mem_cons_of_mem _ hn))

theorem readAny_sys (n : Option Int) (s : OvSys U) : readAny n s =
    ((LineBuf.readAny n s.main.main.base).1,
      { s with main := { s.main with main := { s.main.main with base := (LineBuf.readAny n s.main.main.base).2 } } }) := rfl

theorem stepAny_lines {p : Override U} (hp : KeepsDeque fun ls => (p ls).seq) {o : ProcOp} (ho : OvOp o) {s : OvSys U}
    {t : ProcSys} (h : Same s t) {l : OvLog U} (hl : Ovr.Sound l) (hs : s.lines = Ovr.rep l) :
    Same (stepAny p o s) (t.step o) ∧
    ∃ l', DidsAny (fun ls => (p ls).seq) l (didOf t o) l' ∧ (stepAny p o s).lines = Ovr.rep l' ∧ Ovr.Sound l' := by
  by_cases hr : ∃ n, o = .buffer (.read n)
  · obtain ⟨n, rfl⟩ := hr
    refine ⟨?_, ?_⟩
    · have g := step_same p (.buffer (.read n)) h
      exact ⟨g.1, g.2.1, g.2.2.1, g.2.2.2.1, g.2.2.2.2⟩
    · obtain ⟨r, l', g1, g2, g3, g4⟩ := readAny_none hp hl n
      obtain ⟨e1, e2⟩ := OvBuf.mk.inj (show (⟨s.main.main.base, s.main.own⟩ : OvBuf U) = Ovr.rep l from hs)
      refine ⟨l', .cons _ _ _ _ _ (.read _ _ _ _ g4) (.nil _), ?_, g3⟩
      show (⟨(LineBuf.readAny n s.main.main.base).2, s.main.own⟩ : OvBuf U) = _
      have e1 : s.main.main.base = (Ovr.rep l).base := e1
      have e2 : s.main.own = l.own := e2
      rw [e1, g1, e2, ← g2]
      rfl
  · have e : stepAny p o s = step p o s := by
      cases o with
      | buffer c => cases c <;> first | rfl | exact absurd ⟨_, rfl⟩ hr
      | _ => rfl
    rw [e]
    obtain ⟨l', g1, g2, g3⟩ := step_lines hp ho h hl hs
    refine ⟨step_same p o h, l', didsAny_of g1 fun n hn => ?_, g2, g3⟩
    cases o with
    | buffer c => cases c <;> simp [didOf] at hn <;> exact hr ⟨_, rfl⟩
    | receive => simp [didOf] at hn
    | _ => cases hn

theorem runAny_lines {p : Override U} (hp : KeepsDeque fun ls => (p ls).seq) (os : List ProcOp) (ho : ∀ o ∈ os, OvOp o)
    {s : OvSys U} {t : ProcSys} (h : Same s t) {l : OvLog U} (hl : Ovr.Sound l) (hs : s.lines = Ovr.rep l) :
    Same (runAny p os s) (t.run os) ∧
      ∃ l', DidsAny (fun ls => (p ls).seq) l (didIn t os) l' ∧ (runAny p os s).lines = Ovr.rep l' ∧ Ovr.Sound l' := by
  induction os generalizing s t l with
  | nil => exact ⟨h, l, .nil _, hs, hl⟩
  | cons o os ih =>
    obtain ⟨g0, l1, g1, g2, g3⟩ := stepAny_lines hp (ho o (.head _)) h hl hs
    obtain ⟨i1, l2, i2, i3⟩ := ih (fun o' h' => ho o' (.tail _ h')) g0 g3 g2
    exact ⟨i1, l2, didsAny_append g1 i2, i3⟩

end OvSys

/-- **C92, process mode** Whatever a user's `parse_lines` stores, `None` included, in any history of the mirrors and of the main buffer (whose
`close` is not called): the mirrors, the queues, the states and the number of mirrors are what they are without the override; the main buffer goes
through what it receives as in C91 and is read as in C92; a reading at the end shows what C92 says. -/
theorem C92_process (p : Override U) (hp : KeepsDeque fun ls => (p ls).seq) (os : List ProcOp) (ho : ∀ o ∈ os, OvOp o)
    (s : OvSys U) (st : Deque Item) (part : PyStr) (u : U) (hst : IsDeque st) (hpart : NoBreak part)
    (hs : (⟨s.main.main.base, s.main.own⟩ : OvBuf U) = ovOpen st part u) :
    ((OvSys.runAny p os s).mirrors = (s.plain.run os).mirrors ∧ (OvSys.runAny p os s).net = (s.plain.run os).net ∧
      (OvSys.runAny p os s).main.main.nMirrors = (s.plain.run os).main.nMirrors ∧
      (OvSys.runAny p os s).main.main.mirror = (s.plain.run os).main.mirror ∧
      (OvSys.runAny p os s).main.main.nextQueue = (s.plain.run os).main.nextQueue) ∧
    ∃ l, DidsAny (fun ls => (p ls).seq) ⟨part, st, u⟩ (didIn s.plain os) l ∧
      (⟨(OvSys.runAny p os s).main.main.base, (OvSys.runAny p os s).main.own⟩ : OvBuf U) = ovOpen l.store l.part l.own ∧
      ∀ n, ∃ l', NoneStep (fun ls => (p ls).seq) l (.read n) (Ret.of .items (OvSys.readAny n (OvSys.runAny p os s)).1) l' := by
  obtain ⟨h1, l, h2, h3, h4⟩ := OvSys.runAny_lines hp os ho (s := s) (t := s.plain) ⟨rfl, rfl, rfl, rfl, rfl⟩
    (l := ⟨part, st, u⟩) ⟨hpart, hst⟩ hs
  refine ⟨h1, l, h2, h3, fun n => ?_⟩
  obtain ⟨r, l', g1, _, _, g4⟩ := readAny_none hp h4 n
  refine ⟨l', ?_⟩
  have e : (OvSys.runAny p os s).main.main.base = (Ovr.rep l).base := congrArg OvBuf.base h3
  rw [OvSys.readAny_sys, e, g1]
  exact g4

/-- Two mirrors write; the storage has room for two items. -/
def noneMirrors : List ProcOp :=
  [.take, .take, .mirror 0 (.write (lit "ok\n")), .mirror 1 (.write (lit "E1\nx")), .mirror 0 .sendEof, .mirror 1 .flush,
    .receive, .receive, .receive, .receive]

/-- **C92 is violated** in the process mode: reading one item takes away the `None` of the line `ok`, which the main buffer has received
from a mirror. -/
theorem C92_process_violated :
    let s := newOvSys 2 ()
    (ovItemTexts (OvSys.runAny searchE noneMirrors s).main.main.base.storage.items,
      ovItemTexts (OvSys.runAny searchE (noneMirrors ++ [.buffer (.read (some 1))]) s).main.main.base.storage.items,
      ovItemTexts (OvSys.runAny searchE (noneMirrors ++ [.buffer (.read none)]) s).main.main.base.storage.items) =
      ([none, some (lit "E1")], [some (lit "E1")], [none, some (lit "E1")]) := by decide +kernel

end SyncStream
