import Verif.Spec.Scope
/-!
# Redirection of `stdout` and `stderr`: C48
-/

namespace SyncStream
open Spec

/-- What a run leaves behind. -/
structure Restores (k : Code) (s s' : Streams) (u : List (Target × PyStr)) : Prop where
  out : s'.stdout = s.stdout
  err : s'.stderr = s.stderr
  stack : s'.stack = s.stack
  saved : ∀ o, o ∉ enters k → s'.saved o = s.saved o
  written : s'.written = s.written ++ u

theorem restores_run (k : Code) (hk : NotReentered k) (s : Streams) :
    (k.run s).1 = (lexical k (s.stdout, s.stderr)).1 ∧
    Restores k s (k.run s).2 (lexical k (s.stdout, s.stderr)).2 := by
  induction k generalizing s with
  | skip => exact ⟨rfl, rfl, rfl, rfl, fun _ _ => rfl, (List.append_nil _).symm⟩
  | raise e => exact ⟨rfl, rfl, rfl, rfl, fun _ _ => rfl, (List.append_nil _).symm⟩
  | print c t res =>
    rcases s with ⟨o, e, sv, st, w⟩
    cases c with
    | out =>
      cases o with
      | none => exact ⟨rfl, rfl, rfl, rfl, fun _ _ => rfl, (List.append_nil _).symm⟩
      | some x => exact ⟨rfl, rfl, rfl, rfl, fun _ _ => rfl, rfl⟩
    | err =>
      cases e with
      | none => exact ⟨rfl, rfl, rfl, rfl, fun _ _ => rfl, (List.append_nil _).symm⟩
      | some x => exact ⟨rfl, rfl, rfl, rfl, fun _ _ => rfl, rfl⟩
  | seq a b iha ihb =>
    obtain ⟨h1, h2⟩ := iha hk.1 s
    simp only [Code.run, lexical]
    rcases hr : a.run s with ⟨x, s1⟩
    rcases hs : lexical a (s.stdout, s.stderr) with ⟨y, u⟩
    rw [hr, hs] at h1 h2
    dsimp only at h1 h2
    subst h1
    cases x with
    | error e => exact ⟨rfl, h2.out, h2.err, h2.stack, fun o ho => h2.saved o (by simp_all [enters]), h2.written⟩
    | ok v =>
      obtain ⟨g1, g2⟩ := ihb hk.2 s1
      rw [h2.out, h2.err] at g1 g2
      refine ⟨g1, g2.out.trans h2.out, g2.err.trans h2.err, g2.stack.trans h2.stack, fun o ho => ?_, ?_⟩
      · rw [enters, List.mem_append, not_or] at ho
        exact (g2.saved o ho.2).trans (h2.saved o ho.1)
      · rw [g2.written, h2.written, List.append_assoc]
  | «catch» a b iha ihb =>
    obtain ⟨h1, h2⟩ := iha hk.1 s
    simp only [Code.run, lexical]
    rcases hr : a.run s with ⟨x, s1⟩
    rcases hs : lexical a (s.stdout, s.stderr) with ⟨y, u⟩
    rw [hr, hs] at h1 h2
    dsimp only at h1 h2
    subst h1
    cases x with
    | ok v => exact ⟨rfl, h2.out, h2.err, h2.stack, fun o ho => h2.saved o (by simp_all [enters]), h2.written⟩
    | error e =>
      obtain ⟨g1, g2⟩ := ihb hk.2 s1
      rw [h2.out, h2.err] at g1 g2
      refine ⟨g1, g2.out.trans h2.out, g2.err.trans h2.err, g2.stack.trans h2.stack, fun o ho => ?_, ?_⟩
      · rw [enters, List.mem_append, not_or] at ho
        exact (g2.saved o ho.2).trans (h2.saved o ho.1)
      · rw [g2.written, h2.written, List.append_assoc]
  | «finally» a b iha ihb =>
    obtain ⟨h1, h2⟩ := iha hk.1 s
    simp only [Code.run, lexical]
    rcases hr : a.run s with ⟨x, s1⟩
    rw [hr] at h1 h2
    dsimp only at h1 h2
    obtain ⟨g1, g2⟩ := ihb hk.2 s1
    rw [h2.out, h2.err] at g1 g2
    have g : Restores (.finally a b) s (b.run s1).2
        ((lexical a (s.stdout, s.stderr)).2 ++ (lexical b (s.stdout, s.stderr)).2) := by
      refine ⟨g2.out.trans h2.out, g2.err.trans h2.err, g2.stack.trans h2.stack, fun o ho => ?_, ?_⟩
      · rw [enters, List.mem_append, not_or] at ho
        exact (g2.saved o ho.2).trans (h2.saved o ho.1)
      · rw [g2.written, h2.written, List.append_assoc]
    rw [← h1, ← g1]
    rcases hb : b.run s1 with ⟨y, s2⟩
    rw [hb] at g
    cases y <;> exact ⟨rfl, g⟩
  | withObj o close a iha =>
    obtain ⟨h1, h2⟩ := iha hk.2 (s.enterObj o)
    simp only [Code.run, lexical]
    rcases hr : a.run (s.enterObj o) with ⟨x, s1⟩
    rw [hr] at h1 h2
    have hsv := h2.saved o hk.1
    have : (s.enterObj o).saved o = (s.stdout, s.stderr) := if_pos rfl
    rw [this] at hsv
    refine ⟨by cases close <;> first | exact h1 | rfl, congrArg Prod.fst hsv, congrArg Prod.snd hsv, h2.stack,
      fun o' ho => ?_, h2.written⟩
    rw [enters, List.mem_cons, not_or] at ho
    have h3 := h2.saved o' ho.2
    show (if o' = o then (none, none) else s1.saved o') = _
    rw [if_neg ho.1, h3]
    exact if_neg ho.1
  | withRedir c t r a iha =>
    obtain ⟨h1, h2⟩ := iha hk (s.enterRedir c t r)
    simp only [Code.run, lexical]
    rcases hr : a.run (s.enterRedir c t r) with ⟨x, s1⟩
    rw [hr] at h1 h2
    have hin : ((s.enterRedir c t r).stdout, (s.enterRedir c t r).stderr) = inner t c (s.stdout, s.stderr) := by
      cases c <;> rfl
    rw [hin] at h1 h2
    have hst : (s.enterRedir c t r).stack = fun x => if x = r then s.get c :: s.stack x else s.stack x := by
      cases c <;> rfl
    have h3 := h2.stack
    rw [hst] at h3
    have hhead : (s1.stack r).headD none = s.get c := by rw [h3]; simp
    have htail : (fun x => if x = r then (s1.stack x).tail else s1.stack x) = s.stack := by
      rw [h3]; funext x; by_cases hx : x = r <;> simp [hx]
    have hh1 := h2.out; have hh2 := h2.err; have hh3 := h2.saved; have hh4 := h2.written
    unfold Streams.exitRedir
    rw [hhead, htail]
    refine ⟨h1, ?_⟩
    cases c with
    | out => exact ⟨rfl, hh2, rfl, hh3, hh4⟩
    | err => exact ⟨hh1, rfl, rfl, hh3, hh4⟩

/-- **C48** After any run of properly nested contexts in which no buffer or mirror is entered inside itself,
however it ends, `sys.stdout` and `sys.stderr` are what they were before, whatever they were. -/
theorem C48_restored (k : Code) (hk : NotReentered k) (s : Streams) :
    (k.run s).2.stdout = s.stdout ∧ (k.run s).2.stderr = s.stderr :=
  ⟨(restores_run k hk s).2.out, (restores_run k hk s).2.err⟩

/-- **C48** In such a run every text is written to the target of the innermost context around the `print` that
redirects the stream, in order, and to no other; the outcome is that of lexical scoping. -/
theorem C48_scoped (k : Code) (hk : NotReentered k) (s : Streams) :
    (k.run s).1 = (lexical k (s.stdout, s.stderr)).1 ∧
    (k.run s).2.written = s.written ++ (lexical k (s.stdout, s.stderr)).2 :=
  ⟨(restores_run k hk s).1, (restores_run k hk s).2.written⟩

/-- **C48** If a buffer or mirror is entered inside its own context, this is false: both streams are `None` after it
has been left for the second time, whatever they were, whatever runs inside and whatever runs in between that uses other
objects, and what is printed then is lost. -/
theorem C48_reentered (o : Nat) (c1 c2 : Except Exc Unit) (a b : Code)
    (hb : NotReentered b) (hob : o ∉ enters b) (s : Streams) :
    let s' := ((Code.withObj o c1 (.finally (.withObj o c2 a) b)).run s).2
    s'.stdout = none ∧ s'.stderr = none ∧ ∀ c t res, s'.print c t res = (.ok (), s') := by
  have key : ((Code.finally (.withObj o c2 a) b).run (s.enterObj o)).2.saved o = (none, none) := by
    obtain ⟨_, g2⟩ := restores_run b hb ((Code.withObj o c2 a).run (s.enterObj o)).2
    have h2 : (((Code.withObj o c2 a).run (s.enterObj o)).2).saved o = (none, none) := if_pos rfl
    have h3 := (g2.saved o hob).trans h2
    rw [Code.run]
    dsimp only
    rcases hb : b.run ((Code.withObj o c2 a).run (s.enterObj o)).2 with ⟨y, s2⟩
    rw [hb] at h3
    cases y <;> exact h3
  have h1 : ((Code.withObj o c1 (.finally (.withObj o c2 a) b)).run s).2.stdout = none := congrArg Prod.fst key
  have h2 : ((Code.withObj o c1 (.finally (.withObj o c2 a) b)).run s).2.stderr = none := congrArg Prod.snd key
  refine ⟨h1, h2, fun c t res => ?_⟩
  cases c with
  | out => simp only [Streams.print, Streams.get, h1]
  | err => simp only [Streams.print, Streams.get, h2]

/-- A mirror inside a buffer, with `stderr` redirected twice by the same object, and errors everywhere. -/
def sampleCode : Code :=
  .catch (.withObj 1 (.ok ()) (.seq (.print .out (lit "a") (.ok ()))
    (.withRedir .err (.term 7) 0 (.seq
      (.withObj 2 (.error .queueFull) (.seq (.print .err (lit "b") (.ok ()))
        (.withRedir .err (.term 7) 0 (.seq (.print .err (lit "c") (.ok ()))
          (.print .out (lit "d") (.error .stopIteration))))))
      (.print .out (lit "never") (.ok ()))))))
  (.print .err (lit "e") (.ok ()))

example : NotReentered sampleCode ∧
    (sampleCode.run { stdout := some (.term 0), stderr := none }).2.written =
      [(.obj 1, lit "a"), (.obj 2, lit "b"), (.term 7, lit "c"), (.obj 2, lit "d")] := by
  refine ⟨?_, by decide +kernel⟩
  simp [sampleCode, NotReentered, enters]

end SyncStream
