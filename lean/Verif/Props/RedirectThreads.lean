import Mathlib.Tactic.Convert
import Verif.Lemmas.Merge
import Verif.Lemmas.Order
import Verif.Lemmas.Prog
import Verif.Lemmas.Sched
import Verif.Props.Redirect
import Verif.Spec.RedirectThreads
/-!
# Redirection by several threads: C67
-/

namespace SyncStream
open Spec Conc

namespace RThr
variable {α β : Type}

theorem again_seq (x : Except Exc Unit) (s : Streams) : (again x).seq s = (x, s) := by
  cases x <;> rfl

theorem enterObj_seq (o : Nat) (s : Streams) : (enterObj o).seq s = (.ok (), s.enterObj o) := by
  simp only [enterObj, step, Prog.bind_eq, Prog.bind, Prog.seq]
  refine congrArg _ ?_
  unfold Streams.enterObj
  congr 1
  funext x
  by_cases h : x = o <;> simp [h]

theorem exitObj_seq (o : Nat) (s : Streams) : (exitObj o).seq s = (.ok (), s.exitObj o) := by
  simp only [exitObj, step, Prog.bind_eq, Prog.bind, Prog.seq]
  refine congrArg _ ?_
  unfold Streams.exitObj
  congr 1
  funext x
  by_cases h : x = o <;> simp [h]

theorem enterRedir_seq (c : Chan) (t : Target) (r : Nat) (s : Streams) :
    (enterRedir c t r).seq s = (.ok (), s.enterRedir c t r) := by
  cases c <;> rfl

theorem exitRedir_seq (c : Chan) (r : Nat) (s : Streams) : (exitRedir c r).seq s = (.ok (), s.exitRedir c r) := by
  cases c <;> rfl

theorem print_seq (c : Chan) (t : PyStr) (res : Except Exc Unit) (s : Streams) :
    (print c t res).seq s = s.print c t res := by
  unfold print Streams.print look
  simp only [Prog.bind_eq, Prog.bind, Prog.seq]
  cases s.get c with
  | none => rfl
  | some x => cases res <;> rfl

theorem seq_then (p : RProg α) (g : α → RProg β) (s : Streams) : (p >>= g).seq s =
    match p.seq s with
    | (.ok a, t) => (g a).seq t
    | (.error e, t) => (.error e, t) := by
  rcases h : p.seq s with ⟨_ | a, t⟩
  · exact Prog.seq_bind_error h
  · exact Prog.seq_bind_ok h

/-- Undisturbed, the steps do what the runs of `Model/Redirect.lean` do. -/
theorem run_seq (k : Code) (s : Streams) : (run k).seq s = k.run s := by
  induction k generalizing s with
  | skip => rfl
  | print c t res => exact print_seq c t res s
  | raise e => rfl
  | seq a b iha ihb =>
    simp only [run, Code.run, seq_then, iha]
    rcases a.run s with ⟨_ | _, s1⟩
    · rfl
    · exact ihb s1
  | «catch» a b iha ihb =>
    simp only [run, Code.run, seq_then, Prog.seq_outcome, iha]
    rcases a.run s with ⟨_ | _, s1⟩
    · exact ihb s1
    · rfl
  | «finally» a b iha ihb =>
    simp only [run, Code.run, seq_then, Prog.seq_outcome, iha, ihb]
    rcases a.run s with ⟨x, s1⟩
    dsimp only
    rcases b.run s1 with ⟨_ | _, s2⟩
    · rfl
    · exact again_seq x s2
  | withObj o close a iha =>
    simp only [run, Code.run, seq_then, Prog.seq_outcome, iha, enterObj_seq, exitObj_seq, again_seq]
    rcases a.run (s.enterObj o) with ⟨x, s1⟩
    cases close <;> rfl
  | withRedir c t r a iha =>
    simp only [run, Code.run, seq_then, Prog.seq_outcome, iha, enterRedir_seq, exitRedir_seq, again_seq]

/-- A step adds some texts, and neither these texts nor the rest depends on what has been written. -/
def Blind : RProg α → Prop
  | .ret _ => True
  | .raise _ => True
  | .act f k => (∀ s, ∃ new, ∀ w, f { s with written := w } = { f s with written := w ++ new } ∧
      k { s with written := w } = k s) ∧ ∀ s, Blind (k s)
  | .acq _ _ k => Blind k
  | .rel _ _ k => Blind k

theorem Blind.bind {p : RProg α} {g : α → RProg β} (hp : Blind p) (hg : ∀ a, Blind (g a)) : Blind (p.bind g) := by
  induction p with
  | ret a => exact hg a
  | raise e => exact trivial
  | act f k ih =>
    refine ⟨fun s => ?_, fun s => ih s (hp.2 s)⟩
    obtain ⟨new, h⟩ := hp.1 s
    exact ⟨new, fun w => ⟨(h w).1, congrArg (·.bind g) (h w).2⟩⟩
  | acq l w k ih => exact ih hp
  | rel l w k ih => exact ih hp

theorem Blind.outcome {p : RProg α} (hp : Blind p) : Blind p.outcome := by
  induction p with
  | ret a => exact trivial
  | raise e => exact trivial
  | act f k ih =>
    refine ⟨fun s => ?_, fun s => ih s (hp.2 s)⟩
    obtain ⟨new, h⟩ := hp.1 s
    exact ⟨new, fun w => ⟨(h w).1, congrArg (·.outcome) (h w).2⟩⟩
  | acq l w k ih => exact ih hp
  | rel l w k ih => exact ih hp

theorem Blind.step {f : Streams → Streams}
    (h : ∀ s, ∃ new, ∀ w, f { s with written := w } = { f s with written := w ++ new }) : Blind (step f) :=
  ⟨fun s => (h s).imp fun _ h w => ⟨h w, rfl⟩, fun _ => trivial⟩

theorem Blind.again (x : Except Exc Unit) : Blind (again x) := by cases x <;> exact trivial

theorem blind_enterObj (o : Nat) : Blind (enterObj o) := by
  refine .bind (.step fun s => ⟨[], fun w => by simp⟩) fun _ => .bind (.step fun s => ⟨[], fun w => by simp⟩) fun _ =>
    .bind (.step fun s => ⟨[], fun w => by simp⟩) fun _ => .step fun s => ⟨[], fun w => by simp⟩

theorem blind_exitObj (o : Nat) : Blind (exitObj o) := by
  refine .bind (.step fun s => ⟨[], fun w => by simp⟩) fun _ => .bind (.step fun s => ⟨[], fun w => by simp⟩) fun _ =>
    .bind (.step fun s => ⟨[], fun w => by simp⟩) fun _ => .step fun s => ⟨[], fun w => by simp⟩

theorem blind_set (v : Option Target) (c : Chan) : Blind (step fun s => s.set v c) :=
  .step fun s => ⟨[], fun w => by cases c <;> simp [Streams.set]⟩

theorem blind_look (c : Chan) : Blind (look fun s => s.get c) :=
  ⟨fun s => ⟨[], fun w => ⟨by simp, by cases c <;> rfl⟩⟩, fun _ => trivial⟩

theorem blind_enterRedir (c : Chan) (t : Target) (r : Nat) : Blind (enterRedir c t r) :=
  .bind (blind_look c) fun _ => .bind (.step fun s => ⟨[], fun w => by simp⟩) fun _ => blind_set _ c

theorem blind_exitRedir (c : Chan) (r : Nat) : Blind (exitRedir c r) :=
  .bind ⟨fun s => ⟨[], fun w => ⟨by simp, rfl⟩⟩, fun _ => trivial⟩ fun _ => blind_set _ c

theorem blind_print (c : Chan) (t : PyStr) (res : Except Exc Unit) : Blind (print c t res) := by
  refine .bind (blind_look c) fun x => ?_
  cases x with
  | none => exact trivial
  | some x => exact .bind ⟨fun s => ⟨[(x, t)], fun w => ⟨rfl, rfl⟩⟩, fun _ => trivial⟩ fun _ => .again res

theorem blind_run (k : Code) : Blind (run k) := by
  induction k with
  | skip => exact trivial
  | print c t res => exact blind_print c t res
  | raise e => exact trivial
  | seq a b iha ihb => exact .bind iha fun _ => ihb
  | «catch» a b iha ihb =>
    refine .bind iha.outcome fun x => ?_
    cases x with
    | ok => exact trivial
    | error e => exact ihb
  | «finally» a b iha ihb => exact .bind iha.outcome fun x => .bind ihb fun _ => .again x
  | withObj o close a iha =>
    exact .bind (blind_enterObj o) fun _ => .bind iha.outcome fun x => .bind (blind_exitObj o) fun _ =>
      .bind (.again close) fun _ => .again x
  | withRedir c t r a iha =>
    exact .bind (blind_enterRedir c t r) fun _ => .bind iha.outcome fun x => .bind (blind_exitRedir c r) fun _ => .again x

/-- There are streams to print to. -/
def Streaming (s : Streams) : Prop := s.stdout ≠ none ∧ s.stderr ≠ none

/-- The program only prints, whatever the streams are: these texts, with this outcome. -/
def Says : RProg α → Except Exc α → List PyStr → Prop
  | .ret a, r, ts => r = .ok a ∧ ts = []
  | .raise e, r, ts => r = .error e ∧ ts = []
  | .act f k, r, ts => ∀ s, Streaming s → ∃ new us, f s = { s with written := s.written ++ new } ∧
      ts = new.map (·.2) ++ us ∧ Says (k s) r us
  | .acq _ _ k, r, ts => Says k r ts
  | .rel _ _ k, r, ts => Says k r ts

theorem Says.bind {p : RProg α} {g : α → RProg β} {a : α} {ts : List PyStr} (hp : Says p (.ok a) ts)
    {r : Except Exc β} {us : List PyStr} (hg : Says (g a) r us) : Says (p.bind g) r (ts ++ us) := by
  induction p generalizing ts with
  | ret b => obtain ⟨hb, rfl⟩ := hp; cases hb; exact hg
  | raise e => exact nomatch hp.1
  | act f k ih =>
    intro s hs
    obtain ⟨new, vs, h1, h2, h3⟩ := hp s hs
    exact ⟨new, vs ++ us, h1, by rw [h2, List.append_assoc], ih s h3⟩
  | acq l w k ih => exact ih hp
  | rel l w k ih => exact ih hp

theorem Says.bind_error {p : RProg α} {g : α → RProg β} {e : Exc} {ts : List PyStr} (hp : Says p (.error e) ts) :
    Says (p.bind g) (.error e) ts := by
  induction p generalizing ts with
  | ret b => exact nomatch hp.1
  | raise e => obtain ⟨hb, rfl⟩ := hp; cases hb; exact ⟨rfl, rfl⟩
  | act f k ih =>
    intro s hs
    obtain ⟨new, vs, h1, h2, h3⟩ := hp s hs
    exact ⟨new, vs, h1, h2, ih s h3⟩
  | acq l w k ih => exact ih hp
  | rel l w k ih => exact ih hp

theorem Says.outcome {p : RProg α} {r : Except Exc α} {ts : List PyStr} (hp : Says p r ts) : Says p.outcome (.ok r) ts := by
  induction p generalizing ts with
  | ret a => obtain ⟨rfl, rfl⟩ := hp; exact ⟨rfl, rfl⟩
  | raise e => obtain ⟨rfl, rfl⟩ := hp; exact ⟨rfl, rfl⟩
  | act f k ih =>
    intro s hs
    obtain ⟨new, vs, h1, h2, h3⟩ := hp s hs
    exact ⟨new, vs, h1, h2, ih s h3⟩
  | acq l w k ih => exact ih hp
  | rel l w k ih => exact ih hp

theorem says_again (x : Except Exc Unit) : Says (again x) x [] := by cases x <;> exact ⟨rfl, rfl⟩

theorem says_print (c : Chan) (t : PyStr) (res : Except Exc Unit) : Says (print c t res) res [t] := by
  intro s hs
  refine ⟨[], [t], by simp, rfl, ?_⟩
  have : ∃ x, s.get c = some x := by
    cases c with
    | out => exact Option.ne_none_iff_exists'.1 hs.1
    | err => exact Option.ne_none_iff_exists'.1 hs.2
  obtain ⟨x, hx⟩ := this
  simp only [Prog.bind]
  rw [hx]
  intro s' _
  exact ⟨[(x, t)], [], rfl, rfl, says_again res⟩

theorem says_run {k : Code} (hk : NoContext k) : Says (run k) (printed k).1 (printed k).2 := by
  induction k with
  | skip => exact ⟨rfl, rfl⟩
  | print c t res => exact says_print c t res
  | raise e => exact ⟨rfl, rfl⟩
  | seq a b iha ihb =>
    have ha := iha hk.1
    have hb := ihb hk.2
    simp only [printed]
    cases h : (printed a).1 with
    | ok _ => rw [h] at ha; exact ha.bind (g := fun _ => run b) hb
    | error e => rw [h] at ha; exact ha.bind_error
  | «catch» a b iha ihb =>
    have ha := (iha hk.1).outcome
    have hb := ihb hk.2
    simp only [printed]
    unfold run
    cases h : (printed a).1 with
    | ok _ =>
      rw [h] at ha
      rw [← List.append_nil (printed a).2]
      exact ha.bind ⟨rfl, rfl⟩
    | error e =>
      rw [h] at ha
      exact ha.bind hb
  | «finally» a b iha ihb =>
    have ha := (iha hk.1).outcome
    have hb := ihb hk.2
    refine ha.bind (g := fun x => (run b).bind fun _ => again x) ?_
    simp only [printed]
    cases h : (printed b).1 with
    | ok _ =>
      rw [h] at hb
      rw [← List.append_nil (printed b).2]
      exact hb.bind (g := fun _ => again (printed a).1) (says_again _)
    | error e =>
      rw [h] at hb
      exact hb.bind_error
  | withObj o close a iha => exact hk.elim
  | withRedir c t r a iha => exact hk.elim

theorem Blind.seq {p : RProg α} (hp : Blind p) (s : Streams) : ∃ (r : Except Exc α) (t : Streams), ∀ w, p.seq { s with written := w } =
    (r, { t with written := w ++ t.written }) := by
  induction p generalizing s with
  | ret a => exact ⟨_, { s with written := [] }, fun w => by simp [Prog.seq]; rfl⟩
  | raise e => exact ⟨_, { s with written := [] }, fun w => by simp [Prog.seq]; rfl⟩
  | act f k ih =>
    obtain ⟨new, h⟩ := hp.1 s
    obtain ⟨r, t, h'⟩ := ih s (hp.2 s) (f s)
    refine ⟨r, { t with written := new ++ t.written }, fun w => ?_⟩
    simp only [Prog.seq]
    rw [(h w).1, (h w).2, h' (w ++ new), List.append_assoc]
  | acq l w k ih => exact ih hp s
  | rel l w k ih => exact ih hp s

/-- What a program may still do to the streams, if others only print: it ends with this outcome and these streams, and it has these
texts to write. -/
def Ends (p : RProg α) (s : Streams) (r : Except Exc α) (io : Option Target × Option Target) (st : Nat → List (Option Target))
    (new : List (Target × PyStr)) : Prop :=
  ∀ w, (p.seq { s with written := w }).1 = r ∧ (p.seq { s with written := w }).2.stdout = io.1 ∧
    (p.seq { s with written := w }).2.stderr = io.2 ∧ (p.seq { s with written := w }).2.stack = st ∧
    (p.seq { s with written := w }).2.written = w ++ new

/-- There are streams after every step. -/
def Always : RProg α → Streams → Prop
  | .ret _, _ => True
  | .raise _, _ => True
  | .act f k, s => Streaming (f s) ∧ Always (k s) (f s)
  | .acq _ _ k, s => Always k s
  | .rel _ _ k, s => Always k s

theorem Always.bind {p : RProg α} {g : α → RProg β} {s : Streams} (hp : Always p s)
    (hg : ∀ a t, p.seq s = (.ok a, t) → Always (g a) t) : Always (p.bind g) s := by
  induction p generalizing s with
  | ret a => exact hg a s rfl
  | raise e => exact trivial
  | act f k ih => exact ⟨hp.1, ih s hp.2 hg⟩
  | acq l w k ih => exact ih hp hg
  | rel l w k ih => exact ih hp hg

theorem Always.outcome {p : RProg α} {s : Streams} (hp : Always p s) : Always p.outcome s := by
  induction p generalizing s with
  | ret a => exact trivial
  | raise e => exact trivial
  | act f k ih => exact ⟨hp.1, ih s hp.2⟩
  | acq l w k ih => exact ih hp
  | rel l w k ih => exact ih hp

theorem Always.blind {p : RProg α} (hb : Blind p) {s : Streams} (hp : Always p s) (w : List (Target × PyStr)) :
    Always p { s with written := w } := by
  induction p generalizing s w with
  | ret a => exact trivial
  | raise e => exact trivial
  | act f k ih =>
    obtain ⟨new, h⟩ := hb.1 s
    refine ⟨?_, ?_⟩
    · rw [(h w).1]; exact hp.1
    · show Always (k { s with written := w }) (f { s with written := w })
      rw [(h w).1, (h w).2]
      exact ih s (hb.2 s) hp.2 _
  | acq l w k ih => exact ih hb hp _
  | rel l w k ih => exact ih hb hp _

theorem always_again (x : Except Exc Unit) (s : Streams) : Always (again x) s := by cases x <;> exact trivial

theorem always_run {k : Code} (hk : NotReentered k) {s : Streams} (hs : Streaming s) : Always (run k) s := by
  have streaming : ∀ {k : Code}, NotReentered k → ∀ {s t : Streams} {r : Except Exc Unit}, Streaming s →
      (run k).seq s = (r, t) → Streaming t := by
    intro k hk s t r hs h
    have := (restores_run k hk s).2
    rw [run_seq] at h
    rw [h] at this
    exact ⟨by rw [this.out]; exact hs.1, by rw [this.err]; exact hs.2⟩
  have streaming' : ∀ {k : Code}, NotReentered k → ∀ {s t : Streams} {r : Except Exc (Except Exc Unit)}, Streaming s →
      (run k).outcome.seq s = (r, t) → Streaming t := by
    intro k hk s t r hs h
    rw [Prog.seq_outcome] at h
    exact streaming hk (r := ((run k).seq s).1) hs (by cases h; rfl)
  induction k generalizing s with
  | skip => exact trivial
  | print c t res =>
    refine ⟨hs, ?_⟩
    simp only [Prog.bind]
    cases s.get c with
    | none => exact trivial
    | some x => exact ⟨hs, always_again res _⟩
  | raise e => exact trivial
  | seq a b iha ihb => exact (iha hk.1 hs).bind fun _ t h => ihb hk.2 (streaming hk.1 hs h)
  | «catch» a b iha ihb =>
    refine (iha hk.1 hs).outcome.bind fun x t h => ?_
    cases x with
    | ok _ => exact trivial
    | error e => exact ihb hk.2 (streaming' hk.1 hs h)
  | «finally» a b iha ihb =>
    exact (iha hk.1 hs).outcome.bind fun x t h => (ihb hk.2 (streaming' hk.1 hs h)).bind fun _ t _ => always_again x t
  | withObj o close a iha =>
    have hi : Streaming (s.enterObj o) := ⟨nofun, nofun⟩
    refine Always.bind ⟨hs, hs, ⟨nofun, hs.2⟩, ⟨nofun, nofun⟩, trivial⟩ fun _ t h => ?_
    rw [enterObj_seq] at h
    cases h
    refine (iha hk.2 hi).outcome.bind fun x t h => ?_
    have ht : t.saved o = (s.stdout, s.stderr) := by
      have := (restores_run a hk.2 (s.enterObj o)).2.saved o hk.1
      rw [Prog.seq_outcome, run_seq] at h
      cases h
      exact this.trans (if_pos rfl)
    have h2 := (streaming' hk.2 hi h).2
    have ho : (t.saved o).1 ≠ none := by rw [ht]; exact hs.1
    have he : (t.saved o).2 ≠ none := by rw [ht]; exact hs.2
    exact Always.bind ⟨⟨ho, h2⟩, ⟨ho, he⟩, ⟨ho, he⟩, ⟨ho, he⟩, trivial⟩ fun _ t _ =>
      (always_again close t).bind fun _ t _ => always_again x t
  | withRedir c t r a iha =>
    have hset : ∀ {u : Streams} {v : Option Target} {c : Chan}, Streaming u → v ≠ none → Streaming (u.set v c) := by
      intro u v c hu hv
      cases c
      · exact ⟨hv, hu.2⟩
      · exact ⟨hu.1, hv⟩
    have hi : Streaming (s.enterRedir c t r) := by
      cases c
      · exact ⟨nofun, hs.2⟩
      · exact ⟨hs.1, nofun⟩
    have hget : s.get c ≠ none := by
      cases c
      · exact hs.1
      · exact hs.2
    refine Always.bind ⟨hs, hs, hset hs nofun, trivial⟩ fun _ u h => ?_
    rw [enterRedir_seq] at h
    cases h
    refine (iha hk hi).outcome.bind fun x u h => ?_
    have hu := streaming' (k := a) hk hi h
    have hst : u.stack r = s.get c :: s.stack r := by
      have := (restores_run a hk (s.enterRedir c t r)).2.stack
      rw [Prog.seq_outcome, run_seq] at h
      cases h
      rw [this]
      cases c <;> exact if_pos rfl
    refine Always.bind ⟨hu, hset hu ?_, trivial⟩ fun _ u _ => always_again x u
    rw [hst]
    exact hget


variable {s0 : Streams} {N : Nat}

/-- The streams at the beginning. -/
abbrev io0 (s0 : Streams) : Option Target × Option Target := (s0.stdout, s0.stderr)

/-- Where thread 0 is, which has written `u`. -/
def At0 (s0 s : Streams) (tr : List (Ev Code (Except Exc Unit))) (u : List (Target × PyStr)) :
    Option (Code × RProg (Except Exc Unit × Unit)) → Prop
  | none => s.stdout = s0.stdout ∧ s.stderr = s0.stderr ∧ s.stack = s0.stack ∧
      u = ((callsBy 0 tr).map fun k => (lexical k (io0 s0)).2).flatten ∧
      retsBy 0 tr = (callsBy 0 tr).map fun k => (lexical k (io0 s0)).1
  | some (k, p) => Blind p ∧ ∃ ks new, callsBy 0 tr = ks ++ [k] ∧
      Ends p s (.ok ((lexical k (io0 s0)).1, ())) (io0 s0) s0.stack new ∧
      u ++ new = ((callsBy 0 tr).map fun k => (lexical k (io0 s0)).2).flatten ∧
      retsBy 0 tr = ks.map fun k => (lexical k (io0 s0)).1

/-- Where another thread is. -/
def AtI (i : Nat) (tr : List (Ev Code (Except Exc Unit))) (u : List (Target × PyStr)) :
    Option (Code × RProg (Except Exc Unit × Unit)) → Prop
  | none => u.map (·.2) = ((callsBy i tr).map fun k => (printed k).2).flatten ∧
      retsBy i tr = (callsBy i tr).map fun k => (printed k).1
  | some (k, p) => ∃ ks new, callsBy i tr = ks ++ [k] ∧ Says p (.ok ((printed k).1, ())) new ∧
      u.map (·.2) ++ new = ((callsBy i tr).map fun k => (printed k).2).flatten ∧
      retsBy i tr = ks.map fun k => (printed k).1

/-- The rest of thread 0 ends as it should, whatever the others have printed meanwhile. -/
theorem Ends.act {f : Streams → Streams} {k : Streams → RProg α} (hb : Blind (.act f k)) {s : Streams} {r : Except Exc α}
    {io : Option Target × Option Target} {st : Nat → List (Option Target)} {u : List (Target × PyStr)}
    (h : Ends (.act f k) s r io st u) :
    ∃ new v, f s = { f s with written := s.written ++ new } ∧ u = new ++ v ∧ Ends (k s) (f s) r io st v := by
  obtain ⟨new, hn⟩ := hb.1 s
  obtain ⟨r', t, ht⟩ := (hb.2 s).seq (f s)
  have key : ∀ w, Prog.seq (.act f k) { s with written := w } = (r', { t with written := w ++ new ++ t.written }) := by
    intro w
    simp only [Prog.seq]
    rw [(hn w).1, (hn w).2, ht]
  refine ⟨new, t.written, (hn s.written).1, ?_, fun w => ?_⟩
  · have := (h []).2.2.2.2
    rw [key] at this
    simpa using this.symm
  · obtain ⟨h1, h2, h3, h4, -⟩ := h []
    rw [key] at h1 h2 h3 h4
    rw [ht]
    exact ⟨h1, h2, h3, h4, rfl⟩

theorem Ends.other {p : RProg α} {s : Streams} {r : Except Exc α} {io : Option Target × Option Target}
    {st : Nat → List (Option Target)} {u w : List (Target × PyStr)} (h : Ends p s r io st u) :
    Ends p { s with written := w } r io st u := h

/-- What holds after every step. -/
def RInv (s0 : Streams) (N : Nat) (κ : Conc.Conf Streams Unit Unit Code (Except Exc Unit))
    (tr : List (Ev Code (Except Exc Unit))) : Prop :=
  Streaming κ.st ∧ (∀ i, N ≤ i → κ.cur i = none) ∧ (∀ k p, κ.cur 0 = some (k, p) → Always p κ.st) ∧
  ∃ (W : Nat → List (Target × PyStr)) (w : List (Target × PyStr)), κ.st.written = s0.written ++ w ∧
    Merge ((List.range N).map W) w ∧ At0 s0 κ.st tr (W 0) (κ.cur 0) ∧ ∀ i, i ≠ 0 → AtI i tr (W i) (κ.cur i)

theorem At0.other {s0 s : Streams} {tr : List (Ev Code (Except Exc Unit))} {u : List (Target × PyStr)}
    {x : Option (Code × RProg (Except Exc Unit × Unit))} (h : At0 s0 s tr u x) (w : List (Target × PyStr)) :
    At0 s0 { s with written := w } tr u x := by
  cases x with
  | none => exact h
  | some x => exact h

theorem rInv_init {s : Streams} (hs : Streaming s) (N : Nat) : RInv s N (init s fun _ => ()) [] := by
  refine ⟨hs, fun _ _ => rfl, nofun, fun _ => [], [], (List.append_nil _).symm, .done _ ?_, ⟨rfl, rfl, rfl, rfl, rfl⟩,
    fun i _ => ⟨rfl, rfl⟩⟩
  intro l hl
  obtain ⟨_, -, rfl⟩ := List.mem_map.1 hl
  rfl

theorem rInv_step {κ κ' : Conc.Conf Streams Unit Unit Code (Except Exc Unit)} {tr : List (Ev Code (Except Exc Unit))}
    {e : Option (Ev Code (Except Exc Unit))} (h : RInv s0 N κ tr) (hs : Step (redirThreads (OneRedirects N)) κ e κ') :
    RInv s0 N κ' (tr ++ e.toList) := by
  obtain ⟨h1, hN, h2, W, w, h3, h4, h5, h6⟩ := h
  cases hs with
  | inv i k hi ho =>
    refine ⟨h1, ?_, ?_, W, w, h3, h4, ?_, ?_⟩
    · intro j hj
      have : j ≠ i := by have := ho.1; omega
      simp only [upd_other _ _ this]
      exact hN j hj
    · intro k' p hp
      by_cases h0 : 0 = i
      · subst h0
        dsimp only at hp; rw [upd_same] at hp
        cases hp
        exact (always_run (ho.2.1 rfl) h1).outcome.bind fun _ _ _ => trivial
      · dsimp only at hp; rw [upd_other _ _ h0] at hp
        exact h2 k' p hp
    · rw [Option.toList_some]
      by_cases h0 : i = 0
      · subst h0
        dsimp only
        rw [upd_same]
        rw [hi] at h5
        obtain ⟨a1, a2, a3, a4, a5⟩ := h5
        have hc : callsBy 0 (tr ++ [Ev.inv 0 k]) = callsBy 0 tr ++ [k] := by rw [callsBy_snoc_inv, if_pos rfl]
        refine ⟨(blind_run k).outcome.bind fun _ => trivial, callsBy 0 tr, (lexical k (io0 s0)).2, hc, fun w => ?_, ?_, ?_⟩
        · obtain ⟨b1, b2⟩ := restores_run k (ho.2.1 rfl) { κ.st with written := w }
          have e : (({ κ.st with written := w } : Streams).stdout, ({ κ.st with written := w } : Streams).stderr) = io0 s0 :=
            Prod.ext a1 a2
          rw [e] at b1 b2
          have b3 : ((RThr.run k).outcome.bind fun r => (Prog.ret (r, ()) : RProg _)).seq { κ.st with written := w } =
              (.ok ((k.run { κ.st with written := w }).1, ()), (k.run { κ.st with written := w }).2) := by
            refine Prog.seq_bind_ok (a := (k.run { κ.st with written := w }).1) ?_
            rw [Prog.seq_outcome, run_seq]
          refine (congrArg (fun x : Except Exc (Except Exc Unit × Unit) × Streams => x.1 = _ ∧ x.2.stdout = _ ∧ x.2.stderr = _ ∧
            x.2.stack = _ ∧ x.2.written = _) b3).mpr ⟨?_, b2.out.trans a1, b2.err.trans a2, b2.stack.trans a3, b2.written⟩
          rw [b1]
        · rw [hc, List.map_append, List.flatten_append, ← a4]
          simp
        · rw [retsBy_snoc_inv, a5]
      · dsimp only
        rw [upd_other _ _ (Ne.symm h0)]
        unfold At0 at h5 ⊢
        rw [callsBy_snoc_inv, retsBy_snoc_inv, if_neg h0, List.append_nil]
        exact h5
    · intro j hj
      rw [Option.toList_some]
      dsimp only
      by_cases hij : i = j
      · subst hij
        rw [upd_same]
        have := h6 i hj
        rw [hi] at this
        obtain ⟨a4, a5⟩ := this
        have hc : callsBy i (tr ++ [Ev.inv i k]) = callsBy i tr ++ [k] := by rw [callsBy_snoc_inv, if_pos rfl]
        refine ⟨callsBy i tr, (printed k).2, hc, ?_, ?_, ?_⟩
        · rw [← List.append_nil (printed k).2]
          exact (says_run (ho.2.2 hj)).outcome.bind ⟨rfl, rfl⟩
        · rw [hc, List.map_append, List.flatten_append, ← a4]
          simp
        · rw [retsBy_snoc_inv, a5]
      · rw [upd_other _ _ (Ne.symm hij)]
        have := h6 j hj
        unfold AtI at this ⊢
        rw [callsBy_snoc_inv, retsBy_snoc_inv, if_neg hij, List.append_nil]
        exact this
  | act i c f k hi =>
    have hiN : i < N := by
      refine Nat.lt_of_not_le fun hh => ?_
      rw [hN i hh] at hi
      cases hi
    rw [Option.toList_none, List.append_nil]
    by_cases h0 : i = 0
    · subst h0
      rw [hi] at h5
      obtain ⟨hb, ks, new, a1, a2, a3, a4⟩ := h5
      have ha := h2 _ _ hi
      obtain ⟨nw, v, b1, rfl, b2⟩ := a2.act hb
      refine ⟨ha.1, fun j hj => ?_, fun k' p hp => ?_, upd W 0 (W 0 ++ nw), w ++ nw, ?_, merge_range h4 hiN nw, ?_, fun j hj => ?_⟩
      · simp only [upd_other _ _ (show j ≠ 0 by omega)]; exact hN j hj
      · dsimp only at hp; rw [upd_same] at hp; cases hp; exact ha.2
      · dsimp only; rw [b1]; dsimp only; rw [h3, List.append_assoc]
      · dsimp only
        rw [upd_same, upd_same]
        exact ⟨hb.2 _, ks, v, a1, b2, by rw [List.append_assoc]; exact a3, a4⟩
      · dsimp only
        rw [upd_other _ _ hj, upd_other _ _ hj]
        exact h6 j hj
    · have := h6 i h0
      rw [hi] at this
      obtain ⟨ks, new, a1, a2, a3, a4⟩ := this
      obtain ⟨nw, us, b1, rfl, b3⟩ := a2 κ.st h1
      refine ⟨?_, fun j hj => ?_, fun k' p hp => ?_, upd W i (W i ++ nw), w ++ nw, ?_, merge_range h4 hiN nw, ?_, fun j hj => ?_⟩
      · dsimp only; rw [b1]; exact h1
      · simp only [upd_other _ _ (show j ≠ i by omega)]; exact hN j hj
      · dsimp only at hp; rw [upd_other _ _ (Ne.symm h0)] at hp
        rw [hp] at h5
        dsimp only
        rw [b1]
        exact (h2 _ _ hp).blind h5.1 _
      · dsimp only; rw [b1]; dsimp only; rw [h3, List.append_assoc]
      · dsimp only
        rw [upd_other _ _ (Ne.symm h0), upd_other _ _ (Ne.symm h0), b1]
        exact h5.other _
      · dsimp only
        by_cases hij : j = i
        · subst hij
          rw [upd_same, upd_same]
          exact ⟨ks, us, a1, b3, by rw [List.map_append, List.append_assoc]; exact a3, a4⟩
        · rw [upd_other _ _ hij, upd_other _ _ hij]
          exact h6 j hj
  | acq i c l wr k hi hc =>
    rw [Option.toList_none, List.append_nil]
    refine ⟨h1, fun j hj => ?_, fun k' p hp => ?_, W, w, h3, h4, ?_, fun j hj => ?_⟩
    · have : j ≠ i := by rintro rfl; rw [hN j hj] at hi; cases hi
      simp only [upd_other _ _ this]; exact hN j hj
    · by_cases h0 : 0 = i
      · subst h0; dsimp only at hp; rw [upd_same] at hp; cases hp; have := h2 _ _ hi; exact this
      · dsimp only at hp; rw [upd_other _ _ h0] at hp; exact h2 _ _ hp
    · dsimp only
      by_cases h0 : 0 = i
      · subst h0; rw [upd_same]; rw [hi] at h5; exact h5
      · rw [upd_other _ _ h0]; exact h5
    · dsimp only
      by_cases h0 : j = i
      · subst h0; rw [upd_same]; have := h6 j hj; rw [hi] at this; exact this
      · rw [upd_other _ _ h0]; exact h6 j hj
  | rel i c l wr k hi =>
    rw [Option.toList_none, List.append_nil]
    refine ⟨h1, fun j hj => ?_, fun k' p hp => ?_, W, w, h3, h4, ?_, fun j hj => ?_⟩
    · have : j ≠ i := by rintro rfl; rw [hN j hj] at hi; cases hi
      simp only [upd_other _ _ this]; exact hN j hj
    · by_cases h0 : 0 = i
      · subst h0; dsimp only at hp; rw [upd_same] at hp; cases hp; have := h2 _ _ hi; exact this
      · dsimp only at hp; rw [upd_other _ _ h0] at hp; exact h2 _ _ hp
    · dsimp only
      by_cases h0 : 0 = i
      · subst h0; rw [upd_same]; rw [hi] at h5; exact h5
      · rw [upd_other _ _ h0]; exact h5
    · dsimp only
      by_cases h0 : j = i
      · subst h0; rw [upd_same]; have := h6 j hj; rw [hi] at this; exact this
      · rw [upd_other _ _ h0]; exact h6 j hj
  | ret i c r o hi =>
    rw [Option.toList_some]
    refine ⟨h1, fun j hj => ?_, fun k' p hp => ?_, W, w, h3, h4, ?_, fun j hj => ?_⟩
    · have : j ≠ i := by rintro rfl; rw [hN j hj] at hi; cases hi
      simp only [upd_other _ _ this]; exact hN j hj
    · by_cases h0 : 0 = i
      · subst h0; dsimp only at hp; rw [upd_same] at hp; cases hp
      · dsimp only at hp; rw [upd_other _ _ h0] at hp; exact h2 _ _ hp
    · dsimp only
      by_cases h0 : 0 = i
      · subst h0
        rw [upd_same]
        rw [hi] at h5
        obtain ⟨-, ks, new, a1, a2, a3, a4⟩ := h5
        obtain ⟨b1, b2, b3, b4, b5⟩ := a2 κ.st.written
        cases b1
        have hn : new = [] := by simpa [Prog.seq] using b5
        subst hn
        refine ⟨b2, b3, b4, ?_, ?_⟩
        · rw [callsBy_snoc_ret, ← a3, List.append_nil]
        · rw [callsBy_snoc_ret, retsBy_snoc_ret, if_pos rfl, a4, a1]; simp
      · rw [upd_other _ _ h0]
        unfold At0 at h5 ⊢
        rw [callsBy_snoc_ret, retsBy_snoc_ret, if_neg (Ne.symm h0), List.append_nil]
        exact h5
    · dsimp only
      by_cases h0 : j = i
      · subst h0
        rw [upd_same]
        have := h6 j hj
        rw [hi] at this
        obtain ⟨ks, new, a1, a2, a3, a4⟩ := this
        obtain ⟨b1, rfl⟩ := a2
        cases b1
        refine ⟨?_, ?_⟩
        · rw [callsBy_snoc_ret, ← a3, List.append_nil]
        · rw [callsBy_snoc_ret, retsBy_snoc_ret, if_pos rfl, a4, a1]; simp
      · rw [upd_other _ _ h0]
        have := h6 j hj
        unfold AtI at this ⊢
        rw [callsBy_snoc_ret, retsBy_snoc_ret, if_neg (Ne.symm h0), List.append_nil]
        exact this

theorem rInv {s : Streams} (hs : Streaming s) {κ : Conc.Conf Streams Unit Unit Code (Except Exc Unit)}
    {tr : List (Ev Code (Except Exc Unit))} (h : Exec (redirThreads (OneRedirects N)) (init s fun _ => ()) tr κ) : RInv s N κ tr := by
  generalize hk : (init s fun _ => () : Conc.Conf Streams Unit Unit Code (Except Exc Unit)) = κ0 at h
  induction h with
  | nil => subst hk; exact rInv_init hs N
  | snoc _ _ _ _ _ h2 ih => subst hk; exact rInv_step ih h2

end RThr

/-- **C67** (partial) Thread 0 uses any contexts, none inside itself, and other threads print while it does.  Whenever
thread 0 is outside its code, `sys.stdout` and `sys.stderr` are what they were at the beginning, its code has had the outcomes
its nesting says, and what it printed went where its nesting says (`own`), whatever the other threads did meanwhile.  The
texts of the other threads are all written, in order, and their code has the outcomes it should have; but to which
target each text goes depends on what thread 0 is doing. -/
theorem C67_one_redirects_partial {N : Nat} {s : Streams} (h1 : s.stdout ≠ none) (h2 : s.stderr ≠ none)
    {κ : Conc.Conf Streams Unit Unit Code (Except Exc Unit)} {tr : List (Ev Code (Except Exc Unit))}
    (h : Exec (redirThreads (OneRedirects N)) (init s fun _ => ()) tr κ) :
    ∃ (W : Nat → List (Target × PyStr)) (w : List (Target × PyStr)),
      κ.st.written = s.written ++ w ∧ Merge ((List.range N).map W) w ∧
      (κ.cur 0 = none → κ.st.stdout = s.stdout ∧ κ.st.stderr = s.stderr ∧
        W 0 = ((callsBy 0 tr).map fun k => (lexical k (s.stdout, s.stderr)).2).flatten ∧
        retsBy 0 tr = (callsBy 0 tr).map fun k => (lexical k (s.stdout, s.stderr)).1) ∧
      ∀ i, i ≠ 0 → κ.cur i = none →
        (W i).map (·.2) = ((callsBy i tr).map fun k => (printed k).2).flatten ∧
        retsBy i tr = (callsBy i tr).map fun k => (printed k).1 := by
  obtain ⟨-, -, -, W, w, h3, h4, h5, h6⟩ := RThr.rInv ⟨h1, h2⟩ h
  refine ⟨W, w, h3, h4, fun h0 => ?_, fun i hi h0 => ?_⟩
  · rw [h0] at h5
    exact ⟨h5.1, h5.2.1, h5.2.2.2⟩
  · have := h6 i hi
    rw [h0] at this
    exact this

/-- What a schedule of two threads leaves, if all calls have returned. -/
def RThr.leaves (ok : Nat → Code → Prop) (s : Streams) (ms : List (Move Code)) :
    Option (Option Target × Option Target × List (Target × PyStr)) :=
  match moves (redirThreads ok) 2 ms (init s fun _ => ()) with
  | none => none
  | some (_, κ) =>
    match κ.cur 0, κ.cur 1 with
    | none, none => some (κ.st.stdout, κ.st.stderr, κ.st.written)
    | _, _ => none

theorem RThr.leaves_sound {ok : Nat → Code → Prop} {s : Streams} {ms : List (Move Code)} {o e : Option Target}
    {w : List (Target × PyStr)} (h : RThr.leaves ok s ms = some (o, e, w)) (hm : ∀ m ∈ ms, ∀ i c, m = .start i c → ok i c) :
    ∃ tr κ, Exec (redirThreads ok) (init s fun _ => ()) tr κ ∧ (∀ i, κ.cur i = none) ∧ κ.st.stdout = o ∧ κ.st.stderr = e ∧
      κ.st.written = w := by
  unfold RThr.leaves at h
  split at h
  · cases h
  · rename_i tr κ e1
    split at h
    · rename_i h0 h1
      cases h
      refine ⟨tr, κ, moves_sound hm (fun _ _ _ => rfl) e1, fun i => ?_, rfl, rfl, rfl⟩
      match i with
      | 0 => exact h0
      | 1 => exact h1
      | i + 2 => exact moves_idle e1 (Nat.le_add_left 2 i) rfl
    · cases h

/-- Two threads, each with a buffer or mirror of its own: `with mirror: print("a")`. -/
def twoRedirect (i : Nat) (k : Code) : Prop :=
  i < 2 ∧ k = .withObj i (.ok ()) (.print .out (lit "a") (.ok ()))

/-- Thread 0 enters its context, then thread 1 enters its own and saves mirror 0 as the stream to restore.  Both print: both texts go to
mirror 1.  Thread 0 leaves, then thread 1 leaves: `sys.stdout` and `sys.stderr` remain mirror 0, whose context has been
left. -/
theorem C67_crossed (a b : Target) : ∃ tr κ, Exec (redirThreads twoRedirect) (init ⟨some a, some b, fun _ => (none, none), fun _ => [], []⟩ fun _ => ()) tr κ ∧
    (∀ i, κ.cur i = none) ∧ κ.st.stdout = some (.obj 0) ∧ κ.st.stderr = some (.obj 0) ∧
    κ.st.written = [(.obj 1, lit "a"), (.obj 1, lit "a")] := by
  refine RThr.leaves_sound (ms := .start 0 (.withObj 0 (.ok ()) (.print .out (lit "a") (.ok ()))) ::
    .start 1 (.withObj 1 (.ok ()) (.print .out (lit "a") (.ok ()))) ::
    List.replicate 4 (.go 0) ++ List.replicate 6 (.go 1) ++ List.replicate 7 (.go 0) ++ List.replicate 5 (.go 1)) rfl ?_
  intro m hm i c e
  subst e
  simp at hm
  rcases hm with ⟨rfl, rfl⟩ | ⟨rfl, rfl⟩ <;> exact ⟨by omega, rfl⟩

/-- **C67** violated: with contexts in two threads, each of an object of its own, the streams need not be what they were after
all contexts are left. -/
theorem C67_violated : ¬ ∀ (ok : Nat → Code → Prop) (s : Streams) (tr : List (Ev Code (Except Exc Unit)))
    (κ : Conc.Conf Streams Unit Unit Code (Except Exc Unit)),
    (∀ i k, ok i k → NotReentered k ∧ ∀ o ∈ enters k, o = i) → Exec (redirThreads ok) (init s fun _ => ()) tr κ →
    (∀ i, κ.cur i = none) → κ.st.stdout = s.stdout := by
  intro h
  obtain ⟨tr, κ, hx, hi, ho, -, -⟩ := C67_crossed (.term 0) (.term 1)
  have := h _ _ tr κ (fun i k hk => ?_) hx hi
  · rw [ho] at this
    cases this
  · obtain ⟨-, rfl⟩ := hk
    exact ⟨⟨nofun, trivial⟩, fun o ho => by simpa [enters] using ho⟩

/-- The same with `redirect_stdout`: the stream of thread 0's context remains. -/
theorem C67_crossed_redirect (a b x y : Target) (ok : Nat → Code → Prop) (h0 : ok 0 (.withRedir .out x 0 .skip))
    (h1 : ok 1 (.withRedir .out y 1 .skip)) :
    ∃ tr κ, Exec (redirThreads ok) (init ⟨some a, some b, fun _ => (none, none), fun _ => [], []⟩ fun _ => ()) tr κ ∧
      (∀ i, κ.cur i = none) ∧ κ.st.stdout = some x ∧ κ.st.stderr = some b ∧ κ.st.written = [] := by
  refine RThr.leaves_sound (ms := .start 0 (.withRedir .out x 0 .skip) :: .start 1 (.withRedir .out y 1 .skip) ::
    List.replicate 3 (.go 0) ++ List.replicate 3 (.go 1) ++ List.replicate 3 (.go 0) ++ List.replicate 3 (.go 1)) rfl ?_
  intro m hm i c e
  subst e
  simp at hm
  rcases hm with ⟨rfl, rfl⟩ | ⟨rfl, rfl⟩ <;> assumption

/-- Thread 0 redirects and prints while thread 1 prints: the text of thread 1 goes to the mirror of thread 0, and afterwards everything is as
before. -/
example : ∃ tr κ, Exec (redirThreads (OneRedirects 2)) (init ⟨some (.term 0), some (.term 1), fun _ => (none, none), fun _ => [], []⟩
    fun _ => ()) tr κ ∧ (∀ i, κ.cur i = none) ∧ κ.st.stdout = some (.term 0) ∧ κ.st.stderr = some (.term 1) ∧
    κ.st.written = [(.obj 5, lit "b"), (.obj 5, lit "a"), (.term 0, lit "c")] := by
  refine RThr.leaves_sound (ms := .start 0 (.withObj 5 (.ok ()) (.print .out (lit "a") (.ok ()))) ::
    .start 1 (.seq (.print .out (lit "b") (.ok ())) (.print .out (lit "c") (.ok ()))) ::
    List.replicate 4 (.go 0) ++ List.replicate 2 (.go 1) ++ List.replicate 7 (.go 0) ++ List.replicate 3 (.go 1)) rfl ?_
  intro m hm i c e
  subst e
  simp at hm
  rcases hm with ⟨rfl, rfl⟩ | ⟨rfl, rfl⟩
  · exact ⟨by omega, fun _ => ⟨nofun, trivial⟩, fun h => absurd rfl h⟩
  · exact ⟨by omega, nofun, fun _ => ⟨trivial, trivial⟩⟩

end SyncStream
