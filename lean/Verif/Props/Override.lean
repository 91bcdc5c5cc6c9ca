import Verif.Lemmas.Override
import Verif.Lemmas.Order
import Verif.Lemmas.Sched
import Verif.Spec.ProcSteps
/-!
# Property C78: a user's `parse_lines`
-/

namespace SyncStream
open Spec LineBuf Conc

variable {U : Type}

/-- The calls on the specification, each by a thread that may make it. -/
theorem ov_steps {p : Override U} (hp : KeepsDeque fun ls => (p ls).seq) {ok : Nat → Call → Prop}
    (hok : ∀ i c, ok i c → Thr.Atomic (.call c)) {l : OvLog U} (hl : Ovr.Sound l) {tr : List (Ev Call Ret)}
    {a : AConf (OvBuf U × (Nat → Unit)) Call Ret}
    (hx : AExec (seqSpec (ovThreads (Ovr.method p) ok)) ⟨(Ovr.rep l, fun _ => ()), fun _ => .idle⟩ tr a) :
    ∃ m, AExec (fun l i c r l' => OvStep (fun ls => (p ls).seq) l i c r l' ∧ ok i c) ⟨l, fun _ => .idle⟩ tr
      ⟨m, a.stat⟩ ∧ a.st.1 = Ovr.rep m ∧ Ovr.Sound m := by
  generalize ha : (⟨(Ovr.rep l, fun _ => ()), fun _ => .idle⟩ : AConf (OvBuf U × (Nat → Unit)) Call Ret) = a0 at hx
  induction hx with
  | nil => subst ha; exact ⟨l, .nil _, rfl, hl⟩
  | snoc a' a'' tr e h1 h2 ih =>
    obtain ⟨m, ih1, ih2, ih3⟩ := ih
    cases h2 with
    | inv i c hi => exact ⟨m, .snoc _ _ _ _ _ ih1 (.inv _ _ _ hi), ih2, ih3⟩
    | ret i r hi => exact ⟨m, .snoc _ _ _ _ _ ih1 (.ret _ _ _ hi), ih2, ih3⟩
    | effect i c r st hi hsp =>
      obtain ⟨o, e1, _, e3⟩ := hsp
      obtain ⟨r', m', s1, s2, s3⟩ := Ovr.step_rep hp ih3 i (hok i c e3)
      rw [ih2] at e1
      have e4 := (Prog.seq_bind_ok s1).symm.trans e1
      have er : r' = r := by
        have := congrArg Prod.fst e4
        injection this with this
        exact congrArg Prod.fst this
      have es : Ovr.rep m' = st.1 := congrArg Prod.snd e4
      exact ⟨m', .snoc _ _ _ _ none ih1 (.effect _ _ _ _ _ hi ⟨er ▸ s2, e3⟩), es.symm, s3⟩

theorem ov_exec {p : Override U} (hp : KeepsDeque fun ls => (p ls).seq) {ok : Nat → Call → Prop}
    (hok : ∀ i c, ok i c → Thr.Atomic (.call c)) {l : OvLog U} (hl : Ovr.Sound l) {tr : List (Ev Call Ret)}
    {κ : Conf (OvBuf U) Unit Unit Call Ret}
    (hx : Exec (ovThreads (Ovr.method p) ok) (init (Ovr.rep l) fun _ => ()) tr κ) :
    ∃ m stat, AExec (fun l i c r l' => OvStep (fun ls => (p ls).seq) l i c r l' ∧ ok i c) ⟨l, fun _ => .idle⟩ tr
      ⟨m, stat⟩ ∧ ((∀ i, κ.cur i = none) → κ.st = Ovr.rep m ∧ ∀ i, stat i = .idle) := by
  have hd : Disciplined Ovr.parts (fun _ => ()) (ovThreads (Ovr.method p) ok) (fun _ _ => True) :=
    fun i o c h1 h2 => Ovr.disciplined p i o c h1 (hok i c h2)
  obtain ⟨a, h4, h5⟩ := exec_rel (Ovr.orderly p ok) hd (s := Ovr.rep l) rfl (fun _ => trivial) hx
  obtain ⟨m, h6, h7, h8⟩ := ov_steps hp hok hl h4
  refine ⟨m, a.stat, h6, fun hq => ?_⟩
  obtain ⟨q1, _, _⟩ := h5.quiet hq
  refine ⟨h7 ▸ q1 (), fun i => ?_⟩
  obtain ⟨h, com, hm⟩ := h5.sim i
  rw [hq i] at hm
  cases hst : a.stat i with
  | idle => rfl
  | called => rw [hst] at hm; cases hm
  | done => rw [hst] at hm; cases hm

/-- An instance of the subclass that is open: its storage, its unfinished line and its own attributes. -/
def ovOpen (st : Deque Item) (part : PyStr) (u : U) : OvBuf U :=
  { base := { storage := st, lastLine := { buf := part, pos := part.length, closed := false } }, own := u }

/-- **C78** Whatever the user's `parse_lines` does with the storage and with its own attributes, in
however many steps, and whether it raises or not: any number of threads making whatever `write`,
`read`, `new_line`, `flush`, `readable`, `writable` and `closed` calls they like, the steps (also those of
`parse_lines`) interleaved in any way, see a buffer on which every call takes effect in one moment: it hands
the lines that it completes to `parse_lines` in one call (none, if it completes none); if that
raises, the call raises the same and the unfinished line stays what it was. -/
theorem C78_linearizable (p : Override U) (hp : KeepsDeque fun ls => (p ls).seq) (st : Deque Item)
    (part : PyStr) (u : U) (hst : IsDeque st) (hpart : NoBreak part) (tr : List (Ev Call Ret))
    (κ : Conf (OvBuf U) Unit Unit Call Ret)
    (hx : Exec (ovThreads (Ovr.method p) fun _ c => Thr.Atomic (.call c)) (init (ovOpen st part u) fun _ => ()) tr κ) :
    ∃ m stat, AExec (OvStep fun ls => (p ls).seq) ⟨⟨part, st, u⟩, fun _ => .idle⟩ tr ⟨m, stat⟩ ∧
      ((∀ i, κ.cur i = none) → κ.st = ovOpen m.store m.part m.own) := by
  obtain ⟨m, stat, h1, h2⟩ := ov_exec (l := ⟨part, st, u⟩) hp (fun _ _ h => h) ⟨hpart, hst⟩ hx
  refine ⟨m, stat, ?_, fun hq => (h2 hq).1⟩
  clear h2
  generalize (⟨m, stat⟩ : AConf (OvLog U) Call Ret) = a at h1
  generalize ha : (⟨⟨part, st, u⟩, fun _ => .idle⟩ : AConf (OvLog U) Call Ret) = a0 at h1 ⊢
  clear ha hx
  induction h1 with
  | nil => exact .nil _
  | snoc a' a'' tr e h1 h2 ih =>
    refine .snoc _ _ _ _ _ ih ?_
    cases h2 with
    | inv i c hi => exact .inv _ _ _ hi
    | ret i r hi => exact .ret _ _ _ hi
    | effect i c r st hi hsp => exact .effect _ _ _ _ _ hi hsp.1

/-! ## Which lines are handed over -/

theorem noting_seq (p : Override U) (ls : List Item) (st : Deque Item) (u : U) (g : List Item) :
    (p.noting ls).seq (st, u, g) =
      match (p ls).seq (st, u) with
      | (.ok _, x) => (.ok (), (x.1, x.2, g ++ ls))
      | (.error e, x) => (.error e, (x.1, x.2, g)) := by
  have h := Prog.seq_onPart (get := fun x : Deque Item × U × List Item => (x.1, x.2.1))
    (set := fun y x => (y.1, y.2, x.2.2)) (ren := (id : Empty → Empty)) (fun _ _ => rfl) (fun _ _ _ => rfl)
    (fun _ => rfl) (p ls) (st, u, g)
  simp only [Py.onPart_apply] at h
  unfold Override.noting
  rcases hq : (p ls).seq (st, u) with ⟨r, x⟩
  rw [hq] at h
  cases r with
  | ok a => exact (Prog.seq_bind_ok h).trans rfl
  | error e =>
    rw [Prog.seq_bind]
    exact Py.bind_error h

theorem noting_keeps {p : Override U} (hp : KeepsDeque fun ls => (p ls).seq) :
    KeepsDeque fun ls => (p.noting ls).seq := by
  rintro ls ⟨st, u, g⟩ h
  have := hp ls (st, u) h
  dsimp only
  rw [noting_seq]
  rcases hq : (p ls).seq (st, u) with ⟨r, x⟩
  dsimp only at this
  rw [hq] at this
  cases r <;> exact this

/-- One more call at the end. -/
theorem Handed.snoc {part rest rest' : PyStr} {cs : List (Call × Ret)} {ls ls' : List PyStr} {x : Call × Ret}
    (h : Handed part cs ls rest) (h' : Handed rest [x] ls' rest') : Handed part (cs ++ [x]) (ls ++ ls') rest' := by
  induction h with
  | nil => exact h'
  | write part d mid rest n cs ls l2 h1 _ ih =>
    rw [List.append_assoc]
    exact .write _ _ _ _ _ _ _ _ h1 (ih h')
  | newLine part rest cs ls h1 _ ih => exact .newLine _ _ _ _ h1 (ih h')
  | newLineEmpty rest cs ls _ ih => exact .newLineEmpty _ _ _ (ih h')
  | raised part rest c e cs ls _ ih => exact .raised _ _ _ _ _ _ (ih h')
  | other part rest c r cs ls h1 h2 _ ih => exact .other _ _ _ _ _ _ h1 h2 (ih h')

theorem ov_handed {p : Override U} {part : PyStr} {st : Deque Item} {u : U} {ok : Nat → Call → Prop}
    {L : List (Nat × Call × Ret)} {m : OvLog (U × List Item)}
    (h : Path (fun l i c r l' => OvStep (fun ls => (p.noting ls).seq) l i c r l' ∧ ok i c) ⟨part, st, u, []⟩ L m) :
    ∃ ls, Handed part (L.map (·.2)) ls m.part ∧ m.own.2 = ls.map .str := by
  induction h with
  | nil => exact ⟨[], .nil _, rfl⟩
  | snoc L i c r m m' _ h2 ih =>
    obtain ⟨ls, h3, h4⟩ := ih
    rw [List.map_append]
    have idle : ∀ c r, (∀ d, c ≠ .write d) → c ≠ .newLine →
        ∃ ls, Handed part (L.map (·.2) ++ [(i, c, r)].map (·.2)) ls m.part ∧ m.own.2 = ls.map .str := fun c r a b =>
      ⟨ls, by simpa using Handed.snoc h3 (.other m.part m.part c r [] [] a b (.nil _)), h4⟩
    cases h2.1 with
    | writePart d r n g1 g2 =>
      exact ⟨ls, by simpa using Handed.snoc h3 (.write m.part d r r n [] [] [] g1 (.nil _)), h4⟩
    | write d r ls' n st' u' g1 g2 g3 g4 =>
      refine ⟨ls ++ ls', by simpa using Handed.snoc h3 (.write m.part d r r n [] ls' [] g1 (.nil _)), ?_⟩
      have e := noting_seq p (ls'.map .str) m.store m.own.1 m.own.2
      rw [show (p.noting (ls'.map .str)).seq (m.store, m.own.1, m.own.2) = _ from g3] at e
      rcases hq : (p (ls'.map .str)).seq (m.store, m.own.1) with ⟨x, y⟩
      rw [hq] at e
      cases x with
      | ok a =>
        have := congrArg (fun z => z.2.2.2) e
        dsimp only at this
        rw [this, h4, List.map_append]
      | error x => cases congrArg Prod.fst e
    | writeRaise d r ls' x st' u' g1 g2 g3 =>
      refine ⟨ls, by simpa using Handed.snoc h3 (.raised m.part m.part (.write d) x [] [] (.nil _)), ?_⟩
      have e := noting_seq p (ls'.map .str) m.store m.own.1 m.own.2
      rw [show (p.noting (ls'.map .str)).seq (m.store, m.own.1, m.own.2) = _ from g3] at e
      rcases hq : (p (ls'.map .str)).seq (m.store, m.own.1) with ⟨x, y⟩
      rw [hq] at e
      cases x with
      | ok a => cases congrArg Prod.fst e
      | error x =>
        have := congrArg (fun z => z.2.2.2) e
        dsimp only at this
        rw [this, h4]
    | newLineEmpty g1 =>
      refine ⟨ls, ?_, h4⟩
      rw [g1] at h3 ⊢
      simpa using Handed.snoc h3 (.newLineEmpty [] [] [] (.nil _))
    | newLine st' u' g1 g2 =>
      refine ⟨ls ++ [m.part], by simpa using Handed.snoc h3 (.newLine m.part [] [] [] g1 (.nil _)), ?_⟩
      have e := noting_seq p [.str m.part] m.store m.own.1 m.own.2
      rw [show (p.noting [.str m.part]).seq (m.store, m.own.1, m.own.2) = _ from g2] at e
      rcases hq : (p [.str m.part]).seq (m.store, m.own.1) with ⟨x, y⟩
      rw [hq] at e
      cases x with
      | ok a =>
        have := congrArg (fun z => z.2.2.2) e
        dsimp only at this
        rw [this, h4, List.map_append]
        rfl
      | error x => cases congrArg Prod.fst e
    | newLineRaise x st' u' g1 g2 =>
      refine ⟨ls, by simpa using Handed.snoc h3 (.raised m.part m.part .newLine x [] [] (.nil _)), ?_⟩
      have e := noting_seq p [.str m.part] m.store m.own.1 m.own.2
      rw [show (p.noting [.str m.part]).seq (m.store, m.own.1, m.own.2) = _ from g2] at e
      rcases hq : (p [.str m.part]).seq (m.store, m.own.1) with ⟨x, y⟩
      rw [hq] at e
      cases x with
      | ok a => cases congrArg Prod.fst e
      | error x =>
        have := congrArg (fun z => z.2.2.2) e
        dsimp only at this
        rw [this, h4]
    | readAll => exact idle _ _ (fun _ h => nomatch h) (fun h => nomatch h)
    | readSize => exact idle _ _ (fun _ h => nomatch h) (fun h => nomatch h)
    | readNonPos => exact idle _ _ (fun _ h => nomatch h) (fun h => nomatch h)
    | flush => exact idle _ _ (fun _ h => nomatch h) (fun h => nomatch h)
    | closed => exact idle _ _ (fun _ h => nomatch h) (fun h => nomatch h)
    | readable => exact idle _ _ (fun _ h => nomatch h) (fun h => nomatch h)
    | writable => exact idle _ _ (fun _ h => nomatch h) (fun h => nomatch h)

theorem zip_parts {A B : Type} (l : List (A × B)) : (l.map (·.1)).zip (l.map (·.2)) = l := by
  induction l with
  | nil => rfl
  | cons x l ih => simp [ih]

/-- **C78** `N` threads use the buffer in any way; the user's `parse_lines` notes the lines that it was
given (by calls of it that did not raise).  When no call is running, these are exactly the lines completed by
the calls that did not raise, for one order of these calls in which the calls of each thread are in their order;
nothing is handed over twice, cut otherwise or forgotten, and what is not completed is the unfinished line. -/
theorem C78_lines (p : Override U) (hp : KeepsDeque fun ls => (p ls).seq) (st : Deque Item)
    (part : PyStr) (u : U) (hst : IsDeque st) (hpart : NoBreak part) (N : Nat) (tr : List (Ev Call Ret))
    (κ : Conf (OvBuf (U × List Item)) Unit Unit Call Ret)
    (hx : Exec (ovThreads (Ovr.method p.noting) fun i c => i < N ∧ Thr.Atomic (.call c))
      (init (ovOpen st part (u, [])) fun _ => ()) tr κ) (hq : ∀ i, κ.cur i = none) :
    ∃ cs ls, Merge ((List.range N).map fun i => returned i tr) cs ∧
      Handed part cs ls κ.st.base.lastLine.buf ∧ κ.st.own.2 = ls.map .str := by
  obtain ⟨m, stat, h1, h2⟩ := ov_exec (l := ⟨part, st, u, []⟩) (noting_keeps hp)
    (ok := fun i c => i < N ∧ Thr.Atomic (.call c)) (fun _ _ h => h.2) ⟨hpart, hst⟩ hx
  obtain ⟨h3, h4⟩ := h2 hq
  obtain ⟨L, h5, h6⟩ := aexec_path h1
  have h7 := path_merge (N := N) h5 fun _ _ _ _ _ h => h.2.1
  obtain ⟨ls, h8, h9⟩ := ov_handed h5
  refine ⟨L.map (·.2), ls, ?_, by rw [h3]; exact h8, by rw [h3]; exact h9⟩
  have e : (fun i => returned i tr) = fun i => partOf i L := by
    funext i
    obtain ⟨a, b⟩ := h6 i
    simp only [h4 i, startedBy, owedBy, List.append_nil] at a b
    rw [returned, a, ← b, zip_parts]
  rw [e]
  exact h7

/-- Lines with an `E`. -/
def hasE : Item → Bool
  | .str s => s.contains 69
  | _ => true

/-- A `parse_lines` that stores only the lines with an `E` and counts the others, in two steps, and raises for an
empty line. -/
def keepE : Override Nat := fun ls =>
  if ls.any (fun | .str [] => true | _ => false) then Prog.raise .valueError
  else do
    Prog.atom (Py.modify fun x => (x.1.extend (ls.filter hasE), x.2))
    Prog.atom (Py.modify fun x => (x.1, x.2 + (ls.filter (!hasE ·)).length))

theorem keepE_keeps : KeepsDeque fun ls => (keepE ls).seq := by
  rintro ls ⟨d, n⟩ ⟨h1, h2⟩
  unfold keepE
  dsimp only
  split
  · exact ⟨h1, h2⟩
  · show IsDeque (d.extend (ls.filter hasE))
    rw [Deque.extend_eq _ _ h2 h1]
    exact ⟨h1, length_lastN_le _ _⟩

/-- Thread 1's first write raises after thread 0's write; the second one completes the line of thread 0. -/
example : ((moves (ovThreads (Ovr.method keepE.noting) fun i c => i < 2 ∧ Thr.Atomic (.call c)) 2
      ([.start 0 (.write (lit "aE\nb\nc")), .start 1 (.write (lit "x\n\ny"))] ++ List.replicate 3 (.go 0) ++
        List.replicate 3 (.go 1) ++ List.replicate 10 (.go 0) ++ List.replicate 4 (.go 1) ++
        [.start 1 (.write (lit "x\ny"))] ++ List.replicate 13 (.go 1))
      (init (ovOpen { maxlen := 9 } [] (0, [])) fun _ => ())).map
        fun z => (z.1, z.2.st.base.storage.items, z.2.st.base.lastLine.buf, z.2.st.own)) =
    some ([.inv 0 (.write (lit "aE\nb\nc")), .inv 1 (.write (lit "x\n\ny")), .ret 0 (.nat 1),
        .ret 1 (.exc .valueError), .inv 1 (.write (lit "x\ny")), .ret 1 (.nat 1)],
      [.str (lit "aE")], lit "y", 2, [.str (lit "aE"), .str (lit "b"), .str (lit "cx")]) := rfl

/-- The calls of this run in their order. -/
example : Handed [] [(.write (lit "aE\nb\nc"), .nat 1), (.write (lit "x\n\ny"), .exc .valueError),
    (.write (lit "x\ny"), .nat 1)] [lit "aE", lit "b", lit "cx"] (lit "y") :=
  .write _ _ (lit "c") _ _ _ [lit "aE", lit "b"] _
    ((lines_iff_segFrom [] _ noBreak_nil _ _).2 rfl)
    (.raised _ _ _ _ _ _ (.write _ _ (lit "y") _ _ _ [lit "cx"] [] ((lines_iff_segFrom (lit "c") _ (by decide) _ _).2 rfl)
      (.nil _)))

/-! ## The default -/

theorem onPart_bind {σ τ L L' α β : Type} (get : τ → σ) (set : σ → τ → τ) (ren : L → L') (p : Prog σ L α)
    (g : α → Prog σ L β) :
    (p >>= g).onPart get set ren = p.onPart get set ren >>= fun a => (g a).onPart get set ren := by
  show (p.bind g).onPart get set ren = (p.onPart get set ren).bind _
  induction p with
  | ret a => rfl
  | raise e => rfl
  | act f k ih => exact congrArg (Prog.act _) (funext fun t => ih _)
  | acq l w k ih => exact congrArg (Prog.acq _ _) ih
  | rel l w k ih => exact congrArg (Prog.rel _ _) ih

theorem onPart_andRelease {σ τ L L' α : Type} (get : τ → σ) (set : σ → τ → τ) (ren : L → L') (p : Prog σ L α) (l : L)
    (w : Bool) : (p.andRelease l w).onPart get set ren = (p.onPart get set ren).andRelease (ren l) w := by
  induction p with
  | ret a => rfl
  | raise e => rfl
  | act f k ih => exact congrArg (Prog.act _) (funext fun t => ih _)
  | acq l' w' k ih => exact congrArg (Prog.acq _ _) ih
  | rel l' w' k ih => exact congrArg (Prog.rel _ _) ih

theorem onPart_outcome {σ τ L L' α : Type} (get : τ → σ) (set : σ → τ → τ) (ren : L → L') (p : Prog σ L α) :
    p.outcome.onPart get set ren = (p.onPart get set ren).outcome := by
  induction p with
  | ret a => rfl
  | raise e => rfl
  | act f k ih => exact congrArg (Prog.act _) (funext fun t => ih _)
  | acq l' w' k ih => exact congrArg (Prog.acq _ _) ih
  | rel l' w' k ih => exact congrArg (Prog.rel _ _) ih

namespace Ovr
variable {α β : Type}

theorem line_bind (p : TProg α) (g : α → TProg β) : (line (p >>= g) : OProg U β) = line p >>= fun a => line (g a) :=
  onPart_bind _ _ _ p g

theorem line_locked (p : TProg α) : (line (Thr.locked p) : OProg U α) = locked (line p) :=
  congrArg (Prog.acq () true) (onPart_andRelease _ _ _ p () true)

theorem line_outcome (p : TProg α) : (line p.outcome : OProg U (Except Exc α)) = (line p).outcome :=
  onPart_outcome _ _ _ p

theorem line_pure (a : α) : (line (pure a) : OProg U α) = pure a := rfl

theorem line_raise (e : Exc) : (line (Prog.raise e) : OProg U α) = Prog.raise e := rfl

theorem line_ite (c : Prop) [Decidable c] (p q : TProg α) :
    (line (if c then p else q) : OProg U α) = if c then line p else line q := by split <;> rfl

theorem method_default (ls : List Item) : (method Override.default ls : OProg U Unit) = line (Thr.parseLines ls) := rfl

theorem writeCore_default (d : PyStr) :
    (writeCore (method Override.default) d : OProg U Nat) = line (Thr.writeCore d) := by
  simp only [writeCore, Thr.writeCore, line_ite, line_bind, line_pure, method_default]

end Ovr

/-- **C78** With the default `parse_lines` nothing changes: every method is, step by step, the one of
`Model/Threads.lean` (C12-C14, C57). -/
theorem C78_default (c : Call) :
    (Ovr.prog (Ovr.method Override.default) c : OProg U Ret) = Ovr.line (Thr.prog (.call c)) := by
  cases c <;> first
    | rfl
    | (simp only [Ovr.prog, Thr.prog, Ovr.write, Thr.write, Ovr.newLine, Thr.newLine, Ovr.line_ite, Ovr.line_bind,
        Ovr.line_pure, Ovr.line_raise, Ovr.line_outcome, Ovr.line_locked, Ovr.writeCore_default])

/-! ## An override that uses the buffer -/

/-- Whatever happens, the program does not end, if its thread holds the lock already (`h`) or not: it takes
the lock while it holds it. -/
def Ovr.Stuck {σ α : Type} (I : σ → Prop) : Bool → Prog σ Unit α → Prop
  | _, .ret _ => False
  | _, .raise _ => False
  | h, .act f k => ∀ s, I s → I (f s) ∧ Ovr.Stuck I h (k s)
  | h, .acq _ _ k => h = true ∨ Ovr.Stuck I true k
  | _, .rel _ _ k => Ovr.Stuck I false k

namespace Ovr
variable {σ α β : Type} {I : σ → Prop}

theorem Stuck.bind {p : Prog σ Unit α} {g : α → Prog σ Unit β} {h : Bool} (hp : Stuck I h p) : Stuck I h (p >>= g) := by
  show Stuck I h (p.bind g)
  induction p generalizing h with
  | ret a => exact hp.elim
  | raise e => exact hp.elim
  | act f k ih => exact fun s hs => ⟨(hp s hs).1, ih _ (hp s hs).2⟩
  | acq l w k ih => exact hp.imp id fun x => ih x
  | rel l w k ih => exact ih hp

theorem Stuck.outcome {p : Prog σ Unit α} {h : Bool} (hp : Stuck I h p) : Stuck I h p.outcome := by
  induction p generalizing h with
  | ret a => exact hp.elim
  | raise e => exact hp.elim
  | act f k ih => exact fun s hs => ⟨(hp s hs).1, ih _ (hp s hs).2⟩
  | acq l w k ih => exact hp.imp id fun x => ih x
  | rel l w k ih => exact ih hp

theorem Stuck.andRelease {p : Prog σ Unit α} {h w : Bool} {l : Unit} (hp : Stuck I h p) : Stuck I h (p.andRelease l w) := by
  induction p generalizing h with
  | ret a => exact hp.elim
  | raise e => exact hp.elim
  | act f k ih => exact fun s hs => ⟨(hp s hs).1, ih _ (hp s hs).2⟩
  | acq l w k ih => exact hp.imp id fun x => ih x
  | rel l w k ih => exact ih hp

/-- Nobody returns from programs that get stuck. -/
theorem stuck_exec {C R : Type} {sys : Sys σ Unit Unit C R} (hre : ¬ sys.reentrant ())
    (hs : ∀ i o c, sys.ok i c → Stuck I false (sys.call i o c)) {s0 : σ} (h0 : I s0) {tr : List (Ev C R)}
    {κ : Conf σ Unit Unit C R} (hx : Exec sys (init s0 fun _ => ()) tr κ) :
    (∀ i r, Ev.ret i r ∉ tr) ∧ I κ.st ∧ (∀ i, κ.cur i = none → κ.held i () = []) ∧
      ∀ i c p, κ.cur i = some (c, p) → Stuck I (decide (κ.held i () ≠ [])) p ∧ (κ.held i ()).length ≤ 1 := by
  generalize hκ : (init s0 fun _ => () : Conf σ Unit Unit C R) = κ0 at hx
  induction hx with
  | nil => subst hκ; exact ⟨fun _ _ h => (nomatch h), h0, fun _ _ => rfl, fun _ _ _ h => (nomatch h)⟩
  | snoc κ' κ'' tr e _ h2 ih =>
    obtain ⟨a, b, b', d⟩ := ih
    have old : ∀ {i j : Nat} {y : Option (C × Prog σ Unit (R × Unit))} {c p}, upd κ'.cur i y j = some (c, p) → j ≠ i →
        Stuck I (decide (κ'.held j () ≠ [])) p ∧ (κ'.held j ()).length ≤ 1 := fun h hj =>
      d _ _ _ (by rwa [upd_other _ _ hj] at h)
    have oldN : ∀ {i j : Nat} {y : Option (C × Prog σ Unit (R × Unit))}, upd κ'.cur i y j = none → j ≠ i →
        κ'.held j () = [] := fun h hj => b' _ (by rwa [upd_other _ _ hj] at h)
    have mine : ∀ {i : Nat} {y : C × Prog σ Unit (R × Unit)} {c p}, upd κ'.cur i (some y) i = some (c, p) →
        p = y.2 := fun h => by
      rw [upd_same] at h; injection h with h; exact (congrArg Prod.snd h).symm
    cases h2 with
    | inv i c hi hok =>
      refine ⟨fun j r h => ?_, b, fun j h => ?_, fun j c' p h => ?_⟩
      · rcases List.mem_append.1 h with h | h
        · exact a _ _ h
        · cases h with | tail _ h => cases h
      · by_cases hj : j = i
        · subst hj; exact b' j hi
        · exact oldN h hj
      · by_cases hj : j = i
        · subst hj
          cases mine h
          show Stuck I (decide (κ'.held j () ≠ [])) _ ∧ (κ'.held j ()).length ≤ 1
          rw [b' j hi]
          exact ⟨hs _ _ _ hok, Nat.zero_le 1⟩
        · exact old h hj
    | act i c f k hi =>
      obtain ⟨x, y⟩ := d i c _ hi
      refine ⟨by simpa using a, (x _ b).1, fun j h => ?_, fun j c' p h => ?_⟩
      · by_cases hj : j = i
        · subst hj; simp [upd_same] at h
        · exact oldN h hj
      · by_cases hj : j = i
        · subst hj
          cases mine h
          exact ⟨(x _ b).2, y⟩
        · exact old h hj
    | acq i c l w k hi hc =>
      cases l
      obtain ⟨x, y⟩ := d i c _ hi
      have he : κ'.held i () = [] := hc.1.resolve_right hre
      rw [he] at x
      have hu : ∀ j, j ≠ i → upd κ'.held i (fun l' => if l' = () then w :: κ'.held i () else κ'.held i l') j = κ'.held j :=
        fun j hj => upd_other _ _ hj
      refine ⟨by simpa using a, b, fun j h => ?_, fun j c' p h => ?_⟩
      · by_cases hj : j = i
        · subst hj; simp [upd_same] at h
        · show upd κ'.held i _ j () = []
          rw [hu j hj]; exact oldN h hj
      · by_cases hj : j = i
        · subst hj
          cases mine h
          show Stuck I (decide (upd κ'.held j _ j () ≠ [])) _ ∧ (upd κ'.held j _ j ()).length ≤ 1
          rw [upd_same]
          simp only [if_true, he]
          exact ⟨x.resolve_left (by simp), by simp⟩
        · show Stuck I (decide (upd κ'.held i _ j () ≠ [])) _ ∧ (upd κ'.held i _ j ()).length ≤ 1
          rw [hu j hj]; exact old h hj
    | rel i c l w k hi =>
      cases l
      obtain ⟨x, y⟩ := d i c _ hi
      have hu : ∀ j, j ≠ i → upd κ'.held i (fun l' => if l' = () then (κ'.held i ()).tail else κ'.held i l') j = κ'.held j :=
        fun j hj => upd_other _ _ hj
      refine ⟨by simpa using a, b, fun j h => ?_, fun j c' p h => ?_⟩
      · by_cases hj : j = i
        · subst hj; simp [upd_same] at h
        · show upd κ'.held i _ j () = []
          rw [hu j hj]; exact oldN h hj
      · by_cases hj : j = i
        · subst hj
          cases mine h
          have ht : (κ'.held j ()).tail = [] := List.eq_nil_of_length_eq_zero (by rw [List.length_tail]; omega)
          show Stuck I (decide (upd κ'.held j _ j () ≠ [])) _ ∧ (upd κ'.held j _ j ()).length ≤ 1
          rw [upd_same]
          simp only [if_true, ht]
          exact ⟨x, by simp⟩
        · show Stuck I (decide (upd κ'.held i _ j () ≠ [])) _ ∧ (upd κ'.held i _ j ()).length ≤ 1
          rw [hu j hj]; exact old h hj
    | ret i c r o hi => exact (d i c _ hi).1.elim

/-- Taking the lock inside `parse_lines`. -/
def Takes (par : List Item → OProg U Unit) : Prop := ∀ ls, ∃ k, par ls = .acq () true k

theorem stuck_writeCore {par : List Item → OProg U Unit} (hpar : Takes par) {d : PyStr} {ls : List PyStr} {r : PyStr}
    (hd : Lines d ls r) (hl : ls ≠ []) :
    Stuck (fun b : OvBuf U => b.base.lastLine.closed = false) true (writeCore par d) := by
  have hseg := segFrom_eq_of_lines hd
  have hne : d ≠ [] := by
    rintro rfl
    exact hl (congrArg Prod.fst hseg).symm
  have hcorr := splitlines_corrected d hne
  rw [hseg] at hcorr
  have key : ∀ (g : PyStr → List Item) (k : PyStr → OProg U Nat),
      Stuck (fun b : OvBuf U => b.base.lastLine.closed = false) true
        (line (Thr.onLast StringIO.getvalue) >>= fun last => par (g last) >>= fun _ => k last) := by
    intro g k s hs
    refine ⟨Thr.open_getvalue s.base.lastLine hs, ?_⟩
    have : (LineBuf.onLast StringIO.getvalue s.base).1 = .ok s.base.lastLine.buf := by
      have hs : s.base.lastLine.closed = false := hs
      simp [LineBuf.onLast, StringIO.getvalue, StringIO.check, Py.bind_apply, hs]
    simp only [this]
    refine Stuck.bind (p := par (g s.base.lastLine.buf)) ?_
    obtain ⟨k', hk⟩ := hpar (g s.base.lastLine.buf)
    rw [hk]
    exact .inl rfl
  unfold writeCore
  generalize he : isEndLineBreak d = ending at hcorr ⊢
  dsimp only
  split
  · exact key (fun last => [.str last]) fun _ => _
  · have hlen : (if ending = true then (splitlines d).length + 1 else (splitlines d).length) = ls.length + 1 := by
      have := congrArg List.length hcorr
      rw [List.length_append] at this
      cases ending <;> simpa using this
    rw [hlen, if_pos (by have := List.length_pos_iff.2 hl; omega)]
    exact key (fun last => _) fun last => _

end Ovr

/-- **C78, violated** `parse_lines` is called while the lock of the buffer is held, and that lock cannot be
taken twice.  An override that begins with any method of the buffer that takes it (`self.closed`,
`self.readable()`, `self.read()`, `self.write(…)`, `self.flush()`, …) waits for itself: whatever it would do next,
no `write` of a text with a line break ever returns, for any number of threads. -/
theorem C78_self_violated (par : List Item → OProg U Unit) (hpar : ∀ ls, ∃ k, par ls = .acq () true k)
    (st : Deque Item) (part : PyStr) (u : U) (tr : List (Ev Call Ret)) (κ : Conf (OvBuf U) Unit Unit Call Ret)
    (hx : Exec (ovThreads par fun _ c => ∃ d ls r, c = .write d ∧ Lines d ls r ∧ ls ≠ [])
      (init (ovOpen st part u) fun _ => ()) tr κ) :
    ∀ i r, Ev.ret i r ∉ tr := by
  refine (Ovr.stuck_exec (I := fun b : OvBuf U => b.base.lastLine.closed = false) (fun h => h)
    (fun i o c hc => ?_) rfl hx).1
  obtain ⟨d, ls, r, rfl, hd, hl⟩ := hc
  refine Ovr.Stuck.bind (Ovr.Stuck.bind (Ovr.Stuck.outcome ?_))
  refine .inr fun s hs => ⟨hs, ?_⟩
  have hs : s.base.lastLine.closed = false := hs
  simp only [Py.gets_apply, hs]
  exact .inr (Ovr.Stuck.andRelease (Ovr.stuck_writeCore hpar hd hl))

/-- `parse_lines` that stores the lines unless `self.closed`. -/
def askClosed : List Item → OProg Unit Unit := fun ls => do
  let c ← Ovr.line Thr.closed
  if c then return () else Ovr.method Override.default ls

/-- The write has taken the lock and waits for it. -/
example : ((moves (ovThreads askClosed fun _ _ => True) 1
      ([.start 0 (.write (lit "a\n"))] ++ List.replicate 5 (.go 0))
      (init (ovOpen { maxlen := 9 } [] ()) fun _ => ())).map
        fun z => (z.2.held 0 (), match z.2.cur 0 with | some (_, .acq _ _ _) => true | _ => false)) =
    some ([true], true) := rfl

example : ∀ ls, ∃ k, askClosed ls = .acq () true k := fun _ => ⟨_, rfl⟩

end SyncStream
