import Verif.Lemmas.ProcSections
import Verif.Props.ProcShared
/-!
# What the moments of the calls on a mirror send and keep
-/

namespace SyncStream
open Spec LineBuf Conc

namespace PFlow

/-- Moments that take nothing away. -/
def SecOk : MSec → Prop
  | .clear => False
  | .shut => False
  | .read (some _) => False
  | _ => True

/-- The answers an open mirror gives. -/
def AnsOk : MSec × MRet → Prop
  | (.isClosed, a) => a = .bool false
  | (.stopped, a) => ∃ b, a = .bool b
  | (.due, a) => a = .unit ∨ ∃ b, a = .bool b
  | (.rest _, a) => (∃ n, a = .nat n) ∨ ∃ e, a = .exc e
  | (.put _, a) => a = .unit ∨ ∃ e, a = .exc e
  | _ => True

/-- What a moment adds to the buffer. -/
def piece (ag : Bool) : MSec × MRet → List PyStr
  | (.rest d, a) => if ag && a.failed then [] else [d]
  | _ => []

/-- What a moment puts into the queue directly. -/
def putOf : MSec × MRet → List QMsg
  | (.put m, .unit) => [m]
  | _ => []

/-- The moment leaves the buffer empty. -/
def Flushes (y : MSec × MRet) : Prop := y = (.due, .unit) ∨ ∃ n, y = (.rest (lit "\n"), .nat n)

theorem writeRest_open (m : Mirror) (p d : PyStr) (n : Net) :
    writeRest d (m.withBuf p, n) =
      if m.aggressive then
        ((m.netPut (.str d) n).1.map fun _ => d.length, (m.withBuf p, (m.netPut (.str d) n).2))
      else if NoBreak d then (.ok d.length, (m.withBuf (p ++ d), n))
      else
        match m.netPut (.str (p ++ d)) n with
        | (.ok _, n') => (.ok d.length, (m.withBuf [], n'))
        | (.error e, n') => (.error e, (m.withBuf (p ++ d), n')) := by
  unfold writeRest
  rw [Py.bind_ok (show Py.gets (fun s : MNet => s.1.aggressive) (m.withBuf p, n) =
    (.ok m.aggressive, (m.withBuf p, n)) from rfl)]
  by_cases ha : m.aggressive = true
  · simp only [ha, if_true]
    cases hp : (m.netPut (.str d) n).1 with
    | ok u =>
      rw [Py.bind_ok (show Mirror.sendData d (m.withBuf p, n) = (.ok (),
        (m.withBuf p, (m.netPut (.str d) n).2)) by rw [Mirror.sendData_open, hp])]
      simp [Except.map]
    | error e =>
      rw [Py.bind_error (show Mirror.sendData d (m.withBuf p, n) = (.error e,
        (m.withBuf p, (m.netPut (.str d) n).2)) by rw [Mirror.sendData_open, hp])]
      simp [Except.map]
  simp only [ha, Bool.false_eq_true, if_false]
  have ht := triggers_iff d
  by_cases hb : NoBreak d
  · have : ¬ ((splitlines d).length > 1 ∨ ((splitlines d).length = 1 ∧
        (splitlines d).head? = some []) ∨ isEndLineBreak d = true) := by
      rw [ht]; exact fun h => h hb
    simp only [this, if_false, hb, if_true]
    by_cases hd : d = []
    · subst hd; simp [splitlines_eq]
    · simp only [splitlines_noBreak hb hd, if_true]
      exact Mirror.onBuf_write m p d n
  · have := ht.2 hb
    simp only [this, if_true, hb, if_false]
    rw [Py.bind_ok (Mirror.onBuf_write m p d n), Py.bind_ok (Mirror.onBuf_getvalue m _ n)]
    cases hp : m.netPut (.str (p ++ d)) n with
    | mk r n' =>
      cases r with
      | ok u =>
        rw [Py.bind_ok (show Mirror.sendData (p ++ d) (m.withBuf (p ++ d), n) = (.ok (), (m.withBuf (p ++ d), n')) by
          rw [Mirror.sendData_open, hp])]
        rfl
      | error e =>
        rw [Py.bind_error (show Mirror.sendData (p ++ d) (m.withBuf (p ++ d), n) = (.error e, (m.withBuf (p ++ d), n')) by
          rw [Mirror.sendData_open, hp])]

/-- What a moment does to an open mirror and to the queue. -/
structure Moment (m : Mirror) (t : PyStr) (n : Net) (x : MSec) (a : MRet) (t' : PyStr) (n' : Net) (ts : List PyStr) : Prop where
  exec : x.exec (m.withBuf t, n) = (a, (m.withBuf t', n'))
  aggr : m.aggressive = true → t' = []
  ans : AnsOk (x, a)
  others : ∀ j, j ≠ m.queue → n'.queues j = n.queues j
  queue : n'.queues m.queue = n.queues m.queue ++ (ts.map .str ++ putOf (x, a))
  dir : (∀ d, x ≠ .rest d) → ts = []
  text : ts.flatten ++ t' = t ++ (piece m.aggressive (x, a)).flatten
  flush : Flushes (x, a) → t' = []

theorem moment (m : Mirror) (t : PyStr) (n : Net) (ha : m.aggressive = true → t = []) (x : MSec) (hx : SecOk x) :
    ∃ a t' n' ts, Moment m t n x a t' n' ts := by
  have quiet : ∀ (x : MSec) (a : MRet), x.exec (m.withBuf t, n) = (a, (m.withBuf t, n)) → AnsOk (x, a) → putOf (x, a) = [] →
      piece m.aggressive (x, a) = [] → (Flushes (x, a) → t = []) → ∃ a t' n' ts, Moment m t n x a t' n' ts :=
    fun x a h1 h2 h3 h4 h5 => ⟨a, t, n, [], h1, ha, h2, fun _ _ => rfl, by rw [h3]; simp, fun _ => rfl, by rw [h4]; simp, h5⟩
  cases x with
  | isClosed => exact quiet _ (.bool false) rfl rfl rfl rfl (by rintro (h | ⟨n, h⟩) <;> cases h)
  | stopped => exact quiet _ _ rfl ⟨_, rfl⟩ rfl rfl (by rintro (h | ⟨n, h⟩) <;> cases h)
  | due =>
    by_cases h : t = []
    · subst h
      exact quiet _ .unit rfl (.inl rfl) rfl rfl fun _ => rfl
    · have hp : t.length > 0 := List.length_pos_iff.2 h
      refine quiet _ (.bool (stopGiven (m.withBuf t, n))) ?_ (.inr ⟨_, rfl⟩) rfl rfl (by rintro (h | ⟨n, h⟩) <;> cases h)
      have h1 : (m.withBuf t).buf.closed = false := rfl
      have h2 : (m.withBuf t).buf.pos > 0 := hp
      simp only [MSec.exec, h1, Bool.false_eq_true, if_false, if_pos h2]
  | rest d =>
    have e := writeRest_open m t d n
    have hex : MSec.exec (.rest d) (m.withBuf t, n) = (MRet.of .nat (writeRest d (m.withBuf t, n)).1, (writeRest d (m.withBuf t, n)).2) := rfl
    by_cases hag : m.aggressive = true
    · rw [if_pos hag] at e
      have hp := Net.put_spec m.queue (.str d) m.block m.timeout n
      rcases hp.2 with ⟨h1, h2⟩ | ⟨er, h1, h2⟩
      · refine ⟨.nat d.length, t, (m.netPut (.str d) n).2, [d], ?_, fun _ => ha hag, .inl ⟨_, rfl⟩, fun j hj => ?_, ?_, fun h => absurd rfl (h d), ?_, fun _ => ha hag⟩
        · rw [hex, e]
          have : (m.netPut (.str d) n).1 = .ok () := h1
          rw [this]
          rfl
        · show (Net.put m.queue (.str d) m.block m.timeout n).2.queues j = _
          rw [h2]; simp [Net.appended, hj]
        · show (Net.put m.queue (.str d) m.block m.timeout n).2.queues m.queue = _
          rw [h2]; simp [Net.appended, putOf]
        · simp [piece, MRet.failed, ha hag]
      · refine ⟨.exc er, t, (m.netPut (.str d) n).2, [], ?_, fun _ => ha hag, .inr ⟨_, rfl⟩, fun j hj => ?_, ?_, fun h => absurd rfl (h d), ?_, fun _ => ha hag⟩
        · rw [hex, e]
          have : (m.netPut (.str d) n).1 = .error er := h1
          rw [this]
          rfl
        · show (Net.put m.queue (.str d) m.block m.timeout n).2.queues j = _
          rw [h2]
        · show (Net.put m.queue (.str d) m.block m.timeout n).2.queues m.queue = _
          rw [h2]; simp [putOf]
        · simp [piece, MRet.failed, hag]
    · have hag' : m.aggressive = false := by simpa using hag
      rw [if_neg hag] at e
      by_cases hb : NoBreak d
      · rw [if_pos hb] at e
        refine ⟨.nat d.length, t ++ d, n, [], ?_, fun h => absurd h hag, .inl ⟨_, rfl⟩, fun _ _ => rfl, by simp [putOf], fun h => absurd rfl (h d), by simp [piece, hag'], ?_⟩
        · rw [hex, e]; rfl
        · rintro (h | ⟨k, h⟩)
          · cases h
          · obtain ⟨h1, _⟩ := Prod.mk.inj h
            cases h1
            exact absurd hb (by decide)
      · rw [if_neg hb] at e
        have hp := Net.put_spec m.queue (.str (t ++ d)) m.block m.timeout n
        change _ ∧ (((m.netPut _ n).1 = _ ∧ (m.netPut _ n).2.queues = _) ∨ ∃ e,
          (m.netPut _ n).1 = _ ∧ (m.netPut _ n).2.queues = _) at hp
        cases hx : m.netPut (.str (t ++ d)) n with
        | mk r n' =>
          rw [hx] at hp e
          rcases hp.2 with ⟨h1, h2⟩ | ⟨er, h1, h2⟩
          · dsimp only at h1 h2; subst h1
            refine ⟨.nat d.length, [], n', [t ++ d], ?_, fun _ => rfl, .inl ⟨_, rfl⟩, fun j hj => ?_, ?_, fun h => absurd rfl (h d), by simp [piece, hag'], fun _ => rfl⟩
            · rw [hex, e]; rfl
            · rw [h2]; simp [Net.appended, hj]
            · rw [h2]; simp [Net.appended, putOf]
          · dsimp only at h1 h2; subst h1
            refine ⟨.exc er, t ++ d, n', [], ?_, fun h => absurd h hag, .inr ⟨_, rfl⟩, fun j hj => ?_, ?_, fun h => absurd rfl (h d), by simp [piece, hag'], ?_⟩
            · rw [hex, e]; rfl
            · rw [h2]
            · rw [h2]; simp [putOf]
            · rintro (h | ⟨k, h⟩)
              · cases h
              · have := (Prod.mk.inj h).2
                cases this
  | read size =>
    cases size with
    | none =>
      refine quiet _ (.text t) ?_ trivial rfl rfl (by rintro (h | ⟨n, h⟩) <;> cases h)
      show (MRet.of .text (Mirror.onBuf StringIO.getvalue (m.withBuf t, n)).1, (Mirror.onBuf StringIO.getvalue (m.withBuf t, n)).2) = _
      rw [Mirror.onBuf_getvalue]
      rfl
    | some k => exact hx.elim
  | clear => exact hx.elim
  | flush => exact quiet _ .unit rfl trivial rfl rfl (by rintro (h | ⟨n, h⟩) <;> cases h)
  | put msg =>
    have hp := Net.put_spec m.queue msg m.block m.timeout n
    have hex : MSec.exec (.put msg) (m.withBuf t, n) = (MRet.of (fun _ => .unit) (Net.put m.queue msg m.block m.timeout n).1,
      (m.withBuf t, (Net.put m.queue msg m.block m.timeout n).2)) := rfl
    rcases hp.2 with ⟨h1, h2⟩ | ⟨er, h1, h2⟩
    · refine ⟨.unit, t, _, [], by rw [hex, h1]; rfl, ha, .inl rfl, fun j hj => ?_, ?_, fun _ => rfl, by simp [piece],
        by rintro (h | ⟨n, h⟩) <;> cases h⟩
      · rw [h2]; simp [Net.appended, hj]
      · rw [h2]; simp [Net.appended, putOf]
    · refine ⟨.exc er, t, _, [], by rw [hex, h1]; rfl, ha, .inr ⟨_, rfl⟩, fun j hj => ?_, ?_, fun _ => rfl, by simp [piece],
        by rintro (h | ⟨n, h⟩) <;> cases h⟩
      · rw [h2]
      · rw [h2]; simp [putOf]
  | shut => exact hx.elim

/-! ## All moments -/

/-- What a moment adds to the buffer of the mirror. -/
def ppiece (ag : Bool) : PSec × PRet → List PyStr
  | (.mirror x, .mirror a) => piece ag (x, a)
  | _ => []

/-- What a moment puts into the queue directly. -/
def pput : PSec × PRet → List QMsg
  | (.mirror x, .mirror a) => putOf (x, a)
  | (.forceStop, .main .unit) => [.stop]
  | _ => []

/-- The answers to expect. -/
def PAns : PSec × PRet → Prop
  | (.mirror x, a) => ∃ b, a = .mirror b ∧ AnsOk (x, b)
  | (.forceStop, a) => a = .main .unit ∨ ∃ e, a = .main (.exc e)
  | (_, a) => ∃ b, a = .main b

def PSecOk : PSec → Prop
  | .mirror x => SecOk x
  | _ => True

variable (proc : Nat → Nat) (ag : Nat → Bool)

/-- What the moments have added to the buffer of process `p`. -/
def piecesIn (p : Nat) (l : List (Nat × PSec × PRet)) : List PyStr :=
  l.flatMap fun y => if proc y.1 = p then ppiece (ag (proc y.1)) y.2 else []

/-- What thread `i` has added. -/
def piecesBy (i : Nat) (l : List (Nat × PSec × PRet)) : List PyStr := l.flatMap fun y => if y.1 = i then ppiece (ag (proc y.1)) y.2 else []

/-- What thread `i` has put into the queue directly. -/
def putsBy (i : Nat) (l : List (Nat × PSec × PRet)) : List QMsg := l.flatMap fun y => if y.1 = i then pput y.2 else []

/-- The mirrors are open and share the queue `q` with the main buffer. -/
structure Good (q : Nat) (s : PShared) : Prop where
  mirror : ∀ p, s.mirror p = (s.mirror p).withBuf (s.mirror p).buf.buf
  aggr : ∀ p, (s.mirror p).aggressive = ag p ∧ (ag p = true → (s.mirror p).buf.buf = [])
  queue : ∀ p, (s.mirror p).queue = q
  main : s.main.mirror.queue = q
  log : ∃ l, Ok l ∧ l.closed = false ∧ s.main.base = rep l

/-- What the moments `l` send, receive and keep. -/
structure Flow (q : Nat) (s : PShared) (l : List (Nat × PSec × PRet)) (t : PShared) (sent : List (Nat × Bool × QMsg)) (got : List QMsg) : Prop where
  good : Good ag q t
  queue : got ++ t.net.queues q = s.net.queues q ++ sent.map (·.2.2)
  log : ∀ l0, Ok l0 → l0.closed = false → s.main.base = rep l0 → t.main.base = rep (got.foldl arrive l0)
  text : ∀ p, textFrom proc p sent ++ (t.mirror p).buf.buf = (s.mirror p).buf.buf ++ (piecesIn proc ag p l).flatten
  direct : ∀ i, directBy i sent = putsBy i l
  strs : ∀ y ∈ sent, y.2.1 = false → ∃ d, y.2.2 = .str d
  ans : ∀ y ∈ l, PAns y.2

variable {proc ag}

theorem piecesIn_append (p : Nat) (l l' : List (Nat × PSec × PRet)) : piecesIn proc ag p (l ++ l') = piecesIn proc ag p l ++ piecesIn proc ag p l' :=
  List.flatMap_append

theorem piecesBy_append (p : Nat) (l l' : List (Nat × PSec × PRet)) : piecesBy proc ag p (l ++ l') = piecesBy proc ag p l ++ piecesBy proc ag p l' :=
  List.flatMap_append

theorem putsBy_append (p : Nat) (l l' : List (Nat × PSec × PRet)) : putsBy p (l ++ l') = putsBy p l ++ putsBy p l' :=
  List.flatMap_append

theorem textFrom_append (p : Nat) (a b : List (Nat × Bool × QMsg)) : textFrom proc p (a ++ b) = textFrom proc p a ++ textFrom proc p b := by
  simp [textFrom, textOf_append]

theorem directBy_append (p : Nat) (a b : List (Nat × Bool × QMsg)) : directBy p (a ++ b) = directBy p a ++ directBy p b := by
  simp [directBy]

theorem Flow.nil {q : Nat} {s : PShared} (h : Good ag q s) : Flow proc ag q s [] s [] [] :=
  ⟨h, by simp, fun _ _ _ h => h, fun p => by simp [textFrom, textOf, piecesIn], fun _ => rfl, nofun, nofun⟩

theorem Flow.append {q : Nat} {s t u : PShared} {l l' : List (Nat × PSec × PRet)} {sent sent' : List (Nat × Bool × QMsg)} {got got' : List QMsg}
    (h : Flow proc ag q s l t sent got) (h' : Flow proc ag q t l' u sent' got') : Flow proc ag q s (l ++ l') u (sent ++ sent') (got ++ got') where
  good := h'.good
  queue := by rw [List.append_assoc, h'.queue, ← List.append_assoc, h.queue]; simp
  log l0 h1 h2 h3 := by
    rw [List.foldl_append]
    exact h'.log _ (foldl_arrive_ok _ _ h1 h2) (by rw [foldl_arrive_closed]; exact h2) (h.log l0 h1 h2 h3)
  text p := by
    rw [textFrom_append, List.append_assoc, h'.text, ← List.append_assoc, h.text, piecesIn_append]
    simp
  direct i := by rw [directBy_append, h.direct, h'.direct, putsBy_append]
  strs y hy := (List.mem_append.1 hy).elim (h.strs y) (h'.strs y)
  ans y hy := (List.mem_append.1 hy).elim (h.ans y) (h'.ans y)

theorem textFrom_strs (i p : Nat) (ts : List PyStr) : textFrom proc p (ts.map fun d => (i, false, .str d)) = if proc i = p then ts.flatten else [] := by
  unfold textFrom
  by_cases h : proc i = p
  · rw [if_pos h, ← textOf_strs, List.filter_eq_self.2 (by simp [h]), List.map_map]
    rfl
  · rw [if_neg h, List.filter_eq_nil_iff.2 (by simp [h])]
    rfl

theorem textFrom_direct (i p : Nat) (ms : List QMsg) : textFrom proc p (ms.map fun m => (i, true, m)) = [] := by
  unfold textFrom
  rw [List.filter_eq_nil_iff.2 (by simp)]
  rfl

theorem directBy_strs (i j : Nat) (ts : List PyStr) : directBy j (ts.map fun d => (i, false, .str d)) = [] := by
  unfold directBy
  rw [List.filter_eq_nil_iff.2 (by simp)]
  rfl

theorem directBy_direct (i j : Nat) (ms : List QMsg) : directBy j (ms.map fun m => (i, true, m)) = if i = j then ms else [] := by
  unfold directBy
  by_cases h : i = j
  · rw [if_pos h, List.filter_eq_self.2 (by simp [h]), List.map_map]
    exact List.map_id _
  · rw [if_neg h, List.filter_eq_nil_iff.2 (by simp [h])]
    rfl

/-- A moment. -/
theorem Good.step {q : Nat} {s : PShared} (h : Good ag q s) (i : Nat) (x : PSec) (hx : PSecOk x) :
    ∃ sent got, Flow proc ag q s [(i, x, (x.exec (proc i) s).1)] (x.exec (proc i) s).2 sent got ∧
      (∀ y, Flushes y → x = .mirror y.1 → (x.exec (proc i) s).1 = .mirror y.2 → ((x.exec (proc i) s).2.mirror (proc i)).buf.buf = []) ∧
      ∀ m, x = .mirror (.put m) → (x.exec (proc i) s).1 = .mirror .unit → sent = [(i, true, m)] := by
  cases x with
  | mirror x =>
    obtain ⟨a, t', n', ts, hm⟩ := moment (s.mirror (proc i)) (s.mirror (proc i)).buf.buf s.net (by rw [(h.aggr _).1]; exact (h.aggr _).2) x hx
    have he := hm.exec
    rw [← h.mirror] at he
    have e : PSec.exec (proc i) (.mirror x) s = (.mirror a, { s with mirror := upd s.mirror (proc i) ((s.mirror (proc i)).withBuf t'), net := n' }) := by
      simp only [PSec.exec, he]
    rw [e]
    dsimp only
    have hq := hm.queue
    rw [h.queue] at hq
    refine ⟨ts.map (fun d => (i, false, .str d)) ++ (putOf (x, a)).map fun m => (i, true, m), [],
      ⟨⟨fun p => ?_, fun p => ?_, fun p => ?_, h.main, h.log⟩, ?_, fun _ _ _ h => h, fun p => ?_, fun j => ?_, ?_, ?_⟩, ?_, ?_⟩
    · by_cases hp : p = proc i
      · subst hp
        dsimp only; rw [upd_same]; rfl
      · dsimp only; rw [upd_other _ _ hp]; exact h.mirror p
    · by_cases hp : p = proc i
      · subst hp
        dsimp only; rw [upd_same]
        exact ⟨(h.aggr _).1, fun g => hm.aggr ((h.aggr _).1.trans g)⟩
      · dsimp only; rw [upd_other _ _ hp]; exact h.aggr p
    · by_cases hp : p = proc i
      · subst hp
        dsimp only; rw [upd_same]
        exact h.queue _
      · dsimp only; rw [upd_other _ _ hp]; exact h.queue p
    · show [] ++ n'.queues q = _
      rw [hq]
      simp [Function.comp_def]
    · rw [textFrom_append, textFrom_strs, textFrom_direct, List.append_nil]
      show _ ++ (upd s.mirror (proc i) _ p).buf.buf = _
      by_cases hp : proc i = p
      · subst hp
        rw [upd_same, if_pos rfl]
        have := hm.text
        rw [(h.aggr _).1] at this
        simpa [piecesIn, ppiece] using this
      · rw [upd_other _ _ (Ne.symm hp), if_neg hp]
        simp [piecesIn, hp]
    · rw [directBy_append, directBy_strs, directBy_direct]
      simp [putsBy, pput]
    · intro y hy hd
      rcases List.mem_append.1 hy with hy | hy
      · obtain ⟨d, _, rfl⟩ := List.mem_map.1 hy
        exact ⟨d, rfl⟩
      · obtain ⟨d, _, rfl⟩ := List.mem_map.1 hy
        cases hd
    · intro y hy
      cases List.mem_singleton.1 hy
      exact ⟨a, rfl, hm.ans⟩
    · intro y hf h1 h2
      cases h1
      cases h2
      show (upd s.mirror (proc i) _ (proc i)).buf.buf = _
      rw [upd_same]
      exact hm.flush hf
    · intro m h1 h2
      cases h1
      cases h2
      rw [hm.dir nofun]
      rfl
  | receive =>
    cases hqs : s.net.queues s.main.mirror.queue with
    | nil =>
      have e : PSec.exec (proc i) .receive s = (.main (.exc .blocked), s) := by
        simp only [PSec.exec, receive_empty _ _ hqs]
        rfl
      rw [e]
      exact ⟨[], [], ⟨h, by simp, fun _ _ _ h => h, fun p => by simp [textFrom, textOf, piecesIn, ppiece], fun j => by simp [directBy, putsBy, pput],
        nofun, fun y hy => by cases List.mem_singleton.1 hy; exact ⟨_, rfl⟩⟩, nofun, nofun⟩
    | cons m ms =>
      obtain ⟨l, h1, h2, h3⟩ := h.log
      have e : PSec.exec (proc i) .receive s = (.main (.bool (goes s.main.nMirrors m).1), { s with
          main := { s.main with base := rep (arrive l m), nMirrors := (goes s.main.nMirrors m).2 },
          net := ProcBuf.qset s.net s.main.mirror.queue ms }) := by
        simp only [PSec.exec, ProcBuf.receive_rep m ms l h1 h2 _ _ h3 hqs]
        rfl
      rw [e]
      refine ⟨[], [m], ⟨⟨h.mirror, h.aggr, h.queue, h.main, ⟨_, foldl_arrive_ok [m] l h1 h2, (foldl_arrive_closed [m] l).trans h2, rfl⟩⟩, ?_, ?_,
        fun p => by simp [textFrom, textOf, piecesIn, ppiece], fun j => by simp [directBy, putsBy, pput],
        nofun, fun y hy => by cases List.mem_singleton.1 hy; exact ⟨_, rfl⟩⟩, nofun, nofun⟩
      · show [m] ++ (ProcBuf.qset s.net s.main.mirror.queue ms).queues q = _
        rw [h.main] at hqs ⊢
        rw [ProcBuf.qset_queues, hqs]
        simp
      · intro l0 g1 g2 g3
        show rep (arrive l m) = rep (arrive l0 m)
        have := ProcBuf.receive_rep m ms l h1 h2 _ _ h3 hqs
        rw [ProcBuf.receive_rep m ms l0 g1 g2 _ _ g3 hqs] at this
        have := congrArg (fun z => z.2.1.base) this
        exact this.symm
  | stopAll =>
    have e : PSec.exec (proc i) .stopAll s = (.main .unit, { s with net := { s.net with closed := some true } }) := rfl
    rw [e]
    exact ⟨[], [], ⟨⟨h.mirror, h.aggr, h.queue, h.main, h.log⟩, by simp, fun _ _ _ h => h, fun p => by simp [textFrom, textOf, piecesIn, ppiece],
      fun j => by simp [directBy, putsBy, pput],
      nofun, fun y hy => by cases List.mem_singleton.1 hy; exact ⟨_, rfl⟩⟩, nofun, nofun⟩
  | forceStop =>
    have e : PSec.exec (proc i) .forceStop s = (.main (Ret.of (fun _ => .unit) (Net.put s.main.mirror.queue .stop true none s.net).1),
      { s with net := (Net.put s.main.mirror.queue .stop true none s.net).2 }) := rfl
    rw [e]
    have hp := Net.put_spec s.main.mirror.queue .stop true none s.net
    rcases hp.2 with ⟨h1, h2⟩ | ⟨er, h1, h2⟩
    · rw [h1]
      refine ⟨[(i, true, .stop)], [], ⟨⟨h.mirror, h.aggr, h.queue, h.main, h.log⟩, ?_, fun _ _ _ h => h, fun p => by simp [textFrom, textOf, piecesIn, ppiece],
        fun j => ?_, by simp, fun y hy => by cases List.mem_singleton.1 hy; exact .inl rfl⟩, nofun, nofun⟩
      · show [] ++ (Net.put s.main.mirror.queue .stop true none s.net).2.queues q = _
        rw [h2, h.main]
        simp [Net.appended]
      · by_cases hj : i = j <;> simp [directBy, putsBy, pput, Ret.of, hj]
    · rw [h1]
      refine ⟨[], [], ⟨⟨h.mirror, h.aggr, h.queue, h.main, h.log⟩, ?_, fun _ _ _ h => h, fun p => by simp [textFrom, textOf, piecesIn, ppiece],
        fun j => by simp [directBy, putsBy, pput, Ret.of], nofun, fun y hy => by cases List.mem_singleton.1 hy; exact .inr ⟨er, rfl⟩⟩, nofun, nofun⟩
      show [] ++ (Net.put s.main.mirror.queue .stop true none s.net).2.queues q = _
      rw [h2]
      simp

/-- The service as in the history. -/
def Acts (proc : Nat → Nat) (s : PShared) (i : Nat) (x : PSec) (a : PRet) (t : PShared) : Prop := x.exec (proc i) s = (a, t)

theorem Good.serves {q : Nat} {s t : PShared} {l : List (Nat × PSec × PRet)} (hs : Serves (Acts proc) s l t) (h : Good ag q s)
    (hl : ∀ y ∈ l, PSecOk y.2.1) : ∃ sent got, Flow proc ag q s l t sent got := by
  induction hs with
  | nil => exact ⟨[], [], .nil h⟩
  | cons s t u i x a l h1 _ ih =>
    obtain ⟨sent, got, hf, _⟩ := h.step (proc := proc) i x (hl _ List.mem_cons_self)
    have h1 : x.exec (proc i) s = (a, t) := h1
    rw [h1] at hf
    obtain ⟨sent', got', hf'⟩ := ih hf.good fun y hy => hl y (List.mem_cons_of_mem _ hy)
    exact ⟨_, _, hf.append hf'⟩

/-- The pieces of the threads of a process, interleaved. -/
theorem merge_pieces {N : Nat} (p : Nat) (l : List (Nat × PSec × PRet)) (hl : ∀ y ∈ l, y.1 < N) :
    Merge (writtenIn proc p N fun i => piecesBy proc ag i l) (piecesIn proc ag p l) := by
  induction l using List.reverseRecOn with
  | nil =>
    refine .done _ fun x hx => ?_
    obtain ⟨i, _, rfl⟩ := List.mem_map.1 hx
    exact ite_self _
  | append_singleton l y ih =>
    have ih := ih fun z hz => hl z (List.mem_append_left _ hz)
    have e : (fun i => piecesBy proc ag i (l ++ [y])) = upd (fun i => piecesBy proc ag i l) y.1 (piecesBy proc ag y.1 l ++ ppiece (ag (proc y.1)) y.2) := by
      funext i
      rw [piecesBy_append]
      by_cases hi : y.1 = i
      · subst hi
        rw [upd_same]
        simp [piecesBy]
      · rw [upd_other _ _ (Ne.symm hi)]
        simp [piecesBy, hi]
    rw [e, piecesIn_append]
    by_cases hp : proc y.1 = p
    · subst hp
      rw [writtenIn_upd rfl]
      have := merge_append ih y.1 _ (ppiece (ag (proc y.1)) y.2) (writtenIn_get (hl y (by simp)) rfl)
      simpa [piecesIn] using this
    · rw [writtenIn_other hp]
      simpa [piecesIn, hp] using ih

/-! ## The calls -/

/-- The result, if the call is over. -/
def result : Ask MSec MRet MRet → Option MRet
  | .done r => some r
  | .ask _ _ => none

/-- Whatever is answered, the moments so far and the result, if the call is over, are as `Q` says. -/
def Out (c : Ask MSec MRet MRet) (Q : List (MSec × MRet) → Option MRet → Prop) : Prop :=
  ∀ l c', Asks c l c' → (∀ y ∈ l, AnsOk y) → Q l (result c')

theorem Out.done {Q : List (MSec × MRet) → Option MRet → Prop} {r : MRet} (h : Q [] (some r)) : Out (.done r) Q := by
  intro l c' hl _
  cases hl
  exact h

theorem Out.andThen {Q : List (MSec × MRet) → Option MRet → Prop} {x : MSec} {K : MRet → Ask MSec MRet MRet} (h0 : Q [] none)
    (he : ∀ e, AnsOk (x, .exc e) → Q [(x, .exc e)] (some (.exc e)))
    (hk : ∀ a, AnsOk (x, a) → (∀ e, a ≠ .exc e) → Out (K a) fun l r => Q ((x, a) :: l) r) : Out (MSec.andThen x K) Q := by
  intro l c' hl ha
  cases hl with
  | nil => exact h0
  | cons _ a _ l _ hl =>
    have h1 := ha _ List.mem_cons_self
    have h2 : ∀ y ∈ l, AnsOk y := fun y hy => ha y (List.mem_cons_of_mem _ hy)
    cases a with
    | exc e =>
      cases hl
      exact he e h1
    | _ => exact hk _ h1 nofun l c' hl h2

theorem Out.isClosed {Q : List (MSec × MRet) → Option MRet → Prop} {K : MRet → Ask MSec MRet MRet} (h0 : Q [] none)
    (hk : Out (K (.bool false)) fun l r => Q ((.isClosed, .bool false) :: l) r) : Out (MSec.andThen .isClosed K) Q :=
  .andThen h0 (fun _ h => nomatch h) fun a h _ => by cases (show a = _ from h); exact hk

theorem Out.put {Q : List (MSec × MRet) → Option MRet → Prop} {m : QMsg} {K : MRet → Ask MSec MRet MRet} (h0 : Q [] none)
    (he : ∀ e, Q [(.put m, .exc e)] (some (.exc e)))
    (hk : Out (K .unit) fun l r => Q ((.put m, .unit) :: l) r) : Out (MSec.andThen (.put m) K) Q :=
  .andThen h0 (fun e _ => he e) fun a h hn => by
    rcases (show a = .unit ∨ _ from h) with rfl | ⟨e, rfl⟩
    · exact hk
    · exact absurd rfl (hn e)

theorem Out.rest {Q : List (MSec × MRet) → Option MRet → Prop} {d : PyStr} {K : MRet → Ask MSec MRet MRet} (h0 : Q [] none)
    (he : ∀ e, Q [(.rest d, .exc e)] (some (.exc e)))
    (hk : ∀ n, Out (K (.nat n)) fun l r => Q ((.rest d, .nat n) :: l) r) : Out (MSec.andThen (.rest d) K) Q :=
  .andThen h0 (fun e _ => he e) fun a h hn => by
    rcases (show (∃ n, a = .nat n) ∨ _ from h) with ⟨n, rfl⟩ | ⟨e, rfl⟩
    · exact hk n
    · exact absurd rfl (hn e)

theorem Out.write {Q : List (MSec × MRet) → Option MRet → Prop} {d : PyStr} {K : MRet → Ask MSec MRet MRet} (h0 : Q [] none)
    (h1 : Q [(.stopped, .bool true)] (some (.exc .stopIteration))) (h2 : Q [(.stopped, .bool false)] none)
    (he : ∀ e, Q [(.stopped, .bool false), (.rest d, .exc e)] (some (.exc e)))
    (hk : ∀ n, Out (K (.nat n)) fun l r => Q ((.stopped, .bool false) :: (.rest d, .nat n) :: l) r) : Out (MSec.write d K) Q :=
  .andThen h0 (fun _ h => by obtain ⟨b, h⟩ := h; cases h) fun a h _ => by
    obtain ⟨b, rfl⟩ := h
    cases b with
    | true => exact .done h1
    | false => exact .rest h2 he hk

theorem Out.newLine {Q : List (MSec × MRet) → Option MRet → Prop} {k : Ask MSec MRet MRet} (h0 : Q [] none)
    (h1 : Q [(.due, .bool true)] (some (.exc .stopIteration))) (h2 : Q [(.due, .bool false)] none)
    (he : ∀ e, Q [(.due, .bool false), (.rest (lit "\n"), .exc e)] (some (.exc e)))
    (hk : Out k fun l r => Q ((.due, .unit) :: l) r)
    (hk' : ∀ n, Out k fun l r => Q ((.due, .bool false) :: (.rest (lit "\n"), .nat n) :: l) r) : Out (MSec.newLine k) Q :=
  .andThen h0 (fun _ h => by rcases h with h | ⟨b, h⟩ <;> cases h) fun a h _ => by
    rcases h with rfl | ⟨b, rfl⟩
    · exact hk
    · cases b with
      | true => exact .done h1
      | false => exact .rest h2 he hk'

/-- What a call contributes. -/
def Tells (ag : Bool) (c : MCall) (l : List (MSec × MRet)) (r : Option MRet) : Prop :=
  ∃ r', (∀ x, r = some x → r' = x) ∧ AddsText (.mirror c) (.mirror r') (l.flatMap (piece ag)) ∧ PutsMsg (.mirror c) (.mirror r') (l.flatMap putOf)

theorem Tells.mk (ag : Bool) (c : MCall) (l : List (MSec × MRet)) (r : Option MRet) (r' : MRet) (h : ∀ x, r = some x → r' = x)
    (h1 : AddsText (.mirror c) (.mirror r') (l.flatMap (piece ag))) (h2 : PutsMsg (.mirror c) (.mirror r') (l.flatMap putOf)) : Tells ag c l r :=
  ⟨r', h, h1, h2⟩

theorem tells_some {ag : Bool} {c : MCall} {l : List (MSec × MRet)} {r : MRet} (h1 : AddsText (.mirror c) (.mirror r) (l.flatMap (piece ag)))
    (h2 : PutsMsg (.mirror c) (.mirror r) (l.flatMap putOf)) : Tells ag c l (some r) := ⟨r, by rintro x ⟨⟩; rfl, h1, h2⟩

theorem tells_none {ag : Bool} {c : MCall} {l : List (MSec × MRet)} (r : MRet) (h1 : AddsText (.mirror c) (.mirror r) (l.flatMap (piece ag)))
    (h2 : PutsMsg (.mirror c) (.mirror r) (l.flatMap putOf)) : Tells ag c l none := ⟨r, nofun, h1, h2⟩

theorem end_tells (ag : Bool) (c : MCall) (m : QMsg) (hA : ∀ r l, AddsText (.mirror c) r l ↔ (l = [] ∨ l = [lit "\n"])) (hm : messageOf (.mirror c) = some m) :
    Out (MSec.sendEnd m (.done .unit)) (Tells ag c) := by
  have none' : ∀ l : List (MSec × MRet), (l.flatMap (piece ag) = [] ∨ l.flatMap (piece ag) = [lit "\n"]) → l.flatMap putOf = [] → Tells ag c l none :=
    fun l h1 h2 => tells_none (.exc .blocked) ((hA _ _).2 h1) (by rw [h2]; rfl)
  have some' : ∀ (l : List (MSec × MRet)) e, (l.flatMap (piece ag) = [] ∨ l.flatMap (piece ag) = [lit "\n"]) → l.flatMap putOf = [] →
      Tells ag c l (some (.exc e)) :=
    fun l e h1 h2 => tells_some ((hA _ _).2 h1) (by rw [h2]; rfl)
  have last : ∀ l : List (MSec × MRet), (l.flatMap (piece ag) = [] ∨ l.flatMap (piece ag) = [lit "\n"]) → l.flatMap putOf = [m] →
      Tells ag c l (some .unit) :=
    fun l h1 h2 => tells_some ((hA _ _).2 h1) (by rw [h2]; unfold PutsMsg; rw [hm]; rfl)
  refine .isClosed (none' _ (.inl rfl) rfl) (.newLine (none' _ (.inl rfl) rfl) (some' _ _ (.inl rfl) rfl) (none' _ (.inl rfl) rfl) (fun e => ?_) ?_ fun n => ?_)
  · refine some' _ _ ?_ rfl
    cases ag
    · exact .inr rfl
    · exact .inl rfl
  · refine .put (none' _ (.inl rfl) rfl) (fun e => some' _ _ (.inl rfl) rfl) (.done (last _ (.inl rfl) rfl))
  · have hp : piece ag (.rest (lit "\n"), .nat n) = [lit "\n"] := by cases ag <;> rfl
    have e : ∀ l, List.flatMap (piece ag) ((.isClosed, .bool false) :: (.due, .bool false) :: (.rest (lit "\n"), .nat n) :: l) =
        lit "\n" :: l.flatMap (piece ag) := by
      intro l
      simp only [List.flatMap_cons, hp]
      rfl
    refine .put (none' _ (.inr (e _)) rfl) (fun er => some' _ _ (.inr (e _)) rfl) (.done (last _ (.inr (e _)) rfl))

theorem adds_nil (c : MCall) (e : Exc) : AddsText (.mirror c) (.mirror (.exc e)) [] := by
  cases c <;> first | exact .inl rfl | rfl

theorem tells_begun {ag : Bool} {c : MCall} {l : List (MSec × MRet)} (h1 : l.flatMap (piece ag) = []) (h2 : l.flatMap putOf = []) : Tells ag c l none :=
  tells_none (.exc .blocked) (by rw [h1]; exact adds_nil _ _) (by rw [h2]; rfl)

theorem tells_failed {ag : Bool} {c : MCall} {l : List (MSec × MRet)} (e : Exc) (h1 : l.flatMap (piece ag) = []) (h2 : l.flatMap putOf = []) :
    Tells ag c l (some (.exc e)) :=
  tells_some (by rw [h1]; exact adds_nil _ _) (by rw [h2]; rfl)

theorem call_tells (ag : Bool) (c : MCall) (hc : TakesNothing (.mirror c)) : Out (momentsOf c) (Tells ag c) := by
  cases c with
  | write d =>
    refine .isClosed (tells_begun rfl rfl) (.write (tells_begun rfl rfl) (tells_failed _ rfl rfl) (tells_begun rfl rfl) (fun e => ?_) fun n => .done ?_)
    · refine tells_some ?_ rfl
      cases ag
      · exact .inr rfl
      · exact .inl rfl
    · refine tells_some ?_ rfl
      cases ag <;> rfl
  | newLine =>
    refine .newLine (tells_begun rfl rfl) (tells_failed _ rfl rfl) (tells_begun rfl rfl) (fun e => ?_) (.done (tells_some (.inl rfl) rfl)) fun n => .done ?_
    · refine tells_some ?_ rfl
      cases ag
      · exact .inr rfl
      · exact .inl rfl
    · refine tells_some (.inr ?_) rfl
      cases ag <;> rfl
  | read size =>
    refine .isClosed (tells_begun rfl rfl) (.andThen (tells_begun rfl rfl) (fun e _ => tells_failed e rfl rfl) fun a _ _ => .done (tells_some rfl ?_))
    cases a <;> rfl
  | clear => exact hc.elim
  | flush =>
    refine .andThen (tells_begun rfl rfl) (fun e _ => tells_failed e rfl rfl) fun a _ _ => .done (tells_some rfl ?_)
    cases a <;> rfl
  | sendData d =>
    exact .isClosed (tells_begun rfl rfl) (.put (tells_begun rfl rfl) (fun e => tells_failed e rfl rfl) (.done (tells_some rfl rfl)))
  | sendEof => exact end_tells ag _ _ (fun _ _ => Iff.rfl) rfl
  | sendError e => exact end_tells ag _ _ (fun _ _ => Iff.rfl) rfl
  | sendWarning e => exact end_tells ag _ _ (fun _ _ => Iff.rfl) rfl
  | close e => exact hc.elim
  | closed => exact .isClosed (tells_begun rfl rfl) (.done (tells_some rfl rfl))
  | readable => exact .isClosed (tells_begun rfl rfl) (.done (tells_some rfl rfl))
  | writable => exact .isClosed (tells_begun rfl rfl) (.done (tells_some rfl rfl))
  | setTimeout t => exact hc.elim
  | setAggressive b => exact hc.elim

/-- An announcement that succeeds: at some moment the buffer is empty, and later the message is put into the queue. -/
def Ordered (m : QMsg) (l : List (MSec × MRet)) (r : Option MRet) : Prop :=
  ∀ x, r = some x → x.failed = false → ∃ l1 y l2 l3, l = l1 ++ y :: (l2 ++ (.put m, .unit) :: l3) ∧ Flushes y

theorem end_ordered (m : QMsg) : Out (MSec.sendEnd m (.done .unit)) (Ordered m) := by
  have bad : ∀ (l : List (MSec × MRet)) (e : Exc), Ordered m l (some (.exc e)) := fun l e x h1 h2 => by cases h1; cases h2
  have none' : ∀ l : List (MSec × MRet), Ordered m l none := fun l => nofun
  refine .isClosed (none' _) (.newLine (none' _) (bad _ _) (none' _) (fun e => bad _ e) ?_ fun n => ?_)
  · exact .put (none' _) (fun e => bad _ e) (.done fun _ _ _ => ⟨[_], _, [], [], rfl, .inl rfl⟩)
  · exact .put (none' _) (fun e => bad _ e) (.done fun _ _ _ => ⟨[_, _], _, [], [], rfl, .inr ⟨n, rfl⟩⟩)

theorem call_ordered (c : MCall) (hc : Announces (.mirror c)) (m : QMsg) (hm : messageOf (.mirror c) = some m) : Out (momentsOf c) (Ordered m) := by
  cases c with
  | sendEof => cases hm; exact end_ordered _
  | sendError e => cases hm; exact end_ordered _
  | sendWarning e => cases hm; exact end_ordered _
  | _ => exact hc.elim

/-- The moments of a call on a mirror, among those of all. -/
theorem inProc_asks {q : Ask MSec MRet MRet} {l : List (PSec × PRet)} {q' : Ask PSec PRet (PRet × Unit)} (h : Asks (inProc q) l q')
    (ha : ∀ y ∈ l, PAns y) : ∃ lm qm, l = lm.map (fun y => (.mirror y.1, .mirror y.2)) ∧ q' = inProc qm ∧ Asks q lm qm ∧ ∀ y ∈ lm, AnsOk y := by
  induction q generalizing l with
  | done r =>
    cases h
    exact ⟨[], _, rfl, rfl, .nil _, nofun⟩
  | ask x k ih =>
    rw [inProc] at h
    cases h with
    | nil => exact ⟨[], .ask x k, rfl, by rw [inProc], .nil _, nofun⟩
    | cons _ a _ l _ h =>
      obtain ⟨b, rfl, hb⟩ := ha _ List.mem_cons_self
      obtain ⟨lm, qm, rfl, rfl, h1, h2⟩ := ih b h fun y hy => ha y (List.mem_cons_of_mem _ hy)
      refine ⟨(x, b) :: lm, qm, rfl, rfl, .cons _ _ _ _ _ h1, fun y hy => ?_⟩
      rcases List.mem_cons.1 hy with rfl | hy
      · exact hb
      · exact h2 y hy

theorem pieces_lift (ag : Bool) (lm : List (MSec × MRet)) :
    (lm.map (fun y => ((.mirror y.1, .mirror y.2) : PSec × PRet))).flatMap (ppiece ag) = lm.flatMap (piece ag) := by
  rw [List.flatMap_map]; rfl

theorem puts_lift (lm : List (MSec × MRet)) :
    (lm.map (fun y => ((.mirror y.1, .mirror y.2) : PSec × PRet))).flatMap pput = lm.flatMap putOf := by
  rw [List.flatMap_map]; rfl

/-- What a call contributes, to the text and to the queue. -/
theorem pcall_tells (ag : Bool) {c : PCall} (hc : TakesNothing c) {l : List (PSec × PRet)} {q : Ask PSec PRet (PRet × Unit)}
    (h : Asks (pmoments c) l q) (ha : ∀ y ∈ l, PAns y) :
    ∃ r', (∀ r, q = .done (r, ()) → r' = r) ∧ AddsText c r' (l.flatMap (ppiece ag)) ∧ PutsMsg c r' (l.flatMap pput) := by
  have one : ∀ x : PSec, (∀ a, ppiece ag (x, a) = []) → (∀ a, PAns (x, a) → PutsMsg c a (pput (x, a))) → (∀ a, AddsText c a []) →
      Asks (.ask x fun r => .done (r, ())) l q →
      ∃ r', (∀ r, q = .done (r, ()) → r' = r) ∧ AddsText c r' (l.flatMap (ppiece ag)) ∧ PutsMsg c r' (l.flatMap pput) := by
    intro x h1 h2 h3 h
    cases h with
    | nil => exact ⟨.main (.exc .blocked), nofun, h3 _, rfl⟩
    | cons _ a _ l _ h =>
      cases h
      refine ⟨a, by rintro r ⟨⟩; rfl, ?_, ?_⟩
      · simp only [List.flatMap_cons, List.flatMap_nil, h1, List.append_nil]; exact h3 a
      · simp only [List.flatMap_cons, List.flatMap_nil, List.append_nil]; exact h2 a (ha _ (by simp))
  cases c with
  | mirror c =>
    obtain ⟨lm, qm, rfl, rfl, h1, h2⟩ := inProc_asks h ha
    obtain ⟨r', h3, h4, h5⟩ := call_tells ag c hc lm qm h1 h2
    refine ⟨.mirror r', fun r hr => ?_, ?_, ?_⟩
    · cases qm with
      | done r1 => cases hr; rw [h3 r1 rfl]
      | ask x k => rw [inProc] at hr; cases hr
    · rw [pieces_lift]; exact h4
    · rw [puts_lift]; exact h5
  | receive => exact one _ (fun a => rfl) (fun a h => by obtain ⟨b, rfl⟩ := h; cases b <;> rfl) (fun a => rfl) h
  | stopAll => exact one _ (fun a => rfl) (fun a h => by obtain ⟨b, rfl⟩ := h; cases b <;> rfl) (fun a => rfl) h
  | forceStop => exact one _ (fun a => rfl) (fun a h => by rcases h with rfl | ⟨e, rfl⟩ <;> rfl) (fun a => rfl) h
  | _ => exact hc.elim

/-- The moments of the calls that take nothing away. -/
theorem within_ok {c : PCall} (hc : TakesNothing c) : (pmoments c).Within PSecOk := by
  have lift : ∀ q : Ask MSec MRet MRet, q.Within SecOk → (inProc q).Within PSecOk := by
    intro q
    induction q with
    | done r => exact fun _ => trivial
    | ask x k ih =>
      intro h
      rw [inProc]
      refine ⟨h.1, fun r => ?_⟩
      cases r with
      | mirror r => exact ih r (h.2 r)
      | main r => trivial
  have andThen : ∀ (x : MSec) (K : MRet → Ask MSec MRet MRet), SecOk x → (∀ a, (K a).Within SecOk) → (MSec.andThen x K).Within SecOk := by
    intro x K h1 h2
    refine ⟨h1, fun r => ?_⟩
    cases r <;> first | trivial | exact h2 _
  have newLine : ∀ k : Ask MSec MRet MRet, k.Within SecOk → (MSec.newLine k).Within SecOk := by
    intro k hk
    refine andThen _ _ trivial fun a => ?_
    split
    · trivial
    · exact andThen _ _ trivial fun _ => hk
    · exact hk
  have sendEnd : ∀ m, (MSec.sendEnd m (.done .unit)).Within SecOk := by
    intro m
    refine andThen _ _ trivial fun a => ?_
    split
    · trivial
    · exact newLine _ (andThen _ _ trivial fun _ => trivial)
  cases c with
  | mirror c =>
    refine lift _ ?_
    cases c with
    | write d =>
      refine andThen _ _ trivial fun a => ?_
      split
      · trivial
      · refine andThen _ _ trivial fun a => ?_
        split
        · trivial
        · exact andThen _ _ trivial fun _ => trivial
    | newLine => exact newLine _ trivial
    | read size =>
      refine andThen _ _ trivial fun a => ?_
      split
      · trivial
      · cases size with
        | none => exact andThen _ _ trivial fun _ => trivial
        | some n => exact hc.elim
    | clear => exact hc.elim
    | flush => exact andThen _ _ trivial fun _ => trivial
    | sendData d =>
      refine andThen _ _ trivial fun a => ?_
      split
      · trivial
      · exact andThen _ _ trivial fun _ => trivial
    | sendEof => exact sendEnd _
    | sendError e => exact sendEnd _
    | sendWarning e => exact sendEnd _
    | close e => exact hc.elim
    | closed => exact andThen _ _ trivial fun _ => trivial
    | readable => exact andThen _ _ trivial fun a => by split <;> trivial
    | writable => exact andThen _ _ trivial fun a => by split <;> trivial
    | setTimeout t => exact hc.elim
    | setAggressive b => exact hc.elim
  | receive => exact ⟨trivial, fun _ => trivial⟩
  | stopAll => exact ⟨trivial, fun _ => trivial⟩
  | forceStop => exact ⟨trivial, fun _ => trivial⟩
  | _ => trivial

/-! ## Histories -/

section
variable {C' R' C R O : Type}

theorem asks_prefix {α : Type} {q q' : Ask C R α} {l l' : List (C × R)} (h : Asks q (l ++ l') q') : ∃ q1, Asks q l q1 := by
  induction l generalizing q with
  | nil => exact ⟨_, .nil _⟩
  | cons x l ih =>
    cases h with
    | cons c r k _ _ h =>
      obtain ⟨q1, h1⟩ := ih h
      exact ⟨q1, .cons _ _ _ _ _ h1⟩

theorem run_prefix {cl : O → C' → Ask C R (R' × O)} {i : Nat} {o o' : O} {h h1 h2 : List (HEvent C' R' C R)} {rest : Option (C' × Ask C R (R' × O))}
    (hr : ClientRun cl i o h o' rest) (e : h = h1 ++ h2) : ∃ o1 rest1, ClientRun cl i o h1 o1 rest1 := by
  induction hr generalizing h1 with
  | nil o =>
    obtain ⟨rfl, rfl⟩ := List.append_eq_nil_iff.1 e.symm
    exact ⟨_, _, .nil o⟩
  | call o oa o' c l r h rest g1 g2 ih =>
    cases h1 with
    | nil => exact ⟨_, _, .nil o⟩
    | cons x h1 =>
      rw [List.cons_append] at e
      obtain ⟨rfl, e'⟩ := List.cons.inj e
      rcases List.append_eq_append_iff.1 e'.symm with ⟨a, ha, hb⟩ | ⟨a, ha, hb⟩
      · obtain ⟨l1, l2, rfl, e1, rfl⟩ := List.map_eq_append_iff.1 ha
        obtain ⟨q1, hq⟩ := asks_prefix g1
        exact ⟨_, _, by rw [← e1]; exact .within _ _ _ _ hq⟩
      · cases a with
        | nil =>
          rw [List.append_nil] at ha
          subst ha
          exact ⟨_, _, .within _ _ _ _ g1⟩
        | cons y a =>
          obtain ⟨rfl, e2⟩ := List.cons.inj hb
          obtain ⟨o1, rest1, h3⟩ := ih e2
          refine ⟨o1, rest1, ?_⟩
          rw [ha]
          exact .call _ _ _ _ _ _ _ _ g1 h3
  | within o c l q g1 =>
    cases h1 with
    | nil => exact ⟨_, _, .nil o⟩
    | cons x h1 =>
      rw [List.cons_append] at e
      obtain ⟨rfl, e'⟩ := List.cons.inj e
      obtain ⟨l1, l2, rfl, e1, rfl⟩ := List.map_eq_append_iff.1 e'
      obtain ⟨q1, hq⟩ := asks_prefix g1
      exact ⟨_, _, by rw [← e1]; exact .within _ _ _ _ hq⟩

theorem seen_own (i : Nat) (h : List (HEvent C' R' C R)) : seen (own i h) = eventsBy i (seen h) := by
  induction h with
  | nil => rfl
  | cons x h ih =>
    have e : own i (x :: h) = own i [x] ++ own i h := own_append i [x] h
    rw [e, seen_append, ih]
    cases x with
    | op j q a => by_cases hj : j = i <;> simp [own, HEvent.who, hj, seen]
    | inv j c => by_cases hj : j = i <;> simp [own, HEvent.who, hj, seen, eventsBy]
    | ret j c => by_cases hj : j = i <;> simp [own, HEvent.who, hj, seen, eventsBy]

theorem opsOf_own (i : Nat) (h : List (HEvent C' R' C R)) : opsOf (own i h) = (opsOf h).filter (·.1 = i) := by
  induction h with
  | nil => rfl
  | cons x h ih =>
    have e : own i (x :: h) = own i [x] ++ own i h := own_append i [x] h
    rw [e, opsOf_append, ih]
    cases x with
    | op j q a => by_cases hj : j = i <;> simp [own, HEvent.who, hj, opsOf]
    | inv j c => by_cases hj : j = i <;> simp [own, HEvent.who, hj, opsOf]
    | ret j c => by_cases hj : j = i <;> simp [own, HEvent.who, hj, opsOf]

theorem opsOf_asOps (i : Nat) (l : List (C × R)) : opsOf (asOps i l : List (HEvent C' R' C R)) = l.map fun y => (i, y.1, y.2) := by
  induction l with
  | nil => rfl
  | cons x l ih => exact congrArg ((i, x.1, x.2) :: ·) ih

theorem seen_asOps (i : Nat) (l : List (C × R)) : seen (asOps i l : List (HEvent C' R' C R)) = [] := by
  induction l with
  | nil => rfl
  | cons x l ih => exact ih

end

/-- What the calls of a thread contribute. -/
theorem contrib {i : Nat} {h : List (HEvent PCall PRet PSec PRet)} {o o' : Unit} {rest : Option (PCall × Ask PSec PRet (PRet × Unit))}
    (hr : ClientRun (fun _ c => pmoments c) i o h o' rest) (hc : ∀ c, HEvent.inv i c ∈ h → TakesNothing c) (ha : ∀ y ∈ opsOf h, PAns y.2) (ag : Bool) :
    Contrib AddsText i (seen h) ((opsOf h).flatMap fun y => ppiece ag y.2) ∧ Contrib PutsMsg i (seen h) ((opsOf h).flatMap fun y => pput y.2) := by
  induction hr with
  | nil => exact ⟨.nil, .nil⟩
  | call o o1 o' c l r h rest h1 h2 ih =>
    have e : opsOf (.inv i c :: (asOps i l ++ .ret i r :: h)) = (l.map fun y => (i, y.1, y.2)) ++ opsOf h := by
      show opsOf (asOps i l ++ .ret i r :: h) = _
      rw [opsOf_append, opsOf_asOps]; rfl
    have e' : seen (.inv i c :: (asOps i l ++ .ret i r :: h)) = .inv i c :: .ret i r :: seen h := by
      show _ :: seen (asOps i l ++ .ret i r :: h) = _
      rw [seen_append, seen_asOps]; rfl
    rw [e] at ha
    obtain ⟨g1, g2⟩ := ih (fun c hc' => hc c (by simp [hc'])) fun y hy => ha y (List.mem_append_right _ hy)
    obtain ⟨r', k1, k2, k3⟩ := pcall_tells ag (hc c (by simp)) h1 fun y hy => ha (i, y.1, y.2) (List.mem_append_left _ (List.mem_map.2 ⟨y, hy, rfl⟩))
    obtain rfl := k1 r rfl
    rw [e, e', List.flatMap_append, List.flatMap_append, List.flatMap_map, List.flatMap_map]
    exact ⟨.call _ _ _ _ _ k2 g1, .call _ _ _ _ _ k3 g2⟩
  | within o c l q h1 =>
    have e : opsOf (.inv i c :: asOps i l : List (HEvent PCall PRet PSec PRet)) = l.map fun y => (i, y.1, y.2) := opsOf_asOps i l
    have e' : seen (.inv i c :: asOps i l : List (HEvent PCall PRet PSec PRet)) = [.inv i c] := congrArg (_ :: ·) (seen_asOps i l)
    rw [e] at ha
    obtain ⟨r', _, k2, k3⟩ := pcall_tells ag (hc c (by simp)) h1 fun y hy => ha (i, y.1, y.2) (List.mem_map.2 ⟨y, hy, rfl⟩)
    rw [e, e', List.flatMap_map, List.flatMap_map]
    exact ⟨.within _ r' _ k2, .within _ r' _ k3⟩

theorem contrib_own {i : Nat} {h : List (HEvent PCall PRet PSec PRet)} {o o' : Unit} {rest : Option (PCall × Ask PSec PRet (PRet × Unit))}
    (hr : ClientRun (fun _ c => pmoments c) i o (own i h) o' rest) (hc : ∀ c, HEvent.inv i c ∈ h → TakesNothing c) (ha : ∀ y ∈ opsOf h, PAns y.2) :
    Contrib AddsText i (eventsBy i (seen h)) (piecesBy proc ag i (opsOf h)) ∧ Contrib PutsMsg i (eventsBy i (seen h)) (putsBy i (opsOf h)) := by
  obtain ⟨h1, h2⟩ := contrib hr (fun c hc' => hc c (List.mem_of_mem_filter hc')) (fun y hy => ha y (by
    rw [opsOf_own] at hy; exact List.mem_of_mem_filter hy)) (ag (proc i))
  rw [seen_own, opsOf_own] at h1 h2
  have e1 : ∀ l : List (Nat × PSec × PRet), ((l.filter (·.1 = i)).flatMap fun y => ppiece (ag (proc i)) y.2) = piecesBy proc ag i l := by
    intro l
    induction l with
    | nil => rfl
    | cons y l ih =>
      by_cases hy : y.1 = i
      · rw [List.filter_cons_of_pos (by simpa using hy), List.flatMap_cons, ih]
        simp [piecesBy, hy]
      · rw [List.filter_cons_of_neg (by simpa using hy), ih]
        simp [piecesBy, hy]
  have e2 : ∀ l : List (Nat × PSec × PRet), ((l.filter (·.1 = i)).flatMap fun y => pput y.2) = putsBy i l := by
    intro l
    induction l with
    | nil => rfl
    | cons y l ih =>
      by_cases hy : y.1 = i
      · rw [List.filter_cons_of_pos (by simpa using hy), List.flatMap_cons, ih]
        simp [putsBy, hy]
      · rw [List.filter_cons_of_neg (by simpa using hy), ih]
        simp [putsBy, hy]
  rw [e1] at h1
  rw [e2] at h2
  exact ⟨h1, h2⟩

/-! ## Announcements -/

theorem serves_split {A C R : Type} {act : A → Nat → C → R → A → Prop} {s u : A} {l l' : List (Nat × C × R)} (h : Serves act s (l ++ l') u) :
    ∃ t, Serves act s l t ∧ Serves act t l' u := by
  induction l generalizing s with
  | nil => exact ⟨s, .nil _, h⟩
  | cons x l ih =>
    cases h with
    | cons _ t _ i q a _ h1 h2 =>
      obtain ⟨t', h3, h4⟩ := ih h2
      exact ⟨t', .cons _ _ _ _ _ _ _ h1 h3, h4⟩

/-- What was written before a moment at which the buffer is empty has been sent before a message that is put into the queue later. -/
theorem announced {q : Nat} {s t : PShared} {A B D : List (Nat × PSec × PRet)} {i : Nat} {y : MSec × MRet} {m : QMsg} (hy : Flushes y)
    (hs : Serves (Acts proc) s (A ++ (i, .mirror y.1, .mirror y.2) :: (B ++ (i, .mirror (.put m), .mirror .unit) :: D)) t) (h : Good ag q s)
    (hl : ∀ z ∈ A ++ (i, .mirror y.1, .mirror y.2) :: (B ++ (i, .mirror (.put m), .mirror .unit) :: D), PSecOk z.2.1) :
    ∃ sent1 sent2 got, Flow proc ag q s (A ++ (i, .mirror y.1, .mirror y.2) :: (B ++ (i, .mirror (.put m), .mirror .unit) :: D)) t
        (sent1 ++ (i, true, m) :: sent2) got ∧
      (s.mirror (proc i)).buf.buf ++ (piecesIn proc ag (proc i) A).flatten <+: textFrom proc (proc i) sent1 := by
  obtain ⟨s1, h1, h2⟩ := serves_split hs
  obtain ⟨sA, gA, fA⟩ := h.serves h1 fun z hz => hl z (List.mem_append_left _ hz)
  cases h2 with
  | cons _ s2 _ _ _ _ _ h2 h3 =>
    have h2 : PSec.exec (proc i) (.mirror y.1) s1 = (.mirror y.2, s2) := h2
    obtain ⟨sy, gy, fy, ey, _⟩ := fA.good.step (proc := proc) i (.mirror y.1) (hl (i, .mirror y.1, .mirror y.2) (by simp))
    rw [h2] at fy ey
    have ey : (s2.mirror (proc i)).buf.buf = [] := ey y hy rfl rfl
    obtain ⟨s3, h4, h5⟩ := serves_split h3
    obtain ⟨sB, gB, fB⟩ := fy.good.serves h4 fun z hz => hl z (by simp [hz])
    cases h5 with
    | cons _ s4 _ _ _ _ _ h5 h6 =>
      have h5 : PSec.exec (proc i) (.mirror (.put m)) s3 = (.mirror .unit, s4) := h5
      obtain ⟨sp, gp, fp, _, ep⟩ := fB.good.step (proc := proc) i (.mirror (.put m)) trivial
      rw [h5] at fp ep
      obtain rfl := ep m rfl rfl
      obtain ⟨sD, gD, fD⟩ := fp.good.serves h6 fun z hz => hl z (by simp [hz])
      have f1 := fA.append fy
      have f2 := f1.append (fB.append (fp.append fD))
      refine ⟨sA ++ sy ++ sB, sD, _, by simpa using f2, ?_⟩
      have := f1.text (proc i)
      rw [ey, List.append_nil] at this
      rw [textFrom_append, this, piecesIn_append, List.flatten_append, ← List.append_assoc, List.append_assoc]
      exact List.prefix_append _ _

theorem filter_split {α : Type} {p : α → Bool} {l a b : List α} {x : α} (h : l.filter p = a ++ x :: b) :
    ∃ a' b', l = a' ++ x :: b' ∧ a'.filter p = a ∧ b'.filter p = b := by
  obtain ⟨a', c, rfl, h1, h2⟩ := List.filter_eq_append_iff.1 h
  obtain ⟨c1, c2, rfl, h3, _, h4⟩ := List.filter_eq_cons_iff.1 h2
  refine ⟨a' ++ c1, c2, by simp, ?_, h4⟩
  rw [List.filter_append, h1, List.filter_eq_nil_iff.2 (fun z hz => by simpa using h3 z hz), List.append_nil]

end PFlow
end SyncStream
