import Verif.Spec.ClearLog
import Verif.Lemmas.Threads
/-!
# Threads that do not read: each call takes effect at its only access to the storage

The unfinished line belongs to the thread that holds the lock.  The storage can be changed by any thread at any
moment, but a section changes it in one step only.
-/

namespace SyncStream
open Spec LineBuf Conc

namespace Two
variable {α β : Type}

/-- The unfinished line as it is when nobody holds the lock. -/
def canon (q : PyStr) : StringIO := { buf := q, pos := q.length, closed := false }

/-- The storage is that of the log, which is open. -/
structure Fits (n : Nat) (b : LineBuf) (l : Log) : Prop where
  ok : Ok l
  opn : l.closed = false
  storage : b.storage = { maxlen := l.cap, items := lastN l.cap l.done }
  line : b.lastLine.closed = false
  cap : l.cap = n

/-- What a thread that holds the lock knows: the unfinished line of the buffer and of the log. -/
abbrev Own := Option (StringIO × PyStr)

/-- The knowledge is right. -/
def Knows (o : Own) (b : LineBuf) (l : Log) : Prop := ∀ t q, o = some (t, q) → b.lastLine = t ∧ l.part = q

/-- The abstract thread does nothing or takes effect. -/
def Moves (i : Nat) (l : Log) (s : ClStat) (l' : Log) (s' : ClStat) : Prop :=
  (l' = l ∧ s' = s) ∨ ClEffect i l s l' s'

/-- The program of thread `i` is in step with the abstract thread, and ends with `Q`. -/
def Wp (n i : Nat) (Q : Except Exc α → Own → ClStat → Prop) : TProg α → Own → ClStat → Prop
  | .ret a, o, s => Q (.ok a) o s
  | .raise e, o, s => Q (.error e) o s
  | .act f k, o, s => ∀ b l, Fits n b l → Knows o b l → ∃ l' s', Moves i l s l' s' ∧ Fits n (f b) l' ∧ l'.cap = l.cap ∧
      (o = none → (f b).lastLine = b.lastLine ∧ l'.part = l.part) ∧
      Wp n i Q (k b) (o.map fun _ => ((f b).lastLine, l'.part)) s'
  | .acq _ w k, o, s => o = none ∧ w = true ∧ ∀ q, Wp n i Q k (some (canon q, q)) s
  | .rel _ _ k, o, s => o ≠ none ∧ ∀ b l, Fits n b l → Knows o b l → ∃ l' s', Moves i l s l' s' ∧ Fits n b l' ∧
      l'.cap = l.cap ∧ b.lastLine = canon l'.part ∧ Wp n i Q k none s'

theorem Wp.mono {n i : Nat} {Q Q' : Except Exc α → Own → ClStat → Prop} (h : ∀ r o s, Q r o s → Q' r o s) {p : TProg α} :
    ∀ {o s}, Wp n i Q p o s → Wp n i Q' p o s := by
  induction p with
  | ret a => exact fun hp => h _ _ _ hp
  | raise e => exact fun hp => h _ _ _ hp
  | act f k ih =>
    intro o s hp b l h1 h2
    obtain ⟨l', s', h3, h4, h5, h6, h7⟩ := hp b l h1 h2
    exact ⟨l', s', h3, h4, h5, h6, ih b h7⟩
  | acq _ w k ih => exact fun hp => ⟨hp.1, hp.2.1, fun q => ih (hp.2.2 q)⟩
  | rel _ w k ih =>
    refine fun hp => ⟨hp.1, fun b l h1 h2 => ?_⟩
    obtain ⟨l', s', h3, h4, h5, h6, h7⟩ := hp.2 b l h1 h2
    exact ⟨l', s', h3, h4, h5, h6, ih h7⟩

theorem Wp.bind {n i : Nat} {Q : Except Exc β → Own → ClStat → Prop} {p : TProg α} {g : α → TProg β} :
    ∀ {o s}, Wp n i (fun r o s => match r with
      | .ok a => Wp n i Q (g a) o s
      | .error e => Q (.error e) o s) p o s → Wp n i Q (p >>= g) o s := by
  change ∀ {o s}, _ → Wp n i Q (p.bind g) o s
  induction p with
  | ret a => exact fun hp => hp
  | raise e => exact fun hp => hp
  | act f k ih =>
    intro o s hp b l h1 h2
    obtain ⟨l', s', h3, h4, h5, h6, h7⟩ := hp b l h1 h2
    exact ⟨l', s', h3, h4, h5, h6, ih b h7⟩
  | acq _ w k ih => exact fun hp => ⟨hp.1, hp.2.1, fun q => ih (hp.2.2 q)⟩
  | rel _ w k ih =>
    refine fun hp => ⟨hp.1, fun b l h1 h2 => ?_⟩
    obtain ⟨l', s', h3, h4, h5, h6, h7⟩ := hp.2 b l h1 h2
    exact ⟨l', s', h3, h4, h5, h6, ih h7⟩

theorem Wp.outcome {n i : Nat} {Q : Except Exc (Except Exc α) → Own → ClStat → Prop} {p : TProg α} :
    ∀ {o s}, Wp n i (fun r => Q (.ok r)) p o s → Wp n i Q p.outcome o s := by
  induction p with
  | ret a => exact fun hp => hp
  | raise e => exact fun hp => hp
  | act f k ih =>
    intro o s hp b l h1 h2
    obtain ⟨l', s', h3, h4, h5, h6, h7⟩ := hp b l h1 h2
    exact ⟨l', s', h3, h4, h5, h6, ih b h7⟩
  | acq _ w k ih => exact fun hp => ⟨hp.1, hp.2.1, fun q => ih (hp.2.2 q)⟩
  | rel _ w k ih =>
    refine fun hp => ⟨hp.1, fun b l h1 h2 => ?_⟩
    obtain ⟨l', s', h3, h4, h5, h6, h7⟩ := hp.2 b l h1 h2
    exact ⟨l', s', h3, h4, h5, h6, ih h7⟩

/-! ## Sections -/

/-- A program that uses the unfinished line as it likes, and (if `x`) extends the storage at most once. -/
def Sec : Bool → TProg α → Prop
  | _, .ret _ => True
  | _, .raise _ => True
  | x, .act f k =>
      ((∀ b, (f b).storage = b.storage) ∧ (∀ b d, (f { b with storage := d }).lastLine = (f b).lastLine) ∧
        (∀ b d, k { b with storage := d } = k b) ∧ (∀ b, Sec x (k b)) ∧
        ∀ b, b.lastLine.closed = false → (f b).lastLine.closed = false) ∨
      (x = true ∧ (∃ xs, ∀ b, f b = { b with storage := b.storage.extend xs }) ∧
        (∀ b d, k { b with storage := d } = k b) ∧ ∀ b, Sec false (k b))
  | _, .acq _ _ _ => False
  | _, .rel _ _ _ => False

theorem Sec.mono {p : TProg α} (h : Sec false p) : Sec true p := by
  induction p with
  | ret a => trivial
  | raise e => trivial
  | act f k ih =>
    rcases h with h | h
    · exact .inl ⟨h.1, h.2.1, h.2.2.1, fun b => ih b (h.2.2.2.1 b), h.2.2.2.2⟩
    · cases h.1
  | acq _ w k ih => exact h
  | rel _ w k ih => exact h

/-- Sequencing: what comes first does not touch the storage. -/
theorem Sec.bind {x : Bool} {p : TProg α} {g : α → TProg β} (hp : Sec false p) (hg : ∀ a, Sec x (g a)) :
    Sec x (p >>= g) := by
  change Sec x (p.bind g)
  induction p with
  | ret a => exact hg a
  | raise e => trivial
  | act f k ih =>
    rcases hp with h | h
    · exact .inl ⟨h.1, h.2.1, fun b d => congrArg (Prog.bind · g) (h.2.2.1 b d), fun b => ih b (h.2.2.2.1 b), h.2.2.2.2⟩
    · cases h.1
  | acq _ w k ih => cases hp
  | rel _ w k ih => cases hp

/-- Sequencing: what comes afterwards does not touch the storage. -/
theorem Sec.bind' {p : TProg α} {g : α → TProg β} (hp : Sec true p) (hg : ∀ a, Sec false (g a)) :
    Sec true (p >>= g) := by
  change Sec true (p.bind g)
  induction p with
  | ret a => exact (hg a).mono
  | raise e => trivial
  | act f k ih =>
    rcases hp with h | h
    · exact .inl ⟨h.1, h.2.1, fun b d => congrArg (Prog.bind · g) (h.2.2.1 b d), fun b => ih b (h.2.2.2.1 b), h.2.2.2.2⟩
    · exact .inr ⟨rfl, h.2.1, fun b d => congrArg (Prog.bind · g) (h.2.2.1 b d), fun b => Sec.bind (h.2.2.2 b) hg⟩
  | acq _ w k ih => cases hp
  | rel _ w k ih => cases hp

theorem Sec.ret {x : Bool} (a : α) : Sec x (pure a : TProg α) := by cases x <;> trivial

theorem sec_last {x : Bool} {m : Py StringIO α} (hm : ∀ t, t.closed = false → (m t).2.closed = false) :
    Sec x (Thr.onLast m) := by
  refine .inl ⟨fun _ => rfl, fun _ _ => rfl, fun _ _ => rfl, fun b => ?_, fun b hb => hm b.lastLine hb⟩
  show Sec x (match (LineBuf.onLast m b).1 with
    | .ok a => .ret a
    | .error e => .raise e)
  cases (LineBuf.onLast m b).1 <;> trivial

theorem sec_look {x : Bool} (f : StringIO → α) : Sec x (Thr.gets fun b => f b.lastLine) :=
  .inl ⟨fun _ => rfl, fun _ _ => rfl, fun _ _ => rfl, fun _ => trivial, fun _ h => h⟩

theorem sec_parseLines (xs : List Item) : Sec true (Thr.parseLines xs) :=
  .inr ⟨rfl, ⟨xs, fun _ => rfl⟩, fun _ _ => rfl, fun _ => trivial⟩

theorem sec_writeCore (d : PyStr) : Sec true (Thr.writeCore d) := by
  unfold Thr.writeCore
  generalize isEndLineBreak d = ending
  extract_lets m n m' n'
  split
  · exact .bind (sec_last Thr.open_getvalue) fun _ => .bind' (sec_parseLines _) fun _ =>
      .bind (sec_last Thr.open_seek0) fun _ => .bind (sec_last Thr.open_truncate0) fun _ => trivial
  · split
    · exact .bind (sec_last Thr.open_getvalue) fun _ => .bind' (sec_parseLines _) fun _ =>
        .bind (sec_last Thr.open_seek0) fun _ => .bind (sec_last Thr.open_truncate0) fun _ => sec_last (Thr.open_write _)
    · split
      · exact sec_last (Thr.open_write _)
      · trivial

/-- Without access to the storage, the result does not depend on it. -/
theorem Sec.seq {p : TProg α} (h : Sec false p) (b : LineBuf) (d : Deque Item) :
    p.seq { b with storage := d } = ((p.seq b).1, { (p.seq b).2 with storage := d }) ∧
    (p.seq b).2.storage = b.storage := by
  induction p generalizing b with
  | ret a => exact ⟨rfl, rfl⟩
  | raise e => exact ⟨rfl, rfl⟩
  | act f k ih =>
    rcases h with ⟨h1, h2, h3, h4, h5⟩ | h
    · have e : f { b with storage := d } = { f b with storage := d } := by
        rw [show f { b with storage := d } = ⟨(f { b with storage := d }).storage, (f { b with storage := d }).lastLine⟩ from rfl, h1, h2]
      obtain ⟨i1, i2⟩ := ih b (h4 b) (f b)
      refine ⟨?_, ?_⟩
      · show (k { b with storage := d }).seq (f { b with storage := d }) = _
        rw [h3, e]
        exact i1
      · exact i2.trans (h1 b)
    · cases h.1
  | acq _ w k ih => cases h
  | rel _ w k ih => cases h

/-- After the effect. -/
theorem sec_after {n i : Nat} {Q : Except Exc α → Own → ClStat → Prop} {p : TProg α} (h : Sec false p) {t : StringIO}
    {q : PyStr} {s : ClStat} {r : Except Exc α}
    (hp : ∀ d, p.seq ⟨d, t⟩ = (r, ⟨d, canon q⟩)) (hQ : Q r none s) :
    Wp n i Q (p.andRelease () true) (some (t, q)) s := by
  induction p generalizing t with
  | ret a =>
    refine ⟨(nomatch ·), fun b l h1 h2 => ⟨l, s, .inl ⟨rfl, rfl⟩, h1, rfl, ?_, ?_⟩⟩
    · obtain ⟨k1, rfl⟩ := h2 _ _ rfl
      have := congrArg (fun x => x.2.lastLine) (hp b.storage)
      exact k1.trans this
    · have := congrArg (fun x => x.1) (hp (Deque.mk 0 []))
      cases this
      exact hQ
  | raise e =>
    refine ⟨(nomatch ·), fun b l h1 h2 => ⟨l, s, .inl ⟨rfl, rfl⟩, h1, rfl, ?_, ?_⟩⟩
    · obtain ⟨k1, rfl⟩ := h2 _ _ rfl
      have := congrArg (fun x => x.2.lastLine) (hp b.storage)
      exact k1.trans this
    · have := congrArg (fun x => x.1) (hp (Deque.mk 0 []))
      cases this
      exact hQ
  | act f k ih =>
    rcases h with ⟨h1, h2, h3, h4, h5⟩ | h
    · intro b l f1 f2
      obtain ⟨rfl, rfl⟩ := f2 _ _ rfl
      refine ⟨l, s, .inl ⟨rfl, rfl⟩, ⟨f1.ok, f1.opn, (h1 b).trans f1.storage, h5 b f1.line, f1.cap⟩, rfl, (nomatch ·), ?_⟩
      refine ih b (h4 b) fun d => ?_
      have e := hp d
      have e1 : f { b with storage := d } = { f b with storage := d } := by
        rw [show f { b with storage := d } =
          ⟨(f { b with storage := d }).storage, (f { b with storage := d }).lastLine⟩ from rfl, h1, h2]
      change (k { b with storage := d }).seq (f { b with storage := d }) = _ at e
      rw [h3, e1] at e
      exact e
    · cases h.1
  | acq _ w k ih => cases h
  | rel _ w k ih => cases h

/-- The rule for sections: if the section, run alone, does what the abstract thread does in one moment, then it is
in step with it. -/
theorem sec_wp {n i : Nat} {Q : Except Exc α → Own → ClStat → Prop} {p : TProg α} (h : Sec true p) {t : StringIO}
    {q : PyStr} {s : ClStat}
    (hp : ∀ l, Ok l → l.closed = false → l.part = q → ∃ l' s', Moves i l s l' s' ∧ Ok l' ∧ l'.closed = false ∧
      l'.cap = l.cap ∧ Q (p.seq ⟨⟨l.cap, lastN l.cap l.done⟩, t⟩).1 none s' ∧
      (p.seq ⟨⟨l.cap, lastN l.cap l.done⟩, t⟩).2 = opened l'.cap (lastN l'.cap l'.done) l'.part) :
    Wp n i Q (p.andRelease () true) (some (t, q)) s := by
  induction p generalizing t with
  | ret a =>
    refine ⟨(nomatch ·), fun b l h1 h2 => ?_⟩
    obtain ⟨rfl, rfl⟩ := h2 _ _ rfl
    obtain ⟨l', s', k1, k2, k3, k4, k5, k6⟩ := hp l h1.ok h1.opn rfl
    refine ⟨l', s', k1, ⟨k2, k3, ?_, h1.line, k4.trans h1.cap⟩, k4, ?_, k5⟩
    · rw [h1.storage]; exact congrArg (·.storage) k6
    · exact congrArg (·.lastLine) k6
  | raise e =>
    refine ⟨(nomatch ·), fun b l h1 h2 => ?_⟩
    obtain ⟨rfl, rfl⟩ := h2 _ _ rfl
    obtain ⟨l', s', k1, k2, k3, k4, k5, k6⟩ := hp l h1.ok h1.opn rfl
    refine ⟨l', s', k1, ⟨k2, k3, ?_, h1.line, k4.trans h1.cap⟩, k4, ?_, k5⟩
    · rw [h1.storage]; exact congrArg (·.storage) k6
    · exact congrArg (·.lastLine) k6
  | act f k ih =>
    intro b l f1 f2
    obtain ⟨rfl, rfl⟩ := f2 _ _ rfl
    have self : ∀ l : Log, (⟨⟨l.cap, lastN l.cap l.done⟩, b.lastLine⟩ : LineBuf) =
      { b with storage := ⟨l.cap, lastN l.cap l.done⟩ } := fun _ => rfl
    rcases h with ⟨h1, h2, h3, h4, h5⟩ | ⟨-, ⟨xs, h1⟩, h3, h4⟩
    · refine ⟨l, s, .inl ⟨rfl, rfl⟩, ⟨f1.ok, f1.opn, (h1 b).trans f1.storage, h5 b f1.line, f1.cap⟩, rfl, (nomatch ·), ?_⟩
      refine ih b (h4 b) fun l1 o1 o2 o3 => ?_
      obtain ⟨l', s', k1, k2, k3, k4, k5, k6⟩ := hp l1 o1 o2 o3
      refine ⟨l', s', k1, k2, k3, k4, ?_⟩
      have e1 : ∀ d, f { b with storage := d } = { f b with storage := d } := fun d => by
        rw [show f { b with storage := d } =
          ⟨(f { b with storage := d }).storage, (f { b with storage := d }).lastLine⟩ from rfl, h1, h2]
      have e2 : (Prog.act f k).seq ⟨⟨l1.cap, lastN l1.cap l1.done⟩, b.lastLine⟩ =
          (k b).seq ⟨⟨l1.cap, lastN l1.cap l1.done⟩, (f b).lastLine⟩ := by
        show (k { b with storage := _ }).seq (f { b with storage := _ }) = _
        rw [h3, e1]
      rw [e2] at k5 k6
      exact ⟨k5, k6⟩
    · obtain ⟨l', s', k1, k2, k3, k4, k5, k6⟩ := hp l f1.ok f1.opn rfl
      have e2 : (Prog.act f k).seq ⟨⟨l.cap, lastN l.cap l.done⟩, b.lastLine⟩ = (k b).seq (f b) := by
        have : (⟨⟨l.cap, lastN l.cap l.done⟩, b.lastLine⟩ : LineBuf) = b := by rw [← f1.storage]
        rw [this]
        rfl
      rw [e2] at k5 k6
      refine ⟨l', s', k1, ⟨k2, k3, ?_, ?_, k4.trans f1.cap⟩, k4, (nomatch ·), ?_⟩
      · rw [← ((h4 b).seq (f b) ⟨0, []⟩).2, k6]; rfl
      · rw [h1]; exact f1.line
      · refine sec_after (r := ((k b).seq (f b)).1) (h4 b) (fun d => ?_) k5
        have := ((h4 b).seq (f b) d).1
        rw [k6] at this
        exact this
  | acq _ w k ih => cases h
  | rel _ w k ih => cases h

/-! ## The calls -/

theorem step_open {l l' : Log} {c : Call} {r : Ret} (h : Log.Step l c r l') (hc : c ≠ .close) : l'.closed = l.closed := by
  cases h <;> first | rfl | exact absurd rfl hc

theorem canon_rep {l : Log} (h : l.closed = false) :
    (⟨⟨l.cap, lastN l.cap l.done⟩, canon l.part⟩ : LineBuf) = rep l := (rep_open h).symm

/-- A section that is the whole effect of a call. -/
theorem sec_call {n i : Nat} {p : TProg α} (h : Sec true p) (c : Call) (F : α → Ret) (hc : c ≠ .close) (hc' : c ≠ .clear)
    (he : ∀ l, l.closed = false → exec c (rep l) = (Ret.of F (p.seq (rep l)).1, (p.seq (rep l)).2)) :
    Wp n i (fun r o s => o = none ∧ s = .done (Ret.of F r)) (Thr.locked p) none (.called (.call c)) := by
  refine ⟨rfl, rfl, fun q => sec_wp h fun l h1 h2 h3 => ?_⟩
  subst h3
  rw [canon_rep h2]
  obtain ⟨l', s1, s2, s3, s4⟩ := exec_refines c l h1
  have ho := (step_open s1 hc).trans h2
  have e := he l h2
  rw [e] at s1 s2
  exact ⟨l', _, .inr (.whole l l' _ _ (fun e => hc' (by injection e)) (.call c _ l' s1)), s3, ho, s4, ⟨rfl, rfl⟩,
    s2.trans (rep_open ho)⟩

/-- Looking whether the buffer is closed. -/
theorem wp_look {n i : Nat} (f : Bool → β) {s : ClStat} :
    Wp n i (fun r o s' => r = .ok (f false) ∧ o = none ∧ s' = s) (Thr.locked (Thr.gets fun b => f b.lastLine.closed)) none s := by
  refine ⟨rfl, rfl, fun q => sec_wp (sec_look fun t => f t.closed) fun l h1 h2 h3 => ?_⟩
  subst h3
  exact ⟨l, s, .inl ⟨rfl, rfl⟩, h1, h2, rfl, ⟨rfl, rfl, rfl⟩, rfl⟩

/-- The section in `__len__`. -/
theorem wp_true {n i k : Nat} {s : ClStat} :
    Wp n i (fun r o s' => r = .ok (k + 1) ∧ o = none ∧ s' = s) (Thr.locked do
      let t ← Thr.gets (·.lastLine.truth)
      return if t then k + 1 else k) none s := by
  refine ⟨rfl, rfl, fun q => sec_wp (Sec.bind (sec_look StringIO.truth) fun _ => Sec.ret _) fun l h1 h2 h3 => ?_⟩
  subst h3
  exact ⟨l, s, .inl ⟨rfl, rfl⟩, h1, h2, rfl, ⟨rfl, rfl, rfl⟩, rfl⟩

/-- How a call ends. -/
def Ends (r : Except Exc (Ret × Unit)) (o : Own) (s : ClStat) : Prop := ∃ x, r = .ok (x, ()) ∧ o = none ∧ s = .done x

theorem wp_call (n i : Nat) (c : TCall) (hc : Writing c) :
    Wp n i Ends (do return (← Thr.prog c, ()) : TProg (Ret × Unit)) none (.called c) := by
  have fin : ∀ {α : Type} {p : TProg α} (F : α → Ret), Wp n i (fun r o s => o = none ∧ s = .done (Ret.of F r)) p none (.called c) →
      Wp n i Ends (do return (← (do return Ret.of F (← p.outcome) : TProg Ret), ()) : TProg (Ret × Unit)) none (.called c) :=
    fun F hp => .bind (.bind (.outcome (hp.mono fun r o s h => ⟨_, rfl, h⟩)))
  cases c with
  | deliver x =>
    refine fin _ fun b l h1 _ => ⟨{ l with done := l.done ++ [x] }, _, .inr (.whole _ _ _ _ nofun (.deliver x h1.opn)),
      ⟨⟨h1.ok.cap, h1.ok.part, fun h => ?_⟩, h1.opn, ?_, h1.line, h1.cap⟩, rfl, fun _ => ⟨rfl, rfl⟩, rfl, rfl⟩
    · exact absurd (h1.opn.symm.trans h) (by simp)
    · show b.storage.append x = _
      rw [h1.storage, Deque.append_eq _ _ (length_lastN_le _ _), lastN_lastN_append]
  | call c =>
    cases c with
    | read n => cases hc
    | close => cases hc
    | write d =>
      refine fin _ (.bind ((wp_look (! ·)).mono ?_))
      rintro _ _ _ ⟨rfl, rfl, rfl⟩
      refine sec_call (sec_writeCore d) (.write d) .nat nofun nofun fun l hl => ?_
      rw [Thr.seq_writeCore, rep_open hl]
      rfl
    | newLine =>
      refine fin _ (sec_call (.bind (sec_last Thr.open_tell) fun pos => ?_) .newLine _ nofun nofun fun l hl => ?_)
      · split
        · exact .bind' (sec_writeCore _) fun _ => trivial
        · trivial
      · have := congrFun Thr.seq_newLine (rep l)
        rw [Thr.newLine, Thr.seq_locked] at this
        rw [this]
        rfl
    | flush =>
      refine fin _ (sec_call (sec_last Thr.open_flush) .flush _ nofun nofun fun l hl => ?_)
      rw [Thr.seq_onLast]; rfl
    | closed =>
      refine fin _ (sec_call (sec_look (·.closed)) .closed _ nofun nofun fun l hl => ?_)
      rw [Thr.seq_gets]; rfl
    | readable =>
      refine fin _ (sec_call (sec_look (! ·.closed)) .readable _ nofun nofun fun l hl => ?_)
      rw [Thr.seq_gets]; rfl
    | writable =>
      refine fin _ (sec_call (sec_look (! ·.closed)) .writable _ nofun nofun fun l hl => ?_)
      rw [Thr.seq_gets]; rfl
    | maxlen =>
      refine fin _ fun b l h1 _ => ⟨l, _, .inr (.whole _ _ _ _ nofun (.call _ _ _ (.maxlen l))), h1, rfl,
        fun _ => ⟨rfl, rfl⟩, rfl, ?_⟩
      show _ = ClStat.done (.nat b.storage.maxlen)
      rw [h1.storage]
    | len =>
      refine fin _ fun b0 l0 h0 _ => ⟨l0, _, .inl ⟨rfl, rfl⟩, h0, rfl, fun _ => ⟨rfl, rfl⟩, fun b l h1 _ =>
        ⟨l, _, .inr (.whole _ _ _ _ nofun (.call _ _ _ (.len l))), h1, rfl, fun _ => ⟨rfl, rfl⟩, ?_⟩⟩
      refine Wp.bind (p := Thr.locked do
        let t ← Thr.gets (·.lastLine.truth)
        return if t then b.storage.items.length + 1 else b.storage.items.length)
        (g := fun k => pure (if b0.maxlen ≠ 0 then min b0.maxlen k else k)) (wp_true.mono ?_)
      rintro _ _ _ ⟨rfl, rfl, rfl⟩
      refine ⟨rfl, ?_⟩
      have e1 : b0.maxlen = l.cap := by
        show b0.storage.maxlen = _
        rw [h0.storage, h1.cap]
        exact h0.cap
      have e2 : b.storage.items.length = (lastN l.cap l.done).length := by rw [h1.storage]
      have := h1.ok.cap
      show _ = ClStat.done (.nat (if b0.maxlen ≠ 0 then min b0.maxlen (b.storage.items.length + 1) else _))
      rw [e1, e2, if_pos (by omega)]
    | clear =>
      refine fin _ (.bind (Wp.mono (Q := fun r o s => r = .ok () ∧ o = none ∧ s = .half) ?_ ⟨rfl, rfl, fun q => sec_wp (.bind (sec_last Thr.open_seek0) fun _ => sec_last Thr.open_truncate0)
        fun l h1 h2 h3 => ⟨{ l with part := [] }, .half, .inr (.first l h2), ⟨h1.cap, noBreak_nil, fun h => ?_⟩, h2, rfl, ?_, ?_⟩⟩))
      · rintro _ _ _ ⟨rfl, rfl, rfl⟩
        exact fun b l h1 _ => ⟨{ l with done := [] }, _, .inr (.second l), ⟨⟨h1.ok.cap, h1.ok.part, fun h =>
          absurd (h1.opn.symm.trans h) (by simp)⟩, h1.opn, by
            show b.storage.clear = _
            rw [h1.storage]
            simp [Deque.clear], h1.line, h1.cap⟩, rfl, fun _ => ⟨rfl, rfl⟩, rfl, rfl⟩
      · exact absurd (h2.symm.trans h) (by simp)
      · exact ⟨rfl, rfl, rfl⟩
      · subst h3
        rfl

/-! ## The system -/

/-- The threads are in step with the abstract ones. -/
structure Inv (n : Nat) (κ : Conf LineBuf Unit Unit TCall Ret) (a : ClConf) (own : Nat → Own) : Prop where
  fits : Fits n κ.st a.log
  held : ∀ i, κ.held i () = if (own i).isSome then [true] else []
  one : ∀ i j, own i ≠ none → own j ≠ none → i = j
  knows : ∀ i, Knows (own i) κ.st a.log
  free : (∀ i, own i = none) → κ.st.lastLine = canon a.log.part
  idle : ∀ i, κ.cur i = none → a.stat i = .idle ∧ own i = none
  busy : ∀ i c p, κ.cur i = some (c, p) → Wp n i Ends p (own i) (a.stat i)

theorem clexec_moves {a0 a : ClConf} {tr : List (Ev TCall Ret)} (h : ClExec a0 tr a) {i : Nat} {l : Log} {s : ClStat}
    (hm : Moves i a.log (a.stat i) l s) : ClExec a0 tr ⟨l, upd a.stat i s⟩ := by
  rcases hm with ⟨rfl, rfl⟩ | hm
  · have : upd a.stat i (a.stat i) = a.stat := by
      funext j
      by_cases hj : j = i
      · subst hj; exact upd_same _ _ _
      · exact upd_other _ _ hj
    rw [this]
    exact h
  · have := ClExec.snoc a0 a _ tr none h (.effect a i l s hm)
    rwa [Option.toList, List.append_nil] at this

theorem step_inv {n : Nat} {ok : Nat → TCall → Prop} (hok : ∀ i c, ok i c → Writing c)
    {κ κ' : Conf LineBuf Unit Unit TCall Ret} {e : Option (Ev TCall Ret)}
    (h : Step (threads ok) κ e κ') {a0 a : ClConf} {tr : List (Ev TCall Ret)} (ha : ClExec a0 tr a) {own : Nat → Own}
    (hi : Inv n κ a own) : ∃ a' own', ClExec a0 (tr ++ e.toList) a' ∧ Inv n κ' a' own' := by
  cases h with
  | inv i c h1 h2 =>
    obtain ⟨q1, q2⟩ := hi.idle i h1
    refine ⟨{ a with stat := upd a.stat i (.called c) }, own, .snoc _ _ _ _ _ ha (.inv a i c q1),
      ⟨hi.fits, hi.held, hi.one, hi.knows, hi.free, fun j hj => ?_, fun j c' p hj => ?_⟩⟩
    · by_cases e : j = i
      · subst e; simp at hj
      · simp only [upd_other _ _ e] at hj ⊢; exact hi.idle j hj
    · by_cases e : j = i
      · subst e
        simp only [upd_same] at hj ⊢
        cases hj
        rw [q2]
        exact wp_call n j c (hok j c h2)
      · simp only [upd_other _ _ e] at hj ⊢; exact hi.busy j c' p hj
  | ret i c r o h1 =>
    obtain ⟨x, e1, q2, q1⟩ := hi.busy i c _ h1
    cases e1
    refine ⟨{ a with stat := upd a.stat i .idle }, own, .snoc _ _ _ _ _ ha (.ret a i r q1),
      ⟨hi.fits, hi.held, hi.one, hi.knows, hi.free, fun j hj => ?_, fun j c' p hj => ?_⟩⟩
    · by_cases e : j = i
      · subst e; simp [q2]
      · simp only [upd_other _ _ e] at hj ⊢; exact hi.idle j hj
    · by_cases e : j = i
      · subst e; simp at hj
      · simp only [upd_other _ _ e] at hj ⊢; exact hi.busy j c' p hj
  | act i c f k h1 =>
    obtain ⟨l', s', m1, m2, m3, m4, m5⟩ := hi.busy i c _ h1 κ.st a.log hi.fits (hi.knows i)
    refine ⟨⟨l', upd a.stat i s'⟩, upd own i ((own i).map fun _ => ((f κ.st).lastLine, l'.part)),
      by rw [Option.toList, List.append_nil]; exact clexec_moves ha m1, ⟨m2, fun j => ?_, fun j j' => ?_, fun j => ?_, fun hf => ?_, fun j hj => ?_, fun j c' p hj => ?_⟩⟩
    · rw [hi.held]
      by_cases e : j = i
      · subst e; simp
      · simp only [upd_other _ _ e]
    · have : ∀ j, upd own i ((own i).map fun _ => ((f κ.st).lastLine, l'.part)) j ≠ none → own j ≠ none := by
        intro j
        by_cases e : j = i
        · subst e; simp
        · simp only [upd_other _ _ e]; exact id
      exact fun x y => hi.one j j' (this j x) (this j' y)
    · intro t q ht
      by_cases e : j = i
      · subst e
        rw [upd_same, Option.map_eq_some_iff] at ht
        obtain ⟨_, _, ht⟩ := ht
        cases ht
        exact ⟨rfl, rfl⟩
      · rw [upd_other _ _ e] at ht
        have hn : own i = none := by
          cases ho : own i with
          | none => rfl
          | some _ => exact absurd (hi.one j i (by rw [ht]; simp) (by rw [ho]; simp)) e
        obtain ⟨x, y⟩ := m4 hn
        obtain ⟨u, v⟩ := hi.knows j t q ht
        exact ⟨x.trans u, y.trans v⟩
    · have hn : own i = none := by
        have := hf i
        rw [upd_same] at this
        simpa using this
      obtain ⟨x, y⟩ := m4 hn
      refine x.trans ((hi.free fun j => ?_).trans (congrArg canon y.symm))
      by_cases e : j = i
      · rw [e]; exact hn
      · have := hf j
        rwa [upd_other _ _ e] at this
    · by_cases e : j = i
      · subst e; simp at hj
      · simp only [upd_other _ _ e] at hj ⊢; exact hi.idle j hj
    · by_cases e : j = i
      · subst e
        simp only [upd_same] at hj ⊢
        cases hj
        exact m5
      · simp only [upd_other _ _ e] at hj ⊢; exact hi.busy j c' p hj
  | acq i c l w k h1 h2 =>
    obtain ⟨q1, rfl, q3⟩ := hi.busy i c _ h1
    have hn : ∀ j, own j = none := fun j => by
      by_cases e : j = i
      · rw [e]; exact q1
      · have := (h2.2 j e).2 rfl
        rw [hi.held] at this
        cases ho : own j with
        | none => rfl
        | some _ => rw [ho] at this; cases this
    have hl : κ.st.lastLine = canon a.log.part := hi.free hn
    refine ⟨a, upd own i (some (canon a.log.part, a.log.part)), by rw [Option.toList, List.append_nil]; exact ha,
      ⟨hi.fits, fun j => ?_, fun j j' x y => ?_, fun j => ?_, fun hf => ?_, fun j hj => ?_, fun j c' p hj => ?_⟩⟩
    · by_cases e : j = i
      · subst e; simp [hi.held, q1]
      · simp only [upd_other _ _ e]; exact hi.held j
    · have : ∀ j, upd own i (some (canon a.log.part, a.log.part)) j ≠ none → j = i := by
        intro j hj
        by_cases e : j = i
        · exact e
        · rw [upd_other _ _ e] at hj; exact absurd (hn j) hj
      exact (this j x).trans (this j' y).symm
    · intro t q ht
      by_cases e : j = i
      · subst e
        rw [upd_same] at ht
        cases ht
        exact ⟨hl, rfl⟩
      · rw [upd_other _ _ e, hn j] at ht
        cases ht
    · have := hf i
      simp at this
    · by_cases e : j = i
      · subst e; simp at hj
      · simp only [upd_other _ _ e] at hj ⊢; exact hi.idle j hj
    · by_cases e : j = i
      · subst e
        simp only [upd_same] at hj ⊢
        cases hj
        exact q3 _
      · simp only [upd_other _ _ e] at hj ⊢; exact hi.busy j c' p hj
  | rel i c l w k h1 =>
    have h := hi.busy i c _ h1
    obtain ⟨q1, q2⟩ : own i ≠ none ∧ _ := h
    obtain ⟨l', s', m1, m2, m3, m4, m5⟩ := q2 κ.st a.log hi.fits (hi.knows i)
    have hn : ∀ j, j ≠ i → own j = none := fun j e => by
      cases ho : own j with
      | none => rfl
      | some _ => exact absurd (hi.one j i (by rw [ho]; simp) q1) e
    refine ⟨⟨l', upd a.stat i s'⟩, upd own i none, by rw [Option.toList, List.append_nil]; exact clexec_moves ha m1,
      ⟨m2, fun j => ?_, fun j j' x y => ?_, fun j => ?_, fun _ => m4, fun j hj => ?_, fun j c' p hj => ?_⟩⟩
    · by_cases e : j = i
      · subst e
        cases ho : own j with
        | none => exact absurd ho q1
        | some _ => simp [hi.held, ho]
      · simp only [upd_other _ _ e]; exact hi.held j
    · exfalso
      apply x
      by_cases e : j = i
      · rw [e, upd_same]
      · rw [upd_other _ _ e]; exact hn j e
    · intro t q ht
      by_cases e : j = i
      · rw [e, upd_same] at ht; cases ht
      · rw [upd_other _ _ e, hn j e] at ht; cases ht
    · by_cases e : j = i
      · subst e; simp at hj
      · simp only [upd_other _ _ e] at hj ⊢; exact hi.idle j hj
    · by_cases e : j = i
      · subst e
        simp only [upd_same] at hj ⊢
        cases hj
        exact m5
      · simp only [upd_other _ _ e] at hj ⊢; exact hi.busy j c' p hj

/-- Every execution is one of the abstract threads. -/
theorem exec_inv {ok : Nat → TCall → Prop} (hok : ∀ i c, ok i c → Writing c) {l : Log} (h0 : Ok l) (ho : l.closed = false)
    {κ : Conf LineBuf Unit Unit TCall Ret} {tr : List (Ev TCall Ret)}
    (h : Exec (threads ok) (init (rep l) fun _ => ()) tr κ) :
    ∃ a own, ClExec ⟨l, fun _ => .idle⟩ tr a ∧ Inv l.cap κ a own := by
  generalize hk : (init (rep l) fun _ => () : Conf LineBuf Unit Unit TCall Ret) = κ0 at h
  induction h with
  | nil =>
    subst hk
    refine ⟨_, fun _ => none, .nil _, ⟨⟨h0, ho, by rw [rep_open ho]; rfl, by rw [rep_open ho]; rfl, rfl⟩, fun _ => rfl,
      fun _ _ h => absurd rfl h, fun _ _ _ h => (nomatch h), fun _ => by rw [rep_open ho]; rfl, fun _ _ => ⟨rfl, rfl⟩,
      fun _ _ _ h => (nomatch h)⟩⟩
  | snoc κ1 κ2 tr e h1 h2 ih =>
    obtain ⟨a, own, ih1, ih2⟩ := ih
    exact step_inv hok h2 ih1 ih2

/-- When no call is running, the buffer is that of the log. -/
theorem inv_quiet {n : Nat} {κ : Conf LineBuf Unit Unit TCall Ret} {a : ClConf} {own : Nat → Own} (hi : Inv n κ a own)
    (hq : ∀ i, κ.cur i = none) : κ.st = rep a.log := by
  have h1 := hi.free fun i => (hi.idle i (hq i)).2
  rw [rep_open hi.fits.opn]
  show κ.st = ⟨_, _⟩
  rw [show κ.st = ⟨κ.st.storage, κ.st.lastLine⟩ from rfl, h1, hi.fits.storage]
  rfl

end Two
end SyncStream
