import Verif.Model.Override
import Verif.Spec.Override
import Verif.Lemmas.HostThreads
/-!
# A line buffer with a user's `parse_lines`: the programs without interruption, and the discipline
-/

namespace SyncStream
open Conc Spec LineBuf

namespace Ovr
variable {U α β : Type}

/-! ## Without interruption -/

/-- `m` on the inherited attributes. -/
def onBase (m : Py LineBuf α) : Py (OvBuf U) α := Py.onPart (·.base) (fun t b => { b with base := t }) m

theorem seq_line (p : TProg α) : (line p : OProg U α).seq = onBase p.seq := funext fun h =>
  Prog.seq_onPart (get := fun b : OvBuf U => b.base) (set := fun t b => { b with base := t })
    (fun _ _ => rfl) (fun _ _ _ => rfl) (fun _ => rfl) p h

theorem seq_method (p : Override U) (ls : List Item) (b : OvBuf U) :
    (method p ls).seq b =
      (((p ls).seq (b.base.storage, b.own)).1,
        { base := { b.base with storage := ((p ls).seq (b.base.storage, b.own)).2.1 },
          own := ((p ls).seq (b.base.storage, b.own)).2.2 }) :=
  Prog.seq_onPart (get := fun b : OvBuf U => (b.base.storage, b.own))
    (set := fun x b => { base := { b.base with storage := x.1 }, own := x.2 })
    (fun _ _ => rfl) (fun _ _ _ => rfl) (fun _ => rfl) (p ls) b

theorem seq_bind' (p : OProg U α) (g : α → OProg U β) :
    (p >>= g).seq = (p.seq >>= fun a => (g a).seq : Py (OvBuf U) β) := by
  funext s; exact Prog.seq_bind p g s

theorem seq_locked (p : OProg U α) : (locked p).seq = p.seq := by
  funext s; exact Prog.seq_withLock _ _ p s

theorem seq_pure' (a : α) : (pure a : OProg U α).seq = (pure a : Py (OvBuf U) α) := rfl

theorem seq_raise' (e : Exc) : (Prog.raise e : OProg U α).seq = Py.raise e := rfl

theorem seq_ite (c : Prop) [Decidable c] (p q : OProg U α) :
    (if c then p else q).seq = if c then p.seq else q.seq := by split <;> rfl

/-- The buffer with storage, unfinished line and attributes as in `l`. -/
def rep (l : OvLog U) : OvBuf U := ⟨opened l.store.maxlen l.store.items l.part, l.own⟩

theorem onBase_rep (l : OvLog U) {m : Py LineBuf α} {r : Except Exc α} {part : PyStr}
    (h : m (opened l.store.maxlen l.store.items l.part) = (r, opened l.store.maxlen l.store.items part)) :
    onBase m (rep l) = (r, rep { l with part := part }) := by
  simp only [onBase, Py.onPart_apply, rep, h]

/-- The lines `ls` given to the override, if there are any. -/
def hand (p : Override U) (ls : List PyStr) (l : OvLog U) : Except Exc Unit × OvLog U :=
  (((p (ls.map .str)).seq (l.store, l.own)).1,
    { part := l.part, store := ((p (ls.map .str)).seq (l.store, l.own)).2.1,
      own := ((p (ls.map .str)).seq (l.store, l.own)).2.2 })

theorem method_rep (p : Override U) (ls : List PyStr) (l : OvLog U) :
    (method p (ls.map .str)).seq (rep l) = ((hand p ls l).1, rep (hand p ls l).2) := seq_method p _ _

theorem seek_truncate_rep (l : OvLog U) (k : Unit → Py (OvBuf U) α) :
    (onBase (onLast StringIO.seek0) >>= fun _ => onBase (onLast StringIO.truncate0) >>= k) (rep l) =
      k () (rep { l with part := [] }) := by
  simp [onBase, rep, onLast, opened, StringIO.seek0, StringIO.truncate0, StringIO.check, Py.bind_apply]

/-- What `__write` does. -/
theorem writeCore_rep (p : Override U) (d : PyStr) (l : OvLog U) :
    (writeCore (method p) d).seq (rep l) =
      if (segFrom l.part d).1 = [] then (.ok (writeRet d), rep { l with part := (segFrom l.part d).2 })
      else match hand p (segFrom l.part d).1 l with
        | (.ok _, l') => (.ok (writeRet d), rep { l' with part := (segFrom l.part d).2 })
        | (.error e, l') => (.error e, rep l') := by
  unfold writeCore
  by_cases hd : d = []
  · subst hd
    simp [splitlines_eq, isEndLineBreak, writeRet]
  have hcorr := splitlines_corrected d hd
  have hsp := splitlines_eq d
  have hcur := segFrom_cur l.part d
  generalize hls : (segFrom [] d).1 = ls at *
  generalize hr : (segFrom [] d).2 = r at *
  have hseg : segFrom [] d = (ls, r) := by rw [← hls, ← hr]
  rw [hseg] at hcur
  have hget : onBase (onLast StringIO.getvalue) (rep l) = (.ok l.part, rep l) :=
    onBase_rep l (onLast_getvalue _ _ _)
  by_cases hlone : (splitlines d).length = 1 ∧ (splitlines d).head? = some []
  · have hr0 : r = [] ∧ ls = [[]] := by
      rw [hsp] at hlone
      by_cases hrr : r = []
      · simp [hrr] at hlone
        refine ⟨hrr, ?_⟩
        match ls, hlone with
        | [x], hl => simpa using hl.2
      · simp [hrr] at hlone
        exfalso
        match ls, hlone with
        | [], hl => simp [hrr] at hl
    obtain ⟨rfl, rfl⟩ := hr0
    simp only [hlone, and_self, if_true, seq_bind', seq_line, Thr.seq_onLast, seq_pure']
    rw [Py.bind_ok hget]
    simp only [hcur, List.append_nil]
    have hm := method_rep p [l.part] l
    rw [if_neg (by simp)]
    simp only [List.map_cons, List.map_nil] at hm
    rcases hh : hand p [l.part] l with ⟨x, l'⟩
    rw [hh] at hm
    cases x with
    | ok a =>
      rw [Py.bind_ok hm, seek_truncate_rep]
      simp [writeRet, hls, hr]
    | error e => exact Py.bind_error hm
  · simp only [hlone, if_false]
    have hret : writeRet d = r.length := by
      unfold writeRet
      rw [hls, hr, if_neg]
      rintro ⟨h1, h2⟩
      apply hlone
      rw [hsp, h1, h2]; simp
    rw [hcorr]
    have hlen : (if isEndLineBreak d = true then (splitlines d).length + 1
        else (splitlines d).length) = ls.length + 1 := by
      have := congrArg List.length hcorr
      rw [List.length_append] at this
      split at this
      · simpa [*] using this
      · simpa [*] using this
    rw [hlen]
    cases ls with
    | nil =>
      simp only [List.length_nil, Nat.zero_add, gt_iff_lt, Nat.lt_irrefl, if_false, if_true,
        List.nil_append, List.headD_cons, seq_line, Thr.seq_onLast]
      rw [onBase_rep l (onLast_write _ _ _ _)]
      simp [hcur, hret]
    | cons x ls =>
      have : ls.length + 1 + 1 > 1 := by omega
      simp only [List.length_cons, this, if_true, seq_bind', seq_line, Thr.seq_onLast]
      rw [Py.bind_ok hget]
      have e : (l.part ++ ((x :: ls) ++ [r]).headD []) :: ((x :: ls) ++ [r]).tail =
          ((l.part ++ x) :: ls) ++ [r] := by simp
      rw [e]
      have e1 : ((l.part ++ x) :: ls ++ [r]).getLastD [] = r := by
        rw [List.getLastD_eq_getLast?, List.getLast?_concat]; rfl
      have e2 : ((l.part ++ x) :: ls ++ [r]).dropLast = (l.part ++ x) :: ls := by
        rw [List.dropLast_append_of_ne_nil (by simp)]; simp
      rw [e1, e2]
      simp only [hcur, hret]
      rw [if_neg (by simp)]
      have hm := method_rep p ((l.part ++ x) :: ls) l
      rcases hh : hand p ((l.part ++ x) :: ls) l with ⟨y, l'⟩
      rw [hh] at hm
      cases y with
      | ok a =>
        rw [Py.bind_ok hm, seek_truncate_rep, onBase_rep _ (onLast_write _ _ _ _)]
        simp
      | error e => exact Py.bind_error hm

/-- What holds of the buffer between calls. -/
def Sound (l : OvLog U) : Prop := NoBreak l.part ∧ IsDeque l.store

theorem seq_of (F : Except Exc α → Ret) (p : OProg U α) (b : OvBuf U) :
    (do return F (← p.outcome) : OProg U Ret).seq b = (.ok (F (p.seq b).1), (p.seq b).2) :=
  (Prog.seq_bind_ok (Prog.seq_outcome p b)).trans rfl

theorem write_rep (p : Override U) (d : PyStr) (l : OvLog U) :
    (write (method p) d).seq (rep l) = (writeCore (method p) d).seq (rep l) := by
  simp only [write, seq_bind', seq_line, Thr.seq_writable, seq_ite, seq_locked, seq_raise']
  rw [Py.bind_ok (onBase_rep l (part := l.part) (r := .ok true) (by simp [writable, opened]))]
  rfl

theorem newLine_rep (p : Override U) (l : OvLog U) :
    (newLine (method p)).seq (rep l) =
      if l.part = [] then (.ok (), rep l)
      else match hand p [l.part] l with
        | (.ok _, l') => (.ok (), rep { l' with part := [] })
        | (.error e, l') => (.error e, rep l') := by
  simp only [newLine, seq_bind', seq_line, Thr.seq_onLast, seq_ite, seq_locked, seq_pure']
  rw [Py.bind_ok (onBase_rep l (onLast_tell _ _ _))]
  by_cases hp : l.part = []
  · rw [if_neg (by simp [hp]), if_pos hp]
    rfl
  · rw [if_pos (List.length_pos_iff.2 hp), if_neg hp]
    have e : segFrom l.part (lit "\n") = ([l.part], []) := by
      show segFrom l.part [10] = _
      rw [segFrom_break _ _ _ (by decide) (by simp)]; simp
    have h := writeCore_rep p (lit "\n") l
    rw [e, if_neg (by simp)] at h
    rcases hh : hand p [l.part] l with ⟨x, l'⟩
    simp only [hh] at h
    cases x with
    | ok a => exact Py.bind_ok h
    | error e => exact Py.bind_error h

theorem inherited (c : Call) (l : OvLog U) {r : Ret}
    (h : exec c (opened l.store.maxlen l.store.items l.part) =
      (r, opened l.store.maxlen l.store.items l.part)) :
    (line (Thr.prog (.call c)) : OProg U Ret).seq (rep l) = (.ok r, rep l) := by
  rw [seq_line]
  refine onBase_rep l (part := l.part) ?_
  rw [Thr.prog_seq, h]

/-- Without interruption, a call does and returns what the specification says. -/
theorem step_rep {p : Override U} (hp : KeepsDeque fun ls => (p ls).seq) {l : OvLog U} (hl : Sound l) (i : Nat)
    {c : Call} (hc : Thr.Atomic (.call c)) :
    ∃ r l', (prog (method p) c).seq (rep l) = (.ok r, rep l') ∧ OvStep (fun ls => (p ls).seq) l i c r l' ∧
      Sound l' := by
  cases c with
  | write d =>
    have e := seq_of (Ret.of .nat) (write (method p) d) (rep l)
    rw [write_rep, writeCore_rep] at e
    have hL := lines_segFrom l.part d hl.1
    have hN := (lines_noBreak hL).2
    by_cases h0 : (segFrom l.part d).1 = []
    · rw [if_pos h0] at e
      rw [h0] at hL
      exact ⟨_, _, e, .writePart l i d _ _ hL (writeRet_spec d), hN, hl.2⟩
    · rw [if_neg h0] at e
      have hk := hp ((segFrom l.part d).1.map .str) (l.store, l.own) hl.2
      rcases hh : (p ((segFrom l.part d).1.map .str)).seq (l.store, l.own) with ⟨x, st, u⟩
      simp only [hand, hh] at e hk
      cases x with
      | ok a => exact ⟨_, _, e, .write l i d _ _ _ st u hL h0 hh (writeRet_spec d), hN, hk⟩
      | error x => exact ⟨_, _, e, .writeRaise l i d _ _ x st u hL h0 hh, hl.1, hk⟩
  | newLine =>
    have e := seq_of (Ret.of fun _ => .unit) (newLine (method p)) (rep l)
    rw [newLine_rep] at e
    by_cases h0 : l.part = []
    · rw [if_pos h0] at e
      exact ⟨_, _, e, .newLineEmpty l i h0, hl⟩
    · rw [if_neg h0] at e
      have hk := hp [.str l.part] (l.store, l.own) hl.2
      rcases hh : (p [.str l.part]).seq (l.store, l.own) with ⟨x, st, u⟩
      simp only [hand, List.map_cons, List.map_nil, hh] at e hk
      cases x with
      | ok a => exact ⟨_, _, e, .newLine l i st u h0 hh, noBreak_nil, hk⟩
      | error x => exact ⟨_, _, e, .newLineRaise l i x st u h0 hh, hl.1, hk⟩
  | read n =>
    have hr := read_opened l.store.maxlen l.store.items l.part n hl.2.2 hl.2.1
    have e := inherited (.read n) l (r := _) (by simp only [exec, hr]; rfl)
    refine ⟨_, l, e, ?_, hl⟩
    cases n with
    | none => exact .readAll l i
    | some n =>
      by_cases h0 : 0 < n
      · simp only [if_pos h0]; exact .readSize l i n h0
      · simp only [if_neg h0]; exact .readNonPos l i n (by omega)
  | flush => exact ⟨_, l, inherited .flush l rfl, .flush l i, hl⟩
  | closed => exact ⟨_, l, inherited .closed l rfl, .closed l i, hl⟩
  | readable => exact ⟨_, l, inherited .readable l rfl, .readable l i, hl⟩
  | writable => exact ⟨_, l, inherited .writable l rfl, .writable l i, hl⟩
  | _ => cases hc

/-! ## Discipline -/

/-- Everything is common; the buffer is open. -/
def parts : Parts (OvBuf U) Unit where
  I b := b.base.lastLine.closed = false
  eqS _ s t := s = t
  eqL _ _ _ := True
  mix _ _ g := g
  S_refl _ _ := rfl
  S_symm h := h.symm
  S_trans h h' := h.trans h'
  L_refl _ _ := trivial
  L_symm _ := trivial
  L_trans _ _ := trivial
  mix_L _ _ _ := trivial
  mix_S _ _ _ _ := rfl
  mix_O _ _ _ := trivial
  mix_eq _ := rfl
  mix_cong _ _ := rfl
  mix_I _ h := h

variable {i : Nat}

/-- The inherited methods obey the discipline as before. -/
theorem wp_line {p : TProg α} {h : Option Bool} {com : Bool} {Q : Except Exc α → Option Bool → Bool → Prop}
    (hp : WP Thr.parts () i h com p Q) : WP (parts (U := U)) () i h com (line p) Q := by
  unfold line
  induction p generalizing h com with
  | ret a => exact hp
  | raise e => exact hp
  | act f k ih =>
    rcases hp with ⟨h1, h2⟩ | ⟨w, h1, h2, h3⟩
    · refine .inl ⟨⟨fun s hs => h1.inv s.base hs, fun s g hs hg => ?_, fun s g hs hg => ?_⟩, fun s hs => ih _ (h2 s.base hs)⟩
      · have := h1.state s.base g.base hs hg
        show (⟨f g.base, g.own⟩ : OvBuf U) = g
        rw [show f g.base = g.base from this]
      · exact congrArg (Prog.onPart (fun b : OvBuf U => b.base) (fun t b => { b with base := t }) id) (h1.cont s.base g.base hs hg)
    · refine .inr ⟨w, h1, ⟨fun s hs => h2.inv s.base hs, fun _ _ _ _ => trivial, fun _ _ _ h => absurd rfl h,
        fun e s hs => ?_, fun s t _ _ h _ => ?_, fun s t _ _ h _ => ?_⟩, fun s hs => ih _ (h3 s.base hs)⟩
      · show (⟨f s.base, s.own⟩ : OvBuf U) = s
        rw [show f s.base = s.base from h2.reads e s.base hs]
      · cases show s = t from h; exact ⟨rfl, trivial⟩
      · cases show s = t from h; rfl
  | acq l w k ih =>
    rcases hp with ⟨h1, h2⟩ | ⟨h1, h2, h3, h4⟩
    · exact .inl ⟨h1, ih h2⟩
    · exact .inr ⟨h1, h2, h3, ih h4⟩
  | rel l w k ih =>
    rcases hp with ⟨h1, h2⟩ | ⟨h1, h2, h3⟩
    · exact .inl ⟨h1, ih h2⟩
    · exact .inr ⟨h1, h2, ih h3⟩

/-- `p` runs inside a section and leaves the buffer open. -/
def InSec (i : Nat) (p : OProg U α) : Prop :=
  ∀ com, WP parts () i (some true) com p fun _ h' _ => h' = some true

theorem InSec.ret (a : α) : InSec i (.ret a : OProg U α) := fun _ => rfl

theorem InSec.bind {p : OProg U α} {g : α → OProg U β} (hp : InSec i p) (hg : ∀ a, InSec i (g a)) :
    InSec i (p >>= g) := fun com => WP.bind ((hp com).mono fun r h' c' hq => by
  subst hq
  cases r with
  | ok a => exact hg a _
  | error e => rfl)

theorem InSec.line {p : TProg α} (hp : Thr.InSec i p) : InSec i (line p : OProg U α) := fun com => wp_line (hp com)

/-- An override takes no lock and leaves `last_line` alone. -/
theorem sec_method (p : Override U) (ls : List Item) : InSec i (method p ls) := fun com => by
  unfold method
  generalize p ls = q
  induction q generalizing com with
  | ret a => rfl
  | raise e => rfl
  | act f k ih =>
    refine .inr ⟨true, rfl, ⟨fun _ h => h, fun _ _ _ _ => trivial, fun _ _ _ h => absurd rfl h, (nomatch ·),
      fun s t _ _ h _ => ?_, fun s t _ _ h _ => ?_⟩, fun s _ => ih _ _⟩
    · cases show s = t from h; exact ⟨rfl, trivial⟩
    · cases show s = t from h; rfl
  | acq l w k ih => exact l.elim
  | rel l w k ih => exact l.elim

theorem sec_writeCore (p : Override U) (d : PyStr) : InSec i (writeCore (method p) d) := by
  unfold writeCore
  generalize isEndLineBreak d = ending
  extract_lets m n m' n'
  split
  · exact .bind (.line (Thr.sec_onLast Thr.open_getvalue)) fun _ => .bind (sec_method p _) fun _ =>
      .bind (.line (Thr.sec_onLast Thr.open_seek0)) fun _ =>
      .bind (.line (Thr.sec_onLast Thr.open_truncate0)) fun _ => .ret _
  · split
    · exact .bind (.line (Thr.sec_onLast Thr.open_getvalue)) fun _ => .bind (sec_method p _) fun _ =>
        .bind (.line (Thr.sec_onLast Thr.open_seek0)) fun _ =>
        .bind (.line (Thr.sec_onLast Thr.open_truncate0)) fun _ => .line (Thr.sec_onLast (Thr.open_write _))
    · split
      · exact .line (Thr.sec_onLast (Thr.open_write _))
      · exact .ret _

/-- `p` uses the lock in at most one section with an effect. -/
def Once (i : Nat) (p : OProg U α) : Prop :=
  WP parts () i none false p fun _ h' _ => h' = none

theorem InSec.once {p : OProg U α} (hp : InSec i p) : Once i (locked p) :=
  WP.withS ((hp false).mono fun _ _ _ h => ⟨h, rfl⟩)

theorem once_write (p : Override U) (d : PyStr) : Once i (write (method p) d) := by
  refine WP.bind (wp_line ?_)
  refine WP.withS ?_
  refine .inl ⟨⟨fun _ h => h, fun _ _ _ _ => rfl, fun s t hs ht => ?_⟩, fun s hs => ?_⟩
  · have hs : s.lastLine.closed = false := hs
    have ht : t.lastLine.closed = false := ht
    show (match (Py.gets (fun b : LineBuf => !b.lastLine.closed) t).1 with
      | .ok a => (Prog.ret a : TProg Bool)
      | .error e => Prog.raise e) =
      (match (Py.gets (fun b : LineBuf => !b.lastLine.closed) s).1 with
      | .ok a => Prog.ret a
      | .error e => Prog.raise e)
    simp [hs, ht]
  · have hs : s.lastLine.closed = false := hs
    simp only [Py.gets_apply, hs]
    exact ⟨rfl, InSec.once (sec_writeCore p d)⟩

theorem once_newLine (p : Override U) : Once i (newLine (method p)) :=
  InSec.once (.bind (.line (Thr.sec_onLast Thr.open_tell)) fun pos => by
    split
    · exact .bind (sec_writeCore p _) fun _ => .ret _
    · exact .ret _)

theorem fin_outcome {p : OProg U α} (hp : Once i p) (F : Except Exc α → Ret) :
    WP parts () i none false (do return F (← p.outcome) : OProg U Ret)
      fun r h _ => h = none ∧ ∃ x, r = .ok x :=
  WP.bind (WP.outcome (hp.mono fun _ _ _ h => ⟨h, _, rfl⟩))

theorem disciplined (p : Override U) :
    Disciplined parts (fun _ => ()) (ovThreads (method p) fun _ c => Thr.Atomic (.call c)) (fun _ _ => True) := by
  intro i o c _ hc
  have key : WP parts () i none false (prog (method p) c) fun r h _ => h = none ∧ ∃ x, r = .ok x := by
    cases c with
    | write d => exact fin_outcome (once_write p d) _
    | newLine => exact fin_outcome (once_newLine p) _
    | _ => exact wp_line (Thr.once_prog hc)
  refine WP.bind (key.mono fun r h' c' hq => ?_)
  obtain ⟨rfl, x, rfl⟩ := hq
  exact ⟨rfl, _, _, rfl, trivial⟩

/-! ## Order of the locks -/

section
variable {re : Unit → Prop} {rank : Unit → Nat} {H : List (Unit × Bool)}
open Prog

theorem tidy_line {p : TProg α} (hp : Tidy re rank [] p) : Tidy re rank [] (line p : OProg U α) :=
  Orderly.onPart (H' := []) hp (fun _ _ h => h) (fun _ h => h) (fun _ _ h => nomatch h)

theorem tidy_atom_line (m : Py LineBuf α) : Tidy re rank H (line (Prog.atom m) : OProg U α) := fun s => by
  cases h : (m s.base).1 <;> simp only [h] <;> rfl

theorem tidy_method (p : Override U) (ls : List Item) : Tidy re rank H (method p ls) := by
  unfold method
  generalize p ls = q
  induction q with
  | ret a => exact Tidy.ret _
  | raise e => exact Tidy.raise _
  | act f k ih => exact fun s => ih _
  | acq l w k ih => exact l.elim
  | rel l w k ih => exact l.elim

theorem tidy_locked {p : OProg U α} (hp : Tidy re rank [((), true)] p) : Tidy re rank [] (locked p) :=
  Tidy.withLock (.inl fun _ h => nomatch h) hp

theorem tidy_writeCore (p : Override U) (d : PyStr) : Tidy re rank H (writeCore (method p) d) := by
  unfold writeCore
  generalize isEndLineBreak d = ending
  extract_lets m n m' n'
  split
  · exact .bind (tidy_atom_line _) fun _ => .bind (tidy_method p _) fun _ =>
      .bind (tidy_atom_line _) fun _ => .bind (tidy_atom_line _) fun _ => Tidy.ret _
  · split
    · exact .bind (tidy_atom_line _) fun _ => .bind (tidy_method p _) fun _ =>
        .bind (tidy_atom_line _) fun _ => .bind (tidy_atom_line _) fun _ => tidy_atom_line _
    · split
      · exact tidy_atom_line _
      · exact Tidy.ret _

theorem tidy_prog (p : Override U) (c : Call) : Tidy re rank [] (prog (method p) c) := by
  cases c with
  | write d =>
    refine .bind (Orderly.outcome (.bind (tidy_line (Thr.tidy_locked (Thr.tidy_gets _))) fun _ => ?_)) fun _ => Tidy.ret _
    split
    · exact Tidy.raise _
    · exact tidy_locked (tidy_writeCore p d)
  | newLine =>
    refine .bind (Orderly.outcome (tidy_locked (.bind (tidy_atom_line _) fun _ => ?_))) fun _ => Tidy.ret _
    split
    · exact .bind (tidy_writeCore p _) fun _ => Tidy.ret _
    · exact Tidy.ret _
  | _ => exact tidy_line (Thr.tidy_prog _)

end

theorem noRaise_prog (p : Override U) (c : Call) : NoRaise (prog (method p) c) := by
  cases c with
  | write d => exact (noRaise_outcome _).bind fun _ => trivial
  | newLine => exact (noRaise_outcome _).bind fun _ => trivial
  | _ => exact HThr.noRaise_onPart (Thr.noRaise_prog _)

theorem orderly (p : Override U) (ok : Nat → Call → Prop) : OrderlySys (ovThreads (method p) ok) (fun _ => 0) :=
  fun _ _ c _ => ⟨.bind (tidy_prog p c) fun _ => Prog.Tidy.ret _, (noRaise_prog p c).bind fun _ => trivial⟩

end Ovr
end SyncStream
