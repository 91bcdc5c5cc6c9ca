import Verif.Lemmas.Guarded
import Verif.Lemmas.FileCrash
import Verif.Model.FileProcs
import Verif.Spec.Records
/-!
# The calls of `LineFileBuffer` respect the guards of the record files and of the temporary files

The ghost of the file lock is a shelf (`Spec/Records.lean`), that of a tmp lock the contents of the temporary file.
-/

namespace SyncStream
open Spec

/-! ## Shelves -/

namespace Spec.Shelf

@[simp] theorem put_same (f : Shelf) (k : Nat) (e) : (f.put k e).place k = e := by simp [put]
theorem put_other (f : Shelf) {k j : Nat} (e) (h : j ≠ k) : (f.put k e).place j = f.place j := by simp [put, h]

theorem Good.step {Goal : PyStr → Prop} {clears : Prop} {f f' : Shelf} (h : f.Good) (hs : f.Step Goal clears f') : f'.Good := by
  cases hs with
  | clear gone =>
    have key : ∀ j e, (if gone j then none else f.place j) = some e → f.place j = some e := fun j e hj => by
      split at hj
      · cases hj
      · exact hj
    exact ⟨fun j e hj => h.old j e (key j e hj), fun a b e e' ha hb => h.once a b e e' (key _ _ ha) (key _ _ hb),
      fun j e hj => h.text j e (key j e hj)⟩
  | drop k =>
    have key : ∀ j e, (f.put k none).place j = some e → f.place j = some e := fun j e hj => by
      by_cases hk : j = k
      · subst hk; rw [put_same] at hj; cases hj
      · rwa [put_other _ _ hk] at hj
    exact ⟨fun j e hj => h.old j e (key j e hj), fun a b e e' ha hb => h.once a b e e' (key _ _ ha) (key _ _ hb),
      fun j e hj => h.text j e (key j e hj)⟩
  | move a b e _ hab ha hb =>
    have key : ∀ j x, ((f.put a none).put b (some e)).place j = some x → (j = b ∧ x = e) ∨ (j ≠ b ∧ j ≠ a ∧ f.place j = some x) :=
      fun j x hj => by
        by_cases hk : j = b
        · subst hk; rw [put_same] at hj; cases hj; exact .inl ⟨rfl, rfl⟩
        · rw [put_other _ _ hk] at hj
          by_cases hk' : j = a
          · subst hk'; rw [put_same] at hj; cases hj
          · rw [put_other _ _ hk'] at hj; exact .inr ⟨hk, hk', hj⟩
    refine ⟨fun j x hj => ?_, fun i j x y hi hj hxy => ?_, fun j x hj => ?_⟩
    · rcases key j x hj with ⟨_, rfl⟩ | ⟨_, _, h1⟩
      · exact h.old a x ha
      · exact h.old j x h1
    · rcases key i x hi with ⟨rfl, rfl⟩ | ⟨h1, h2, h3⟩ <;> rcases key j y hj with ⟨rfl, rfl⟩ | ⟨h4, h5, h6⟩
      · rfl
      · exact absurd (h.once a j x y ha h6 hxy).symm h5
      · exact absurd (h.once i a x y h3 ha hxy) h2
      · exact h.once i j x y h3 h6 hxy
    · rcases key j x hj with ⟨_, rfl⟩ | ⟨_, _, h1⟩
      · exact h.text a x ha
      · exact h.text j x h1
  | begin k t =>
    have key : ∀ j x, (f.put k (some ⟨f.next, t, []⟩)).place j = some x →
        (j = k ∧ x = ⟨f.next, t, []⟩) ∨ (j ≠ k ∧ f.place j = some x) := fun j x hj => by
      by_cases hk : j = k
      · subst hk; rw [put_same] at hj; cases hj; exact .inl ⟨rfl, rfl⟩
      · rw [put_other _ _ hk] at hj; exact .inr ⟨hk, hj⟩
    refine ⟨fun j x hj => ?_, fun i j x y hi hj hxy => ?_, fun j x hj => ?_⟩
    · rcases key j x hj with ⟨_, rfl⟩ | ⟨_, h1⟩
      · exact Nat.lt_succ_self _
      · exact Nat.lt_succ_of_lt (h.old j x h1)
    · rcases key i x hi with ⟨rfl, rfl⟩ | ⟨h1, h3⟩ <;> rcases key j y hj with ⟨rfl, rfl⟩ | ⟨h4, h6⟩
      · rfl
      · exact absurd hxy (Nat.ne_of_gt (h.old j y h6))
      · exact absurd hxy (Nat.ne_of_lt (h.old i x h3))
      · exact h.once i j x y h3 h6 hxy
    · rcases key j x hj with ⟨_, rfl⟩ | ⟨_, h1⟩
      · exact List.nil_prefix
      · exact h.text j x h1
  | extend k e c hk _ _ hp =>
    have key : ∀ j x, (f.put k (some { e with text := e.text ++ [c] })).place j = some x →
        (j = k ∧ x = { e with text := e.text ++ [c] }) ∨ (j ≠ k ∧ f.place j = some x) := fun j x hj => by
      by_cases hk : j = k
      · subst hk; rw [put_same] at hj; cases hj; exact .inl ⟨rfl, rfl⟩
      · rw [put_other _ _ hk] at hj; exact .inr ⟨hk, hj⟩
    refine ⟨fun j x hj => ?_, fun i j x y hi hj hxy => ?_, fun j x hj => ?_⟩
    · rcases key j x hj with ⟨_, rfl⟩ | ⟨_, h1⟩
      · exact h.old k e hk
      · exact h.old j x h1
    · rcases key i x hi with ⟨rfl, rfl⟩ | ⟨h1, h3⟩ <;> rcases key j y hj with ⟨rfl, rfl⟩ | ⟨h4, h6⟩
      · rfl
      · exact h.once i j e y hk h6 hxy
      · exact h.once i j x e h3 hk hxy
      · exact h.once i j x y h3 h6 hxy
    · rcases key j x hj with ⟨_, rfl⟩ | ⟨_, h1⟩
      · exact hp
      · exact h.text j x h1

theorem InOrder.turn {m : Nat} {Goal : PyStr → Prop} {clears : Prop} {f f' : Shelf} (hg : f.Good) (h : f.InOrder)
    (hs : f.Turn m Goal clears f') : f'.InOrder := by
  cases hs with
  | clear gone =>
    have key : ∀ j e, (if gone j then none else f.place j) = some e → f.place j = some e := fun j e hj => by
      split at hj
      · cases hj
      · exact hj
    exact fun a b e e' hab ha hb => h a b e e' hab (key _ _ ha) (key _ _ hb)
  | drop k =>
    have key : ∀ j e, (f.put k none).place j = some e → f.place j = some e := fun j e hj => by
      by_cases hk : j = k
      · subst hk; rw [put_same] at hj; cases hj
      · rwa [put_other _ _ hk] at hj
    exact fun a b e e' hab ha hb => h a b e e' hab (key _ _ ha) (key _ _ hb)
  | move a e _ _ ha hb =>
    have key : ∀ j x, ((f.put a none).put (a + 1) (some e)).place j = some x →
        (j = a + 1 ∧ x = e) ∨ (j ≠ a + 1 ∧ j ≠ a ∧ f.place j = some x) := fun j x hj => by
      by_cases hk : j = a + 1
      · subst hk; rw [put_same] at hj; cases hj; exact .inl ⟨rfl, rfl⟩
      · rw [put_other _ _ hk] at hj
        by_cases hk' : j = a
        · subst hk'; rw [put_same] at hj; cases hj
        · rw [put_other _ _ hk'] at hj; exact .inr ⟨hk, hk', hj⟩
    intro i j x y hij hi hj
    rcases key i x hi with ⟨rfl, rfl⟩ | ⟨h1, h2, h3⟩ <;> rcases key j y hj with ⟨rfl, rfl⟩ | ⟨h4, h5, h6⟩
    · omega
    · exact h a j x y (by omega) ha h6
    · exact h i a x y (by omega) h3 ha
    · exact h i j x y hij h3 h6
  | begin t =>
    intro i j x y hij hi hj
    have hj' : f.place j = some y := by
      have := put_other f (k := 0) (some ⟨f.next, t, []⟩) (show j ≠ 0 by omega)
      exact this ▸ hj
    by_cases h0 : i = 0
    · subst h0
      have : some x = some ⟨f.next, t, []⟩ := hi.symm.trans (put_same f 0 _)
      cases this
      exact hg.old j y hj'
    · have hi' : f.place i = some x := by
        have := put_other f (k := 0) (some ⟨f.next, t, []⟩) h0
        exact this ▸ hi
      exact h i j x y hij hi' hj'
  | extend e c h0 =>
    intro i j x y hij hi hj
    rw [put_other _ _ (show j ≠ 0 by omega)] at hj
    by_cases hi0 : i = 0
    · subst hi0
      rw [put_same] at hi
      cases hi
      exact h 0 j e y hij h0 hj
    · rw [put_other _ _ hi0] at hi
      exact h i j x y hij hi hj

theorem Kept.refl (m : Nat) (f : Shelf) : f.Kept m f := fun k e he _ => ⟨k, e, he, rfl, rfl, List.prefix_rfl⟩

/-- Entries in order in the places `0, …, n` have serial numbers at least `n` apart. -/
theorem InOrder.apart {f : Shelf} (h : f.InOrder) : ∀ (n : Nat) (e e0 : Entry), (∀ j, j ≤ n → f.place j ≠ none) →
    f.place n = some e → f.place 0 = some e0 → e.serial + n ≤ e0.serial
  | 0, e, e0, _, h1, h2 => by rw [h1] at h2; cases h2; omega
  | n + 1, e, e0, hf, h1, h2 => by
    obtain ⟨e', he'⟩ := Option.ne_none_iff_exists'.1 (hf n (by omega))
    have h3 := h n (n + 1) e' e (by omega) he' h1
    have := h.apart n e' e0 (fun j hj => hf j (by omega)) he' h2
    omega

theorem Kept.turn {m : Nat} {Goal : PyStr → Prop} {f f' : Shelf} (hg : f.Good) (ho : f.InOrder) (h : f.Turn m Goal False f') :
    f.Kept m f' := by
  intro k e he hn
  cases h with
  | clear _ h => exact h.elim
  | drop d _ hd hf =>
    by_cases hk : k = d
    · subst hk
      exfalso
      obtain ⟨e0, he0⟩ := Option.ne_none_iff_exists'.1 (hf 0 (by omega))
      have h1 := ho.apart k e e0 hf he he0
      have h2 := hg.old 0 e0 he0
      have h3 : f.next < e.serial + m := hn
      omega
    · exact ⟨k, e, (put_other _ _ hk).trans he, rfl, rfl, List.prefix_rfl⟩
  | move a e' _ _ ha hb =>
    by_cases hk : k = a
    · subst hk
      rw [ha] at he
      cases he
      exact ⟨k + 1, e, put_same .., rfl, rfl, List.prefix_rfl⟩
    · have hk' : k ≠ a + 1 := fun e => by subst e; rw [hb] at he; cases he
      exact ⟨k, e, (put_other _ _ hk').trans ((put_other _ _ hk).trans he), rfl, rfl, List.prefix_rfl⟩
  | begin t _ h0 =>
    have h3 : f.next + 1 < e.serial + m := hn
    by_cases hk : k = 0
    · subst hk
      rcases h0 with h0 | h0
      · rw [h0] at he; cases he
      · have := hg.old 0 e he
        omega
    · exact ⟨k, e, (put_other f _ hk).trans he, rfl, rfl, List.prefix_rfl⟩
  | extend e' c h0 =>
    by_cases hk : k = 0
    · subst hk
      rw [h0] at he
      cases he
      exact ⟨0, _, put_same .., rfl, rfl, List.prefix_append _ _⟩
    · exact ⟨k, e, (put_other _ _ hk).trans he, rfl, rfl, List.prefix_rfl⟩

end Spec.Shelf

/-! ## The guards -/

/-- The name of the file lock. -/
def lockOf (name : PyStr) : PyStr := name ++ lit ".lock"

/-- The files are what the shelf says. -/
def OnShelf (name : PyStr) (f : Shelf) (s : FS) : Prop :=
  ∀ k, s (name ++ lit "-" ++ dec k ++ lit ".log") = (f.place k).map (·.text)

/-- What is known besides: the contents of a temporary file, and which other files there are whose names are like those of records. -/
structure Side where
  tmp : Option PyStr
  more : PyStr → Bool

/-- Such files are there as `more` says. -/
def Beside (name : PyStr) (more : PyStr → Bool) (s : FS) : Prop :=
  ∀ mid, (∀ k, mid ≠ dec k) → (s (name ++ lit "-" ++ mid ++ lit ".log")).isSome = more mid

/-- What a ghost says about the files of the buffers with the name `name`. -/
def OkOf (name l : PyStr) (g : Shelf × Side) (s : FS) : Prop :=
  (l = lockOf name → OnShelf name g.1 s ∧ Beside name g.2.more s) ∧
    ∀ t, l = name ++ lit "-" ++ t ++ lit ".lock" → s (name ++ lit "-" ++ t ++ lit ".tmp") = g.2.tmp

/-- The ghosts that can occur; `one`: the records are to be in order. -/
def GoodOf (name : PyStr) (one : Prop) (l : PyStr) (g : Shelf × Side) : Prop :=
  (l = lockOf name → g.1.Good ∧ (one → g.1.InOrder)) ∧ (l ≠ lockOf name → NoBreak (g.2.tmp.getD []))

/-- The guards of the files of the buffers with the names in `fam`. -/
def fileGuards (fam : PyStr → Prop) (one : Prop) : Guards FS PyStr (Shelf × Side) where
  Ok l g s := ∀ name, fam name → OkOf name l g s
  I l g := ∀ name, fam name → GoodOf name one l g
  E _ _ _ := True

/-- What a writer may do with the shelf. -/
def fileEff (name : PyStr) (one : Prop) (m : Nat) (Goal : PyStr → Prop) (clears : Prop) :
    PyStr → Shelf × Side → Shelf × Side → Prop :=
  fun l g g' => g'.1 = g.1 ∨ (l = lockOf name ∧ g.1.Step Goal clears g'.1 ∧ (one → g.1.Turn m Goal clears g'.1))

/-- What a buffer's call respects. -/
abbrev bufGuards (fam : PyStr → Prop) (b : FileBuf) (one : Prop) (Goal : PyStr → Prop) (clears : Prop) : Guards FS PyStr (Shelf × Side) :=
  (fileGuards fam one).with (fileEff b.name one b.maxlen Goal clears)

namespace FileBuf
variable {b : FileBuf} {fam : PyStr → Prop} {one : Prop} {Goal : PyStr → Prop} {clears : Prop} {α β : Type}

/-- The name is in the family, and none in it is made of another one, a `-` and more. -/
class Named (fam : PyStr → Prop) (b : FileBuf) : Prop where
  mem : fam b.name
  apart : Unrelated fam

theorem tmpLock_ne_lockOf (b : FileBuf) : b.tmpLockName ≠ lockOf b.name := by
  intro h
  have := congrArg List.length h
  simp only [tmpLockName, lockOf, List.length_append] at this
  have h1 : (lit "-").length = 1 := rfl
  omega

theorem tmpLock_inj {name t t' : PyStr} (h : name ++ lit "-" ++ t ++ lit ".lock" = name ++ lit "-" ++ t' ++ lit ".lock") : t = t' := by
  simpa using h

theorem midLog_ne_tmp {mid : PyStr} (h : b.name ++ lit "-" ++ mid ++ lit ".log" = b.tmpName) : False := by
  rw [tmpName_eq] at h
  exact suffix_ne h

theorem midLog_inj {mid : PyStr} {k : Nat} (h : b.name ++ lit "-" ++ mid ++ lit ".log" = b.logName k) : mid = dec k := by
  simpa [logName] using h

abbrev FGhost := Shelf × Side

/-- Only the lock `l` is held. -/
def only (l : PyStr) (w : Bool) (g : FGhost) : Holding PyStr FGhost := Holding.empty.set l (some (w, g))

theorem only_same (l : PyStr) (w : Bool) (g : FGhost) : only l w g l = some (w, g) := Holding.set_same ..
theorem only_set (l : PyStr) (w : Bool) (g : FGhost) (x) : (only l w g).set l (some (w, x)) = only l w x := Holding.set_set ..
theorem only_none (l : PyStr) (w : Bool) (g : FGhost) : (only l w g).set l none = Holding.empty := by
  rw [only, Holding.set_set]; exact Holding.set_id' rfl

/-- A program that begins and ends with no lock held. -/
def Outer (P : Guards FS PyStr FGhost) (p : FProg α) (Q : Except Exc α → List (PyStr × FGhost) → Prop)
    (seen : List (PyStr × FGhost)) : Prop := p.Under P (fun r h seen => h = .empty ∧ Q r seen) .empty seen

variable {P : Guards FS PyStr FGhost} {seen : List (PyStr × FGhost)}

theorem Outer.mono {p : FProg α} {Q Q' : Except Exc α → List (PyStr × FGhost) → Prop} (hp : Outer P p Q seen)
    (hQ : ∀ r s, Q r s → Q' r s) : Outer P p Q' seen := Prog.Under.mono hp fun r _ s h => ⟨h.1, hQ r s h.2⟩

theorem Outer.ret {a : α} {Q : Except Exc α → List (PyStr × FGhost) → Prop} (h : Q (.ok a) seen) :
    Outer P (.ret a) Q seen := ⟨rfl, h⟩
theorem Outer.pure {a : α} {Q : Except Exc α → List (PyStr × FGhost) → Prop} (h : Q (.ok a) seen) :
    Outer P (Pure.pure a) Q seen := ⟨rfl, h⟩
theorem Outer.raise {e : Exc} {Q : Except Exc α → List (PyStr × FGhost) → Prop} (h : Q (.error e) seen) :
    Outer P (.raise e) Q seen := ⟨rfl, h⟩

theorem Outer.bind {p : FProg α} {k : α → FProg β} {Q : Except Exc α → List (PyStr × FGhost) → Prop}
    {Q' : Except Exc β → List (PyStr × FGhost) → Prop} (hp : Outer P p Q seen)
    (hk : ∀ a s, Q (.ok a) s → Outer P (k a) Q' s) (he : ∀ e s, Q (.error e) s → Q' (.error e) s) : Outer P (p >>= k) Q' seen := by
  refine Prog.Under.bind (Prog.Under.mono hp fun r h s ⟨h1, h2⟩ => ?_)
  subst h1
  cases r with
  | ok a => exact hk a s h2
  | error e => exact ⟨rfl, he e s h2⟩

theorem Outer.outcome {p : FProg α} {Q : Except Exc (Except Exc α) → List (PyStr × FGhost) → Prop}
    (hp : Outer P p (fun r s => Q (.ok r) s) seen) : Outer P p.outcome Q seen := Prog.Under.outcome hp

/-- A section. -/
theorem Outer.withLock {p : FProg α} {l : PyStr} {w : Bool} {Q : Except Exc α → List (PyStr × FGhost) → Prop}
    (hp : ∀ g, P.I l g → p.Under P (fun r h s => ∃ g, h = only l w g ∧ Q r ((l, g) :: s)) (only l w g) ((l, g) :: seen)) :
    Outer P (Prog.withLock l w p) Q seen := by
  refine Prog.Under.withLock rfl fun g hg => Prog.Under.mono (hp g hg) fun r h s ⟨g', h1, h2⟩ => ?_
  subst h1
  exact ⟨g', only_same .., only_none .., h2⟩

/-- What was seen remains seen. -/
theorem Outer.remembers {p : FProg α} {Q : Except Exc α → List (PyStr × FGhost) → Prop} (hp : Outer P p Q seen) :
    Outer P p (fun r s => Q r s ∧ ∀ x ∈ seen, x ∈ s) seen :=
  Prog.Under.mono (Prog.Under.remembers hp) fun _ _ _ h => ⟨h.1.1, h.1.2, h.2⟩

/-! ## Steps -/

/-- The files that a buffer with this name can touch. -/
def Own (b : FileBuf) (n : PyStr) : Prop :=
  ∃ x, n = b.name ++ lit "-" ++ x ++ lit ".log" ∨ n = b.name ++ lit "-" ++ x ++ lit ".tmp"

theorem cut_eq {N N' x x' : PyStr} (hu : Unrelated fam) (h1 : fam N) (h2 : fam N')
    (h : N ++ lit "-" ++ x = N' ++ lit "-" ++ x') : N = N' := by
  have key : ∀ {N N' x x' : PyStr}, fam N → fam N' → N.length ≤ N'.length → N ++ lit "-" ++ x = N' ++ lit "-" ++ x' → N = N' := by
    intro N N' x x' h1 h2 hl h
    rw [List.append_assoc, List.append_assoc] at h
    obtain ⟨u, rfl⟩ : N <+: N' := List.prefix_of_prefix_length_le (List.prefix_append N _) (h.symm ▸ List.prefix_append N' _) hl
    rw [List.append_assoc] at h
    have h := List.append_cancel_left h
    cases u with
    | nil => simp
    | cons c u =>
      have h3 : c = 45 ∧ x = u ++ (lit "-" ++ x') := by
        have : 45 :: x = c :: (u ++ (lit "-" ++ x')) := h
        simpa [eq_comm] using this
      rw [h3.1] at h2 ⊢
      exact absurd (by rw [List.append_assoc]; rfl) (hu N (N ++ 45 :: u) h1 h2 u)
  rcases Nat.le_total N.length N'.length with hl | hl
  · exact key h1 h2 hl h
  · exact (key h2 h1 hl h.symm).symm

/-- The files of another name are not touched. -/
theorem not_own [hN : Named fam b] {N x : PyStr} (h : fam N) (hne : N ≠ b.name) :
    ¬ Own b (N ++ lit "-" ++ x ++ lit ".log") ∧ ¬ Own b (N ++ lit "-" ++ x ++ lit ".tmp") := by
  refine ⟨?_, ?_⟩ <;> rintro ⟨y, h1 | h1⟩
  · exact hne (cut_eq hN.apart h hN.mem (List.append_cancel_right h1))
  · exact suffix_ne h1
  · exact suffix_ne h1.symm
  · exact hne (cut_eq hN.apart h hN.mem (List.append_cancel_right h1))

theorem lock_other [hN : Named fam b] {N : PyStr} (h : fam N) (hne : N ≠ b.name) (g : FGhost) (s : FS) : OkOf N b.lockName g s := by
  refine ⟨fun e => absurd (List.append_cancel_right e).symm hne, fun t e => ?_⟩
  exact absurd (List.append_cancel_right e) (hN.apart N b.name h hN.mem t)

theorem tmpLock_other [hN : Named fam b] {N : PyStr} (h : fam N) (hne : N ≠ b.name) (g : FGhost) (s : FS) : OkOf N b.tmpLockName g s := by
  refine ⟨fun e => ?_, fun t e => ?_⟩
  · exact absurd (List.append_cancel_right e).symm (hN.apart b.name N hN.mem h b.tmpId)
  · exact absurd (cut_eq hN.apart h hN.mem (List.append_cancel_right e).symm) hne

theorem tmpLock_ne_other [hN : Named fam b] {N : PyStr} (h : fam N) : b.tmpLockName ≠ lockOf N := fun e =>
  absurd (List.append_cancel_right e).symm (hN.apart b.name N hN.mem h b.tmpId)

/-- A step of who holds the lock `l` of the buffer for writing. -/
theorem under_change [hN : Named fam b] {Q : Except Exc α → Holding PyStr FGhost → List (PyStr × FGhost) → Prop} {F : FS → FS} {k : FS → FProg α}
    {g : FGhost} {l : PyStr} (hl : ∀ N, fam N → N ≠ b.name → ∀ g s, OkOf N l g s) (hF : ∀ s n, ¬ Own b n → F s n = s n)
    (hf : ∀ s l' g', l' ≠ l → OkOf b.name l' g' s → OkOf b.name l' g' (F s))
    (hk : ∀ s, GoodOf b.name one l g → OkOf b.name l g s → ∃ g', fileEff b.name one b.maxlen Goal clears l g g' ∧ GoodOf b.name one l g' ∧
      (∀ N, fam N → N ≠ b.name → GoodOf N one l g → GoodOf N one l g') ∧ OkOf b.name l g' (F s) ∧
      (k s).Under (bufGuards fam b one Goal clears) Q (only l true g') seen) :
    (Prog.act F k).Under (bufGuards fam b one Goal clears) Q (only l true g) seen := by
  refine Prog.Under.change (only_same ..) (fun s l' g' hne ho N h => ?_) fun s hI hO => ?_
  · by_cases e : N = b.name
    · subst e; exact hf s l' g' hne (ho _ h)
    · refine ⟨fun e' => ⟨fun j => ?_, fun mid hm => ?_⟩, fun t e' => ?_⟩
      · exact (hF _ _ (not_own h e).1).trans (((ho N h).1 e').1 j)
      · rw [hF _ _ (not_own h e).1]; exact ((ho N h).1 e').2 mid hm
      · exact (hF _ _ (not_own h e).2).trans ((ho N h).2 t e')
  · obtain ⟨g', h1, h2, h3, h4, h5⟩ := hk s (hI _ hN.mem) (hO _ hN.mem)
    refine ⟨g', h1, fun N h => ?_, fun N h => ?_, by rw [only_set]; exact h5⟩
    · by_cases e : N = b.name
      · subst e; exact h2
      · exact h3 N h e (hI N h)
    · by_cases e : N = b.name
      · subst e; exact h4
      · exact hl N h e _ _

/-! ## Steps on the record files -/

theorem OnShelf.log {f : Shelf} {s : FS} (h : OnShelf b.name f s) (k : Nat) : s (b.logName k) = (f.place k).map (·.text) := h k

/-- A change of the record files by who holds the lock for writing. -/
theorem under_records [hN : Named fam b] {Q : Except Exc α → Holding PyStr FGhost → List (PyStr × FGhost) → Prop} {F : FS → FS} {k : FS → FProg α}
    {g : FGhost} (hF : ∀ s n, (∀ k, n ≠ b.logName k) → F s n = s n)
    (hk : ∀ s, OnShelf b.name g.1 s → ∃ f, g.1.Step Goal clears f ∧ (one → g.1.Turn b.maxlen Goal clears f) ∧ OnShelf b.name f (F s) ∧
      (k s).Under (bufGuards fam b one Goal clears) Q (only b.lockName true (f, g.2)) seen) :
    (Prog.act F k).Under (bufGuards fam b one Goal clears) Q (only b.lockName true g) seen := by
  refine under_change (fun N h hne g s => lock_other h hne g s) (fun s n hn => hF s n fun k e => hn ⟨dec k, .inl e⟩)
    (fun s l' g' hne ho => ⟨fun e => absurd e hne, fun t e => ?_⟩) fun s hI hO => ?_
  · exact (hF _ _ fun k e => logName_ne_tmpName b { b with tmpId := t } k e.symm).trans (ho.2 t e)
  · obtain ⟨f, h1, h2, h3, h4⟩ := hk s (hO.1 rfl).1
    refine ⟨(f, g.2), .inr ⟨rfl, h1, h2⟩, ⟨fun _ => ⟨(hI.1 rfl).1.step h1, fun ho => ?_⟩, fun h => absurd rfl h⟩,
      fun N _ hne h => ⟨fun e => absurd (List.append_cancel_right e).symm hne, h.2⟩,
      ⟨fun _ => ⟨h3, fun mid hm => ?_⟩, fun t e => ?_⟩, h4⟩
    · exact ((hI.1 rfl).2 ho).turn (hI.1 rfl).1 (h2 ho)
    · rw [hF _ _ fun k e => hm k (midLog_inj e)]
      exact (hO.1 rfl).2 mid hm
    · exact absurd (show ({ b with tmpId := t } : FileBuf).tmpLockName = lockOf b.name from e.symm) (tmpLock_ne_lockOf _)

/-- Looking at the record files. -/
theorem under_look [hN : Named fam b] {Q : Except Exc α → Holding PyStr FGhost → List (PyStr × FGhost) → Prop} {k : FS → FProg α} {w : Bool}
    {g : FGhost} (hk : ∀ s, OnShelf b.name g.1 s → (k s).Under (bufGuards fam b one Goal clears) Q (only b.lockName w g) seen) :
    (Prog.act id k).Under (bufGuards fam b one Goal clears) Q (only b.lockName w g) seen :=
  Prog.Under.look fun s hs => hk s (((hs b.lockName w g (only_same ..)).2 b.name hN.mem).1 rfl).1

theorem onShelf_put {f : Shelf} {s : FS} (h : OnShelf b.name f s) (k : Nat) (e : Option Entry) :
    OnShelf b.name (f.put k e) (s.set (b.logName k) (e.map (·.text))) := by
  intro j
  by_cases hj : j = k
  · subst hj; rw [Shelf.put_same]; exact FS.set_same ..
  · rw [Shelf.put_other _ _ hj]
    exact (FS.set_other _ _ (fun e => hj (logName_inj.1 (show b.logName j = b.logName k from e)))).trans (h j)

theorem set_log_other {s : FS} {k : Nat} {v : Option PyStr} {n : PyStr} (h : ∀ k, n ≠ b.logName k) : (s.set (b.logName k) v) n = s n :=
  FS.set_other _ _ (h k)

theorem under_moveLoop [hN : Named fam b] (hG : ∃ t, Goal t) {n : Nat} (hn : 1 ≤ n) (x : Side) :
    ∀ (j : Nat) (f : Shelf), (∀ k, k < j → f.place k ≠ none) →
      (one → n = 1 ∧ j < b.maxlen ∧ (f.place j = none ∨ (j + 1 = b.maxlen ∧ ∀ k, k ≤ j → f.place k ≠ none))) →
      (moveLoop b n j).Under (bufGuards fam b one Goal clears)
        (fun r h s => s = seen ∧ r = .ok () ∧ ∃ f', h = only b.lockName true (f', x) ∧ (one → f'.place 0 = none ∨ b.maxlen = 1))
        (only b.lockName true (f, x)) seen
  | 0, f, _, ho => ⟨rfl, rfl, f, rfl, fun h => by
      rcases (ho h).2.2 with h1 | h1
      · exact .inl h1
      · exact .inr (by omega)⟩
  | j + 1, f, hj, ho => by
    rw [moveLoop]
    refine Prog.Under.bind (under_look fun s hs => ?_)
    have hlog := OnShelf.log hs (j + n)
    -- the renaming, when the target is free
    have ren : ∀ f0 : Shelf, (∀ k, k < j + 1 → f0.place k ≠ none) → f0.place (j + n) = none →
        (one → n = 1 ∧ j + 1 < b.maxlen) →
        (do
          File.rename (b.logName j) (b.logName (j + n))
          moveLoop b n j : FProg Unit).Under (bufGuards fam b one Goal clears)
        (fun r h s => s = seen ∧ r = .ok () ∧ ∃ f', h = only b.lockName true (f', x) ∧ (one → f'.place 0 = none ∨ b.maxlen = 1))
        (only b.lockName true (f0, x)) seen := by
      intro f0 h0 h1 h2
      obtain ⟨e, he⟩ := Option.ne_none_iff_exists'.1 (h0 j (Nat.lt_succ_self j))
      refine Prog.Under.bind (under_records (fun s a hn => ?_) fun s hs => ?_)
      · show (match s (b.logName j) with
          | none => s
          | some c => (s.set (b.logName j) none).set (b.logName (j + n)) (some c)) _ = _
        cases s (b.logName j) with
        | none => rfl
        | some c => exact (set_log_other hn).trans (set_log_other hn)
      · have hsj : s (b.logName j) = some e.text := by rw [OnShelf.log hs j, he]; rfl
        refine ⟨(f0.put j none).put (j + n) (some e), .move j (j + n) e hG (by omega) he h1, fun hone => ?_, ?_, ?_⟩
        · obtain ⟨rfl, hm⟩ := h2 hone
          exact .move j e hG hm he h1
        · rw [hsj]
          exact onShelf_put (onShelf_put hs j none) (j + n) (some e)
        · rw [hsj, Option.isSome_some, if_pos rfl]
          refine under_moveLoop hG hn x j _ (fun k hk => ?_) fun hone => ?_
          · rw [Shelf.put_other _ _ (by omega), Shelf.put_other _ _ (by omega)]
            exact h0 k (by omega)
          · refine ⟨(h2 hone).1, by have := (h2 hone).2; omega, .inl ?_⟩
            rw [Shelf.put_other _ _ (by have := (h2 hone).1; omega), Shelf.put_same]
    show Prog.Under _ _ (if (s (b.logName (j + n))).isSome = true then _ else _) _ _
    by_cases hp : f.place (j + n) = none
    · rw [hlog, hp]
      exact ren f (fun k hk => hj k (by omega)) hp fun h => ⟨(ho h).1, (ho h).2.1⟩
    · obtain ⟨e, he⟩ := Option.ne_none_iff_exists'.1 hp
      rw [hlog, he, Option.map_some, Option.isSome_some, if_pos rfl]
      refine Prog.Under.bind (under_records (fun s n hn => set_log_other hn) fun s hs => ?_)
      refine ⟨f.put (j + n) none, .drop (j + n) hG, fun hone => ?_, onShelf_put hs (j + n) none, ?_⟩
      · obtain ⟨rfl, h1, h2⟩ := ho hone
        rcases h2 with h2 | ⟨h2, h3⟩
        · exact absurd h2 hp
        · exact .drop (j + 1) hG h2 h3
      · rw [OnShelf.log hs (j + n), he, Option.map_some, Option.isSome_some, if_pos rfl]
        refine ren _ (fun k hk => ?_) (Shelf.put_same ..) fun h => ⟨(ho h).1, (ho h).2.1⟩
        rw [Shelf.put_other _ _ (by omega)]
        exact hj k (by omega)

theorem under_appendChars [hN : Named fam b] (x : Side) (k : Nat) (hone : one → k = 0) :
    ∀ (t : PyStr) (f : Shelf) (e : Entry), f.place k = some e → e.serial + 1 = f.next → Goal e.goal → e.text ++ t = e.goal →
      (File.appendChars (b.logName k) t).Under (bufGuards fam b one Goal clears)
        (fun r h s => s = seen ∧ r = .ok () ∧ ∃ f', h = only b.lockName true (f', x) ∧
          f'.place k = some { e with text := e.goal } ∧ ∀ j, j ≠ k → f'.place j = f.place j) (only b.lockName true (f, x)) seen
  | [], f, e, he, _, _, ht => ⟨rfl, rfl, f, rfl, he.trans (by cases e; simp at ht; simp [ht]), fun _ _ => rfl⟩
  | c :: t, f, e, he, hs, hg, ht => by
    have hp : e.text ++ [c] <+: e.goal := ⟨t, by rw [← ht]; simp⟩
    refine under_records (fun s n hn => set_log_other hn) fun s ho => ?_
    refine ⟨f.put k (some { e with text := e.text ++ [c] }), .extend k e c he hs hg hp, fun h => ?_, ?_, ?_⟩
    · obtain rfl := hone h
      exact .extend e c he hs hg hp
    · rw [OnShelf.log ho k, he]
      exact onShelf_put ho k (some { e with text := e.text ++ [c] })
    · refine (under_appendChars x k hone t _ { e with text := e.text ++ [c] } (Shelf.put_same ..) hs hg ?_).mono ?_
      · rw [← ht]; simp
      · rintro r h s ⟨h1, h2, f', h3, h4, h5⟩
        exact ⟨h1, h2, f', h3, h4, fun j hj => (h5 j hj).trans (Shelf.put_other _ _ hj)⟩

theorem under_writeLoop [hN : Named fam b] (env : FEnv) (x : Side) :
    ∀ (ls : List PyStr) (f : Shelf), (∀ t ∈ ls, Goal (writeNewlines env.crlf t)) →
      (one → ls.length ≤ 1 ∧ (ls ≠ [] → f.place 0 = none ∨ b.maxlen = 1)) →
      (writeLoop env b ls).Under (bufGuards fam b one Goal clears)
        (fun r h s => s = seen ∧ ∃ f', h = only b.lockName true (f', x) ∧ (∀ j, ls.length ≤ j → f'.place j = f.place j) ∧
          ((r = .ok () ∧ f'.Holds env.crlf ls) ∨ r = .error .unicodeEncodeError))
        (only b.lockName true (f, x)) seen
  | [], f, _, _ => ⟨rfl, f, rfl, fun _ _ => rfl, .inl ⟨rfl, fun _ h => absurd h (by simp)⟩⟩
  | t :: ls, f, hG, ho => by
    rw [writeLoop]
    have hk : one → ls.length = 0 := fun h => by have := (ho h).1; simp at this; simp [this]
    refine Prog.Under.bind (under_records (fun s n hn => set_log_other hn) fun s hs => ?_)
    refine ⟨{ (f.put ls.length (some ⟨f.next, writeNewlines env.crlf t, []⟩)) with next := f.next + 1 },
      .begin _ _ (hG t (List.mem_cons_self ..)), fun h => ?_, onShelf_put hs ls.length (some ⟨f.next, _, []⟩), ?_⟩
    · rw [hk h]
      exact .begin _ (hG t (List.mem_cons_self ..)) ((ho h).2 (by simp))
    · show Prog.Under _ _ (File.writeText env _ t >>= fun _ => writeLoop env b ls) _ _
      rw [File.writeText]
      have hput : ∀ j, (t :: ls).length ≤ j →
          (f.put ls.length (some ⟨f.next, writeNewlines env.crlf t, []⟩)).place j = f.place j := fun j hj =>
        Shelf.put_other _ _ (by rw [List.length_cons] at hj; omega)
      split
      · refine Prog.Under.bind (Prog.Under.bind ((under_appendChars (seen := seen) x ls.length hk (writeNewlines env.crlf t)
          { (f.put ls.length (some ⟨f.next, writeNewlines env.crlf t, []⟩)) with next := f.next + 1 }
          ⟨f.next, writeNewlines env.crlf t, []⟩ (Shelf.put_same f ls.length _) rfl (hG t (List.mem_cons_self ..)) rfl).mono ?_))
        rintro r h s ⟨hseen, rfl, f', rfl, hp, hq⟩
        rw [hseen]
        refine (under_writeLoop env x ls f' (fun t ht => hG t (List.mem_cons_of_mem _ ht)) fun h => ?_).mono ?_
        · exact ⟨by rw [hk h]; omega, fun hne => absurd (List.length_eq_zero_iff.1 (hk h)) hne⟩
        · rintro r h s ⟨h1, f2, rfl, h2, h3⟩
          refine ⟨h1, f2, rfl, fun j hj => ?_, ?_⟩
          · have hj' : ls.length + 1 ≤ j := by simpa using hj
            rw [h2 j (by omega), hq j (by omega)]
            exact hput j hj
          · rcases h3 with ⟨rfl, h3⟩ | h3
            · refine .inl ⟨rfl, fun k hk => ?_⟩
              rw [List.length_cons] at hk
              by_cases hkl : k = ls.length
              · subst hkl
                exact ⟨_, t, (h2 _ (Nat.le_refl _)).trans hp, by simp, rfl, rfl⟩
              · obtain ⟨e, t', g1, g2, g3⟩ := h3 k (by omega)
                refine ⟨e, t', g1, ?_, g3⟩
                rw [List.length_cons, show ls.length + 1 - 1 - k = (ls.length - 1 - k) + 1 by omega, List.getElem?_cons_succ]
                exact g2
            · exact .inr h3
      · exact Prog.Under.bind ⟨rfl, _, rfl, hput, .inr rfl⟩

/-- What may be added. -/
structure Added (b : FileBuf) (env : FEnv) (one : Prop) (Goal : PyStr → Prop) (lines : List PyStr) : Prop where
  goal : ∀ t ∈ lines, Goal (writeNewlines env.crlf t)
  one : one → lines.length ≤ 1
  pos : 1 ≤ b.maxlen

/-- The shelf was seen with the last of the lines on it. -/
def Delivered (b : FileBuf) (env : FEnv) (lines : List PyStr) (seen : List (PyStr × FGhost)) : Prop :=
  ∃ g, (lockOf b.name, g) ∈ seen ∧ g.1.Holds env.crlf (lastN b.maxlen lines)

theorem outer_updateRecords [hN : Named fam b] {env : FEnv} {lines : List PyStr} (h : Added b env one Goal lines) :
    Outer (bufGuards fam b one Goal clears) (updateRecords env b lines) (fun r s => (r = .ok () ∧ Delivered b env lines s) ∨
      r = .error .unicodeEncodeError) seen := by
  refine Outer.withLock fun g _ => ?_
  by_cases hl : lines.length ≤ 0
  · rw [if_pos hl]
    refine ⟨g, rfl, .inl ⟨rfl, g, List.mem_cons_self .., fun k hk => ?_⟩⟩
    rw [lastN, List.length_drop] at hk
    omega
  rw [if_neg hl]
  dsimp only
  generalize hnew : (if lines.length ≥ b.maxlen then lines.drop (lines.length - b.maxlen) else lines) = new
  have hlast : lastN b.maxlen lines = new := by
    rw [← hnew, lastN]
    split
    · rfl
    · rw [show lines.length - b.maxlen = 0 by omega, List.drop_zero]
  have hmem : ∀ t ∈ new, t ∈ lines := fun t ht => by
    rw [← hnew] at ht
    split at ht
    · exact List.mem_of_mem_drop ht
    · exact ht
  have hpos := h.pos
  have hlen : 1 ≤ new.length ∧ new.length ≤ lines.length := by
    rw [← hnew]
    split
    · rw [List.length_drop]; omega
    · omega
  have hG : ∃ t, Goal t := by
    match lines, hl, h with
    | t :: _, _, h => exact ⟨_, h.goal t (List.mem_cons_self ..)⟩
  refine Prog.Under.bind (under_look fun s hs => ?_)
  rw [Prog.under_ret]
  dsimp only
  obtain ⟨hc1, hc2, hc3⟩ := countFrom_spec b (fun n => (s n).isSome) 0 b.maxlen
  generalize countFrom b (fun n => (s n).isSome) 0 b.maxlen = c at hc1 hc2 hc3 ⊢
  simp only [Nat.zero_add] at hc2 hc3
  have hfull : ∀ k, k < c → g.1.place k ≠ none := fun k hk e => by
    have := hc2 k hk
    rw [OnShelf.log hs k, e] at this
    cases this
  have hone : one → new.length = 1 := fun ho => by have := h.one ho; omega
  refine Prog.Under.bind ((under_moveLoop (b := b) hG hlen.1 g.2 (min c (b.maxlen - new.length)) g.1 (fun k hk => hfull k (by omega))
    fun ho => ⟨hone ho, by have := hone ho; omega, ?_⟩).mono ?_)
  · have h1 := hone ho
    by_cases hcm : c < b.maxlen
    · left
      have := hc3 hcm
      rw [OnShelf.log hs c] at this
      rw [show min c (b.maxlen - new.length) = c by omega]
      cases hp : g.1.place c with
      | none => rfl
      | some e => rw [hp] at this; cases this
    · right
      exact ⟨by omega, fun k hk => hfull k (by omega)⟩
  · rintro r h' s' ⟨_, rfl, f', rfl, hf'⟩
    refine (under_writeLoop (seen := s') env g.2 new f' (fun t ht => h.goal t (hmem t ht))
      fun ho => ⟨Nat.le_of_eq (hone ho), fun _ => hf' ho⟩).mono ?_
    rintro r h' s' ⟨_, f', rfl, _, h1⟩
    refine ⟨_, rfl, h1.imp (fun h1 => ⟨h1.1, _, List.mem_cons_self .., ?_⟩) id⟩
    rw [hlast]
    exact h1.2

/-! ## Steps on the temporary file -/

theorem under_tmp [hN : Named fam b] {Q : Except Exc α → Holding PyStr FGhost → List (PyStr × FGhost) → Prop} {F : FS → FS} {k : FS → FProg α}
    {g : FGhost} (hF : ∀ s n, n ≠ b.tmpName → F s n = s n)
    (hk : ∀ s, s b.tmpName = g.2.tmp → NoBreak (g.2.tmp.getD []) → NoBreak ((F s b.tmpName).getD []) ∧
      (k s).Under (bufGuards fam b one Goal clears) Q (only b.tmpLockName true (g.1, { g.2 with tmp := F s b.tmpName })) seen) :
    (Prog.act F k).Under (bufGuards fam b one Goal clears) Q (only b.tmpLockName true g) seen := by
  refine under_change (fun N h hne g s => tmpLock_other h hne g s) (fun s n hn => hF s n fun e => hn ⟨b.tmpId, .inr e⟩)
    (fun s l' g' hne ho => ⟨fun e => ⟨fun j => ?_, fun mid hm => ?_⟩, fun t e => ?_⟩) fun s hI hO => ?_
  · exact (hF _ _ (logName_ne_tmpName b b j)).trans ((ho.1 e).1 j)
  · rw [hF _ _ fun e' => midLog_ne_tmp e']; exact (ho.1 e).2 mid hm
  · refine (hF _ _ fun e' => hne ?_).trans (ho.2 t e)
    have : t = b.tmpId := by simpa [tmpName] using e'
    rw [e, this]; rfl
  · obtain ⟨h1, h2⟩ := hk s (hO.2 b.tmpId rfl) (hI.2 (tmpLock_ne_lockOf b))
    refine ⟨(g.1, { g.2 with tmp := F s b.tmpName }), .inl rfl, ⟨fun e => absurd e (tmpLock_ne_lockOf b), fun _ => h1⟩,
      fun N h _ _ => ⟨fun e => absurd e (tmpLock_ne_other h), fun _ => h1⟩,
      ⟨fun e => absurd e (tmpLock_ne_lockOf b), fun t e => ?_⟩, h2⟩
    rw [← tmpLock_inj (show b.name ++ lit "-" ++ b.tmpId ++ lit ".lock" = _ from e)]
    rfl

theorem under_tmpLook [hN : Named fam b] {Q : Except Exc α → Holding PyStr FGhost → List (PyStr × FGhost) → Prop} {k : FS → FProg α} {w : Bool}
    {g : FGhost} (hk : ∀ s, s b.tmpName = g.2.tmp → NoBreak (g.2.tmp.getD []) →
      (k s).Under (bufGuards fam b one Goal clears) Q (only b.tmpLockName w g) seen) :
    (Prog.act id k).Under (bufGuards fam b one Goal clears) Q (only b.tmpLockName w g) seen :=
  Prog.Under.look fun s hs => hk s (((hs b.tmpLockName w g (only_same ..)).2 b.name hN.mem).2 b.tmpId rfl)
    (((hs b.tmpLockName w g (only_same ..)).1 b.name hN.mem).2 (tmpLock_ne_lockOf b))

theorem outer_getLastLine [hN : Named fam b] : Outer (bufGuards fam b one Goal clears) (getLastLine b)
    (fun r _ => ∃ t, r = .ok t ∧ NoBreak t) seen := by
  refine Outer.withLock fun g _ => Prog.Under.bind (under_tmpLook fun s hs hb => ?_)
  show Prog.Under _ _ (if (s b.tmpName).isSome = true then _ else _) _ _
  split
  · refine under_tmpLook fun s' hs' hb' => ?_
    rw [hs'.trans hs.symm]
    rename_i h
    obtain ⟨t, ht⟩ := Option.isSome_iff_exists.1 h
    rw [ht]
    rw [← hs, ht, Option.getD_some] at hb
    exact ⟨g, rfl, _, rfl, by rw [univNewlines_noBreak hb]; exact hb⟩
  · exact ⟨g, rfl, [], rfl, noBreak_nil⟩

theorem outer_cleanLastLine [hN : Named fam b] : Outer (bufGuards fam b one Goal clears) (cleanLastLine b) (fun r _ => r = .ok ()) seen := by
  refine Outer.withLock fun g _ => under_tmp (fun s n hn => FS.set_other _ _ hn) fun s _ _ => ?_
  exact ⟨by rw [FS.set_same]; exact noBreak_nil, _, rfl, rfl⟩

theorem under_tmpAppend [hN : Named fam b] :
    ∀ (t : PyStr) (g : FGhost), NoBreak t → (File.appendChars b.tmpName t).Under (bufGuards fam b one Goal clears)
        (fun r h s => s = seen ∧ r = .ok () ∧ ∃ g', h = only b.tmpLockName true g') (only b.tmpLockName true g) seen
  | [], g, _ => ⟨rfl, rfl, g, rfl⟩
  | c :: t, g, ht => by
    refine under_tmp (fun s n hn => FS.set_other _ _ hn) fun s hs hb => ?_
    refine ⟨?_, under_tmpAppend t _ (noBreak_cons.1 ht).2⟩
    rw [FS.set_same, Option.getD_some, hs]
    exact noBreak_append.2 ⟨hb, noBreak_singleton.2 (noBreak_cons.1 ht).1⟩

theorem outer_writeLastLine [hN : Named fam b] {env : FEnv} {line : PyStr} (hl : NoBreak line) :
    Outer (bufGuards fam b one Goal clears) (writeLastLine env b line)
      (fun r _ => (∃ n, r = .ok n) ∨ r = .error .unicodeEncodeError) seen := by
  refine Outer.withLock fun g _ => Prog.Under.bind (under_tmp (fun s n hn => ?_) fun s hs hb => ?_)
  · show (if (s b.tmpName).isSome then s else s.set b.tmpName (some [])) n = s n
    split
    · rfl
    · exact FS.set_other _ _ hn
  · refine ⟨?_, ?_⟩
    · show NoBreak (((if (s b.tmpName).isSome then s else s.set b.tmpName (some [])) b.tmpName).getD [])
      split
      · rw [hs]; exact hb
      · rw [FS.set_same]; exact noBreak_nil
    · show Prog.Under _ _ (File.writeText env b.tmpName line) _ _
      rw [File.writeText]
      split
      · rw [writeNewlines_noBreak _ hl]
        refine Prog.Under.bind ((under_tmpAppend line _ hl).mono ?_)
        rintro r h s' ⟨_, rfl, g', rfl⟩
        exact ⟨g', rfl, .inl ⟨_, rfl⟩⟩
      · exact ⟨_, rfl, .inr rfl⟩

/-! ## The methods -/

theorem outer_readable [Named fam b] {w : Bool} : Outer (bufGuards fam b one Goal clears)
    (Prog.withLock b.tmpLockName w (Prog.withLock b.lockName w (Pure.pure (!b.closed) : FProg Bool)))
    (fun r s => r = .ok (!b.closed) ∧ ∃ g, (lockOf b.name, g) ∈ s) seen := by
  refine Outer.withLock fun g _ => ?_
  refine Prog.Under.withLock (Holding.set_other _ _ (Ne.symm (tmpLock_ne_lockOf b))) fun g' _ => ?_
  refine ⟨g', Holding.set_same .., g, ?_, rfl, g', List.mem_cons_of_mem _ (List.mem_cons_self ..)⟩
  rw [Holding.set_set]
  exact Holding.set_id' (Holding.set_other _ _ (Ne.symm (tmpLock_ne_lockOf b)))

theorem outer_writeCore [hN : Named fam b] {env : FEnv} {d : PyStr} (hm : 1 ≤ b.maxlen)
    (hG : ∀ part, NoBreak part → ∀ t ∈ (segFrom part d).1, Goal (writeNewlines env.crlf t))
    (ho : one → (segFrom [] d).1.length ≤ 1) :
    Outer (bufGuards fam b one Goal clears) (writeCore env b d) (fun r s => (∃ n part, r = .ok n ∧ NoBreak part ∧
      ((segFrom part d).1 ≠ [] → Delivered b env (segFrom part d).1 s)) ∨ r = .error .unicodeEncodeError) seen := by
  rw [writeCore_shape]
  have hr := segFrom_cur_noBreak [] d noBreak_nil
  have hcur := fun part => segFrom_cur part d
  have h0 := segFrom_cur [] d
  generalize segFrom [] d = x at hr ho hcur
  obtain ⟨ls, r⟩ := x
  cases ls with
  | nil =>
    have he : (segFrom [] d).1 = [] := by rw [hcur]
    rw [writeShape]
    split
    · exact Outer.pure (.inl ⟨_, [], rfl, noBreak_nil, fun h => absurd he h⟩)
    · refine (outer_writeLastLine hr).mono fun r s h => h.imp ?_ id
      rintro ⟨n, rfl⟩
      exact ⟨n, [], rfl, noBreak_nil, fun h => absurd he h⟩
  | cons l ls =>
    rw [writeShape]
    refine Outer.bind outer_getLastLine (fun last s h => ?_) fun e s h => ?_
    · obtain ⟨t, e, ht⟩ := h
      cases e
      have he : (segFrom last d).1 = (last ++ l) :: ls := by rw [hcur]
      refine Outer.bind (outer_updateRecords ⟨fun t' ht' => ?_, fun h => by simpa using ho h, hm⟩) (fun _ s' h' => ?_) fun e s' h' => ?_
      · have := hG last ht t'
        rw [he] at this
        exact this ht'
      · have hd : Delivered b env ((last ++ l) :: ls) s' := by
          rcases h' with h' | h'
          · exact h'.2
          · cases h'
        refine Outer.bind outer_cleanLastLine.remembers (fun _ s'' h'' => ?_) fun e s'' h'' => nomatch h''.1
        have hd' : Delivered b env ((last ++ l) :: ls) s'' := by
          obtain ⟨g, h1, h2⟩ := hd
          exact ⟨g, h''.2 _ h1, h2⟩
        split
        · exact Outer.pure (.inl ⟨_, last, rfl, ht, fun _ => he ▸ hd'⟩)
        · refine (outer_writeLastLine hr).remembers.mono fun r s h => h.1.imp ?_ id
          rintro ⟨n, rfl⟩
          refine ⟨n, last, rfl, ht, fun _ => ?_⟩
          obtain ⟨g, h1, h2⟩ := hd'
          exact ⟨g, h.2 _ h1, he ▸ h2⟩
      · rcases h' with h' | h'
        · cases h'.1
        · exact .inr (by cases h'; rfl)
    · obtain ⟨_, h, _⟩ := h; cases h

theorem outer_newLine [hN : Named fam b] {env : FEnv} (hm : 1 ≤ b.maxlen) (hG : ∀ part, NoBreak part → Goal (writeNewlines env.crlf part)) :
    Outer (bufGuards fam b one Goal clears) (newLine env b) (fun r _ => r = .ok () ∨ r = .error .unicodeEncodeError) seen := by
  rw [newLine]
  split
  · exact Outer.pure (.inl rfl)
  · have hseg : ∀ part, segFrom part (lit "\n") = ([part], []) := fun part => by
      rw [segFrom_cur]
      have : segFrom [] (lit "\n") = ([[]], []) := by decide +kernel
      rw [this]
      simp
    refine Outer.bind outer_getLastLine (fun last s h => ?_) fun e s h => ?_
    · split
      · refine Outer.bind (outer_writeCore hm (fun part hp t ht => ?_) fun _ => ?_) (fun _ s' _ => Outer.pure (.inl rfl)) fun e s' h' => ?_
        · rw [hseg] at ht
          rw [List.mem_singleton.1 ht]
          exact hG part hp
        · rw [hseg]; exact Nat.le_refl _
        · rcases h' with ⟨_, _, h', _⟩ | h'
          · cases h'
          · exact .inr (by cases h'; rfl)
      · exact Outer.pure (.inl rfl)
    · obtain ⟨_, h, _⟩ := h; cases h

theorem outer_sendExc [hN : Named fam b] {env : FEnv} {e : ExcObj} (hm : 1 ≤ b.maxlen)
    (hG : ∀ t, FLog.ExcText e t → Goal (writeNewlines env.crlf t)) :
    Outer (bufGuards fam b one Goal clears) (sendExc env b e) (fun r _ => r = .ok () ∨ r = .error .unicodeEncodeError) seen := by
  rw [sendExc]
  split
  · exact Outer.pure (.inl rfl)
  · obtain ⟨t, ht⟩ := excText_exists e
    rw [excText_toStr ht]
    refine (outer_updateRecords ⟨fun t' ht' => by rw [List.mem_singleton.1 ht']; exact hG t ht, fun _ => Nat.le_refl _, hm⟩).mono
      fun r s h => h.imp (fun h => h.1) id

/-- Removing a file that is named like a record but is none. -/
theorem under_other [hN : Named fam b] {Q : Except Exc α → Holding PyStr FGhost → List (PyStr × FGhost) → Prop} {k : FS → FProg α} {mid : PyStr}
    {g : FGhost} (hm : ∀ k, mid ≠ dec k)
    (hk : ∀ s, (s (b.name ++ lit "-" ++ mid ++ lit ".log")).isSome = g.2.more mid → (k s).Under (bufGuards fam b one Goal clears) Q
      (only b.lockName true (g.1, { g.2 with more := fun x => if x = mid then false else g.2.more x })) seen) :
    (Prog.act (fun s => s.set (b.name ++ lit "-" ++ mid ++ lit ".log") none) k).Under (bufGuards fam b one Goal clears) Q
      (only b.lockName true g) seen := by
  have hne : ∀ x, (∀ k, x ≠ dec k) → x ≠ mid → b.name ++ lit "-" ++ x ++ lit ".log" ≠ b.name ++ lit "-" ++ mid ++ lit ".log" :=
    fun x _ hx e => hx (by simpa using e)
  refine under_change (fun N h hne g s => lock_other h hne g s) (fun s n hn => FS.set_other _ _ fun e => hn ⟨mid, .inl e⟩)
    (fun s l' g' hne ho => ⟨fun e => absurd e hne, fun t e => ?_⟩) fun s hI hO => ?_
  · exact (FS.set_other _ _ fun e => midLog_ne_tmp (b := { b with tmpId := t }) e.symm).trans (ho.2 t e)
  · refine ⟨(g.1, { g.2 with more := fun x => if x = mid then false else g.2.more x }), .inl rfl, hI,
      fun _ _ _ h => h, ⟨fun _ => ⟨fun j => ?_, fun x hx => ?_⟩, fun t e => ?_⟩, hk s ((hO.1 rfl).2 mid hm)⟩
    · exact (FS.set_other _ _ fun e => hm j (midLog_inj (b := b) (k := j) e.symm)).trans ((hO.1 rfl).1 j)
    · dsimp only
      by_cases e : x = mid
      · rw [if_pos e, e, FS.set_same]; rfl
      · rw [if_neg e, FS.set_other _ _ (hne x hx e)]; exact (hO.1 rfl).2 x hx
    · exact absurd (show ({ b with tmpId := t } : FileBuf).tmpLockName = lockOf b.name from e.symm) (tmpLock_ne_lockOf _)

theorem under_removeAll [hN : Named fam b] (hc : clears) : ∀ (ns : List PyStr) (g : FGhost), ns.Nodup →
    (∀ n ∈ ns, (∃ k, n = b.logName k ∧ g.1.place k ≠ none) ∨
      ∃ mid, n = b.name ++ lit "-" ++ mid ++ lit ".log" ∧ (∀ k, mid ≠ dec k) ∧ g.2.more mid = true) →
    (∀ k, g.1.place k ≠ none → b.logName k ∈ ns) →
    (removeAll ns).Under (bufGuards fam b one Goal clears)
      (fun r h s => s = seen ∧ r = .ok () ∧ ∃ g', h = only b.lockName true g' ∧ ∀ k, g'.1.place k = none) (only b.lockName true g) seen
  | [], g, _, _, hall => ⟨rfl, rfl, g, rfl, fun k => Classical.byContradiction fun h => nomatch hall k h⟩
  | n :: ns, g, hd, hin, hall => by
    obtain ⟨hn, hd'⟩ := List.nodup_cons.1 hd
    rw [removeAll]
    rcases hin n (List.mem_cons_self ..) with ⟨k, rfl, hk⟩ | ⟨mid, rfl, hm, ht⟩
    · refine Prog.Under.bind (under_records (fun s n hn => set_log_other hn) fun s hs => ?_)
      refine ⟨g.1.put k none, ?_, fun _ => ?_, onShelf_put hs k none, ?_⟩
      · simpa [Shelf.put] using Shelf.Step.clear (fun j => decide (j = k)) hc
      · simpa [Shelf.put] using Shelf.Turn.clear (fun j => decide (j = k)) hc
      · obtain ⟨e, he⟩ := Option.ne_none_iff_exists'.1 hk
        rw [OnShelf.log hs k, he, Option.map_some, Option.isSome_some, if_pos rfl]
        refine under_removeAll hc ns _ hd' (fun n' hn' => ?_) fun j hj => ?_
        · refine (hin n' (List.mem_cons_of_mem _ hn')).imp (fun ⟨j, e1, e2⟩ => ⟨j, e1, ?_⟩) id
          rw [Shelf.put_other _ _ fun e => hn (by rw [← e, ← e1]; exact hn')]
          exact e2
        · have hjk : j ≠ k := fun e => hj (by rw [e, Shelf.put_same])
          rw [Shelf.put_other _ _ hjk] at hj
          exact (List.mem_cons.1 (hall j hj)).resolve_left fun e => hjk (logName_inj.1 e)
    · refine Prog.Under.bind (under_other hm fun s hs => ?_)
      rw [hs, ht, if_pos rfl]
      refine under_removeAll hc ns _ hd' (fun n' hn' => ?_) fun j hj => ?_
      · refine (hin n' (List.mem_cons_of_mem _ hn')).imp id fun ⟨mid', e1, e2, e3⟩ => ⟨mid', e1, e2, ?_⟩
        dsimp only
        rw [if_neg fun e => hn (by rw [← e, ← e1]; exact hn')]
        exact e3
      · exact (List.mem_cons.1 (hall j hj)).resolve_left fun e => hm j (midLog_inj e.symm)

theorem outer_clear [hN : Named fam b] {env : FEnv} (hg : NoGlob b.name) (hc : clears) : Outer (bufGuards fam b one Goal clears) (clear env b)
    (fun r s => r = .ok () ∧ ∃ g, (lockOf b.name, g) ∈ s ∧ ∀ k, g.1.place k = none) seen := by
  refine Outer.bind (Q := fun r s => r = .ok () ∧ ∃ g, (lockOf b.name, g) ∈ s ∧ ∀ k, g.1.place k = none)
    (Outer.withLock fun g _ => Prog.Under.look fun s hs => ?_)
    (fun _ s' hs' => Outer.withLock fun g _ => Prog.Under.bind (under_tmpLook fun s hs hb => ?_)) fun e s' h => nomatch h.1
  · obtain ⟨ho, hbe⟩ := ((hs b.lockName true g (only_same ..)).2 b.name hN.mem).1 rfl
    split
    · rename_i ns h
      obtain ⟨h1, h2⟩ := env.lists _ _ h
      refine (under_removeAll hc ns g h1 (fun n hn => ?_) fun k hk => ?_).mono ?_
      · have h3 := Bool.and_eq_true_iff.1 ((h2 n).1 hn)
        obtain ⟨mid, rfl⟩ := (fnmatch_clear hg).1 (Bool.and_eq_true_iff.1 h3.1).2
        by_cases hk : ∃ k, mid = dec k
        · obtain ⟨k, rfl⟩ := hk
          refine .inl ⟨k, rfl, fun e => ?_⟩
          have := h3.2
          rw [ho k, e] at this
          cases this
        · have hm : ∀ k, mid ≠ dec k := fun k e => hk ⟨k, e⟩
          exact .inr ⟨mid, rfl, hm, (hbe mid hm).symm.trans h3.2⟩
      · refine (h2 _).2 (Bool.and_eq_true_iff.2 ⟨globMatch_logName hg k, ?_⟩)
        obtain ⟨e, he⟩ := Option.ne_none_iff_exists'.1 hk
        rw [OnShelf.log ho k, he]
        rfl
      · rintro r h s ⟨rfl, rfl, g', rfl, hg'⟩
        exact ⟨g', rfl, rfl, g', List.mem_cons_self .., hg'⟩
    · refine under_change (fun N h hne g s => lock_other h hne g s) (fun s n hn => if_neg fun e => hn ?_)
        (fun s l' g' hne ho => ⟨fun e => absurd e hne, fun t e => ?_⟩) fun s hI hO => ?_
      · obtain ⟨mid, e⟩ := (fnmatch_clear hg).1 (Bool.and_eq_true_iff.1 e).2
        exact ⟨mid, .inl e⟩
      · have := fnmatch_tmp (b' := { b with tmpId := t }) hg
        dsimp only
        rw [if_neg (by rw [show b.name ++ lit "-" ++ t ++ lit ".tmp" = ({ b with tmpId := t } : FileBuf).tmpName from rfl, this]; simp)]
        exact ho.2 t e
      · let more : PyStr → Bool := fun x =>
          if globMatch (b.name ++ lit "-*.log") (b.name ++ lit "-" ++ x ++ lit ".log") = true then false else g.2.more x
        refine ⟨({ g.1 with place := fun _ => none }, { g.2 with more := more }),
          .inr ⟨rfl, .clear (fun _ => true) hc, fun _ => .clear (fun _ => true) hc⟩, ?_,
          fun N _ hne h => ⟨fun e => absurd (List.append_cancel_right e).symm hne, h.2⟩,
          ⟨fun _ => ⟨fun k => if_pos (globMatch_logName hg k), fun x hx => ?_⟩, fun t e => ?_⟩, ?_⟩
        · exact ⟨fun _ => ⟨(hI.1 rfl).1.step (.clear (Goal := Goal) (fun _ => true) hc), fun _ _ _ _ _ _ h => (nomatch h)⟩, fun h => absurd rfl h⟩
        · dsimp only [more]
          split
          · rfl
          · exact (hO.1 rfl).2 x hx
        · exact absurd (show ({ b with tmpId := t } : FileBuf).tmpLockName = lockOf b.name from e.symm) (tmpLock_ne_lockOf _)
        · exact ⟨_, rfl, rfl, _, List.mem_cons_self .., fun _ => rfl⟩
  · obtain ⟨_, g0, hg0, hn0⟩ := hs'
    show Prog.Under _ _ (if (s b.tmpName).isSome = true then _ else _) _ _
    split
    · rename_i h
      refine under_tmp (fun s n hn => FS.set_other _ _ hn) fun s' hs' _ => ?_
      refine ⟨by rw [FS.set_same]; exact noBreak_nil, ?_⟩
      rw [hs', ← hs, h]
      exact ⟨_, rfl, rfl, g0, List.mem_cons_of_mem _ (List.mem_cons_of_mem _ hg0), hn0⟩
    · exact ⟨_, rfl, rfl, g0, List.mem_cons_of_mem _ (List.mem_cons_of_mem _ hg0), hn0⟩

theorem outer_len [hN : Named fam b] : Outer (bufGuards fam b one Goal clears) (len b) (fun r _ => ∃ n, r = .ok n) seen := by
  refine Outer.bind (Q := fun r _ => ∃ n, r = .ok n) (Outer.withLock fun g _ => Prog.Under.bind (under_look fun s _ => ?_))
    (fun n s _ => Outer.bind outer_getLastLine (fun last s' _ => Outer.pure ⟨_, rfl⟩) fun e s' h => ?_) fun e s h => ?_
  · exact ⟨_, rfl, _, rfl⟩
  · obtain ⟨_, h, _⟩ := h; cases h
  · obtain ⟨_, h⟩ := h; cases h

theorem under_readLoop [Named fam b] {g : FGhost} :
    ∀ n, (∀ k, k < n → g.1.place k ≠ none) → (readLoop b n).Under (bufGuards fam b one Goal clears)
      (fun r h s => s = seen ∧ h = only b.lockName false g ∧ ∃ texts, r = .ok texts ∧ g.1.Shows n texts) (only b.lockName false g) seen
  | 0, _ => ⟨rfl, rfl, [], rfl, rfl, fun _ h => absurd h (by omega)⟩
  | n + 1, hn => by
    rw [readLoop]
    refine Prog.Under.bind (under_look fun s hs => ?_)
    obtain ⟨e, he⟩ := Option.ne_none_iff_exists'.1 (hn n (Nat.lt_succ_self n))
    rw [OnShelf.log hs n, he]
    refine Prog.Under.bind ((under_readLoop n fun k hk => hn k (by omega)).mono ?_)
    rintro r h s' ⟨h1, rfl, texts, rfl, h2, h3⟩
    refine ⟨h1, rfl, _, rfl, by rw [List.length_cons, h2], fun k hk => ?_⟩
    by_cases hkn : k = n
    · subst hkn
      exact ⟨e, he, by simp⟩
    · obtain ⟨e', he', ht⟩ := h3 k (by omega)
      refine ⟨e', he', ?_⟩
      rw [show n + 1 - 1 - k = (n - 1 - k) + 1 by omega, List.getElem?_cons_succ]
      exact ht

theorem outer_read [hN : Named fam b] {size : Option Int} : Outer (bufGuards fam b one Goal clears) (read b size)
    (fun r s => r = .error .osError ∨ ∃ g l, (lockOf b.name, g) ∈ s ∧ r = .ok l ∧ ReadShows b.maxlen size g.1 l) seen := by
  rw [read]
  refine Outer.bind outer_readable (fun a s h => ?_) fun e s h => nomatch h.1
  obtain ⟨h, g, hg⟩ := h
  split
  · exact Outer.raise (.inl rfl)
  · split
    · rename_i hsz
      refine Outer.pure (.inr ⟨g, [], hg, rfl, 0, [], [], ⟨rfl, fun _ h => absurd h (by omega)⟩, noBreak_nil, rfl, by simp,
        fun h => by (subst h; cases hsz), fun k' _ => by simp; omega⟩)
    · rename_i hsz
      refine Outer.bind outer_getLastLine (fun last s h => ?_) fun e s h => ?_
      · obtain ⟨t, e, ht⟩ := h
        cases e
        refine Outer.withLock fun g _ => Prog.Under.bind (under_look fun st hs => ?_)
        rw [Prog.under_ret]
        dsimp only
        generalize hlim : (if last ≠ [] then b.maxlen - 1 else b.maxlen) = lim
        have hlim' : (if last = [] then b.maxlen else b.maxlen - 1) = lim := by
          rw [← hlim]; by_cases h : last = [] <;> simp [h]
        obtain ⟨hc1, hc2, hc3⟩ := countFrom_spec b (fun n => (st n).isSome) 0 lim
        generalize countFrom b (fun n => (st n).isSome) 0 lim = c at hc1 hc2 hc3 ⊢
        simp only [Nat.zero_add] at hc2 hc3
        suffices H : ∀ nRead : Nat, (size = none → nRead = c) →
            (∀ k, size = some k → nRead = (if last ≠ [] then min (k - 1) (c : Int) else min k (c : Int)).toNat) →
            (readLoop b nRead >>= fun res => (Pure.pure (if last ≠ [] then res ++ [last] else res) : FProg (List PyStr))).Under
              (bufGuards fam b one Goal clears) (fun r h s => ∃ g', h = only b.lockName false g' ∧ (r = .error .osError ∨
                ∃ g l, (lockOf b.name, g) ∈ (b.lockName, g') :: s ∧ r = .ok l ∧ ReadShows b.maxlen size g.1 l))
              (only b.lockName false g) ((b.lockName, g) :: s) from
          H _ (by rintro rfl; rfl) (by rintro k rfl; rfl)
        intro nRead hnone hread
        have hle : nRead ≤ c := by
          cases size with
          | none => exact Nat.le_of_eq (hnone rfl)
          | some k => rw [hread k rfl]; split <;> omega
        refine Prog.Under.bind ((under_readLoop (seen := (b.lockName, g) :: s) nRead fun k hk e => ?_).mono ?_)
        · have := hc2 k (by omega)
          rw [OnShelf.log hs k, e] at this
          cases this
        · rintro r h s' ⟨rfl, rfl, texts, rfl, h2⟩
          refine ⟨g, rfl, .inr ⟨g, _, List.mem_cons_self .., rfl, nRead, texts, last, h2, ht, ?_, by omega, fun hn => ?_, fun k hk => ?_⟩⟩
          · by_cases h : last = [] <;> simp [h]
          · subst hn
            have hcn := hnone rfl
            subst hcn
            rw [hlim']
            by_cases hcl : nRead < lim
            · right
              have := hc3 hcl
              rw [OnShelf.log hs nRead] at this
              cases hp : g.1.place nRead with
              | none => rfl
              | some e => rw [hp] at this; cases this
            · left; omega
          · subst hk
            have hk0 : ¬ k ≤ 0 := by simpa using hsz
            have hlen := h2.1
            have hread := hread k rfl
            by_cases h : last = []
            · simp only [h, ne_eq, not_true_eq_false, if_false] at hread ⊢
              omega
            · simp only [h, ne_eq, not_false_eq_true, if_true, List.length_append, List.length_singleton] at hread ⊢
              omega
      · obtain ⟨_, h, _⟩ := h; cases h

end FileBuf
end SyncStream
