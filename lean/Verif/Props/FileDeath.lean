import Verif.Lemmas.FileDeath
import Verif.Lemmas.DeathSched
/-!
# Properties of file mode when processes die among processes that go on

The processes have buffers with the same name; process `i` keeps `m i` records.  Their tmp ids are arbitrary, even equal.  Every process
can die at any moment, another takes its place; calls of any number of processes overlap.
-/

namespace SyncStream

open Spec FileBuf Conc

/-- The buffers of process number `i`, which has the name `nm i`. -/
def OfNames (nm : Nat → PyStr) (m : Nat → Nat) (i : Nat) (b : FileBuf) : Prop := b.name = nm i ∧ b.maxlen = m i

/-- The same if there is one name only. -/
abbrev OfName (name : PyStr) (m : Nat → Nat) : Nat → FileBuf → Prop := OfNames (fun _ => name) m

/-- What the call `c` writes for its records, as it is stored. -/
def Stored (env : FEnv) (c : FCall) (stored : PyStr) : Prop := ∃ t, Adds c t ∧ stored = writeNewlines env.crlf t

/-- What a call of a process that keeps `m` records can return; `moments`: what the records were at the moments since its beginning. -/
structure Answers (env : FEnv) (m : Nat) (moments : List Shelf) (c : FCall) (r : Ret) : Prop where
  /-- no file is ever missed -/
  found : r ≠ .exc .fileNotFound
  /-- `read` shows the records of one moment of the call -/
  read : ∀ size, c = .read size → r = .exc .osError ∨ ∃ f ∈ moments, ∃ l, r = .items (l.map .str) ∧ ReadShows m size f l
  /-- if `write` returns a number, then at a moment of the call the newest of its lines were complete in the first places -/
  written : ∀ d n, c = .write d → r = .nat n → ∃ part ls rest, NoBreak part ∧ Lines (part ++ d) ls rest ∧
    (ls ≠ [] → ∃ f ∈ moments, f.Holds env.crlf (lastN m ls))
  /-- `clear` raises nothing, and at a moment of the call there were no records -/
  cleared : c = .clear → r = .unit ∧ ∃ f ∈ moments, ∀ k, f.place k = none

/-- The same in terms of what the call has seen. -/
structure AnswersSeen (env : FEnv) (name : PyStr) (m : Nat) (c : FCall) (r : Ret) (seen : List (PyStr × FGhost)) : Prop where
  found : r ≠ .exc .fileNotFound
  read : ∀ size, c = .read size → r = .exc .osError ∨
    ∃ g, (lockOf name, g) ∈ seen ∧ ∃ l, r = .items (l.map .str) ∧ ReadShows m size g.1 l
  written : ∀ d n, c = .write d → r = .nat n → ∃ part ls rest, NoBreak part ∧ Lines (part ++ d) ls rest ∧
    (ls ≠ [] → ∃ g, (lockOf name, g) ∈ seen ∧ g.1.Holds env.crlf (lastN m ls))
  cleared : c = .clear → r = .unit ∧ ∃ g, (lockOf name, g) ∈ seen ∧ ∀ k, g.1.place k = none

theorem call_under (env : FEnv) {nm : Nat → PyStr} (hg : ∀ i, NoGlob (nm i)) (hu : Unrelated fun N => ∃ i, N = nm i) (m : Nat → Nat)
    (hm : ∀ i, 1 ≤ m i) (one : Prop) (i : Nat) (b : FileBuf) (hb : OfNames nm m i b) (c : FCall) (ho : one → OneLine c) :
    (call env b c).Under ((fileGuards (fun N => ∃ i, N = nm i) one).with (fileEff (nm i) one (m i) (Stored env c) (c = .clear)))
      (fun r h seen => h = .empty ∧ ∃ x o, r = .ok (x, o) ∧ OfNames nm m i o ∧ AnswersSeen env (nm i) (m i) c x seen) .empty [] := by
  obtain ⟨hnm, hmi⟩ := hb
  have hg := hg i
  have : Named (fun N => ∃ i, N = nm i) b := ⟨⟨i, hnm⟩, hu⟩
  rw [← hnm] at hg
  rw [← hnm]
  have hpos : 1 ≤ b.maxlen := hmi ▸ hm i
  rw [← hmi]
  change Outer (bufGuards (fun N => ∃ i, N = nm i) b one (Stored env c) (c = .clear)) (call env b c)
    (fun r seen => ∃ x o, r = .ok (x, o) ∧ OfNames nm m i o ∧ AnswersSeen env b.name b.maxlen c x seen) []
  have hob : OfNames nm m i b := ⟨hnm, hmi⟩
  -- a call that is not `read`, its outcome wrapped
  have wrap : ∀ {α : Type} (p : FProg α) (F : α → Ret), (∀ size, c ≠ .read size) → (∀ d, c ≠ .write d) → c ≠ .clear → (∀ a, F a ≠ .exc .fileNotFound) →
      Outer (bufGuards (fun N => ∃ i, N = nm i) b one (Stored env c) (c = .clear)) p
        (fun r _ => (∃ a, r = .ok a) ∨ r = .error .unicodeEncodeError ∨ r = .error .osError) [] →
      Outer (bufGuards (fun N => ∃ i, N = nm i) b one (Stored env c) (c = .clear)) (do return (Ret.of F (← p.outcome), b) : FProg (Ret × FileBuf))
        (fun r seen => ∃ x o, r = .ok (x, o) ∧ OfNames nm m i o ∧ AnswersSeen env b.name b.maxlen c x seen) [] := by
    intro α p F hc hc' hcl hF hp
    refine Outer.bind (Q := fun r _ => ∃ x, r = .ok x ∧ ((∃ a, x = .ok a) ∨ x = .error .unicodeEncodeError ∨ x = .error .osError))
      (Outer.outcome (hp.mono fun r s h => ⟨r, rfl, h⟩)) (fun x s h => Outer.pure ⟨_, b, rfl, hob, ?_, fun size e => absurd e (hc size), fun d n e => absurd e (hc' d), fun e => absurd e hcl⟩) ?_
    · obtain ⟨x', e, h⟩ := h
      cases e
      rcases h with ⟨a, rfl⟩ | rfl | rfl
      · exact hF a
      · simp [Ret.of]
      · simp [Ret.of]
    · rintro e s ⟨x, h, _⟩; cases h
  have plain : ∀ x, (∀ size, c ≠ .read size) → (∀ d, c ≠ .write d) → c ≠ .clear → x ≠ .exc .fileNotFound →
      Outer (bufGuards (fun N => ∃ i, N = nm i) b one (Stored env c) (c = .clear)) (Pure.pure (x, b) : FProg (Ret × FileBuf))
        (fun r seen => ∃ x o, r = .ok (x, o) ∧ OfNames nm m i o ∧ AnswersSeen env b.name b.maxlen c x seen) [] :=
    fun x hc hc' hcl hx => Outer.pure ⟨x, b, rfl, hob, hx, fun size e => absurd e (hc size), fun d n e => absurd e (hc' d), fun e => absurd e hcl⟩
  have nl : (c = .newLine ∨ c = .close none ∨ c = .exit none) → Outer (bufGuards (fun N => ∃ i, N = nm i) b one (Stored env c) (c = .clear)) (newLine env b)
      (fun r _ => r = .ok () ∨ r = .error .unicodeEncodeError) [] := fun hc =>
    outer_newLine hpos fun part hp => ⟨part, .newLine c part hc hp, rfl⟩
  have ex : ∀ e, (c = .sendExc e ∨ c = .close (some e) ∨ c = .exit (some e)) →
      Outer (bufGuards (fun N => ∃ i, N = nm i) b one (Stored env c) (c = .clear)) (sendExc env b e) (fun r _ => r = .ok () ∨ r = .error .unicodeEncodeError) [] :=
    fun e hc => outer_sendExc hpos fun t ht => ⟨t, .exc c e t hc ht, rfl⟩
  have two : ∀ {α : Type} {a : α} {r : Except Exc α}, r = .ok a ∨ r = .error .unicodeEncodeError →
      (∃ a, r = .ok a) ∨ r = .error .unicodeEncodeError ∨ r = .error .osError := fun h =>
    h.elim (fun h => .inl ⟨_, h⟩) fun h => .inr (.inl h)
  cases c with
  | write d =>
    refine Outer.bind (Q := fun r s => ∃ x, r = .ok x ∧ ((∃ n part, x = .ok n ∧ NoBreak part ∧
      ((segFrom part d).1 ≠ [] → Delivered b env (segFrom part d).1 s)) ∨ x = .error .unicodeEncodeError ∨ x = .error .osError))
      (Outer.outcome ?_) (fun x s h => Outer.pure ⟨_, b, rfl, hob, ?_⟩) ?_
    · refine Outer.bind outer_readable (fun a s h => ?_) fun e s h => nomatch h.1
      split
      · exact Outer.raise ⟨_, rfl, .inr (.inr rfl)⟩
      · refine (outer_writeCore hpos (fun part hp t ht => ⟨t, .write d part _ _ t hp (lines_segFrom part d hp) ht, rfl⟩)
          fun h => ho h d rfl _ _ (lines_segFrom [] d noBreak_nil)).mono fun r s h => ⟨r, rfl, ?_⟩
        exact h.elim .inl fun h => .inr (.inl h)
    · obtain ⟨x', e, h⟩ := h
      cases e
      rcases h with ⟨n, part, rfl, h1, h2⟩ | rfl | rfl
      · refine ⟨by simp [Ret.of], nofun, fun d' n' e _ => ⟨part, (segFrom part d).1, (segFrom part d).2, h1, ?_, h2⟩, nofun⟩
        cases e
        exact lines_segFrom part d h1
      · exact ⟨by simp [Ret.of], nofun, (fun _ _ _ h => by simp [Ret.of] at h), nofun⟩
      · exact ⟨by simp [Ret.of], nofun, (fun _ _ _ h => by simp [Ret.of] at h), nofun⟩
    · rintro e s ⟨x, h, _⟩; cases h
  | newLine => exact wrap _ (fun _ => .unit) nofun nofun nofun nofun ((nl (by simp)).mono fun _ _ => two)
  | read size =>
    refine Outer.bind (Q := fun r s => ∃ x, r = .ok x ∧ (x = .error .osError ∨
      ∃ g l, (lockOf b.name, g) ∈ s ∧ x = .ok l ∧ ReadShows b.maxlen size g.1 l))
      (Outer.outcome (outer_read.mono fun r s h => ⟨r, rfl, h⟩)) (fun x s h => Outer.pure ⟨_, b, rfl, hob, ?_⟩) ?_
    · obtain ⟨x', e, h⟩ := h
      cases e
      rcases h with rfl | ⟨g, l, h1, rfl, h2⟩
      · exact ⟨by simp [Ret.of], fun _ _ => .inl rfl, nofun, nofun⟩
      · refine ⟨by simp [Ret.of], fun size' e => .inr ⟨g, h1, l, rfl, ?_⟩, nofun, nofun⟩
        cases e
        exact h2
    · rintro e s ⟨x, h, _⟩; cases h
  | len => exact wrap _ .nat nofun nofun nofun nofun (outer_len.mono fun _ _ h => .inl h)
  | maxlen => exact plain _ nofun nofun nofun nofun
  | clear =>
    refine Outer.bind (Q := fun r s => ∃ x, r = .ok x ∧ x = .ok () ∧ ∃ g, (lockOf b.name, g) ∈ s ∧ ∀ k, g.1.place k = none)
      (Outer.outcome ((outer_clear hg rfl).mono fun r s h => ⟨r, rfl, h⟩)) (fun x s h => Outer.pure ⟨_, b, rfl, hob, ?_⟩) ?_
    · obtain ⟨x', e, rfl, h⟩ := h
      cases e
      exact ⟨by simp [Ret.of], nofun, nofun, fun _ => ⟨rfl, h⟩⟩
    · rintro e s ⟨x, h, _⟩; cases h
  | flush => exact plain _ nofun nofun nofun nofun
  | sendExc e => exact wrap _ (fun _ => .unit) nofun nofun nofun nofun ((ex e (by simp)).mono fun _ _ => two)
  | close x =>
    have : Outer (bufGuards (fun N => ∃ i, N = nm i) b one (Stored env (.close x)) (FCall.close x = .clear)) (close env b x)
        (fun r _ => r = .ok { b with closed := true } ∨ r = .error .unicodeEncodeError) [] := by
      cases x with
      | none =>
        refine Outer.bind (nl (by simp)) (fun _ s _ => Outer.pure (.inl rfl)) fun e s h => ?_
        rcases h with h | h
        · cases h
        · cases h; exact .inr rfl
      | some e =>
        refine Outer.bind (ex e (by simp)) (fun _ s _ => Outer.pure (.inl rfl)) fun e s h => ?_
        rcases h with h | h
        · cases h
        · cases h; exact .inr rfl
    refine Outer.bind (Q := fun r s => ∃ x, r = .ok x ∧ (x = .ok { b with closed := true } ∨ x = .error .unicodeEncodeError))
      (Outer.outcome (this.mono fun r s h => ⟨r, rfl, h⟩)) (fun x s h => ?_) ?_
    · obtain ⟨x', e, h⟩ := h
      cases e
      rcases h with rfl | rfl
      · exact Outer.pure ⟨_, _, rfl, ⟨hnm, hmi⟩, nofun, nofun, nofun, nofun⟩
      · exact Outer.pure ⟨_, _, rfl, hob, nofun, nofun, nofun, nofun⟩
    · rintro e s ⟨x, h, _⟩; cases h
  | exit x =>
    cases x with
    | none => exact wrap _ (fun _ => .unit) nofun nofun nofun nofun ((nl (by simp)).mono fun _ _ => two)
    | some e => exact wrap _ (fun _ => .unit) nofun nofun nofun nofun ((ex e (by simp)).mono fun _ _ => two)
  | closed => exact plain _ nofun nofun nofun nofun
  | readable => exact wrap _ .bool nofun nofun nofun nofun (outer_readable.mono fun _ _ h => .inl ⟨_, h.1⟩)
  | writable => exact wrap _ .bool nofun nofun nofun nofun (outer_readable.mono fun _ _ h => .inl ⟨_, h.1⟩)

/-- At the start: the record files are what `f` says, the temporary files contain no line terminators, the buffers have the name. -/
structure Start (name : PyStr) (m : Nat → Nat) (s : FS) (bufs : Nat → FileBuf) (f : Shelf) : Prop where
  recs : OnShelf name f s
  good : f.Good
  tmp : ∀ t, NoBreak ((s (name ++ lit "-" ++ t ++ lit ".tmp")).getD [])
  bufs : ∀ i, OfName name m i (bufs i)

/-- The same for every name; `f`: the shelf of every name. -/
structure Starts (nm : Nat → PyStr) (m : Nat → Nat) (s : FS) (bufs : Nat → FileBuf) (f : PyStr → Shelf) : Prop where
  recs : ∀ i, OnShelf (nm i) (f (nm i)) s
  good : ∀ i, (f (nm i)).Good
  tmp : ∀ i t, NoBreak ((s (nm i ++ lit "-" ++ t ++ lit ".tmp")).getD [])
  bufs : ∀ i, OfNames nm m i (bufs i)

/-- Everything that is proved here, with `one` for "no call adds more than one record". -/
theorem deaths_names (env : FEnv) (nm : Nat → PyStr) (hg : ∀ i, NoGlob (nm i)) (hu : Unrelated fun N => ∃ i, N = nm i) (m : Nat → Nat)
    (hm : ∀ i, 1 ≤ m i) (ok : Nat → FCall → Prop) (one : Prop) (ho : one → ∀ i c, ok i c → OneLine c) :
    ∃ R : Conf FS PyStr FileBuf FCall Ret → (PyStr → Shelf) → (Nat → List (PyStr → Shelf)) → Prop,
      (∀ s bufs f, Starts nm m s bufs f → (one → ∀ i, (f (nm i)).InOrder) → R (init s bufs) f fun _ => []) ∧
      ∀ κ f since, R κ f since → (∀ i, OnShelf (nm i) (f (nm i)) κ.st ∧ (f (nm i)).Good ∧ (one → (f (nm i)).InOrder)) ∧
        ∀ e κ', DStep (fileProcs env ok) (OfNames nm m) κ e κ' → ∃ f',
          (f' = f ∨ ∃ i c p, κ.cur i = some (c, p) ∧ (∀ N, N ≠ nm i → f' N = f N) ∧
            (f (nm i)).Step (Stored env c) (c = .clear) (f' (nm i)) ∧ (one → (f (nm i)).Turn (m i) (Stored env c) (c = .clear) (f' (nm i)))) ∧
          R κ' f' (watched since e f') ∧
          ∀ i r, e = some (.ret i r) → ∃ c p, κ.cur i = some (c, p) ∧ Answers env (m i) ((since i).map (· (nm i))) c r := by
  let E : Nat → FCall → PyStr → FGhost → FGhost → Prop := fun i c => fileEff (nm i) one (m i) (Stored env c) (c = .clear)
  let Q : Nat → FCall → Ret → List (PyStr × FGhost) → Prop := fun i => AnswersSeen env (nm i) (m i)
  let shelf : (PyStr → FGhost) → PyStr → Shelf := fun γ N => (γ (lockOf N)).1
  refine ⟨fun κ f since => ∃ γ sinceγ, Tracks (fileGuards (fun N => ∃ i, N = nm i) one) E (OfNames nm m) Q κ γ sinceγ ∧ shelf γ = f ∧
    since = fun j => (sinceγ j).map shelf, fun s bufs f h hin => ?_, fun κ f since ⟨γ, sinceγ, ht, hf, hs⟩ => ?_⟩
  · classical
    let base : PyStr → PyStr := fun l => l.dropLast.dropLast.dropLast.dropLast.dropLast
    have hbase : ∀ N, base (lockOf N) = N := fun N => by
      have : lockOf N = N ++ [46] ++ [108] ++ [111] ++ [99] ++ [107] := by simp [lockOf, lit]
      simp only [base, this, List.dropLast_concat]
    refine ⟨fun l => (f (base l), { tmp := if ∃ i t, base l = nm i ++ lit "-" ++ t then s (base l ++ lit ".tmp") else none
                                    more := fun mid => (s (base l ++ lit "-" ++ mid ++ lit ".log")).isSome }),
      fun _ => [], tracks_init (fun l => ⟨fun N ⟨i, hN⟩ => ⟨fun hl => ?_, fun _ => ?_⟩,
        fun N ⟨i, hN⟩ => ⟨fun hl => ?_, fun t hl => ?_⟩⟩) h.bufs, funext fun N => congrArg f (hbase N), rfl⟩
    · subst hl hN
      rw [hbase]
      exact ⟨h.good i, fun h1 => hin h1 i⟩
    · dsimp only
      split
      · rename_i hl
        obtain ⟨j, t, hj⟩ := hl
        rw [hj]
        exact h.tmp j t
      · exact noBreak_nil
    · subst hl hN
      dsimp only
      rw [hbase]
      exact ⟨h.recs i, fun _ _ => rfl⟩
    · have hb : base l = nm i ++ lit "-" ++ t := by rw [hl, ← hN]; exact hbase _
      dsimp only
      rw [if_pos ⟨i, t, hb⟩, hb, hN]
  · subst hf hs
    refine ⟨fun i => ⟨((ht.ok (lockOf (nm i))).2 _ ⟨i, rfl⟩ |>.1 rfl).1, ((ht.ok (lockOf (nm i))).1 _ ⟨i, rfl⟩ |>.1 rfl).1,
      ((ht.ok (lockOf (nm i))).1 _ ⟨i, rfl⟩ |>.1 rfl).2⟩, fun e κ' hd => ?_⟩
    obtain ⟨γ', h1, h2, h3⟩ := tracks_step (fun i o c hc hob => call_under env hg hu m hm one i o hob c fun h => ho h i c hc)
      (fun i o h => h) ht hd
    refine ⟨shelf γ', ?_, ⟨γ', _, h2, rfl, ?_⟩, fun i r he => ?_⟩
    · rcases h1 with rfl | ⟨i, c, p, hc, h1⟩
      · exact .inl rfl
      · have same : ∀ N, N ≠ nm i → shelf γ' N = shelf γ N := fun N hne => by
          rcases h1 (lockOf N) with h1 | h1 | h1
          · show (γ' _).1 = (γ _).1; rw [h1]
          · exact h1
          · exact absurd (List.append_cancel_right h1.1) hne
        have own : shelf γ' (nm i) = shelf γ (nm i) ∨ _ := (h1 (lockOf (nm i))).elim (fun h1 => .inl (by show (γ' _).1 = (γ _).1; rw [h1])) id
        rcases own with h | h
        · refine .inl (funext fun N => ?_)
          by_cases e : N = nm i
          · rw [e, h]
          · exact same N e
        · exact .inr ⟨i, c, p, hc, same, h.2.1, h.2.2⟩
    · funext j
      unfold watched
      split
      · split <;> simp
      · simp
    · obtain ⟨c, p, seen, hc, hq, hin⟩ := h3 i r he
      have key : ∀ g, (lockOf (nm i), g) ∈ seen → g.1 ∈ ((sinceγ i).map shelf).map (· (nm i)) := fun g hg => by
        obtain ⟨γ0, h1, h2⟩ := hin _ hg
        exact List.mem_map.2 ⟨_, List.mem_map.2 ⟨γ0, h1, rfl⟩, by show (γ0 (lockOf (nm i))).1 = g.1; rw [h2]⟩
      refine ⟨c, p, hc, hq.found, fun size hr => ?_, fun d n hw hr => ?_, fun hcl => ?_⟩
      · rcases hq.read size hr with h | ⟨g, hg, l, h1, h2⟩
        · exact .inl h
        · exact .inr ⟨g.1, key g hg, l, h1, h2⟩
      · obtain ⟨part, ls, rest, h1, h2, h3⟩ := hq.written d n hw hr
        refine ⟨part, ls, rest, h1, h2, fun hne => ?_⟩
        obtain ⟨g, hg, h4⟩ := h3 hne
        exact ⟨g.1, key g hg, h4⟩
      · obtain ⟨h1, g, hg, h2⟩ := hq.cleared hcl
        exact ⟨h1, g.1, key g hg, h2⟩

/-- One name is unrelated to itself. -/
theorem unrelated_one (name : PyStr) : Unrelated fun N => ∃ _ : Nat, N = name := by
  rintro _ _ ⟨_, rfl⟩ ⟨_, rfl⟩ t h
  have := congrArg List.length h
  simp [lit] at this

/-- The same for one name. -/
theorem deaths (env : FEnv) {name : PyStr} (hg : NoGlob name) (m : Nat → Nat) (hm : ∀ i, 1 ≤ m i) (ok : Nat → FCall → Prop)
    (one : Prop) (ho : one → ∀ i c, ok i c → OneLine c) :
    ∃ R : Conf FS PyStr FileBuf FCall Ret → Shelf → (Nat → List Shelf) → Prop,
      (∀ s bufs f, Start name m s bufs f → (one → f.InOrder) → R (init s bufs) f fun _ => []) ∧
      ∀ κ f since, R κ f since → OnShelf name f κ.st ∧ f.Good ∧ (one → f.InOrder) ∧
        ∀ e κ', DStep (fileProcs env ok) (OfName name m) κ e κ' → ∃ f',
          (f' = f ∨ ∃ i c p, κ.cur i = some (c, p) ∧ f.Step (Stored env c) (c = .clear) f' ∧
            (one → f.Turn (m i) (Stored env c) (c = .clear) f')) ∧
          R κ' f' (watched since e f') ∧
          ∀ i r, e = some (.ret i r) → ∃ c p, κ.cur i = some (c, p) ∧ Answers env (m i) (since i) c r := by
  obtain ⟨R, h1, h2⟩ := deaths_names env (fun _ => name) (fun _ => hg) (unrelated_one name) m hm ok one ho
  refine ⟨fun κ f since => ∃ fs sinces, R κ fs sinces ∧ fs name = f ∧ since = fun j => (sinces j).map (· name),
    fun s bufs f h hin => ⟨fun _ => f, _, h1 s bufs _ ⟨fun _ => h.recs, fun _ => h.good, fun _ => h.tmp, h.bufs⟩ fun h _ => hin h, rfl, rfl⟩, ?_⟩
  rintro κ f since ⟨fs, sinces, hr, rfl, rfl⟩
  obtain ⟨h3, h4⟩ := h2 κ fs sinces hr
  refine ⟨(h3 0).1, (h3 0).2.1, (h3 0).2.2, fun e κ' hd => ?_⟩
  obtain ⟨fs', h5, h6, h7⟩ := h4 e κ' hd
  refine ⟨fs' name, ?_, ⟨fs', _, h6, rfl, ?_⟩, h7⟩
  · rcases h5 with rfl | ⟨i, c, p, hc, _, h8⟩
    · exact .inl rfl
    · exact .inr ⟨i, c, p, hc, h8⟩
  · funext j
    unfold watched
    split
    · split <;> simp
    · simp

/-- **C70** Processes with buffers of one name may die at any moment of any call, among others that go on and that come in their place;
their calls overlap, their tmp ids may be equal, they may keep different numbers of records, texts may be such that the encoding fails.
Then the record files are always like a shelf of entries each of which is in one place only and a beginning of what it is to become; every
step of a process is one that its call allows, so calls that add nothing change nothing, and a text arrives only in the entry that was
begun last.  No call ever misses a file.  A `read` that returns texts shows what the entries were at one single moment of the call.  When
`write` returns a number, the newest of the lines that it completed were on the shelf at a moment of the call, whole.  `clear` takes the
files away one by one, in any order, and has no record left at a moment of the call. -/
theorem C70_deaths (env : FEnv) (name : PyStr) (hg : NoGlob name) (m : Nat → Nat) (hm : ∀ i, 1 ≤ m i) (ok : Nat → FCall → Prop) :
    ∃ R : Conf FS PyStr FileBuf FCall Ret → Shelf → (Nat → List Shelf) → Prop,
      (∀ s bufs f, Start name m s bufs f → R (init s bufs) f fun _ => []) ∧
      ∀ κ f since, R κ f since → OnShelf name f κ.st ∧ f.Good ∧
        ∀ e κ', DStep (fileProcs env ok) (OfName name m) κ e κ' → ∃ f',
          (f' = f ∨ ∃ i c p, κ.cur i = some (c, p) ∧ f.Step (Stored env c) (c = .clear) f') ∧
          R κ' f' (watched since e f') ∧
          ∀ i r, e = some (.ret i r) → ∃ c p, κ.cur i = some (c, p) ∧ Answers env (m i) (since i) c r := by
  obtain ⟨R, h1, h2⟩ := deaths env hg m hm ok False False.elim
  refine ⟨R, fun s bufs f h => h1 s bufs f h False.elim, fun κ f since h => ?_⟩
  obtain ⟨h3, h4, _, h5⟩ := h2 κ f since h
  refine ⟨h3, h4, fun e κ' hd => ?_⟩
  obtain ⟨f', h6, h7⟩ := h5 e κ' hd
  exact ⟨f', h6.imp id fun ⟨i, c, p, h8, h9, _⟩ => ⟨i, c, p, h8, h9⟩, h7⟩

/-- **C70** If moreover no call adds more than one record: the higher the number of a file, the older its record, always; a record is
dropped only when all the places of the process that drops it are taken, and a new one never takes the place of another (unless there
is one place only).  If all processes keep `M` records and none clears, then a record is lost only after `M - 1` newer ones were begun –
whoever died at whatever moment.

Missing for the full claim: calls that add several records at once; see `C70_order_violated`. -/
theorem C70_order_partial (env : FEnv) (name : PyStr) (hg : NoGlob name) (m : Nat → Nat) (hm : ∀ i, 1 ≤ m i) (ok : Nat → FCall → Prop)
    (hone : ∀ i c, ok i c → OneLine c) :
    ∃ R : Conf FS PyStr FileBuf FCall Ret → Shelf → (Nat → List Shelf) → Prop,
      (∀ s bufs f, Start name m s bufs f → f.InOrder → R (init s bufs) f fun _ => []) ∧
      ∀ κ f since, R κ f since → OnShelf name f κ.st ∧ f.Good ∧ f.InOrder ∧
        ∀ e κ', DStep (fileProcs env ok) (OfName name m) κ e κ' → ∃ f',
          (f' = f ∨ ∃ i c p, κ.cur i = some (c, p) ∧ f.Turn (m i) (Stored env c) (c = .clear) f') ∧
          (∀ M, (∀ i, m i = M) → (∀ i c p, κ.cur i = some (c, p) → c ≠ .clear) → f.Kept M f') ∧
          R κ' f' (watched since e f') ∧
          ∀ i r, e = some (.ret i r) → ∃ c p, κ.cur i = some (c, p) ∧ Answers env (m i) (since i) c r := by
  obtain ⟨R, h1, h2⟩ := deaths env hg m hm ok True fun _ => hone
  refine ⟨R, fun s bufs f h hin => h1 s bufs f h fun _ => hin, fun κ f since h => ?_⟩
  obtain ⟨h3, h4, h4', h5⟩ := h2 κ f since h
  refine ⟨h3, h4, h4' trivial, fun e κ' hd => ?_⟩
  obtain ⟨f', h6, h7⟩ := h5 e κ' hd
  have h8 : f' = f ∨ ∃ i c p, κ.cur i = some (c, p) ∧ f.Turn (m i) (Stored env c) (c = .clear) f' :=
    h6.imp id fun ⟨i, c, p, h8, _, h9⟩ => ⟨i, c, p, h8, h9 trivial⟩
  refine ⟨f', h8, fun M hM hc => ?_, h7⟩
  rcases h8 with rfl | ⟨i, c, p, h8, h9⟩
  · exact Shelf.Kept.refl M f'
  · rw [hM i, show (c = .clear) = False from propext ⟨hc i c p h8, False.elim⟩] at h9
    exact Shelf.Kept.turn h4 (h4' trivial) h9

/-- **C70** For whole executions: whoever dies, no call of another process ever ends with `FileNotFoundError`. -/
theorem C70_no_missing_file (env : FEnv) (name : PyStr) (hg : NoGlob name) (m : Nat → Nat) (hm : ∀ i, 1 ≤ m i)
    (ok : Nat → FCall → Prop) (s : FS) (bufs : Nat → FileBuf) (f : Shelf) (hs : Start name m s bufs f)
    (tr : List (Ev FCall Ret)) (κ : Conf FS PyStr FileBuf FCall Ret)
    (hx : DExec (fileProcs env ok) (OfName name m) (init s bufs) tr κ) (i : Nat) : Ev.ret i (.exc .fileNotFound) ∉ tr := by
  obtain ⟨R, h1, h2⟩ := C70_deaths env name hg m hm ok
  suffices H : ∃ f since, R κ f since ∧ Ev.ret i (.exc .fileNotFound) ∉ tr from H.choose_spec.choose_spec.2
  have h0 := h1 s bufs f hs
  generalize init s bufs = κ0 at hx h0
  induction hx with
  | nil => exact ⟨_, _, h0, List.not_mem_nil⟩
  | snoc κ1 κ2 tr e _ hd ih =>
    obtain ⟨f1, since1, h3, h4⟩ := ih
    obtain ⟨f2, _, h5, h6⟩ := (h2 _ _ _ h3).2.2 e _ hd
    refine ⟨f2, _, h5, fun hin => ?_⟩
    rcases List.mem_append.1 hin with hin | hin
    · exact h4 hin
    · obtain rfl : e = some (.ret i (.exc .fileNotFound)) := by
        cases e with
        | none => cases hin
        | some e => rw [List.mem_singleton.1 hin]
      obtain ⟨c, p, _, h7⟩ := h6 i _ rfl
      exact h7.found rfl

/-- **C70** For whole executions in which no call adds more than one record: whoever dies, what a `read` returns are the texts of entries
that were begun in this order. -/
theorem C70_read_order_partial (env : FEnv) (name : PyStr) (hg : NoGlob name) (m : Nat → Nat) (hm : ∀ i, 1 ≤ m i)
    (ok : Nat → FCall → Prop) (hone : ∀ i c, ok i c → OneLine c) (s : FS) (bufs : Nat → FileBuf) (f : Shelf)
    (hs : Start name m s bufs f) (hin : f.InOrder) (tr : List (Ev FCall Ret)) (κ κ' : Conf FS PyStr FileBuf FCall Ret)
    (hx : DExec (fileProcs env ok) (OfName name m) (init s bufs) tr κ) (i : Nat) (size : Option Int)
    (p : Prog FS PyStr (Ret × FileBuf)) (hc : κ.cur i = some (.read size, p)) (r : Ret)
    (hd : DStep (fileProcs env ok) (OfName name m) κ (some (.ret i r)) κ') :
    r = .exc .osError ∨ ∃ f l, Shelf.Good f ∧ f.InOrder ∧ r = .items (l.map .str) ∧ ReadShows (m i) size f l := by
  obtain ⟨R, h1, h2⟩ := C70_order_partial env name hg m hm ok hone
  have H : ∃ f since, R κ f since ∧ ∀ j, ∀ f ∈ since j, Shelf.Good f ∧ f.InOrder := by
    clear hd hc
    have h0 := h1 s bufs f hs hin
    generalize init s bufs = κ0 at hx h0
    induction hx with
    | nil => exact ⟨_, _, h0, fun _ _ h => nomatch h⟩
    | snoc κ1 κ2 tr e _ hd ih =>
      obtain ⟨f1, since1, h3, h4⟩ := ih
      obtain ⟨f2, _, _, h5, h6⟩ := (h2 _ _ _ h3).2.2.2 e _ hd
      refine ⟨f2, _, h5, fun j g hg => ?_⟩
      have hgood := h2 _ _ _ h5
      have : g = f2 ∨ g ∈ since1 j := by
        unfold watched at hg
        split at hg
        · split at hg
          · exact .inl (List.mem_singleton.1 hg)
          · exact List.mem_cons.1 hg
        · exact List.mem_cons.1 hg
      rcases this with rfl | h
      · exact ⟨hgood.2.1, hgood.2.2.1⟩
      · exact h4 j g h
  obtain ⟨f1, since1, h3, h4⟩ := H
  obtain ⟨f2, _, _, h5, h6⟩ := (h2 _ _ _ h3).2.2.2 _ _ hd
  obtain ⟨c, p', hc', ha⟩ := h6 i r rfl
  rw [hc] at hc'
  cases hc'
  rcases ha.read size rfl with h | ⟨g, hg, l, h7, h8⟩
  · exact .inl h
  · exact .inr ⟨g, l, (h4 i g hg).1, (h4 i g hg).2, h7, h8⟩

/-! ## What fails, and a concrete case -/

/-- Buffers named "x" with three records. -/
def dyingBufs (i : Nat) : FileBuf := { name := lit "x", tmpId := dec i, maxlen := 3 }

/-- Process `i` starts the call and makes `k` steps. -/
def begins (i : Nat) (c : FCall) (k : Nat) : List (DMove FCall) := .mv (.start i c) :: List.replicate k (.mv (.go i))

/-- Every observation of these moves and deaths is one of an execution. -/
theorem dying_exec {ms : List (DMove FCall)} {tr : List (Ev FCall Ret)}
    (h : (dmoves (fileProcs {} fun _ _ => True) 2 dyingBufs ms (init (fun _ => none) dyingBufs)).map (·.1) = some tr) :
    ∃ κ, DExec (fileProcs {} fun _ _ => True) (OfName (lit "x") fun _ => 3) (init (fun _ => none) dyingBufs) tr κ := by
  cases hd : dmoves (fileProcs {} fun _ _ => True) 2 dyingBufs ms (init (fun _ => none) dyingBufs) with
  | none => rw [hd] at h; cases h
  | some x =>
    rw [hd] at h
    cases h
    exact ⟨x.2, dmoves_sound (fun _ _ => trivial) (fun _ => ⟨rfl, rfl⟩) (fun _ _ _ => rfl) hd⟩

/-- **C70** What a user expects – `read()` shows the records in the order in which they were written – fails if a process dies while it
adds several records: there are the records `a`, `b`, `c`; a process that adds two dies after it has moved `c` to the place of `a`; after
the next `write`, `read()` shows `c` before `b`. -/
theorem C70_order_violated : ∃ κ, DExec (fileProcs {} fun _ _ => True) (OfName (lit "x") fun _ => 3) (init (fun _ => none) dyingBufs)
    [.inv 0 (.write (lit "a\nb\nc\n")), .ret 0 (.nat 0), .inv 1 (.write (lit "d\ne\n")), .inv 0 (.write (lit "f\n")), .ret 0 (.nat 0),
      .inv 0 (.read none), .ret 0 (.items [.str (lit "c"), .str (lit "b"), .str (lit "f")])] κ :=
  dying_exec (ms := begins 0 (.write (lit "a\nb\nc\n")) 23 ++ begins 1 (.write (lit "d\ne\n")) 12 ++ [.die 1] ++
    begins 0 (.write (lit "f\n")) 20 ++ begins 0 (.read none) 15) rfl

set_option maxRecDepth 4000 in
/-- With single records: a process dies in the middle of moving the records `a`, `b`; the next `write` closes the gap, nothing is lost. -/
example : ∃ κ, DExec (fileProcs {} fun _ _ => True) (OfName (lit "x") fun _ => 3) (init (fun _ => none) dyingBufs)
    [.inv 0 (.write (lit "a\n")), .ret 0 (.nat 0), .inv 0 (.write (lit "b\n")), .ret 0 (.nat 0), .inv 1 (.write (lit "c\n")),
      .inv 1 (.read none), .ret 1 (.items [.str (lit "b")]), .inv 0 (.write (lit "d\n")), .ret 0 (.nat 0),
      .inv 0 (.read none), .ret 0 (.items [.str (lit "a"), .str (lit "b"), .str (lit "d")])] κ :=
  dying_exec (ms := begins 0 (.write (lit "a\n")) 19 ++ begins 0 (.write (lit "b\n")) 22 ++ begins 1 (.write (lit "c\n")) 11 ++ [.die 1] ++
    begins 1 (.read none) 12 ++ begins 0 (.write (lit "d\n")) 22 ++ begins 0 (.read none) 15) rfl

/-- A process dies in the middle of the text "cd": its beginning remains. -/
example : ∃ κ, DExec (fileProcs {} fun _ _ => True) (OfName (lit "x") fun _ => 3) (init (fun _ => none) dyingBufs)
    [.inv 0 (.write (lit "cd\n")), .inv 1 (.read none), .ret 1 (.items [.str (lit "c")])] κ :=
  dying_exec (ms := begins 0 (.write (lit "cd\n")) 11 ++ [.die 0] ++ begins 1 (.read none) 12) rfl

/-- The start with no files at all. -/
example : Start (lit "x") (fun _ => 3) (fun _ => none) dyingBufs Shelf.blank :=
  ⟨fun _ => rfl, ⟨fun _ _ h => (nomatch h), fun _ _ _ _ h => (nomatch h), fun _ _ h => (nomatch h)⟩, fun _ => noBreak_nil,
    fun _ => ⟨rfl, rfl⟩⟩

/-- Calls that add at most one record, and one that adds two. -/
example : OneLine (.write (lit "ab\n")) ∧ OneLine (.read none) ∧ ¬ OneLine (.write (lit "a\nb\n")) := by
  refine ⟨fun d hd ls r h => ?_, nofun, fun h => ?_⟩
  · cases hd
    rw [← (Prod.mk.inj (segFrom_eq_of_lines h)).1]
    decide +kernel
  · have := h _ rfl _ _ (lines_segFrom [] (lit "a\nb\n") noBreak_nil)
    revert this
    decide +kernel

end SyncStream
