import Verif.Lemmas.Private
import Verif.Lemmas.FileRefine
import Verif.Lemmas.LineBuffer
import Verif.Lemmas.HostThreads
import Verif.Lemmas.Orderly
import Verif.Model.FileOverride
import Verif.Spec.FileOverride
/-!
# File buffers with a user's `parse_lines`
-/

namespace SyncStream
open Spec Prog Conc

/-! ## Which files the methods leave alone -/

/-- The files whose names satisfy `T` are the same. -/
def SameFiles (T : PyStr → Prop) (s t : FS) : Prop := ∀ n, T n → t n = s n

namespace FileBuf
variable {T : PyStr → Prop} {b : FileBuf} {α : Type}

theorem same_refl (s : FS) : SameFiles T s s := fun _ _ => rfl

theorem same_set {n : PyStr} (hn : ¬T n) (v : Option PyStr) (s : FS) : SameFiles T s (s.set n v) :=
  fun m hm => FS.set_other s v fun e => hn (e ▸ hm)

theorem guar_isfile (n : PyStr) : (File.isfile n).Guar (SameFiles T) := ⟨same_refl, fun _ => trivial⟩
theorem guar_listdir : File.listdir.Guar (SameFiles T) := ⟨same_refl, fun _ => trivial⟩
theorem guar_readText (n : PyStr) : (File.readText n).Guar (SameFiles T) := ⟨same_refl, fun s => by
  dsimp only; split <;> trivial⟩
theorem guar_remove {n : PyStr} (hn : ¬T n) : (File.remove n).Guar (SameFiles T) :=
  ⟨fun s => same_set hn _ s, fun s => by dsimp only; split <;> trivial⟩
theorem guar_rename {n m : PyStr} (hn : ¬T n) (hm : ¬T m) : (File.rename n m).Guar (SameFiles T) :=
  ⟨fun s => by
    dsimp only
    split
    · exact same_refl s
    · exact fun k hk => (same_set hm _ _ k hk).trans (same_set hn _ _ k hk), fun s => by dsimp only; split <;> trivial⟩
theorem guar_openW {n : PyStr} (hn : ¬T n) : (File.openW n).Guar (SameFiles T) :=
  ⟨fun s => same_set hn _ s, fun _ => trivial⟩
theorem guar_openA {n : PyStr} (hn : ¬T n) : (File.openA n).Guar (SameFiles T) :=
  ⟨fun s => by
    dsimp only
    split
    · exact same_refl s
    · exact same_set hn _ s, fun _ => trivial⟩
theorem guar_appendChars {n : PyStr} (hn : ¬T n) (t : PyStr) : (File.appendChars n t).Guar (SameFiles T) := by
  induction t with
  | nil => trivial
  | cons c t ih => exact ⟨fun s => same_set hn _ s, fun _ => ih⟩
theorem guar_writeText (env : FEnv) {n : PyStr} (hn : ¬T n) (t : PyStr) :
    (File.writeText env n t).Guar (SameFiles T) := by
  unfold File.writeText
  split
  · exact .bind (guar_appendChars hn _) fun _ => trivial
  · trivial

theorem guar_moveLoop (hl : ∀ k, ¬T (b.logName k)) (n m : Nat) : (moveLoop b n m).Guar (SameFiles T) := by
  induction m with
  | zero => trivial
  | succ m ih =>
    unfold moveLoop
    refine .bind (guar_isfile _) fun x => ?_
    cases x with
    | true => exact .bind (guar_remove (hl _)) fun _ => .bind (guar_rename (hl _) (hl _)) fun _ => ih
    | false => exact .bind (guar_rename (hl _) (hl _)) fun _ => ih

theorem guar_writeLoop (env : FEnv) (hl : ∀ k, ¬T (b.logName k)) (l : List PyStr) :
    (writeLoop env b l).Guar (SameFiles T) := by
  induction l with
  | nil => trivial
  | cons x l ih => exact .bind (guar_openW (hl _)) fun _ => .bind (guar_writeText env (hl _) _) fun _ => ih

theorem guar_updateRecords (env : FEnv) (hl : ∀ k, ¬T (b.logName k)) (l : List PyStr) :
    (updateRecords env b l).Guar (SameFiles T) := by
  unfold updateRecords
  refine .withLock ?_
  split
  · trivial
  · exact .bind guar_listdir fun _ => .bind (guar_moveLoop hl _ _) fun _ => guar_writeLoop env hl _

theorem guar_getLastLine : (getLastLine b).Guar (SameFiles T) := by
  unfold getLastLine
  refine .withLock (.bind (guar_isfile _) fun x => ?_)
  split
  · exact guar_readText _
  · trivial

theorem guar_cleanLastLine (ht : ¬T b.tmpName) : (cleanLastLine b).Guar (SameFiles T) :=
  .withLock (guar_openW ht)

theorem guar_writeLastLine (env : FEnv) (ht : ¬T b.tmpName) (l : PyStr) :
    (writeLastLine env b l).Guar (SameFiles T) :=
  .withLock (.bind (guar_openA ht) fun _ => guar_writeText env ht _)

theorem guar_check (w x : Bool) (l l' : PyStr) :
    (Prog.withLock l w (Prog.withLock l' w (.ret x)) : FProg Bool).Guar (SameFiles T) := trivial

theorem guar_len : (len b).Guar (SameFiles T) := by
  unfold len
  exact .bind (.withLock (.bind guar_listdir fun _ => trivial)) fun _ => .bind guar_getLastLine fun _ => trivial

theorem guar_readLoop (n : Nat) : (readLoop b n).Guar (SameFiles T) := by
  induction n with
  | zero => trivial
  | succ n ih => exact .bind (guar_readText _) fun _ => .bind ih fun _ => trivial

theorem guar_read (n : Option Int) : (read b n).Guar (SameFiles T) := by
  unfold read
  refine .bind (guar_check _ _ _ _) fun _ => ?_
  split
  · trivial
  · split
    · trivial
    · exact .bind guar_getLastLine fun _ => .withLock (.bind guar_listdir fun _ =>
        .bind (guar_readLoop _) fun _ => trivial)

theorem guar_sendExc (env : FEnv) (hl : ∀ k, ¬T (b.logName k)) (e : ExcObj) :
    (sendExc env b e).Guar (SameFiles T) := by
  unfold sendExc
  split
  · trivial
  · split
    · exact guar_updateRecords env hl _
    · trivial

theorem guar_removeAll {ns : List PyStr} (h : ∀ n ∈ ns, ¬T n) : (removeAll ns).Guar (SameFiles T) := by
  induction ns with
  | nil => trivial
  | cons n ns ih =>
    exact .bind (guar_remove (h n (List.mem_cons_self ..))) fun _ => ih fun m hm => h m (List.mem_cons_of_mem _ hm)

/-- The part of `clear` that removes the records. -/
def clearLogs (env : FEnv) (b : FileBuf) : FProg Unit :=
  Prog.withLock b.lockName true
    (.act id fun s =>
      match env.listing fun n => globMatch (b.name ++ lit "-*.log") n && (s n).isSome with
      | some ns => removeAll ns
      | none => .act (fun s n => if globMatch (b.name ++ lit "-*.log") n then none else s n) fun _ => .ret ())

theorem guar_clearLogs (env : FEnv) (hT : ∀ n, T n → globMatch (b.name ++ lit "-*.log") n = false) :
    (clearLogs env b).Guar (SameFiles T) := by
  refine .withLock ⟨same_refl, fun s => ?_⟩
  dsimp only
  split
  · rename_i ns h
    refine guar_removeAll fun n hn hTn => ?_
    have := (env.lists _ _ h).2 n |>.1 hn
    rw [hT n hTn] at this
    cases this
  · refine ⟨fun s n hn => ?_, fun _ => trivial⟩
    simp [hT n hn]

theorem clear_eq (env : FEnv) (b : FileBuf) : clear env b = (do
    clearLogs env b
    Prog.withLock b.tmpLockName true do
      if ← File.isfile b.tmpName then File.remove b.tmpName) := rfl

theorem guar_clear (env : FEnv) (hT : ∀ n, T n → globMatch (b.name ++ lit "-*.log") n = false)
    (ht : ¬T b.tmpName) : (clear env b).Guar (SameFiles T) := by
  rw [clear_eq]
  refine .bind (guar_clearLogs env hT) fun _ => .withLock (.bind (guar_isfile _) fun x => ?_)
  cases x with
  | true => exact guar_remove ht
  | false => trivial

end FileBuf

/-! ## What the methods do with the draft -/

/-- The file `n` is the same. -/
abbrev SameFile (n : PyStr) : FS → FS → Prop := SameFiles (· = n)

theorem sameFiles_steady (T : PyStr → Prop) : Steady (SameFiles T) :=
  ⟨fun _ _ _ => rfl, fun h h' n hn => (h' n hn).trans (h n hn)⟩

namespace FileBuf
variable {b : FileBuf} {part : PyStr} {s : FS}

theorem Tmp.later {t : FS} (h : Tmp b s part) (ht : SameFile b.tmpName s t) : Tmp b t part := by
  unfold Tmp
  rw [ht _ rfl]
  exact h

theorem getLastLine_meets (h : Tmp b s part) (hn : NoBreak part) :
    (getLastLine b).Meets (SameFile b.tmpName) (fun r t => r = .ok part ∧ Tmp b t part) s := by
  refine Meets.withLock (Meets.bind (sameFiles_steady _)
    (Q := fun r t => r = .ok (t b.tmpName).isSome ∧ Tmp b t part) ?_ ?_ ?_)
  · intro t ht u hu
    exact ⟨by rw [hu _ rfl]; rfl, (h.later ht).later hu⟩
  · rintro x t ⟨e, h1⟩
    cases e
    cases hx : t b.tmpName with
    | none =>
      rw [Tmp, hx] at h1
      refine fun u hu => ⟨?_, ?_⟩
      · rw [← h1]; rfl
      · unfold Tmp
        rw [hu _ rfl, hx]; exact h1
    | some c =>
      have h1' := h1
      rw [Tmp, hx] at h1
      replace h1 : c = part := h1
      subst h1
      intro u hu
      show Prog.Meets _ _ (match u b.tmpName with
        | none => .raise .fileNotFound
        | some c => .ret (univNewlines c)) u
      rw [hu _ rfl, hx]
      exact fun v hv => ⟨by rw [univNewlines_noBreak hn], (h1'.later hu).later hv⟩
  · rintro e t ⟨h1, _⟩
    cases h1

theorem cleanLastLine_meets : (cleanLastLine b).Meets (SameFile b.tmpName) (fun r t => r = .ok () ∧ Tmp b t []) s := by
  refine Meets.withLock fun t ht u hu => ⟨rfl, ?_⟩
  unfold Tmp
  rw [hu _ rfl]
  simp

theorem appendChars_meets (l : PyStr) (h : Tmp b s part) :
    (File.appendChars b.tmpName l).Meets (SameFile b.tmpName) (fun r t => r = .ok () ∧ Tmp b t (part ++ l)) s := by
  induction l generalizing part s with
  | nil => exact fun t ht => ⟨rfl, by rw [List.append_nil]; exact h.later ht⟩
  | cons c l ih =>
    intro t ht
    have := ih (part := part ++ [c]) (s := t.set b.tmpName (some ((t b.tmpName).getD [] ++ [c])))
      (by have := h.later ht; unfold Tmp at this ⊢; simp [this])
    rw [List.append_assoc] at this
    exact this

theorem writeLastLine_meets (env : FEnv) {l : PyStr} (hl : NoBreak l) (he : l.all env.encodable = true)
    (h : Tmp b s part) : (writeLastLine env b l).Meets (SameFile b.tmpName)
      (fun r t => r = .ok l.length ∧ Tmp b t (part ++ l)) s := by
  refine Meets.withLock (Meets.bind (sameFiles_steady _) (Q := fun r t => r = .ok () ∧ Tmp b t part) ?_ ?_ ?_)
  · intro t ht u hu
    refine ⟨rfl, Tmp.later ?_ hu⟩
    have := h.later ht
    dsimp only
    split
    · exact this
    · rename_i hx
      unfold Tmp at this ⊢
      have hx : t b.tmpName = none := by cases e : t b.tmpName <;> simp_all
      rw [hx] at this
      simpa using this
  · rintro _ t ⟨_, h1⟩
    unfold File.writeText
    rw [if_pos he, writeNewlines_noBreak _ hl]
    refine Meets.bind (sameFiles_steady _) (appendChars_meets l h1) ?_ ?_
    · rintro _ u ⟨_, h2⟩
      exact fun v hv => ⟨rfl, h2.later hv⟩
    · rintro e u ⟨h2, _⟩
      cases h2
  · rintro e t ⟨h1, _⟩
    cases h1

theorem raises_removeAll (ns : List PyStr) : RaisesOnly (· = .fileNotFound) (removeAll ns) := by
  induction ns with
  | nil => trivial
  | cons n ns ih =>
    intro s
    show RaisesOnly _ (Prog.bind (if _ then _ else _) _)
    split
    · exact ih
    · rfl

end FileBuf

namespace Prog
variable {σ τ L L' α β : Type} {E : Exc → Prop}

theorem raises_andRelease {p : Prog σ L α} {l : L} {w : Bool} (h : RaisesOnly E p) :
    RaisesOnly E (p.andRelease l w) := by
  induction p with
  | ret a => trivial
  | raise e => exact h
  | act f k ih => exact fun s => ih s (h s)
  | acq l w k ih => exact ih h
  | rel l w k ih => exact ih h

theorem raises_bind {p : Prog σ L α} {g : α → Prog σ L β} (h : RaisesOnly E p) (hg : ∀ a, RaisesOnly E (g a)) :
    RaisesOnly E (p >>= g) := by
  change RaisesOnly E (p.bind g)
  induction p with
  | ret a => exact hg a
  | raise e => exact h
  | act f k ih => exact fun s => ih s (h s)
  | acq l w k ih => exact ih h
  | rel l w k ih => exact ih h

/-- A program that raises only `E` and keeps to `G`. -/
theorem meets_raises {G : σ → σ → Prop} (hG : Steady G) {p : Prog σ L α} (hE : RaisesOnly E p) (hp : p.Guar G) {s : σ} :
    p.Meets G (fun r t => G s t ∧ ((∃ a, r = .ok a) ∨ ∃ e, r = .error e ∧ E e)) s := by
  have : ∀ u, G s u → p.Meets G (fun r t => G s t ∧ ((∃ a, r = .ok a) ∨ ∃ e, r = .error e ∧ E e)) u := by
    induction p with
    | ret a => exact fun u hu t ht => ⟨hG.trans hu ht, .inl ⟨a, rfl⟩⟩
    | raise e => exact fun u hu t ht => ⟨hG.trans hu ht, .inr ⟨e, rfl, hE⟩⟩
    | act f k ih => exact fun u hu t ht => ih t (hE t) (hp.2 t) _ (hG.trans (hG.trans hu ht) (hp.1 t))
    | acq l w k ih => exact fun u hu => ih hE hp u hu
    | rel l w k ih => exact fun u hu => ih hE hp u hu
  exact this s (hG.refl s)

theorem leavesFiles_guar {files : σ → PyStr → Option PyStr} {T : PyStr → Prop} {p : Prog σ L α} :
    LeavesFiles files T p ↔ p.Guar fun s t => SameFiles T (files s) (files t) := by
  induction p with
  | ret a => exact Iff.rfl
  | raise e => exact Iff.rfl
  | act f k ih => exact and_congr Iff.rfl (forall_congr' ih)
  | acq l w k ih => exact ih
  | rel l w k ih => exact ih

end Prog

namespace FileBuf
variable {b : FileBuf} {part : PyStr} {s : FS}

theorem clear_meets (env : FEnv) (hg : NoGlob b.name) (h : Tmp b s part) :
    (clear env b).Meets (SameFile b.tmpName)
      (fun r t => (r = .ok () ∧ Tmp b t []) ∨ (r = .error .fileNotFound ∧ Tmp b t part)) s := by
  rw [clear_eq]
  refine Meets.bind (sameFiles_steady _) (meets_raises (E := (· = .fileNotFound)) (sameFiles_steady _) ?_
    (guar_clearLogs env fun n hn => by cases hn; exact fnmatch_tmp hg)) ?_ ?_
  · unfold clearLogs Prog.withLock
    show RaisesOnly _ (Prog.andRelease _ _ _)
    refine raises_andRelease fun s => ?_
    dsimp only
    split
    · exact raises_removeAll _
    · exact fun _ => trivial
  · rintro _ t ⟨h1, _⟩
    refine Meets.withLock (Meets.bind (sameFiles_steady _)
      (Q := fun r u => r = .ok (u b.tmpName).isSome ∧ Tmp b u part) ?_ ?_ ?_)
    · intro u hu v hv
      exact ⟨by rw [hv _ rfl]; rfl, ((h.later h1).later hu).later hv⟩
    · rintro x u ⟨e, h2⟩
      cases e
      cases hx : u b.tmpName with
      | none =>
        refine fun v hv => .inl ⟨rfl, ?_⟩
        unfold Tmp
        rw [hv _ rfl, hx]; rfl
      | some c =>
        intro v hv
        have e : v b.tmpName = some c := by rw [hv _ rfl, hx]
        show Prog.Meets _ _ (if (v b.tmpName).isSome then .ret () else .raise .fileNotFound) _
        rw [e]
        refine fun w hw => .inl ⟨rfl, ?_⟩
        unfold Tmp
        rw [hw _ rfl]
        simp
    · rintro e u ⟨h2, _⟩
      cases h2
  · rintro e t ⟨h1, h2⟩
    rcases h2 with ⟨a, h2⟩ | ⟨e', h2, h3⟩
    · cases h2
    · cases h2; cases h3
      exact .inr ⟨rfl, h.later h1⟩

end FileBuf

/-! ## The calls -/

namespace FOvr
variable {U α : Type}

/-- What the others leave alone: the file `n` and the attributes of process `i`. -/
def Alone (n : PyStr) (i : Nat) (d d' : OvDir U) : Prop := SameFile n d.files d'.files ∧ d'.own i = d.own i

theorem alone_steady (n : PyStr) (i : Nat) : Steady (Alone (U := U) n i) :=
  ⟨fun _ => ⟨fun _ _ => rfl, rfl⟩, fun h h' => ⟨(sameFiles_steady _).trans h.1 h'.1, h'.2.trans h.2⟩⟩

theorem onFiles_meets {n : PyStr} {i : Nat} {Q : Except Exc α → FS → Prop} {p : FProg α} {d : OvDir U} {u : U}
    (h : p.Meets (SameFile n) Q d.files) (hu : d.own i = u) :
    (onFiles p : DProg U α).Meets (Alone n i) (fun r d' => Q r d'.files ∧ d'.own i = u) d := by
  induction p generalizing d with
  | ret a => exact fun t ht => ⟨h _ ht.1, ht.2.trans hu⟩
  | raise e => exact fun t ht => ⟨h _ ht.1, ht.2.trans hu⟩
  | act f k ih => exact fun t ht => ih t.files (d := { t with files := f t.files }) (h _ ht.1) (ht.2.trans hu)
  | acq l w k ih => exact ih h hu
  | rel l w k ih => exact ih h hu

theorem onFiles_guar {n : PyStr} {i : Nat} {p : FProg α} (h : p.Guar (SameFile n)) :
    (onFiles p : DProg U α).Guar (Alone n i) := Guar.onPart (fun _ _ h => ⟨h, rfl⟩) h

/-- The override is called by another process. -/
theorem method_guar {n : PyStr} {i j : Nat} (hij : i ≠ j) {p : FOverride U} {b : FileBuf} {ls : List PyStr}
    (h : LeavesFiles Prod.fst (· = n) (p b ls)) : (method p j b ls).Guar (Alone n i) :=
  Guar.onPart (fun _ _ h => ⟨h, upd_other _ _ hij⟩) (leavesFiles_guar.mp h)

/-- The override is called: it is given the lines, and it raises or not. -/
theorem method_meets {E : Exc → Prop} {i : Nat} {p : FOverride U} {b : FileBuf} {ls : List PyStr}
    (hl : LeavesFiles Prod.fst (· = b.tmpName) (p b ls)) (hE : RaisesOnly E (p b ls)) {part : PyStr}
    {gs : List (List PyStr)} {d : OvDir (U × List (List PyStr))} (h : FileBuf.Tmp b d.files part)
    (hg : (d.own i).2 = gs) : (method p.noting i b ls).Meets (Alone b.tmpName i)
      (fun r d' => FileBuf.Tmp b d'.files part ∧ (d'.own i).2 = gs ++ [ls] ∧ (r = .ok () ∨ ∃ e, r = .error e ∧ E e)) d := by
  have key : ∀ q : Prog (FS × U) PyStr Unit, LeavesFiles Prod.fst (· = b.tmpName) q → RaisesOnly E q →
      ∀ d : OvDir (U × List (List PyStr)), FileBuf.Tmp b d.files part → (d.own i).2 = gs ++ [ls] →
      ((q.onPart (fun x : FS × U × List (List PyStr) => (x.1, x.2.1)) (fun y x => (y.1, y.2, x.2.2)) id).onPart
        (fun d : OvDir (U × List (List PyStr)) => (d.files, d.own i))
        (fun x d => { files := x.1, own := upd d.own i x.2 }) id).Meets (Alone b.tmpName i)
      (fun r d' => FileBuf.Tmp b d'.files part ∧ (d'.own i).2 = gs ++ [ls] ∧
        (r = .ok () ∨ ∃ e, r = .error e ∧ E e)) d := by
    intro q
    induction q with
    | ret a => exact fun _ _ d h1 h2 t ht => ⟨h1.later ht.1, by rw [ht.2]; exact h2, .inl rfl⟩
    | raise e => exact fun _ hE d h1 h2 t ht => ⟨h1.later ht.1, by rw [ht.2]; exact h2, .inr ⟨e, rfl, hE⟩⟩
    | act f k ih =>
      intro hl hE d h1 h2 t ht
      refine ih _ (hl.2 _) (hE _) _ ?_ ?_
      · exact (h1.later ht.1).later (hl.1 (t.files, (t.own i).1))
      · show (upd t.own i _ i).2 = _
        rw [upd_same]
        show (t.own i).2 = _
        rw [ht.2]; exact h2
    | acq l w k ih => exact fun hl hE d h1 h2 => ih hl hE d h1 h2
    | rel l w k ih => exact fun hl hE d h1 h2 => ih hl hE d h1 h2
  intro t ht
  refine key _ hl hE _ (h.later ht.1) ?_
  show (upd t.own i _ i).2 = _
  rw [upd_same]
  show (t.own i).2 ++ [ls] = _
  rw [ht.2, hg]

/-- How `__write` ends. -/
def Wrote (E : Exc → Prop) (i : Nat) (b : FileBuf) (part t : PyStr) (gs : List (List PyStr)) (r : Except Exc Nat)
    (d : OvDir (U × List (List PyStr))) : Prop :=
  (∃ ls rest, r = .ok (LineBuf.writeRet t) ∧ Lines (part ++ t) ls rest ∧ FileBuf.Tmp b d.files rest ∧
    (d.own i).2 = gs ++ if ls = [] then [] else [ls]) ∨
  (∃ ls rest e, r = .error e ∧ E e ∧ Lines (part ++ t) ls rest ∧ ls ≠ [] ∧ FileBuf.Tmp b d.files part ∧
    (d.own i).2 = gs ++ [ls])

theorem writeCore_meets {E : Exc → Prop} {env : FEnv} {i : Nat} {p : FOverride U} {b : FileBuf}
    (hl : ∀ ls, LeavesFiles Prod.fst (· = b.tmpName) (p b ls)) (hE : ∀ ls, RaisesOnly E (p b ls)) {part t : PyStr}
    (hn : NoBreak part) (ht : t.all env.encodable = true) {gs : List (List PyStr)}
    {d : OvDir (U × List (List PyStr))} (h : FileBuf.Tmp b d.files part) (hg : (d.own i).2 = gs) :
    (writeCore env (method p.noting i b) b t).Meets (Alone b.tmpName i) (Wrote E i b part t gs) d := by
  have hG := alone_steady (U := U × List (List PyStr)) b.tmpName i
  have hlines := lines_segFrom part t hn
  have henc := (FileBuf.segFrom_encodable env [] t (by rfl) ht).2
  have hrn : NoBreak (segFrom [] t).2 := segFrom_cur_noBreak [] t (by intro c hc; cases hc)
  unfold writeCore
  by_cases ht0 : t = []
  · subst ht0
    simp only [splitlines_eq, isEndLineBreak, segFrom]
    intro d' hd'
    refine .inl ⟨[], part, by simp [LineBuf.writeRet], ?_, h.later hd'.1, ?_⟩
    · rw [List.append_nil]; exact .unfinished _ hn
    · rw [hd'.2, hg]; simp
  have hcorr := splitlines_corrected t ht0
  have hsp := splitlines_eq t
  have hcur := segFrom_cur part t
  have getLast : ∀ {β : Type} {g : PyStr → DProg (U × List (List PyStr)) β} {Q},
      (∀ d', FileBuf.Tmp b d'.files part → (d'.own i).2 = gs → (g part).Meets (Alone b.tmpName i) Q d') →
      (onFiles b.getLastLine >>= g).Meets (Alone b.tmpName i) Q d := by
    intro β g Q hk
    refine Meets.bind hG (onFiles_meets (FileBuf.getLastLine_meets h hn) rfl) ?_ ?_
    · rintro a d' ⟨⟨e1, e2⟩, e3⟩
      cases e1
      exact hk d' e2 (by rw [e3]; exact hg)
    · rintro e d' ⟨⟨e1, _⟩, _⟩
      cases e1
  have parse : ∀ {β : Type} {g : Unit → DProg (U × List (List PyStr)) β} {Q} (ls : List PyStr) (d')
      (_ : FileBuf.Tmp b d'.files part) (_ : (d'.own i).2 = gs),
      (∀ d'', FileBuf.Tmp b d''.files part → (d''.own i).2 = gs ++ [ls] → (g ()).Meets (Alone b.tmpName i) Q d'') →
      (∀ e d'', E e → FileBuf.Tmp b d''.files part → (d''.own i).2 = gs ++ [ls] → Q (.error e) d'') →
      (method p.noting i b ls >>= g).Meets (Alone b.tmpName i) Q d' := by
    intro β g Q ls d' h1 h2 hk he
    refine Meets.bind hG (method_meets (hl ls) (hE ls) h1 h2) ?_ ?_
    · rintro a d'' ⟨e1, e2, _⟩
      exact hk d'' e1 e2
    · rintro e d'' ⟨e1, e2, e3⟩
      rcases e3 with e3 | ⟨e', e3, e4⟩
      · cases e3
      · cases e3
        exact he e d'' e4 e1 e2
  have clean : ∀ {β : Type} {g : Unit → DProg (U × List (List PyStr)) β} {Q} (ls : List PyStr) (d')
      (_ : (d'.own i).2 = gs ++ [ls]),
      (∀ d'', FileBuf.Tmp b d''.files [] → (d''.own i).2 = gs ++ [ls] → (g ()).Meets (Alone b.tmpName i) Q d'') →
      (onFiles b.cleanLastLine >>= g).Meets (Alone b.tmpName i) Q d' := by
    intro β g Q ls d' h2 hk
    refine Meets.bind hG (onFiles_meets FileBuf.cleanLastLine_meets rfl) ?_ ?_
    · rintro a d'' ⟨⟨_, e2⟩, e3⟩
      exact hk d'' e2 (by rw [e3]; exact h2)
    · rintro e d'' ⟨⟨e1, _⟩, _⟩
      cases e1
  generalize hls : (segFrom [] t).1 = ls at *
  generalize hrr : (segFrom [] t).2 = r at *
  have hseg : segFrom [] t = (ls, r) := by rw [← hls, ← hrr]
  rw [hseg] at hcur
  by_cases hlone : (splitlines t).length = 1 ∧ (splitlines t).head? = some []
  · have hr0 : r = [] ∧ ls = [[]] := by
      rw [hsp] at hlone
      by_cases hrr : r = []
      · simp [hrr] at hlone
        refine ⟨hrr, ?_⟩
        match ls, hlone with
        | [x], hl => simpa using hl.2
      · simp [hrr] at hlone
        exfalso
        match ls, hlone with
        | [], hl => simp [hrr] at hl
    obtain ⟨rfl, rfl⟩ := hr0
    simp only [hlone, and_self, if_true]
    have hseg2 : segFrom part t = ([part], []) := by simpa using hcur
    rw [hseg2] at hlines
    refine getLast fun d1 a1 a2 => parse [part] d1 a1 a2 (fun d2 b1 b2 => clean [part] d2 b2 fun d3 c1 c2 => ?_) ?_
    · intro d4 h4
      refine .inl ⟨[part], [], ?_, hlines, c1.later h4.1, ?_⟩
      · simp [LineBuf.writeRet, hseg]
      · rw [h4.2, c2]; simp
    · exact fun e d2 he b1 b2 => .inr ⟨[part], [], e, rfl, he, hlines, by simp, b1, b2⟩
  · simp only [hlone, if_false]
    have hret : LineBuf.writeRet t = r.length := by
      unfold LineBuf.writeRet
      rw [hls, hrr, if_neg]
      rintro ⟨h1, h2⟩
      apply hlone
      rw [hsp, h1, h2]; simp
    rw [hcorr]
    have hlen : (if isEndLineBreak t = true then (splitlines t).length + 1
        else (splitlines t).length) = ls.length + 1 := by
      have := congrArg List.length hcorr
      rw [List.length_append] at this
      split at this
      · simpa [*] using this
      · simpa [*] using this
    rw [hlen]
    cases ls with
    | nil =>
      have hseg2 : segFrom part t = ([], part ++ r) := by simpa using hcur
      rw [hseg2] at hlines
      simp only [List.length_nil, Nat.zero_add, gt_iff_lt, Nat.lt_irrefl, if_false, if_true,
          List.nil_append, List.headD_cons]
      refine (onFiles_meets (FileBuf.writeLastLine_meets env hrn henc h) rfl).mono ?_
      rintro x d1 ⟨⟨e1, e2⟩, e3⟩
      exact .inl ⟨[], part ++ r, by rw [e1, hret], hlines, e2, by rw [e3, hg]; simp⟩
    | cons l ls =>
      have hseg2 : segFrom part t = ((part ++ l) :: ls, r) := by simpa using hcur
      rw [hseg2] at hlines
      have : ls.length + 1 + 1 > 1 := by omega
      simp only [List.length_cons, this, if_true]
      refine getLast fun d1 a1 a2 => ?_
      have e : (part ++ ((l :: ls) ++ [r]).headD []) :: ((l :: ls) ++ [r]).tail =
          ((part ++ l) :: ls) ++ [r] := by simp
      have e1' : ((part ++ l) :: ls ++ [r]).getLastD [] = r := by
        rw [List.getLastD_eq_getLast?, List.getLast?_concat]; rfl
      have e2' : ((part ++ l) :: ls ++ [r]).dropLast = (part ++ l) :: ls := by
        rw [List.dropLast_append_of_ne_nil (by simp)]; simp
      rw [e, e1', e2']
      refine parse _ d1 a1 a2 (fun d2 b1 b2 => clean _ d2 b2 fun d3 c1 c2 => ?_) ?_
      · refine (onFiles_meets (FileBuf.writeLastLine_meets env hrn henc c1) rfl).mono ?_
        rintro x d4 ⟨⟨f1, f2⟩, f3⟩
        exact .inl ⟨_, r, by rw [f1, hret], hlines, f2, by rw [f3, c2]; simp⟩
      · exact fun e d2 he b1 b2 => .inr ⟨_, r, e, rfl, he, hlines, by simp, b1, b2⟩

/-- How `new_line` ends. -/
def Ended (E : Exc → Prop) (i : Nat) (b : FileBuf) (part : PyStr) (gs : List (List PyStr)) (r : Except Exc Unit)
    (d : OvDir (U × List (List PyStr))) : Prop :=
  (r = .ok () ∧ (b.closed = true ∨ part = []) ∧ FileBuf.Tmp b d.files part ∧ (d.own i).2 = gs) ∨
  (r = .ok () ∧ b.closed = false ∧ part ≠ [] ∧ FileBuf.Tmp b d.files [] ∧ (d.own i).2 = gs ++ [[part]]) ∨
  (∃ e, r = .error e ∧ E e ∧ b.closed = false ∧ part ≠ [] ∧ FileBuf.Tmp b d.files part ∧
    (d.own i).2 = gs ++ [[part]])

/-- A single line break ends the line. -/
theorem lines_newline {part : PyStr} (hn : NoBreak part) {ls : List PyStr} {rest : PyStr}
    (h : Lines (part ++ lit "\n") ls rest) : ls = [part] ∧ rest = [] := by
  have h1 : Lines (part ++ [10] ++ []) [part] [] :=
    .single part 10 [] [] [] hn (by decide) (by simp) (.unfinished [] (by intro c hc; cases hc))
  have h2 : part ++ lit "\n" = part ++ [10] ++ [] := by rw [List.append_nil]; rfl
  rw [h2] at h
  exact lines_unique h h1

theorem newLine_meets {E : Exc → Prop} {env : FEnv} (hnl : env.encodable 10 = true) {i : Nat} {p : FOverride U}
    {b : FileBuf} (hl : ∀ ls, LeavesFiles Prod.fst (· = b.tmpName) (p b ls)) (hE : ∀ ls, RaisesOnly E (p b ls))
    {part : PyStr} (hn : NoBreak part) {gs : List (List PyStr)} {d : OvDir (U × List (List PyStr))}
    (h : FileBuf.Tmp b d.files part) (hg : (d.own i).2 = gs) :
    (newLine env (method p.noting i b) b).Meets (Alone b.tmpName i) (Ended E i b part gs) d := by
  have hG := alone_steady (U := U × List (List PyStr)) b.tmpName i
  subst hg
  unfold newLine
  cases hc : b.closed with
  | true =>
    rw [if_pos rfl]
    exact fun t ht => .inl ⟨rfl, .inl hc, h.later ht.1, by rw [ht.2]⟩
  | false =>
    rw [if_neg (by simp)]
    refine Meets.bind hG (onFiles_meets (FileBuf.getLastLine_meets h hn) rfl) ?_ ?_
    · rintro a d' ⟨⟨e1, e2⟩, e3⟩
      cases e1
      by_cases hp : part = []
      · rw [if_neg (by simp [hp])]
        exact fun t ht => .inl ⟨rfl, .inr hp, e2.later ht.1, by rw [ht.2, e3]⟩
      · rw [if_pos hp]
        refine Meets.bind hG (writeCore_meets hl hE hn (by show (env.encodable 10 && true) = true; simp [hnl]) e2
          (by rw [e3])) ?_ ?_
        · rintro x t (⟨ls, rest, f1, f2, f3, f4⟩ | ⟨ls, rest, e, f1, _⟩)
          · obtain ⟨rfl, rfl⟩ := lines_newline hn f2
            exact fun u hu => .inr (.inl ⟨rfl, hc, hp, f3.later hu.1, by rw [hu.2, f4]; simp⟩)
          · cases f1
        · rintro x t (⟨ls, rest, f1, f2, f3, f4⟩ | ⟨ls, rest, e, f1, f2, f3, f4, f5, f6⟩)
          · cases f1
          · obtain ⟨rfl, rfl⟩ := lines_newline hn f3
            exact .inr (.inr ⟨e, by cases f1; rfl, f2, hc, hp, f5, f6⟩)
    · rintro e d' ⟨⟨e1, _⟩, _⟩
      cases e1

/-- The object of process `i` with the draft `D`, of which the override was given `gs`. -/
structure Has (b : FileBuf) (i : Nat) (gs : List (List PyStr)) (D : Draft) (o : FileBuf)
    (d : OvDir (U × List (List PyStr))) : Prop where
  clean : NoBreak D.text
  tmp : FileBuf.Tmp b d.files D.text
  given : (d.own i).2 = gs
  obj : o = { b with closed := D.closed }

theorem Has.later {b : FileBuf} {i : Nat} {gs : List (List PyStr)} {D : Draft} {o : FileBuf}
    {d d' : OvDir (U × List (List PyStr))} (h : Has b i gs D o d) (hd : Alone b.tmpName i d d') : Has b i gs D o d' :=
  ⟨h.clean, h.tmp.later hd.1, by rw [hd.2]; exact h.given, h.obj⟩

theorem fwriteRet (t : PyStr) : FLog.WriteRet t (LineBuf.writeRet t) :=
  ⟨_, _, lines_segFrom [] t (by intro c hc; cases hc), rfl⟩

theorem call_meets {E : Exc → Prop} {env : FEnv} (hnl : env.encodable 10 = true) {i : Nat} {p : FOverride U}
    {b : FileBuf} (hl : ∀ c ls, LeavesFiles Prod.fst (· = b.tmpName) (p { b with closed := c } ls))
    (hE : ∀ c ls, RaisesOnly E (p { b with closed := c } ls)) {gs : List (List PyStr)} {D : Draft} {o : FileBuf}
    {d : OvDir (U × List (List PyStr))} (h : Has b i gs D o d) {c : FCall} (hc : FileBuf.CallOk env b c) :
    (call env (method p.noting i o) o c).Meets (Alone b.tmpName i)
      (fun x t => ∃ r o', x = .ok (r, o') ∧ ∃ g D', Gives E D c r g D' ∧ Has b i (gs ++ g) D' o' t) d := by
  obtain ⟨h1, h2, h3, rfl⟩ := h
  have hG := alone_steady (U := U × List (List PyStr)) b.tmpName i
  have out : ∀ {α : Type} (q : FProg α) (F : Except Exc α → Ret), q.Guar (SameFile b.tmpName) → Aside c →
      (onFiles (do return (F (← q.outcome), ({ b with closed := D.closed } : FileBuf))) :
        DProg (U × List (List PyStr)) (Ret × FileBuf)).Meets (Alone b.tmpName i)
        (fun x t => ∃ r o', x = .ok (r, o') ∧ ∃ g D', Gives E D c r g D' ∧ Has b i (gs ++ g) D' o' t) d := by
    intro α q F hq ha
    have := ((Safe.of_guar (sameFiles_steady _) hq.outcome d.files).meets)
    refine (onFiles_meets (n := b.tmpName) (i := i) (Q := fun r t => SameFile b.tmpName d.files t ∧
      ∃ x, r = .ok (x, ({ b with closed := D.closed } : FileBuf))) ?_ rfl).mono ?_
    · have ho : q.outcome.Meets (SameFile b.tmpName) (fun r t => SameFile b.tmpName d.files t ∧ ∃ x, r = .ok x) d.files := by
        refine Meets.mono (Meets.outcome (Q := fun _ t => SameFile b.tmpName d.files t)
          (Safe.of_guar (sameFiles_steady _) hq d.files).meets) ?_
        rintro r t ⟨x, e, h⟩
        exact ⟨h, x, e⟩
      refine Meets.bind (sameFiles_steady _) ho ?_ ?_
      · rintro x t ⟨e1, _⟩
        exact fun u hu => ⟨(sameFiles_steady _).trans e1 hu, _, rfl⟩
      · rintro e t ⟨_, x, e1⟩
        cases e1
    · rintro r t ⟨⟨e1, x, e2⟩, e3⟩
      exact ⟨x, _, e2, [], D, .aside D c x ha, h1, h2.later e1, by rw [e3, h3, List.append_nil], rfl⟩
  have just : ∀ (r : Ret), Aside c →
      (onFiles (.ret (r, ({ b with closed := D.closed } : FileBuf))) :
        DProg (U × List (List PyStr)) (Ret × FileBuf)).Meets (Alone b.tmpName i)
        (fun x t => ∃ r o', x = .ok (r, o') ∧ ∃ g D', Gives E D c r g D' ∧ Has b i (gs ++ g) D' o' t) d :=
    fun r ha t ht => ⟨r, _, rfl, [], D, .aside D c r ha, h1, h2.later ht.1, by rw [ht.2, h3, List.append_nil], rfl⟩
  have hlog : ∀ k, ¬FileBuf.logName { b with closed := D.closed } k = b.tmpName := fun k =>
    FileBuf.logName_ne_tmpName _ _ k
  -- ending the line
  have hend : (newLine env (method p.noting i { b with closed := D.closed }) { b with closed := D.closed }).Meets
      (Alone b.tmpName i) (Ended E i { b with closed := D.closed } D.text gs) d :=
    newLine_meets (b := { b with closed := D.closed }) hnl (hl _) (hE _) h1 h2 h3
  have ends : EndsLine c → ∀ F : Except Exc Unit → DProg (U × List (List PyStr)) (Ret × FileBuf),
      F (.ok ()) = .ret (.unit, { b with closed := D.closed || Closes c }) →
      (∀ e, F (.error e) = .ret (.exc e, { b with closed := D.closed })) →
      ((newLine env (method p.noting i { b with closed := D.closed })
        { b with closed := D.closed }).outcome >>= F).Meets (Alone b.tmpName i)
        (fun x t => ∃ r o', x = .ok (r, o') ∧ ∃ g D', Gives E D c r g D' ∧ Has b i (gs ++ g) D' o' t) d := by
    intro hec F hF1 hF2
    refine Meets.bind hG hend.outcome ?_ ?_
    · rintro x t ⟨y, e1, e2⟩
      cases e1
      rcases e2 with ⟨rfl, f1, f2, f3⟩ | ⟨rfl, f1, f2, f3, f4⟩ | ⟨e, rfl, f1, f2, f3, f4, f5⟩
      · rw [hF1]
        intro u hu
        exact ⟨_, _, rfl, [], _, .endNone D c hec f1, h1, f2.later hu.1,
          by rw [hu.2, f3, List.append_nil], rfl⟩
      · rw [hF1]
        intro u hu
        refine ⟨_, _, rfl, [[D.text]], _, .ends D c hec f1 f2, by intro c hc; (cases hc), f3.later hu.1,
          by rw [hu.2, f4], ?_⟩
        replace f1 : D.closed = false := f1
        rw [f1, Bool.false_or]
      · rw [hF2]
        intro u hu
        exact ⟨_, _, rfl, [[D.text]], _, .endRaise D c e hec f2 f3 f1, h1, f4.later hu.1, by rw [hu.2, f5], rfl⟩
    · rintro e t ⟨y, e1, _⟩
      cases e1
  cases c with
  | write t =>
    refine Meets.bind hG (Meets.outcome (Q := fun r d' => ∃ g D', Gives E D (.write t) (Ret.of .nat r) g D' ∧
      Has b i (gs ++ g) D' { b with closed := D.closed } d') ?_) ?_ ?_
    · refine Meets.bind hG (onFiles_meets (n := b.tmpName) (i := i) (u := d.own i)
        (Q := fun r t => r = .ok (!D.closed) ∧ FileBuf.Tmp b t D.text) (fun t ht => ⟨rfl, h2.later ht⟩) rfl) ?_ ?_
      · rintro x d1 ⟨⟨e1, e2⟩, e3⟩
        cases e1
        have e4 : (d1.own i).2 = gs := by rw [e3]; exact h3
        cases hcl : D.closed with
        | true =>
          exact fun u hu => ⟨[], D, .writeClosed D t hcl, h1, e2.later hu.1, by rw [hu.2, e4, List.append_nil],
            by rw [hcl]⟩
        | false =>
          refine (writeCore_meets (b := { b with closed := false }) (hl _) (hE _) h1 hc e2 e4).mono ?_
          rintro r d2 (⟨ls, rest, f1, f2, f3, f4⟩ | ⟨ls, rest, e, f1, f2, f3, f4, f5, f6⟩)
          · subst f1
            by_cases hls : ls = []
            · subst hls
              exact ⟨[], _, .writePart D t rest _ hcl f2 (fwriteRet t), (lines_noBreak f2).2, f3,
                by rw [f4]; simp, by simp [hcl]⟩
            · exact ⟨[ls], _, .write D t rest ls _ hcl f2 hls (fwriteRet t), (lines_noBreak f2).2, f3,
                by rw [f4, if_neg hls], by simp [hcl]⟩
          · subst f1
            exact ⟨[ls], _, .writeRaise D t rest ls e hcl f3 f4 f2, h1, f5, by rw [f6], by simp [hcl]⟩
      · rintro e d1 ⟨⟨e1, _⟩, _⟩
        cases e1
    · rintro x d1 ⟨y, e1, g, D', e2, e3⟩
      cases e1
      exact fun u hu => ⟨_, _, rfl, g, D', e2, e3.later hu⟩
    · rintro e d1 ⟨y, e1, _⟩
      cases e1
  | newLine => exact ends trivial _ (by simp [Closes]; rfl) fun e => rfl
  | read n => exact out _ _ (FileBuf.guar_read _) trivial
  | len => exact out _ _ FileBuf.guar_len trivial
  | maxlen => exact just _ trivial
  | flush => exact just _ trivial
  | closed => exact just _ trivial
  | readable => exact out _ _ (FileBuf.guar_check _ _ _ _) trivial
  | writable => exact out _ _ (FileBuf.guar_check _ _ _ _) trivial
  | sendExc e => exact out _ _ (FileBuf.guar_sendExc env hlog _) trivial
  | clear =>
    refine (onFiles_meets (n := b.tmpName) (i := i) (u := d.own i)
      (Q := fun r t => ∃ x D', r = .ok (x, ({ b with closed := D.closed } : FileBuf)) ∧ Gives E D .clear x [] D' ∧
        FileBuf.Tmp b t D'.text ∧ D'.closed = D.closed ∧ NoBreak D'.text) ?_ rfl).mono ?_
    · refine Meets.bind (sameFiles_steady _) (FileBuf.clear_meets (b := { b with closed := D.closed }) env hc h2).outcome ?_ ?_
      · rintro x t ⟨y, e1, e2⟩
        cases e1
        intro u hu
        rcases e2 with ⟨rfl, f1⟩ | ⟨rfl, f1⟩
        · exact ⟨_, _, rfl, .clear D, f1.later hu, rfl, by intro c hc; (cases hc)⟩
        · exact ⟨_, _, rfl, .clearFails D, f1.later hu, rfl, h1⟩
      · rintro e t ⟨y, e1, _⟩
        cases e1
    · rintro r t ⟨⟨x, D', e1, e2, e3, e4, e5⟩, e6⟩
      exact ⟨x, _, e1, [], D', e2, e5, e3, by rw [e6, h3, List.append_nil], by rw [e4]⟩
  | close x =>
    cases x with
    | none =>
      exact ends trivial _ (by simp [Closes]) fun e => rfl
    | some x =>
      refine (onFiles_meets (n := b.tmpName) (i := i) (u := d.own i)
        (Q := fun r t => ∃ y D', r = .ok (y, ({ b with closed := D'.closed } : FileBuf)) ∧
          Gives E D (.close (some x)) y [] D' ∧ D'.text = D.text ∧ FileBuf.Tmp b t D.text) ?_ rfl).mono ?_
      · have hq : (FileBuf.close env { b with closed := D.closed } (some x)).Meets (SameFile b.tmpName)
            (fun r t => FileBuf.Tmp b t D.text ∧ ∀ o, r = .ok o → o = { b with closed := true }) d.files := by
          refine Meets.bind (sameFiles_steady _)
            (Safe.of_guar (sameFiles_steady _) (FileBuf.guar_sendExc env hlog x) d.files).meets ?_ ?_
          · intro _ t ht u hu
            exact ⟨(h2.later ht).later hu, fun o e => by cases e; rfl⟩
          · intro e t ht
            exact ⟨h2.later ht, fun o e => by cases e⟩
        refine Meets.bind (sameFiles_steady _) hq.outcome ?_ ?_
        · rintro y t ⟨z, e1, e2, e3⟩
          cases e1
          cases y with
          | ok o =>
            obtain rfl := e3 o rfl
            exact fun u hu => ⟨_, _, rfl, .closeExc D x, rfl, e2.later hu⟩
          | error e => exact fun u hu => ⟨_, _, rfl, .closeExcFails D x e, rfl, e2.later hu⟩
        · rintro e t ⟨z, e1, _⟩
          cases e1
      · rintro r t ⟨⟨y, D', e1, e2, e3, e4⟩, e5⟩
        exact ⟨y, _, e1, [], D', e2, by rw [e3]; exact h1, by rw [e3]; exact e4, by rw [e5, h3, List.append_nil], rfl⟩
  | exit x =>
    cases x with
    | none => exact ends trivial _ (by simp [Closes]; rfl) fun e => rfl
    | some x => exact out _ _ (FileBuf.guar_sendExc env hlog _) trivial

/-! ## What a process does to the others -/

theorem writeCore_guar {n : PyStr} {i : Nat} {env : FEnv} {par : List PyStr → DProg U Unit} {b : FileBuf} (hb : ¬b.tmpName = n)
    (hp : ∀ ls, (par ls).Guar (Alone n i)) (t : PyStr) : (writeCore env par b t).Guar (Alone n i) := by
  unfold writeCore
  extract_lets m k e m' k'
  split
  · exact .bind (onFiles_guar FileBuf.guar_getLastLine) fun _ => .bind (hp _) fun _ =>
      .bind (onFiles_guar (FileBuf.guar_cleanLastLine hb)) fun _ => trivial
  · split
    · exact .bind (onFiles_guar FileBuf.guar_getLastLine) fun _ => .bind (hp _) fun _ =>
        .bind (onFiles_guar (FileBuf.guar_cleanLastLine hb)) fun _ => onFiles_guar (FileBuf.guar_writeLastLine env hb _)
    · split
      · exact onFiles_guar (FileBuf.guar_writeLastLine env hb _)
      · trivial

theorem newLine_guar {n : PyStr} {i : Nat} {env : FEnv} {par : List PyStr → DProg U Unit} {b : FileBuf} (hb : ¬b.tmpName = n)
    (hp : ∀ ls, (par ls).Guar (Alone n i)) : (newLine env par b).Guar (Alone n i) := by
  unfold newLine
  split
  · trivial
  · refine .bind (onFiles_guar FileBuf.guar_getLastLine) fun _ => ?_
    split
    · exact .bind (writeCore_guar hb hp _) fun _ => trivial
    · trivial

theorem call_guar {n : PyStr} {i : Nat} {env : FEnv} {par : List PyStr → DProg U Unit} {b b' : FileBuf} (hb : ¬b.tmpName = n)
    (hn : n = b'.tmpName) (hp : ∀ ls, (par ls).Guar (Alone n i)) {c : FCall} (hc : FileBuf.CallOk env b c) :
    (call env par b c).Guar (Alone n i) := by
  have hlog : ∀ k, ¬FileBuf.logName b k = n := fun k => hn ▸ FileBuf.logName_ne_tmpName _ _ k
  have out : ∀ {α : Type} {q : FProg α} (F : Except Exc α → FProg (Ret × FileBuf)), q.Guar (SameFile n) →
      (∀ x, (F x).Guar (SameFile n)) → (onFiles (q.outcome >>= F) : DProg U (Ret × FileBuf)).Guar (Alone n i) :=
    fun F hq hF => onFiles_guar (.bind hq.outcome hF)
  cases c with
  | write t =>
    refine .bind (Guar.outcome (.bind (onFiles_guar (FileBuf.guar_check _ _ _ _)) fun _ => ?_)) fun _ => trivial
    split
    · trivial
    · exact writeCore_guar hb hp t
  | newLine => exact .bind (newLine_guar hb hp).outcome fun _ => trivial
  | read k => exact out _ (FileBuf.guar_read _) fun _ => trivial
  | len => exact out _ FileBuf.guar_len fun _ => trivial
  | maxlen => trivial
  | flush => trivial
  | closed => trivial
  | readable => exact out _ (FileBuf.guar_check _ _ _ _) fun _ => trivial
  | writable => exact out _ (FileBuf.guar_check _ _ _ _) fun _ => trivial
  | sendExc e => exact out _ (FileBuf.guar_sendExc env hlog _) fun _ => trivial
  | clear =>
    exact out _ (FileBuf.guar_clear env (fun m hm => by cases hm; rw [hn]; exact FileBuf.fnmatch_tmp hc) hb)
      fun _ => trivial
  | close x =>
    cases x with
    | none =>
      refine .bind (newLine_guar hb hp).outcome fun r => ?_
      cases r <;> trivial
    | some x =>
      refine out _ (.bind (FileBuf.guar_sendExc env hlog _) fun _ => trivial) fun r => ?_
      cases r <;> trivial
  | exit x =>
    cases x with
    | none => exact .bind (newLine_guar hb hp).outcome fun _ => trivial
    | some x => exact out _ (FileBuf.guar_sendExc env hlog _) fun _ => trivial

/-- The object of the process remains that of the process. -/
theorem call_yields {env : FEnv} {par : List PyStr → DProg U Unit} {b : FileBuf} {z : Bool} (c : FCall) :
    (call env par { b with closed := z } c).Yields fun x => ∃ z', x.2 = { b with closed := z' } := by
  have fin : ∀ {α : Type} (p : DProg U α) (F : α → Ret), (do return (F (← p), ({ b with closed := z } : FileBuf)) :
      DProg U (Ret × FileBuf)).Yields fun x => ∃ z', x.2 = { b with closed := z' } :=
    fun _ _ => Yields.bind fun _ => ⟨z, rfl⟩
  have fin' : ∀ {α : Type} (p : FProg α) (F : α → Ret), (onFiles (do return (F (← p), ({ b with closed := z } : FileBuf))) :
      DProg U (Ret × FileBuf)).Yields fun x => ∃ z', x.2 = { b with closed := z' } :=
    fun _ _ => Yields.onPart (Yields.bind fun _ => ⟨z, rfl⟩)
  cases c with
  | maxlen => exact ⟨z, rfl⟩
  | flush => exact ⟨z, rfl⟩
  | closed => exact ⟨z, rfl⟩
  | write t => exact fin _ _
  | newLine => exact fin _ _
  | close x =>
    cases x with
    | none =>
      refine Yields.bind fun r => ?_
      cases r with
      | ok => exact ⟨true, rfl⟩
      | error => exact ⟨z, rfl⟩
    | some x =>
      refine Yields.onPart ?_
      have hq : (FileBuf.close env { b with closed := z } (some x)).outcome.Yields
          fun r => ∀ o, r = .ok o → o = { b with closed := true } := by
        show (Prog.outcome (Prog.bind _ _)).Yields _
        generalize (FileBuf.sendExc env { b with closed := z } x) = q
        induction q with
        | ret a => exact fun o e => by cases e; rfl
        | raise e => exact fun o e => by cases e
        | act f k ih => exact fun s => ih s
        | acq l w k ih => exact ih
        | rel l w k ih => exact ih
      show (Prog.bind _ _).Yields _
      revert hq
      generalize (FileBuf.close env { b with closed := z } (some x)).outcome = q
      intro hq
      induction q with
      | ret a =>
        cases a with
        | ok o => exact ⟨true, hq o rfl⟩
        | error e => exact ⟨z, rfl⟩
      | raise e => trivial
      | act f k ih => exact fun s => ih s (hq s)
      | acq l w k ih => exact ih hq
      | rel l w k ih => exact ih hq
  | exit x =>
    cases x with
    | none => exact fin _ _
    | some x => exact fin' _ _
  | _ => exact fin' _ _

/-! ## Locks -/

theorem onFiles_tidy {re : PyStr → Prop} {p : FProg α} (h : Tidy re FileBuf.lockRank [] p) :
    Tidy re FileBuf.lockRank [] (onFiles p : DProg U α) :=
  Orderly.onPart (H' := []) h (fun _ _ h => h) (fun _ h => h) (fun _ _ h => nomatch h)

theorem method_tidy {re : PyStr → Prop} {p : FOverride U} {i : Nat} {b : FileBuf} {ls : List PyStr}
    (h : Tidy re FileBuf.lockRank [] (p b ls)) : Tidy re FileBuf.lockRank [] (method p i b ls) :=
  Orderly.onPart (H' := []) h (fun _ _ h => h) (fun _ h => h) (fun _ _ h => nomatch h)

variable {re : PyStr → Prop} {env : FEnv} {par : List PyStr → DProg U Unit} {b : FileBuf}

theorem writeCore_tidy (hp : ∀ ls, Tidy re FileBuf.lockRank [] (par ls)) (t : PyStr) :
    Tidy re FileBuf.lockRank [] (writeCore env par b t) := by
  unfold writeCore
  extract_lets m k e m' k'
  split
  · exact .bind (onFiles_tidy FileBuf.tidy_getLastLine) fun _ => .bind (hp _) fun _ =>
      .bind (onFiles_tidy FileBuf.tidy_cleanLastLine) fun _ => Tidy.ret _
  · split
    · exact .bind (onFiles_tidy FileBuf.tidy_getLastLine) fun _ => .bind (hp _) fun _ =>
        .bind (onFiles_tidy FileBuf.tidy_cleanLastLine) fun _ => onFiles_tidy (FileBuf.tidy_writeLastLine _ _)
    · split
      · exact onFiles_tidy (FileBuf.tidy_writeLastLine _ _)
      · exact Tidy.ret _

theorem newLine_tidy (hp : ∀ ls, Tidy re FileBuf.lockRank [] (par ls)) :
    Tidy re FileBuf.lockRank [] (newLine env par b) := by
  unfold newLine
  split
  · exact Tidy.ret _
  · refine .bind (onFiles_tidy FileBuf.tidy_getLastLine) fun _ => ?_
    split
    · exact .bind (writeCore_tidy hp _) fun _ => Tidy.ret _
    · exact Tidy.ret _

theorem call_tidy (hp : ∀ ls, Tidy re FileBuf.lockRank [] (par ls)) (c : FCall) :
    Tidy re FileBuf.lockRank [] (call env par b c) := by
  cases c with
  | write t =>
    refine .bind (Orderly.outcome (.bind (onFiles_tidy (FileBuf.tidy_check _ _)) fun _ => ?_)) fun _ => Tidy.ret _
    split
    · exact Tidy.raise _
    · exact writeCore_tidy hp t
  | newLine => exact .bind (newLine_tidy hp).outcome fun _ => Tidy.ret _
  | close x =>
    cases x with
    | none =>
      refine .bind (newLine_tidy hp).outcome fun r => ?_
      cases r <;> exact Tidy.ret _
    | some x => exact onFiles_tidy (FileBuf.tidy_call env _)
  | exit x =>
    cases x with
    | none => exact .bind (newLine_tidy hp).outcome fun _ => Tidy.ret _
    | some x => exact onFiles_tidy (FileBuf.tidy_call env _)
  | _ => exact onFiles_tidy (FileBuf.tidy_call env _)

theorem onFiles_noRaise {p : FProg α} (h : NoRaise p) : NoRaise (onFiles p : DProg U α) := by
  induction p with
  | ret a => trivial
  | raise e => exact h
  | act f k ih => exact fun s => ih _ (h _)
  | acq l w k ih => exact ih h
  | rel l w k ih => exact ih h

theorem orderly (env : FEnv) {par : Nat → FOverride U}
    (hp : ∀ i b ls, Tidy (fun _ => False) FileBuf.lockRank [] (par i b ls)) (ok : Nat → FCall → Prop) :
    Conc.OrderlySys (ovProcs env par ok) FileBuf.lockRank := by
  intro i b c hc
  refine ⟨call_tidy (fun ls => method_tidy (hp i b ls)) c, ?_⟩
  have base : NoRaise (onFiles (FileBuf.call env b c) : DProg U (Ret × FileBuf)) :=
    onFiles_noRaise (FileBuf.orderly env ok i b c hc).2
  have fin : ∀ {α : Type} (p : DProg U α) (F : Except Exc α → Ret),
      NoRaise (do return (F (← p.outcome), b) : DProg U (Ret × FileBuf)) :=
    fun p F => (noRaise_outcome p).bind fun _ => trivial
  cases c with
  | write t => exact fin _ _
  | newLine => exact fin _ _
  | close x =>
    cases x with
    | none =>
      refine (noRaise_outcome _).bind fun r => ?_
      cases r <;> trivial
    | some x => exact base
  | exit x =>
    cases x with
    | none => exact fin _ _
    | some x => exact base
  | _ => exact base

end FOvr
end SyncStream
