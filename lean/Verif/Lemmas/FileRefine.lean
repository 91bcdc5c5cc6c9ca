import Verif.Lemmas.File
import Verif.Spec.FileLog
import Verif.Props.Message
/-!
# The methods of `LineFileBuffer` refine the log, for a process that is alone
-/

namespace SyncStream
open Spec

/-! ## Patterns -/

/-- The characters with a meaning in `glob` patterns. -/
def NoGlob (n : PyStr) : Prop := ∀ c ∈ n, c ≠ 42 ∧ c ≠ 63 ∧ c ≠ 91

theorem parsePat_lit (n p : PyStr) (h : NoGlob n) (fuel : Nat) :
    parsePat (n.length + fuel) (n ++ p) = n.map .chr ++ parsePat fuel p := by
  induction n generalizing fuel with
  | nil => simp
  | cons c n ih =>
    have ⟨h1, h2, h3⟩ := h c (List.mem_cons_self ..)
    have e : (c :: n).length + fuel = (n.length + fuel) + 1 := by simp; omega
    rw [e, List.cons_append, parsePat]
    simp only [h1, h2, h3, if_false, List.map_cons, List.cons_append]
    rw [ih (fun x hx => h x (List.mem_cons_of_mem _ hx))]

theorem matchToks_lit (n : PyStr) (ts : List Tok) (s : PyStr) :
    matchToks (n.map .chr ++ ts) s = true ↔ ∃ r, s = n ++ r ∧ matchToks ts r = true := by
  induction n generalizing s with
  | nil => simp
  | cons c n ih =>
    cases s with
    | nil => simp [matchToks]
    | cons x s =>
      simp only [List.map_cons, List.cons_append, matchToks, Bool.and_eq_true, beq_iff_eq, ih]
      constructor
      · rintro ⟨rfl, r, rfl, h⟩; exact ⟨r, rfl, h⟩
      · rintro ⟨r, h1, h2⟩
        injection h1 with h3 h4
        exact ⟨h3, r, h4, h2⟩

theorem anySuffix_iff (f : PyStr → Bool) (s : PyStr) :
    anySuffix f s = true ↔ ∃ a r, s = a ++ r ∧ f r = true := by
  induction s with
  | nil =>
    simp only [anySuffix]
    constructor
    · intro h; exact ⟨[], [], rfl, h⟩
    · rintro ⟨a, r, h1, h2⟩
      have : r = [] := by
        have := List.append_eq_nil_iff.1 h1.symm; exact this.2
      rwa [this] at h2
  | cons c s ih =>
    simp only [anySuffix, Bool.or_eq_true, ih]
    constructor
    · rintro (h | ⟨a, r, rfl, h⟩)
      · exact ⟨[], _, rfl, h⟩
      · exact ⟨c :: a, r, rfl, h⟩
    · rintro ⟨a, r, h1, h2⟩
      cases a with
      | nil => left; rw [List.nil_append] at h1; rwa [h1]
      | cons x a =>
        rw [List.cons_append] at h1
        injection h1 with h3 h4
        exact .inr ⟨a, r, h4, h2⟩

/-- The pattern of `clear()` for a name without pattern characters matches exactly the names with
that beginning and end. -/
theorem fnmatch_clear {name f : PyStr} (h : NoGlob name) :
    fnmatch (name ++ lit "-*.log") f = true ↔ ∃ mid, f = name ++ lit "-" ++ mid ++ lit ".log" := by
  have hd : NoGlob (name ++ lit "-") := by
    intro c hc
    rcases List.mem_append.1 hc with hc | hc
    · exact h c hc
    · rw [show lit "-" = [45] from rfl] at hc
      simp at hc; subst hc; decide
  have e : name ++ lit "-*.log" = (name ++ lit "-") ++ lit "*.log" := by
    rw [List.append_assoc]; rfl
  have e2 : (name ++ lit "-*.log").length = (name ++ lit "-").length + 5 := by
    rw [e, List.length_append (as := name ++ lit "-")]; rfl
  have e3 : parsePat 5 (lit "*.log") = .star :: ((lit ".log").map .chr ++ []) := rfl
  rw [fnmatch, e2, e, parsePat_lit _ _ hd, matchToks_lit, e3]
  simp only [matchToks]
  constructor
  · rintro ⟨r, rfl, h1⟩
    rw [anySuffix_iff] at h1
    obtain ⟨a, r', rfl, h2⟩ := h1
    rw [matchToks_lit] at h2
    obtain ⟨r'', rfl, h3⟩ := h2
    have : r'' = [] := by simpa [matchToks] using h3
    subst this
    exact ⟨a, by simp⟩
  · rintro ⟨mid, rfl⟩
    refine ⟨mid ++ lit ".log", by simp, ?_⟩
    rw [anySuffix_iff]
    refine ⟨mid, lit ".log", rfl, ?_⟩
    rw [matchToks_lit]
    exact ⟨[], by simp, rfl⟩

namespace FileBuf

theorem globMatch_logName {b : FileBuf} (h : NoGlob b.name) (k : Nat) :
    globMatch (b.name ++ lit "-*.log") (b.logName k) = true := by
  have h1 : fnmatch (b.name ++ lit "-*.log") (b.logName k) = true :=
    (fnmatch_clear h).2 ⟨dec k, by simp [logName]⟩
  have h2 : ((b.name ++ lit "-*.log").head? == some 46 || (b.logName k).head? != some 46) = true := by
    cases hb : b.name with
    | nil =>
      have : b.logName k = 45 :: (dec k ++ lit ".log") := by simp [logName, hb]; rfl
      rw [this]; rfl
    | cons c n =>
      have : b.logName k = c :: (n ++ lit "-" ++ dec k ++ lit ".log") := by simp [logName, hb]
      rw [this]
      cases hc : c == 46 <;> simp_all
  rw [globMatch, h2, h1]; rfl

theorem fnmatch_tmp {b b' : FileBuf} (h : NoGlob b.name) :
    globMatch (b.name ++ lit "-*.log") b'.tmpName = false := by
  have : fnmatch (b.name ++ lit "-*.log") b'.tmpName = false := by
    rw [Bool.eq_false_iff]
    intro h1
    obtain ⟨mid, h2⟩ := (fnmatch_clear h).1 h1
    rw [tmpName_eq] at h2
    exact suffix_ne h2.symm
  simp [globMatch, this]

/-! ## More methods, uninterrupted -/

theorem removeAll_seq (ns : List PyStr) (s : FS) (hd : ns.Nodup) (h : ∀ n ∈ ns, (s n).isSome = true) :
    (removeAll ns).seq s = (.ok (), fun n => if n ∈ ns then none else s n) := by
  induction ns generalizing s with
  | nil => simp [removeAll]
  | cons a ns ih =>
    obtain ⟨h1, h2⟩ := List.nodup_cons.1 hd
    obtain ⟨c, hc⟩ := Option.isSome_iff_exists.1 (h a (List.mem_cons_self ..))
    rw [removeAll, Prog.seq_bind_ok (File.remove_seq hc), ih _ h2 fun n hn => ?_]
    · congr 1
      funext n
      by_cases e : n = a
      · subst e; simp
      · simp [FS.set_other _ _ e, e]
    · rw [FS.set_other _ _ (show n ≠ a from fun e => h1 (e ▸ hn))]
      exact h n (List.mem_cons_of_mem _ hn)

/-- `clear()`, in every directory. -/
theorem clear_seq (env : FEnv) (b : FileBuf) (s : FS) : ∃ s', (clear env b).seq s = (.ok (), s') ∧
    s' = FS.set (fun n => if globMatch (b.name ++ lit "-*.log") n then none else s n) b.tmpName none := by
  refine ⟨_, ?_, rfl⟩
  rw [clear, Prog.seq_bind_ok (s' := fun n =>
    if globMatch (b.name ++ lit "-*.log") n then none else s n) (a := ()) (by
      rw [Prog.seq_withLock]
      show Prog.seq (match env.listing _ with | some ns => _ | none => _) s = _
      split
      · rename_i ns h
        obtain ⟨h1, h2⟩ := env.lists _ _ h
        rw [removeAll_seq ns s h1 fun n hn => (Bool.and_eq_true_iff.1 ((h2 n).1 hn)).2]
        congr 1
        funext n
        by_cases hm : globMatch (b.name ++ lit "-*.log") n = true
        · rw [if_pos hm]
          split
          · rfl
          · rename_i hn
            rw [h2, hm, Bool.true_and] at hn
            simpa using hn
        · rw [if_neg hm, if_neg fun hn => hm (Bool.and_eq_true_iff.1 ((h2 n).1 hn)).1]
      · rfl)]
  rw [Prog.seq_withLock, Prog.seq_bind_ok (File.isfile_seq _ _)]
  generalize hs1 : (fun n => if globMatch (b.name ++ lit "-*.log") n = true then none else s n) = s1
  have hs1 : ∀ n, (if globMatch (b.name ++ lit "-*.log") n = true then none else s n) = s1 n :=
    fun n => congrFun hs1 n
  rw [hs1]
  cases h : s1 b.tmpName with
  | none =>
    have : FS.set s1 b.tmpName none = s1 := by rw [← h]; exact FS.set_self _ _
    rw [this]; rfl
  | some c => exact File.remove_seq h

theorem clear_holds (env : FEnv) {b : FileBuf} (hg : NoGlob b.name) (s : FS) :
    ∃ s', (clear env b).seq s = (.ok (), s') ∧ Holds b s' [] ∧ Tmp b s' [] := by
  obtain ⟨s', h1, h2⟩ := clear_seq env b s
  refine ⟨s', h1, fun k => ?_, ?_⟩
  · rw [h2, FS.set_other _ _ (logName_ne_tmpName b b k)]
    simp [globMatch_logName hg]
  · rw [h2]; simp [Tmp]

/-- What `read` returns on an open buffer, in every directory. -/
theorem read_seq (b : FileBuf) (s : FS) (size : Option Int) (ho : b.closed = false) :
    (read b size).seq s = (.ok (
      let last := lastLine b s
      let c := count b s (if last ≠ [] then b.maxlen - 1 else b.maxlen)
      if size.any (· ≤ 0) then []
      else records b s (match size with
        | none => c
        | some k => (if last ≠ [] then min (k - 1) c else min k c).toNat) ++
        (if last ≠ [] then [last] else [])), s) := by
  rw [read, Prog.seq_bind_ok (show (readable b).seq s = (.ok true, s) by
    rw [readable, Prog.seq_withLock, Prog.seq_withLock]; simp [ho])]
  simp only [Bool.not_true, Bool.false_eq_true, if_false]
  by_cases hs : size.any (· ≤ 0) = true
  · simp [hs]
  · simp only [hs, if_false, Bool.false_eq_true]
    rw [Prog.seq_bind_ok (getLastLine_seq b s), Prog.seq_withLock,
      Prog.seq_bind_ok (File.listdir_seq s)]
    have hc := fun k => count_some b s (if lastLine b s ≠ [] then b.maxlen - 1 else b.maxlen) (k := k)
    refine (Prog.seq_bind_ok (readLoop_seq b _ s ?_)).trans ?_
    · intro k hk
      apply hc
      revert hk
      cases size with
      | none => exact fun hk => hk
      | some n =>
        simp only [count]
        split <;> (intro hk; omega)
    · simp only [Prog.seq_pure, count]
      cases size <;> (split <;> simp [*])

theorem len_seq (b : FileBuf) (s : FS) (hm : 1 ≤ b.maxlen) :
    (len b).seq s = (.ok (min b.maxlen
      (count b s b.maxlen + if lastLine b s ≠ [] then 1 else 0)), s) := by
  rw [len]
  refine (Prog.seq_bind_ok (a := count b s b.maxlen) (s' := s) ?_).trans ?_
  · rw [Prog.seq_withLock]; rfl
  · rw [Prog.seq_bind_ok (getLastLine_seq b s)]
    have : b.maxlen ≠ 0 := by omega
    simp only [this, ne_eq, not_false_eq_true, if_true, Prog.seq_pure]
    split <;> simp_all

theorem sepBy_eq (sep : PyStr) (l : List PyStr) : FLog.sepBy sep l = joinedBy sep l := by
  cases l <;> rfl

theorem excText_toStr {e : ExcObj} {t : PyStr} (h : FLog.ExcText e t) :
    (GMsg.new (.exc e)).toStr = .ok t := by
  obtain ⟨ls, r, h1, h2⟩ := h
  rw [C47_exception_text e ls r h1, h2, sepBy_eq]

theorem excText_exists (e : ExcObj) : ∃ t, FLog.ExcText e t := by
  obtain ⟨ls, r, h⟩ := lines_total e.formatted.flatten
  exact ⟨_, ls, r, h, rfl⟩

theorem excText_unique {e : ExcObj} {t t' : PyStr} (h : FLog.ExcText e t) (h' : FLog.ExcText e t') :
    t = t' := by
  have h1 := excText_toStr h
  rw [excText_toStr h'] at h1
  cases h1; rfl

theorem excText_no_cr {e : ExcObj} {t : PyStr} (h : FLog.ExcText e t) : (13 : Nat) ∉ t := by
  obtain ⟨ls, r, h1, rfl⟩ := h
  obtain ⟨h2, h3⟩ := lines_noBreak h1
  have key : ∀ l : List PyStr, (∀ x ∈ l, NoBreak x) → (13 : Nat) ∉ FLog.sepBy (lit "\n") l := by
    intro l hl
    cases l with
    | nil => simp [FLog.sepBy]
    | cons p ps =>
      simp only [FLog.sepBy, List.mem_append, not_or]
      refine ⟨(noBreak_ne (hl p (List.mem_cons_self ..))).1, ?_⟩
      intro hc
      obtain ⟨x, hx, hcx⟩ := List.mem_flatten.1 hc
      obtain ⟨y, hy, rfl⟩ := List.mem_map.1 hx
      rcases List.mem_append.1 hcx with hcx | hcx
      · rw [show lit "\n" = [10] from rfl] at hcx; simp at hcx
      · exact (noBreak_ne (hl y (List.mem_cons_of_mem _ hy))).1 hcx
  apply key
  intro x hx
  rcases List.mem_append.1 hx with hx | hx
  · exact h2 x hx
  · split at hx
    · simp at hx
    · simp at hx; subst hx; exact h3

theorem sendExc_holds (env : FEnv) (b : FileBuf) (e : ExcObj) (t : PyStr) (s : FS)
    (rs : List PyStr) (hm : 1 ≤ b.maxlen) (he : FLog.ExcText e t)
    (hp : t.all env.encodable = true) (h : Holds b s rs) (hr : rs.length ≤ b.maxlen)
    (ho : b.closed = false) :
    ∃ s', (sendExc env b e).seq s = (.ok (), s') ∧
      Holds b s' ((writeNewlines env.crlf t :: rs).take b.maxlen) ∧ Frame b s s' := by
  obtain ⟨s', h1, h2, h3⟩ := updateRecords_holds env b [t] s rs hm (by simpa using hp) h hr
  refine ⟨s', ?_, by simpa using h2, h3⟩
  rw [sendExc]
  simp only [ho, Bool.false_eq_true, if_false, excText_toStr he]
  exact h1

/-! ## The abstraction -/

/-- The directory `s` and the object `b` represent the abstract buffer `l`. -/
structure FRep (env : FEnv) (b : FileBuf) (s : FS) (l : FLog) : Prop where
  cap : b.maxlen = l.cap
  pos : 1 ≤ l.cap
  closed : b.closed = l.closed
  recs : Holds b s ((lastN l.cap l.done).map (writeNewlines env.crlf)).reverse
  tmp : Tmp b s l.part
  partClean : NoBreak l.part
  partEnc : l.part.all env.encodable = true
  noCr : ∀ x ∈ l.done, (13 : Nat) ∉ x

theorem take_rev_lastN {α : Type} (n : Nat) (ls done : List α) :
    (ls.reverse ++ (lastN n done).reverse).take n = (lastN n (done ++ ls)).reverse := by
  rw [← List.reverse_append, List.take_reverse, ← lastN_lastN_append]
  rfl

theorem map_lastN {α β : Type} (f : α → β) (n : Nat) (l : List α) :
    (lastN n l).map f = lastN n (l.map f) := by
  simp [lastN, List.map_drop]

/-- Which calls the platform's encoding allows, and `clear()` needs a name without pattern
characters. -/
def CallOk (env : FEnv) (b : FileBuf) : FCall → Prop
  | .write d => d.all env.encodable = true
  | .sendExc e => ∀ t, FLog.ExcText e t → t.all env.encodable = true
  | .close (some e) => ∀ t, FLog.ExcText e t → t.all env.encodable = true
  | .exit (some e) => ∀ t, FLog.ExcText e t → t.all env.encodable = true
  | .clear => NoGlob b.name
  | _ => True

theorem FRep.shownAll {env : FEnv} {b : FileBuf} {s : FS} {l : FLog} (h : FRep env b s l) (n : Nat)
    (hn : n ≤ (lastN l.cap l.done).length) : records b s n = lastN n (lastN l.cap l.done) := by
  rw [records_holds h.recs (by simpa using hn)]
  rw [List.take_reverse, List.map_reverse, List.reverse_reverse]
  have : ∀ x ∈ lastN l.cap l.done, univNewlines (writeNewlines env.crlf x) = x :=
    fun x hx => univ_write _ _ (h.noCr x (mem_of_mem_lastN hx))
  generalize lastN l.cap l.done = q at *
  rw [← List.map_drop, List.map_map, lastN, List.length_map]
  conv => rhs; rw [← List.map_id (List.drop _ _)]
  exact List.map_congr_left fun x hx => this x (List.mem_of_mem_drop hx)

theorem FRep.last {env : FEnv} {b : FileBuf} {s : FS} {l : FLog} (h : FRep env b s l) :
    lastLine b s = l.part := lastLine_tmp h.tmp h.partClean

theorem FRep.count {env : FEnv} {b : FileBuf} {s : FS} {l : FLog} (h : FRep env b s l) (n : Nat) :
    count b s n = min n (lastN l.cap l.done).length := by
  rw [count_holds h.recs]; simp

theorem lastN_congr {α : Type} {m n : Nat} {l : List α} (h : min m l.length = min n l.length) :
    lastN m l = lastN n l := by
  simp only [lastN]; congr 1; omega

/-- What `read` returns, in terms of the abstract buffer. -/
theorem FRep.read {env : FEnv} {b : FileBuf} {s : FS} {l : FLog} (h : FRep env b s l)
    (ho : b.closed = false) (size : Option Int) :
    (read b size).seq s = (.ok (match size with
      | none => l.view
      | some n => if n ≤ 0 then [] else lastN n.toNat l.view), s) := by
  have hcap := h.cap
  have hpos := h.pos
  rw [read_seq b s size ho, h.last]
  have hl := length_lastN l.cap l.done
  have hle : (lastN l.cap l.done).length ≤ l.cap := by omega
  by_cases hp : l.part = []
  · simp only [hp, ne_eq, not_true_eq_false, if_false, List.append_nil]
    have hv : l.view = lastN l.cap l.done := by simp [FLog.view, FLog.all, hp]
    rw [h.count, hcap, show min l.cap (lastN l.cap l.done).length = (lastN l.cap l.done).length by omega]
    cases size with
    | none =>
      simp only [Option.any_none, Bool.false_eq_true, if_false]
      rw [h.shownAll _ (Nat.le_refl _), lastN_of_le (Nat.le_refl _), hv]
    | some n =>
      simp only [Option.any_some, decide_eq_true_eq]
      split
      · rfl
      · rw [h.shownAll _ (by omega), hv]
        rw [lastN_congr (n := n.toNat) (by omega)]
  · simp only [hp, ne_eq, not_false_eq_true, if_true]
    have hv : l.view = lastN (l.cap - 1) l.done ++ [l.part] := by
      simp only [FLog.view, FLog.all, hp, if_false]
      exact lastN_append_singleton _ _ _ hpos
    have hl1 := length_lastN (l.cap - 1) l.done
    rw [h.count, hcap]
    have hll : lastN (l.cap - 1) (lastN l.cap l.done) = lastN (l.cap - 1) l.done := by
      rw [lastN_lastN, show min (l.cap - 1) l.cap = l.cap - 1 by omega]
    have hcl : min (l.cap - 1) (lastN l.cap l.done).length = (lastN (l.cap - 1) l.done).length := by
      omega
    rw [hcl]
    cases size with
    | none =>
      simp only [Option.any_none, Bool.false_eq_true, if_false]
      rw [h.shownAll _ (by omega), hv]
      rw [lastN_lastN, lastN_congr (n := l.cap - 1) (by omega)]
    | some n =>
      simp only [Option.any_some, decide_eq_true_eq]
      split
      · rfl
      · rename_i hn
        rw [h.shownAll _ (by omega), hv, lastN_append_singleton _ _ _ (by omega)]
        rw [lastN_lastN, lastN_lastN,
          lastN_congr (n := min (n.toNat - 1) (l.cap - 1)) (by omega)]

theorem FRep.len {env : FEnv} {b : FileBuf} {s : FS} {l : FLog} (h : FRep env b s l) :
    (len b).seq s = (.ok l.view.length, s) := by
  have hcap := h.cap
  have hpos := h.pos
  rw [len_seq b s (by omega), h.last, h.count]
  have hl := length_lastN l.cap l.done
  congr 1
  congr 1
  rw [FLog.view, length_lastN l.cap l.all, FLog.all, hcap, hl]
  by_cases hp : l.part = []
  · simp [hp]
  · simp [hp]; omega

/-- The state after `lines` have been completed. -/
theorem FRep.complete {env : FEnv} {b : FileBuf} {s s' : FS} {l : FLog} {lines : List PyStr}
    {rest : PyStr} (h : FRep env b s l)
    (hr : Holds b s' (((lines.map (writeNewlines env.crlf)).reverse ++
      ((lastN l.cap l.done).map (writeNewlines env.crlf)).reverse).take b.maxlen))
    (ht : Tmp b s' rest) (hn : NoBreak rest) (he : rest.all env.encodable = true)
    (hc : ∀ x ∈ lines, (13 : Nat) ∉ x) :
    FRep env b s' { l with done := l.done ++ lines, part := rest } where
  cap := h.cap
  pos := h.pos
  closed := h.closed
  recs := by
    rw [h.cap, map_lastN, take_rev_lastN, ← List.map_append, ← map_lastN] at hr
    exact hr
  tmp := ht
  partClean := hn
  partEnc := he
  noCr := fun x hx => by
    rcases List.mem_append.1 hx with hx | hx
    · exact h.noCr x hx
    · exact hc x hx

theorem FRep.recs_le {env : FEnv} {b : FileBuf} {s : FS} {l : FLog} (h : FRep env b s l) :
    (((lastN l.cap l.done).map (writeNewlines env.crlf)).reverse).length ≤ b.maxlen := by
  have := length_lastN_le l.cap l.done
  have := h.cap
  simp; omega

theorem FRep.newLine {env : FEnv} {b : FileBuf} {s : FS} {l : FLog} (h : FRep env b s l)
    (hnl : env.encodable 10 = true) (ho : b.closed = false) :
    ∃ s', (newLine env b).seq s = (.ok (), s') ∧ FRep env b s' l.finish ∧ Frame2 b s s' := by
  obtain ⟨s', h1, h2, h3, h4⟩ := newLine_holds env b s l.part _ (by have := h.cap; have := h.pos; omega)
    h.tmp h.partClean h.partEnc hnl h.recs h.recs_le ho
  refine ⟨s', h1, ?_, h4⟩
  by_cases hp : l.part = []
  · simp only [hp, if_true] at h2
    rw [FLog.finish, if_pos hp]
    exact { h with recs := h2, tmp := by rw [hp]; exact h3 }
  · rw [FLog.finish, if_neg hp]
    rw [if_neg hp] at h2
    refine h.complete (lines := [l.part]) ?_ h3 noBreak_nil (by simp) ?_
    · simpa [writeNewlines_noBreak env.crlf h.partClean] using h2
    · intro x hx; simp at hx; subst hx; exact (noBreak_ne h.partClean).1

theorem FRep.sendExc {env : FEnv} {b : FileBuf} {s : FS} {l : FLog} (h : FRep env b s l)
    {e : ExcObj} {t : PyStr} (he : FLog.ExcText e t) (hp : t.all env.encodable = true)
    (ho : b.closed = false) :
    ∃ s', (sendExc env b e).seq s = (.ok (), s') ∧
      FRep env b s' { l with done := l.done ++ [t] } ∧ Frame b s s' := by
  obtain ⟨s', h1, h2, h3⟩ := sendExc_holds env b e t s _ (by have := h.cap; have := h.pos; omega)
    he hp h.recs h.recs_le ho
  refine ⟨s', h1, ?_, h3⟩
  refine h.complete (lines := [t]) (rest := l.part) ?_ ?_ h.partClean h.partEnc ?_
  · simpa using h2
  · rw [Tmp, h3.tmp]; exact h.tmp
  · intro x hx; simp at hx; subst hx; exact excText_no_cr he

theorem FRep.write {env : FEnv} {b : FileBuf} {s : FS} {l : FLog} (h : FRep env b s l)
    {d : PyStr} (hd : d.all env.encodable = true) (ho : b.closed = false) :
    ∃ s', (write env b d).seq s = (.ok (LineBuf.writeRet d), s') ∧
      FRep env b s' { l with done := l.done ++ (segFrom l.part d).1, part := (segFrom l.part d).2 } ∧
      Frame2 b s s' := by
  have hlines := lines_noBreak (lines_segFrom l.part d h.partClean)
  have henc := segFrom_encodable env l.part d h.partEnc hd
  obtain ⟨s', h1, h2, h3, h4⟩ := writeCore_holds env b d s l.part _
    (by have := h.cap; have := h.pos; omega) h.tmp h.partClean h.partEnc hd h.recs h.recs_le
  refine ⟨s', ?_, ?_, h4⟩
  · rw [FileBuf.write, Prog.seq_bind_ok (show (writable b).seq s = (.ok true, s) by
      rw [writable, Prog.seq_withLock, Prog.seq_withLock]; simp [ho])]
    simpa using h1
  · have hmap : ((segFrom l.part d).1.map (writeNewlines env.crlf)) = (segFrom l.part d).1 := by
      have := List.map_congr_left (f := writeNewlines env.crlf) (g := id)
        (fun l hl => writeNewlines_noBreak env.crlf (hlines.1 l hl))
      rw [this]; simp
    refine h.complete ?_ h3 hlines.2 henc.2 fun x hx => (noBreak_ne (hlines.1 x hx)).1
    rw [hmap]; exact h2

theorem FRep.reclose {env : FEnv} {b : FileBuf} {s : FS} {l : FLog} (h : FRep env b s l) :
    FRep env { b with closed := true } s { l with closed := true } where
  cap := h.cap
  pos := h.pos
  closed := rfl
  recs := h.recs
  tmp := h.tmp
  partClean := h.partClean
  partEnc := h.partEnc
  noCr := h.noCr

/-- Every call refines the abstract step. -/
theorem exec_frefines (env : FEnv) (hnl : env.encodable 10 = true) (c : FCall) (b : FileBuf) (s : FS)
    (l : FLog) (h : FRep env b s l) (hc : CallOk env b c) :
    ∃ l', FLog.Step l c (exec env c b s).1 l' ∧
      FRep env (exec env c b s).2.1 (exec env c b s).2.2 l' ∧
      (exec env c b s).2.1.name = b.name ∧ l'.cap = l.cap := by
  have hcl := h.closed
  cases c with
  | write d =>
    cases ho : b.closed with
    | true =>
      have e : (write env b d).seq s = (.error .osError, s) := by
        rw [write, Prog.seq_bind_ok (show (writable b).seq s = (.ok false, s) by
          rw [writable, Prog.seq_withLock, Prog.seq_withLock]; simp [ho])]
        rfl
      have e2 : exec env (.write d) b s = (.exc .osError, b, s) := by
        rw [exec, call, Prog.seq_bind_ok (Prog.seq_outcome _ _), e]; rfl
      rw [e2]
      exact ⟨l, .writeClosed l d (by rw [← hcl, ho]), h, rfl, rfl⟩
    | false =>
      obtain ⟨s', h1, h2, _⟩ := h.write hc ho
      have e2 : exec env (.write d) b s = (.nat (LineBuf.writeRet d), b, s') := by
        rw [exec, call, Prog.seq_bind_ok (Prog.seq_outcome _ _), h1]; rfl
      rw [e2]
      exact ⟨_, .write l d _ _ _ (by rw [← hcl, ho]) (lines_segFrom _ _ h.partClean)
        ⟨_, _, lines_segFrom [] d noBreak_nil, rfl⟩, h2, rfl, rfl⟩
  | newLine =>
    cases ho : b.closed with
    | true =>
      have e2 : exec env .newLine b s = (.unit, b, s) := by
        rw [exec, call, Prog.seq_bind_ok (Prog.seq_outcome _ _), newLine, ho]; rfl
      rw [e2]
      exact ⟨l, .newLineClosed l (by rw [← hcl, ho]), h, rfl, rfl⟩
    | false =>
      obtain ⟨s', h1, h2, _⟩ := h.newLine hnl ho
      have e2 : exec env .newLine b s = (.unit, b, s') := by
        rw [exec, call, Prog.seq_bind_ok (Prog.seq_outcome _ _), h1]; rfl
      rw [e2]
      refine ⟨_, .newLine l (by rw [← hcl, ho]), h2, rfl, ?_⟩
      rw [FLog.finish]; split <;> rfl
  | read size =>
    cases ho : b.closed with
    | true =>
      have e : (FileBuf.read b size).seq s = (.error .osError, s) := by
        rw [FileBuf.read, Prog.seq_bind_ok (show (readable b).seq s = (.ok false, s) by
          rw [readable, Prog.seq_withLock, Prog.seq_withLock]; simp [ho])]
        rfl
      have e2 : exec env (.read size) b s = (.exc .osError, b, s) := by
        rw [exec, call, Prog.seq_bind_ok (Prog.seq_outcome _ _), e]; rfl
      rw [e2]
      exact ⟨l, .readClosed l size (by rw [← hcl, ho]), h, rfl, rfl⟩
    | false =>
      have ho' : l.closed = false := by rw [← hcl, ho]
      have e1 := h.read ho size
      cases size with
      | none =>
        have e2 : exec env (.read none) b s = (.items (l.view.map .str), b, s) := by
          rw [exec, call, Prog.seq_bind_ok (Prog.seq_outcome _ _), e1]; rfl
        rw [e2]
        exact ⟨l, .readAll l ho', h, rfl, rfl⟩
      | some n =>
        by_cases hn : n ≤ 0
        · have e2 : exec env (.read (some n)) b s = (.items [], b, s) := by
            rw [exec, call, Prog.seq_bind_ok (Prog.seq_outcome _ _), e1]; simp [hn, Ret.of]
          rw [e2]
          exact ⟨l, .readNonPos l n ho' hn, h, rfl, rfl⟩
        · have e2 : exec env (.read (some n)) b s =
              (.items ((lastN n.toNat l.view).map .str), b, s) := by
            rw [exec, call, Prog.seq_bind_ok (Prog.seq_outcome _ _), e1]; simp [hn, Ret.of]
          rw [e2]
          exact ⟨l, .readSize l n ho' (by omega), h, rfl, rfl⟩
  | len =>
    have e2 : exec env .len b s = (.nat l.view.length, b, s) := by
      rw [exec, call, Prog.seq_bind_ok (Prog.seq_outcome _ _), h.len]; rfl
    rw [e2]
    exact ⟨l, .len l, h, rfl, rfl⟩
  | maxlen =>
    refine ⟨l, ?_, h, rfl, rfl⟩
    show FLog.Step l .maxlen (.nat b.maxlen) l
    rw [h.cap]; exact .maxlen l
  | clear =>
    obtain ⟨s', h1, h2, h3⟩ := clear_holds env hc s
    have e2 : exec env .clear b s = (.unit, b, s') := by
      rw [exec, call, Prog.seq_bind_ok (Prog.seq_outcome _ _), h1]; rfl
    rw [e2]
    refine ⟨_, .clear l, ?_, rfl, rfl⟩
    exact { cap := h.cap, pos := h.pos, closed := h.closed, recs := by simpa using h2, tmp := h3,
            partClean := noBreak_nil, partEnc := by simp, noCr := by simp }
  | flush => exact ⟨l, .flush l, h, rfl, rfl⟩
  | sendExc e =>
    cases ho : b.closed with
    | true =>
      have e2 : exec env (.sendExc e) b s = (.unit, b, s) := by
        rw [exec, call, Prog.seq_bind_ok (Prog.seq_outcome _ _), sendExc, ho]; rfl
      rw [e2]
      exact ⟨l, .sendExcClosed l e (by rw [← hcl, ho]), h, rfl, rfl⟩
    | false =>
      obtain ⟨t, ht⟩ := excText_exists e
      obtain ⟨s', h1, h2, _⟩ := h.sendExc ht (hc t ht) ho
      have e2 : exec env (.sendExc e) b s = (.unit, b, s') := by
        rw [exec, call, Prog.seq_bind_ok (Prog.seq_outcome _ _), h1]; rfl
      rw [e2]
      exact ⟨_, .sendExc l e t (by rw [← hcl, ho]) ht, h2, rfl, rfl⟩
  | close x =>
    cases ho : b.closed with
    | true =>
      have e1 : (close env b x).seq s = (.ok b, s) := by
        cases x with
        | none =>
          rw [close, Prog.seq_bind_ok (show (newLine env b).seq s = (.ok (), s) by
            rw [newLine, ho]; rfl)]
          simp only [Prog.seq_pure]; rw [← ho]
        | some e =>
          rw [close, Prog.seq_bind_ok (show (sendExc env b e).seq s = (.ok (), s) by
            rw [sendExc, ho]; rfl)]
          simp only [Prog.seq_pure]; rw [← ho]
      have e2 : exec env (.close x) b s = (.unit, b, s) := by
        rw [exec, call, Prog.seq_bind_ok (Prog.seq_outcome _ _), e1]; rfl
      rw [e2]
      exact ⟨l, .closeClosed l x (by rw [← hcl, ho]), h, rfl, rfl⟩
    | false =>
      cases x with
      | none =>
        obtain ⟨s', h1, h2, _⟩ := h.newLine hnl ho
        have e1 : (close env b none).seq s = (.ok { b with closed := true }, s') := by
          rw [close, Prog.seq_bind_ok h1]; rfl
        have e2 : exec env (.close none) b s = (.unit, { b with closed := true }, s') := by
          rw [exec, call, Prog.seq_bind_ok (Prog.seq_outcome _ _), e1]; rfl
        rw [e2]
        refine ⟨_, .close l (by rw [← hcl, ho]), h2.reclose, rfl, ?_⟩
        rw [FLog.finish]; split <;> rfl
      | some e =>
        obtain ⟨t, ht⟩ := excText_exists e
        obtain ⟨s', h1, h2, _⟩ := h.sendExc ht (hc t ht) ho
        have e1 : (close env b (some e)).seq s = (.ok { b with closed := true }, s') := by
          rw [close, Prog.seq_bind_ok h1]; rfl
        have e2 : exec env (.close (some e)) b s = (.unit, { b with closed := true }, s') := by
          rw [exec, call, Prog.seq_bind_ok (Prog.seq_outcome _ _), e1]; rfl
        rw [e2]
        exact ⟨_, .closeExc l e t (by rw [← hcl, ho]) ht, h2.reclose, rfl, rfl⟩
  | exit x =>
    cases ho : b.closed with
    | true =>
      have e1 : (exit env b x).seq s = (.ok (), s) := by
        cases x with
        | none => rw [exit, newLine, ho]; rfl
        | some e => rw [exit, sendExc, ho]; rfl
      have e2 : exec env (.exit x) b s = (.unit, b, s) := by
        rw [exec, call, Prog.seq_bind_ok (Prog.seq_outcome _ _), e1]; rfl
      rw [e2]
      exact ⟨l, .exitClosed l x (by rw [← hcl, ho]), h, rfl, rfl⟩
    | false =>
      cases x with
      | none =>
        obtain ⟨s', h1, h2, _⟩ := h.newLine hnl ho
        have e2 : exec env (.exit none) b s = (.unit, b, s') := by
          rw [exec, call, Prog.seq_bind_ok (Prog.seq_outcome _ _), exit, h1]; rfl
        rw [e2]
        refine ⟨_, .exit l (by rw [← hcl, ho]), h2, rfl, ?_⟩
        rw [FLog.finish]; split <;> rfl
      | some e =>
        obtain ⟨t, ht⟩ := excText_exists e
        obtain ⟨s', h1, h2, _⟩ := h.sendExc ht (hc t ht) ho
        have e2 : exec env (.exit (some e)) b s = (.unit, b, s') := by
          rw [exec, call, Prog.seq_bind_ok (Prog.seq_outcome _ _), exit, h1]; rfl
        rw [e2]
        exact ⟨_, .exitExc l e t (by rw [← hcl, ho]) ht, h2, rfl, rfl⟩
  | closed =>
    refine ⟨l, ?_, h, rfl, rfl⟩
    show FLog.Step l .closed (.bool b.closed) l
    rw [h.closed]; exact .closed l
  | readable =>
    refine ⟨l, ?_, h, rfl, rfl⟩
    show FLog.Step l .readable (.bool (!b.closed)) l
    rw [h.closed]; exact .readable l
  | writable =>
    refine ⟨l, ?_, h, rfl, rfl⟩
    show FLog.Step l .writable (.bool (!b.closed)) l
    rw [h.closed]; exact .writable l

theorem callOk_congr {env : FEnv} {b b' : FileBuf} (hn : b'.name = b.name) {c : FCall}
    (h : CallOk env b c) : CallOk env b' c := by
  cases c with
  | clear => simpa [CallOk, hn] using h
  | close x => cases x <;> exact h
  | exit x => cases x <;> exact h
  | _ => exact h

theorem run_frefines (env : FEnv) (hnl : env.encodable 10 = true) (cs : List FCall) (b : FileBuf)
    (s : FS) (l : FLog) (h : FRep env b s l) (hc : ∀ c ∈ cs, CallOk env b c) :
    ∃ l', FLog.Steps l cs (run env cs b s).1 l' ∧
      FRep env (run env cs b s).2.1 (run env cs b s).2.2 l' ∧ l'.cap = l.cap := by
  induction cs generalizing b s l with
  | nil => exact ⟨l, .nil l, h, rfl⟩
  | cons c cs ih =>
    obtain ⟨l1, h1, h2, h3, h4⟩ := exec_frefines env hnl c b s l h (hc c (List.mem_cons_self ..))
    obtain ⟨l2, h5, h6, h7⟩ := ih _ _ l1 h2
      (fun x hx => callOk_congr h3 (hc x (List.mem_cons_of_mem _ hx)))
    exact ⟨l2, .cons _ _ _ _ _ _ _ h1 h5, h6, h7.trans h4⟩

theorem fwriteRet_unique {d : PyStr} {m n : Nat} (h1 : FLog.WriteRet d m) (h2 : FLog.WriteRet d n) :
    m = n := by
  obtain ⟨ls, r, h3, rfl⟩ := h1
  obtain ⟨ls', r', h4, rfl⟩ := h2
  obtain ⟨rfl, rfl⟩ := lines_unique h3 h4
  rfl

theorem fstep_unique {l l1 l2 : FLog} {c : FCall} {r1 r2 : Ret} (h1 : FLog.Step l c r1 l1)
    (h2 : FLog.Step l c r2 l2) : r1 = r2 ∧ l1 = l2 := by
  cases h1 <;> cases h2 <;> first
    | exact ⟨rfl, rfl⟩
    | (rename_i a b; simp_all; done)
    | (rename_i a b c d; exact absurd (a.symm.trans c) (by decide))
    | skip
  case write.write h3 h4 _ _ _ _ h5 h6 =>
    obtain ⟨rfl, rfl⟩ := lines_unique h3 h5
    rw [fwriteRet_unique h4 h6]
    exact ⟨rfl, rfl⟩
  case readSize.readNonPos h3 _ h4 => omega
  case readNonPos.readSize h3 _ h4 => omega
  case sendExc.sendExc h3 _ _ h4 => rw [excText_unique h3 h4]; exact ⟨rfl, rfl⟩
  case closeExc.closeExc h3 _ _ h4 => rw [excText_unique h3 h4]; exact ⟨rfl, rfl⟩
  case exitExc.exitExc h3 _ _ h4 => rw [excText_unique h3 h4]; exact ⟨rfl, rfl⟩

end FileBuf
end SyncStream
