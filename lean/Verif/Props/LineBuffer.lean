import Verif.Lemmas.LineBuffer
/-!
# Properties C01-C11, C15: the in-memory `LineBuffer`
-/

namespace SyncStream
open Spec LineBuf

/-! ## The specification of lines is sound: nothing is lost, added or altered -/

/-- A line terminator: `\r\n` or one of the single characters. -/
def Terminator (t : PyStr) : Prop := t = [0x0D, 0x0A] ∨ ∃ c ∈ breakChars, t = [c]

/-- The text is its lines, each followed by a terminator, and the unfinished rest. -/
theorem C01_lines_sound {text : PyStr} {ls : List PyStr} {rest : PyStr} (h : Lines text ls rest) :
    (∃ terms : List PyStr, terms.length = ls.length ∧ (∀ t ∈ terms, Terminator t) ∧
      text = (List.zipWith (· ++ ·) ls terms).flatten ++ rest) ∧
    (∀ l ∈ ls, NoBreak l) ∧ NoBreak rest := by
  refine ⟨?_, lines_noBreak h⟩
  induction h with
  | unfinished r _ => exact ⟨[], rfl, by simp, by simp⟩
  | crlf line text lines rest _ _ ih =>
    obtain ⟨ts, h1, h2, h3⟩ := ih
    refine ⟨[0x0D, 0x0A] :: ts, by simp [h1], ?_, by simp [h3]⟩
    intro t ht
    rcases List.mem_cons.1 ht with rfl | ht
    · exact .inl rfl
    · exact h2 t ht
  | single line c text lines rest _ hc _ _ ih =>
    obtain ⟨ts, h1, h2, h3⟩ := ih
    refine ⟨[c] :: ts, by simp [h1], ?_, by simp [h3]⟩
    intro t ht
    rcases List.mem_cons.1 ht with rfl | ht
    · exact .inr ⟨c, hc, rfl⟩
    · exact h2 t ht

/-- Every text has exactly one decomposition into lines. -/
theorem C01_lines_unique (text : PyStr) : ∃ p : List PyStr × PyStr,
    Lines text p.1 p.2 ∧ ∀ q : List PyStr × PyStr, Lines text q.1 q.2 → q = p := by
  obtain ⟨ls, r, h⟩ := lines_total text
  refine ⟨(ls, r), h, fun q hq => ?_⟩
  obtain ⟨h1, h2⟩ := lines_unique hq h
  exact Prod.ext h1 h2

example : Lines (lit "ab\r\nc\n\nd") [lit "ab", lit "c", []] (lit "d") :=
  .crlf (lit "ab") _ _ _ (by decide +kernel) (.single (lit "c") 10 _ _ _ (by decide +kernel) (by decide +kernel)
    (by decide) (.single [] 10 _ _ _ (by decide) (by decide +kernel) (by decide)
      (.unfinished (lit "d") (by decide +kernel))))

/-! ## Feeding pieces of text -/

theorem feeds_iff (part : PyStr) (hp : NoBreak part) (pieces ls : List PyStr) (rest : PyStr) :
    Feeds part pieces ls rest ↔
      (pieces.foldl (fun (a : List PyStr × PyStr) p =>
        (a.1 ++ (segFrom a.2 p).1, (segFrom a.2 p).2)) ([], part)) = (ls, rest) := by
  have gen : ∀ (pieces : List PyStr) (a : List PyStr) (part : PyStr), NoBreak part →
      ∀ ls rest, Feeds part pieces ls rest ↔
      (pieces.foldl (fun (a : List PyStr × PyStr) p =>
        (a.1 ++ (segFrom a.2 p).1, (segFrom a.2 p).2)) (a, part)) = (a ++ ls, rest) := by
    intro pieces
    induction pieces with
    | nil =>
      intro a part _ ls rest
      constructor
      · intro h; cases h; simp
      · intro h
        simp only [List.foldl_nil, Prod.mk.injEq] at h
        obtain ⟨h1, rfl⟩ := h
        have : ls = [] := by simpa using h1
        subst this; exact .nil _
    | cons p ps ih =>
      intro a part hp ls rest
      simp only [List.foldl_cons]
      have hl := lines_segFrom part p hp
      have hn := segFrom_cur_noBreak part p hp
      constructor
      · intro h
        cases h with
        | cons _ _ _ l1 l2 mid _ h1 h2 =>
          obtain ⟨e1, e2⟩ := lines_unique h1 hl
          subst e1 e2
          have := (ih (a ++ (segFrom part p).1) _ hn _ _).1 h2
          rw [this, List.append_assoc]
      · intro h
        have hex : ∃ l2, ls = (segFrom part p).1 ++ l2 := by
          have mono : ∀ (ps : List PyStr) (x : List PyStr × PyStr), ∃ l2,
              (ps.foldl (fun (a : List PyStr × PyStr) p =>
                (a.1 ++ (segFrom a.2 p).1, (segFrom a.2 p).2)) x).1 = x.1 ++ l2 := by
            intro ps
            induction ps with
            | nil => intro x; exact ⟨[], by simp⟩
            | cons q qs ihq =>
              intro x
              obtain ⟨l2, h2⟩ := ihq (x.1 ++ (segFrom x.2 q).1, (segFrom x.2 q).2)
              exact ⟨(segFrom x.2 q).1 ++ l2, by simp only [List.foldl_cons]; rw [h2]; simp⟩
          obtain ⟨l2, h2⟩ := mono ps (a ++ (segFrom part p).1, (segFrom part p).2)
          rw [h] at h2
          simp only [List.append_assoc, List.append_cancel_left_eq] at h2
          exact ⟨l2, h2⟩
        obtain ⟨l2, rfl⟩ := hex
        refine .cons _ _ _ _ _ _ _ hl ((ih (a ++ (segFrom part p).1) _ hn l2 rest).2 ?_)
        rw [h, List.append_assoc]
  simpa using gen pieces [] part hp ls rest

/-! ## Reachable states -/

theorem new_ok {m : Int} {b : LineBuf} (h : LineBuf.new m = .ok b) :
    1 ≤ m ∧ b = opened m.toNat [] [] := by
  unfold LineBuf.new at h
  split at h
  · cases h
  · cases h
    exact ⟨by omega, rfl⟩

theorem run_append (cs1 cs2 : List Call) (b : LineBuf) :
    run (cs1 ++ cs2) b =
      ((run cs1 b).1 ++ (run cs2 (run cs1 b).2).1, (run cs2 (run cs1 b).2).2) := by
  induction cs1 generalizing b with
  | nil => simp [run]
  | cons c cs ih => simp [run, ih]

theorem reach_rep {m : Int} {b : LineBuf} (h : Reach m b) :
    ∃ l : Log, b = rep l ∧ Ok l ∧ l.cap = m.toNat ∧ 1 ≤ m := by
  obtain ⟨b0, cs, hn, hr⟩ := h
  obtain ⟨hm, rfl⟩ := new_ok hn
  have h0 : opened m.toNat [] [] = rep ({ cap := m.toNat } : Log) := by
    simp [rep]
  have ok0 : Ok ({ cap := m.toNat } : Log) := ⟨by show 1 ≤ m.toNat; omega, noBreak_nil, by simp⟩
  obtain ⟨l', _, h2, ok', hc⟩ := run_refines cs _ ok0
  rw [← h0, hr] at h2
  exact ⟨l', h2, ok', hc, hm⟩

theorem reach_exec {m : Int} {b : LineBuf} (h : Reach m b) (c : Call) :
    Reach m (exec c b).2 := by
  obtain ⟨b0, cs, hn, hr⟩ := h
  refine ⟨b0, cs ++ [c], hn, ?_⟩
  rw [run_append, hr]; rfl

/-- A reachable open buffer has the normal form. -/
theorem reach_open {m : Int} {b : LineBuf} (h : Reach m b) (ho : b.lastLine.closed = false) :
    ∃ items part, b = opened m.toNat items part ∧ items.length ≤ m.toNat ∧ 1 ≤ m.toNat ∧
      NoBreak part := by
  obtain ⟨l, rfl, ok, hc, hm⟩ := reach_rep h
  have hcl : l.closed = false := by
    cases hcl : l.closed with
    | true => rw [rep_closed hcl] at ho; simp [shut] at ho
    | false => rfl
  exact ⟨_, l.part, by rw [rep_open hcl, hc], length_lastN_le _ _, by omega, ok.part⟩

theorem reach_closed {m : Int} {b : LineBuf} (h : Reach m b) (ho : b.lastLine.closed = true) :
    b = shut m.toNat := by
  obtain ⟨l, rfl, ok, hc, hm⟩ := reach_rep h
  cases hcl : l.closed with
  | true => rw [rep_closed hcl, hc]
  | false => rw [rep_open hcl] at ho; simp [opened] at ho

/-! ## C01 -/

/-- **C01**, all histories: the results of any history of calls are those of the abstract log
(an unbounded list of completed lines and an unfinished line). -/
theorem C01_history_refines (m : Int) (b0 : LineBuf) (h : LineBuf.new m = .ok b0)
    (cs : List Call) :
    ∃ l', Log.Steps { cap := m.toNat } cs (run cs b0).1 l' := by
  obtain ⟨hm, rfl⟩ := new_ok h
  have h0 : opened m.toNat [] [] = rep ({ cap := m.toNat } : Log) := by simp [rep]
  have ok0 : Ok ({ cap := m.toNat } : Log) := ⟨by show 1 ≤ m.toNat; omega, noBreak_nil, by simp⟩
  obtain ⟨l', h1, _⟩ := run_refines cs _ ok0
  rw [← h0] at h1
  exact ⟨l', h1⟩

/-- The abstract log is deterministic, so the refinement fixes every result. -/
theorem C01_log_deterministic {l l1 l2 : Log} {cs : List Call} {r1 r2 : List Ret}
    (h1 : Log.Steps l cs r1 l1) (h2 : Log.Steps l cs r2 l2) : r1 = r2 ∧ l1 = l2 := by
  induction h1 generalizing r2 l2 with
  | nil => cases h2; exact ⟨rfl, rfl⟩
  | cons _ _ _ _ _ _ _ hs _ ih =>
    cases h2 with
    | cons _ _ _ _ _ _ _ hs' hss' =>
      obtain ⟨rfl, rfl⟩ := step_unique hs hs'
      obtain ⟨rfl, rfl⟩ := ih hss'
      exact ⟨rfl, rfl⟩

theorem run_writes (cap : Nat) (h1 : 1 ≤ cap) (pieces : List PyStr) (items : List Item)
    (part : PyStr) (hi : items.length ≤ cap) (a : List PyStr) (hist : List Item)
    (hia : items = lastN cap (hist ++ a.map .str)) :
    (run (pieces.map .write) (opened cap items part)).2 =
      (let x := pieces.foldl (fun (a : List PyStr × PyStr) p =>
        (a.1 ++ (segFrom a.2 p).1, (segFrom a.2 p).2)) (a, part)
       opened cap (lastN cap (hist ++ x.1.map .str)) x.2) := by
  induction pieces generalizing items part a with
  | nil => simp [run, hia]
  | cons p ps ih =>
    simp only [List.map_cons, run, exec, write_opened _ _ _ _ hi h1, List.foldl_cons]
    rw [ih]
    · exact length_lastN_le _ _
    · rw [hia, lastN_lastN_append]; simp

/-- **C01** `read()` shows the newest `maxlen` lines: after any sequence of writes, if the pieces
fed one after the other complete the lines `ls` and leave `rest` unfinished, then `read()` returns
the last `maxlen` entries of `ls` followed by `rest` (if it is not empty). -/
theorem C01_read_newest (m : Int) (b0 : LineBuf) (h : LineBuf.new m = .ok b0)
    (pieces ls : List PyStr) (rest : PyStr) (hf : Feeds [] pieces ls rest) :
    (read none (run (pieces.map .write) b0).2).1 =
      .ok (lastN m.toNat ((ls ++ if rest = [] then [] else [rest]).map .str)) := by
  obtain ⟨hm, rfl⟩ := new_ok h
  rw [run_writes m.toNat (by omega) pieces [] [] (by simp) [] [] (by simp)]
  rw [(feeds_iff [] noBreak_nil pieces ls rest).1 hf]
  simp only [List.nil_append]
  rw [read_opened _ _ _ _ (length_lastN_le _ _) (by omega)]
  simp only [shown, lastN_lastN_append]
  split <;> simp [*]

/-- Every sequence of pieces has a decomposition, so `C01_read_newest` speaks about every
sequence of writes. -/
theorem C01_feeds_total (pieces : List PyStr) : ∃ ls rest, Feeds [] pieces ls rest :=
  ⟨_, _, (feeds_iff [] noBreak_nil pieces _ _).2 rfl⟩

/-- A history of three writes into a buffer of two lines (`Feeds` is satisfiable and the window
is really cut). -/
example : ∃ b0, LineBuf.new 2 = .ok b0 ∧
    Feeds [] [lit "a\nb", lit "c\r\n", lit "d"] [lit "a", lit "bc"] (lit "d") ∧
    ((read none (run ([lit "a\nb", lit "c\r\n", lit "d"].map .write) b0).2).1 =
      .ok [.str (lit "bc"), .str (lit "d")]) := by
  have hf : Feeds [] [lit "a\nb", lit "c\r\n", lit "d"] [lit "a", lit "bc"] (lit "d") :=
    (feeds_iff [] noBreak_nil _ _ _).2 (by decide +kernel)
  refine ⟨_, rfl, hf, ?_⟩
  rw [C01_read_newest 2 _ rfl _ _ _ hf]
  rfl

/-! ## C02 -/

/-- **C02** In every reachable state at most `maxlen` items are stored, `read` returns at most
`maxlen` items and `len` reports at most `maxlen`. -/
theorem C02_bounded (m : Int) (b : LineBuf) (h : Reach m b) :
    b.storage.items.length ≤ m.toNat ∧
    (∀ size r, (read size b).1 = .ok r → r.length ≤ m.toNat) ∧
    (∀ n, (len b).1 = .ok n → n ≤ m.toNat) := by
  cases hcl : b.lastLine.closed with
  | true =>
    rw [reach_closed h hcl]
    obtain ⟨l, _, ok, hc, hm⟩ := reach_rep h
    refine ⟨by simp [shut], ?_, ?_⟩
    · intro size r hr; rw [read_shut] at hr; cases hr
    · intro n hn
      have : m.toNat ≠ 0 := by omega
      simp [len, shut, maxlen, StringIO.truth, this] at hn
      omega
  | false =>
    obtain ⟨items, part, rfl, hi, h1, _⟩ := reach_open h hcl
    refine ⟨hi, ?_, ?_⟩
    · intro size r hr
      rw [read_opened _ _ _ _ hi h1] at hr
      have hs : (shown m.toNat items part).length ≤ m.toNat := length_lastN_le _ _
      cases size with
      | none => cases hr; exact hs
      | some n =>
        simp only at hr
        split at hr
        · cases hr; rw [length_lastN]; omega
        · cases hr; simp
    · intro n hn
      simp [len, opened, maxlen, StringIO.truth, show m.toNat ≠ 0 by omega] at hn
      omega

example : Reach 2 (run [.write (lit "a\nb\nc\nd")] (opened 2 [] [])).2 ∧
    (run [.write (lit "a\nb\nc\nd")] (opened 2 [] [])).2.storage.items.length = 2 :=
  ⟨⟨_, _, rfl, rfl⟩, by decide +kernel⟩

/-! ## C03 -/

/-- **C03** `read` leaves the buffer exactly as it was, whatever the size. -/
theorem C03_read_pure (m : Int) (b : LineBuf) (h : Reach m b) (size : Option Int) :
    (read size b).2 = b := by
  cases hcl : b.lastLine.closed with
  | true => rw [reach_closed h hcl, read_shut]
  | false =>
    obtain ⟨items, part, rfl, hi, h1, _⟩ := reach_open h hcl
    rw [read_opened _ _ _ _ hi h1]

theorem run_length (cs : List Call) (b : LineBuf) : (run cs b).1.length = cs.length := by
  induction cs generalizing b with
  | nil => rfl
  | cons c cs ih => simp [run, ih]

/-- **C03** in terms of histories: a `read` inserted anywhere changes no other result. -/
theorem C03_read_unobservable (m : Int) (b0 : LineBuf) (h : LineBuf.new m = .ok b0)
    (before after : List Call) (size : Option Int) :
    (run (before ++ .read size :: after) b0).1.eraseIdx before.length =
      (run (before ++ after) b0).1 := by
  have hr : Reach m (run before b0).2 := ⟨b0, before, h, rfl⟩
  have : (exec (.read size) (run before b0).2).2 = (run before b0).2 :=
    C03_read_pure m _ hr size
  rw [run_append, run_append]
  simp only [run, this]
  rw [List.eraseIdx_append_of_length_le (by simp [run_length])]
  simp [run_length]

example : Reach 2 (run [.write (lit "a\nb\nc")] (opened 2 [] [])).2 ∧
    (read (some 1) (run [.write (lit "a\nb\nc")] (opened 2 [] [])).2).1 = .ok [.str (lit "c")] :=
  ⟨⟨_, _, rfl, rfl⟩, rfl⟩

/-! ## C04 -/

/-- **C04** `read(size)` is the tail of `read()`; for `size <= 0` it is empty. -/
theorem C04_read_size (m : Int) (b : LineBuf) (h : Reach m b) (all : List Item)
    (hall : (read none b).1 = .ok all) (n : Int) :
    (read (some n) b).1 = .ok (if 0 < n then lastN n.toNat all else []) := by
  cases hcl : b.lastLine.closed with
  | true => rw [reach_closed h hcl, read_shut] at hall; cases hall
  | false =>
    obtain ⟨items, part, rfl, hi, h1, _⟩ := reach_open h hcl
    rw [read_opened _ _ _ _ hi h1] at hall ⊢
    cases hall
    rfl

example : (read none (run [.write (lit "a\nb\nc")] (opened 2 [] [])).2).1 =
    .ok [.str (lit "b"), .str (lit "c")] := rfl

/-! ## C05 -/

theorem foldl_segFrom_flatten (pieces : List PyStr) (hs : NoSplitCrLf pieces) (a : List PyStr)
    (part : PyStr) :
    pieces.foldl (fun (a : List PyStr × PyStr) p =>
        (a.1 ++ (segFrom a.2 p).1, (segFrom a.2 p).2)) (a, part) =
      (a ++ (segFrom part pieces.flatten).1, (segFrom part pieces.flatten).2) := by
  induction pieces generalizing a part with
  | nil => simp
  | cons p ps ih =>
    obtain ⟨h1, h2⟩ := hs
    simp only [List.foldl_cons, List.flatten_cons]
    rw [ih h2, segFrom_append _ _ _ h1]
    simp

/-- **C05** Cutting a text into pieces does not matter (from any reachable open state), unless a
cut separates `\r` from `\n`. -/
theorem C05_cut_independent (m : Int) (b : LineBuf) (h : Reach m b)
    (ho : b.lastLine.closed = false) (pieces : List PyStr) (hs : NoSplitCrLf pieces) :
    (run (pieces.map .write) b).2 = (exec (.write pieces.flatten) b).2 := by
  obtain ⟨items, part, rfl, hi, h1, _⟩ := reach_open h ho
  rw [run_writes _ h1 _ _ _ hi [] items (by simp [lastN_of_le hi])]
  rw [foldl_segFrom_flatten _ hs]
  simp only [exec, write_opened _ _ _ _ hi h1, List.nil_append]

/-- **C05**, corollary in terms of observations: two ways of cutting the same text. -/
theorem C05_two_cuts (m : Int) (b : LineBuf) (h : Reach m b)
    (ho : b.lastLine.closed = false) (ps qs : List PyStr) (he : ps.flatten = qs.flatten)
    (hp : NoSplitCrLf ps) (hq : NoSplitCrLf qs) (later : List Call) :
    (run later (run (ps.map .write) b).2).1 = (run later (run (qs.map .write) b).2).1 := by
  rw [C05_cut_independent m b h ho ps hp, C05_cut_independent m b h ho qs hq, he]

example : NoSplitCrLf [lit "a\r", lit "b\r\n", [], lit "c\n"] := by decide +kernel

/-- The condition is needed: a cut inside `\r\n` gives one extra empty record. -/
theorem C05_split_crlf_extra_record :
    (read none (run [.write (lit "a\r\nb")] (opened 9 [] [])).2).1 =
      .ok [.str (lit "a"), .str (lit "b")] ∧
    (read none (run [.write (lit "a\r"), .write (lit "\nb")] (opened 9 [] [])).2).1 =
      .ok [.str (lit "a"), .str [], .str (lit "b")] := ⟨rfl, rfl⟩

/-! ## C06 (thread mode) -/

/-- Every text item is free of line terminators. -/
def TextClean (l : List Item) : Prop := ∀ i ∈ l, ∀ s, i = .str s → NoBreak s

theorem step_clean {l l' : Log} {c : Call} {r : Ret} (h : Log.Step l c r l') (ok : Ok l)
    (hc : TextClean l.done) : TextClean l'.done := by
  cases h with
  | write d ls r n _ hl _ =>
    intro i hi s hs
    rcases List.mem_append.1 hi with hi | hi
    · exact hc i hi s hs
    · obtain ⟨x, hx, rfl⟩ := List.mem_map.1 hi
      cases hs
      exact (lines_noBreak hl).1 _ hx
  | newLine =>
    intro i hi s hs
    rcases List.mem_append.1 hi with hi | hi
    · exact hc i hi s hs
    · rw [List.mem_singleton] at hi
      rw [hi] at hs; cases hs; exact ok.part
  | clear | close => intro i hi; cases hi
  | _ => exact hc

theorem run_clean (cs : List Call) (l : Log) (ok : Ok l) (hc : TextClean l.done) :
    ∃ l', (run cs (rep l)).2 = rep l' ∧ Ok l' ∧ l'.cap = l.cap ∧ TextClean l'.done := by
  induction cs generalizing l with
  | nil => exact ⟨l, rfl, ok, rfl, hc⟩
  | cons c cs ih =>
    obtain ⟨l1, hs, hr, ok1, hcap⟩ := exec_refines c l ok
    obtain ⟨l2, hr2, ok2, hcap2, hc2⟩ := ih l1 ok1 (step_clean hs ok hc)
    exact ⟨l2, by simp only [run]; rw [hr]; exact hr2, ok2, hcap2.trans hcap, hc2⟩

/-- **C06** (thread mode) Whatever the history, every text item that `read` returns is free of line
terminators. -/
theorem C06_no_terminators (m : Int) (b : LineBuf) (h : Reach m b) (size : Option Int)
    (r : List Item) (hr : (read size b).1 = .ok r) : TextClean r := by
  obtain ⟨b0, cs, hn, rfl⟩ := h
  obtain ⟨hm, rfl⟩ := new_ok hn
  have h0 : opened m.toNat [] [] = rep ({ cap := m.toNat } : Log) := by simp [rep]
  obtain ⟨l, hl, ok, hcap, hc⟩ := run_clean cs { cap := m.toNat }
    ⟨by show 1 ≤ m.toNat; omega, noBreak_nil, by simp⟩ (by intro i hi; cases hi)
  rw [h0, hl] at hr
  cases hcl : l.closed with
  | true => rw [rep_closed hcl, read_shut] at hr; cases hr
  | false =>
    rw [rep_open hcl, read_opened _ _ _ _ (length_lastN_le _ _) ok.cap, shown_eq] at hr
    have hview : TextClean l.view := by
      intro i hi s hs
      have := mem_of_mem_lastN hi
      unfold Log.all at this
      rcases List.mem_append.1 this with h | h
      · exact hc i h s hs
      · split at h
        · cases h
        · rw [List.mem_singleton] at h
          rw [h] at hs; cases hs; exact ok.part
    cases size with
    | none => cases hr; exact hview
    | some n =>
      simp only at hr
      split at hr
      · cases hr
        intro i hi
        exact hview i (mem_of_mem_lastN hi)
      · cases hr; intro i hi; cases hi

example : ∃ b, Reach 3 b ∧ (read none b).1 = .ok [.str (lit "x"), .str (lit "y"), .str (lit "z")] :=
  ⟨(run [.write (lit "x\x0cy\r\nz")] (opened 3 [] [])).2, ⟨_, _, rfl, rfl⟩, rfl⟩

/-! ## C07 -/

/-- **C07** is false of the code: a new buffer reads as empty but has length 1. -/
theorem C07_violated : ¬ ∀ (m : Int) (b : LineBuf), Reach m b →
    ∀ r n, (read none b).1 = .ok r → (len b).1 = .ok n → n = r.length := by
  intro h
  have := h 5 (opened 5 [] []) ⟨_, [], rfl, rfl⟩ [] 1 rfl rfl
  cases this

/-- **C07**, what holds: `len` is right exactly if the unfinished line is not empty or `maxlen`
completed items are stored; otherwise it is one too large. -/
theorem C07_len_partial (m : Int) (b : LineBuf) (h : Reach m b) (r : List Item) (n : Nat)
    (hr : (read none b).1 = .ok r) (hn : (len b).1 = .ok n) :
    n = if b.lastLine.buf ≠ [] ∨ r.length = m.toNat then r.length else r.length + 1 := by
  cases hcl : b.lastLine.closed with
  | true => rw [reach_closed h hcl, read_shut] at hr; cases hr
  | false =>
    obtain ⟨items, part, rfl, hi, h1, _⟩ := reach_open h hcl
    rw [read_opened _ _ _ _ hi h1] at hr
    cases hr
    have h0 : m.toNat ≠ 0 := by omega
    simp only [len, opened, maxlen, StringIO.truth, h0, ne_eq, not_false_eq_true, if_true,
      Except.ok.injEq] at hn
    subst hn
    simp only [shown, opened, ne_eq]
    by_cases hp : part = []
    · simp only [hp, not_true_eq_false, if_true, List.append_nil, false_or, length_lastN]
      split <;> omega
    · simp only [hp, not_false_eq_true, true_or, if_true, if_false, length_lastN,
        List.length_append, List.length_singleton]

example : ∃ b, Reach 3 b ∧ (read none b).1 = .ok [.str (lit "x"), .str (lit "y")] ∧
    (len b).1 = .ok 2 :=
  ⟨(run [.write (lit "x\ny")] (opened 3 [] [])).2, ⟨_, _, rfl, rfl⟩, rfl, rfl⟩

/-! ## C08 -/

/-- The documented result of `write`: "The number of written lines" - the completed lines plus the
non-empty unfinished rest. -/
def DocumentedWriteRet (d : PyStr) (n : Nat) : Prop :=
  ∃ ls r, Lines d ls r ∧ n = ls.length + if r = [] then 0 else 1

/-- **C08** is false of the code: `write("ab\n")` returns 0, `write("abc")` returns 3. -/
theorem C08_violated : ¬ ∀ (m : Int) (b : LineBuf), Reach m b →
    ∀ d n, (write d b).1 = .ok n → DocumentedWriteRet d n := by
  intro h
  obtain ⟨ls, r, h1, h2⟩ := h 5 (opened 5 [] []) ⟨_, [], rfl, rfl⟩ (lit "ab\n") 0 rfl
  have hseg := segFrom_eq_of_lines h1
  have : segFrom [] (lit "ab\n") = ([lit "ab"], []) := by decide +kernel
  rw [this] at hseg
  cases hseg
  simp at h2

/-- **C08**, what holds: `write(d)` on an open buffer returns 1 for a lone terminator and the
length in characters of the text after the last terminator of `d` otherwise. -/
theorem C08_write_return_partial (m : Int) (b : LineBuf) (h : Reach m b)
    (ho : b.lastLine.closed = false) (d : PyStr) (ls : List PyStr) (r : PyStr)
    (hl : Lines d ls r) :
    (write d b).1 = .ok (if ls = [[]] ∧ r = [] then 1 else r.length) := by
  obtain ⟨items, part, rfl, hi, h1, _⟩ := reach_open h ho
  rw [write_opened _ _ _ _ hi h1, writeRet]
  have := segFrom_eq_of_lines hl
  rw [this]

example : Reach 2 (run [.write (lit "a\nb")] (opened 2 [] [])).2 ∧
    (run [.write (lit "a\nb")] (opened 2 [] [])).2.lastLine.closed = false :=
  ⟨⟨_, _, rfl, rfl⟩, rfl⟩

/-! ## C09 -/

/-- What each call returns on a closed buffer. -/
def closedRet (m : Nat) : Call → Ret
  | .write _ => .exc .osError
  | .read _ => .exc .osError
  | .newLine => .exc .valueError
  | .clear => .exc .valueError
  | .flush => .exc .valueError
  | .close => .unit
  | .closed => .bool true
  | .readable => .bool false
  | .writable => .bool false
  | .len => .nat 1
  | .maxlen => .nat m

/-- **C09** After any history ending with `close()`, every later history of calls gets exactly the
answers of a closed buffer, and nothing changes. -/
theorem C09_closed (m : Int) (b : LineBuf) (h : Reach m b) (later : List Call) :
    (exec .close b).1 matches .unit ∧
    (run later (exec .close b).2).1 = later.map (closedRet m.toNat) ∧
    (run later (exec .close b).2).2 = (exec .close b).2 := by
  have hc : exec .close b = (.unit, shut m.toNat) := by
    cases hcl : b.lastLine.closed with
    | true => rw [reach_closed h hcl]; simp only [exec, close_shut, Ret.of]
    | false =>
      obtain ⟨items, part, rfl, hi, h1, _⟩ := reach_open h hcl
      simp only [exec, close_opened, Ret.of]
  rw [hc]
  obtain ⟨_, _, _, _, hm⟩ := reach_rep h
  have h0 : m.toNat ≠ 0 := by omega
  have key : ∀ c, exec c (shut m.toNat) = (closedRet m.toNat c, shut m.toNat) := by
    intro c
    cases c
    case write d => simp only [exec, closedRet, write_shut, Ret.of]
    case newLine => simp only [exec, closedRet, newLine_shut, Ret.of]
    case read s => simp only [exec, closedRet, read_shut, Ret.of]
    case clear => simp only [exec, closedRet, clear_shut, Ret.of]
    case close => simp only [exec, closedRet, close_shut, Ret.of]
    all_goals simp [exec, closedRet, Ret.of, len, maxlen, flush, closed, readable, writable, onLast,
      StringIO.flush, StringIO.check, StringIO.truth, shut, h0]
    omega
  refine ⟨rfl, ?_⟩
  induction later with
  | nil => exact ⟨rfl, rfl⟩
  | cons c cs ih =>
    simp only [run, key, List.map_cons]
    exact ⟨by rw [ih.1], ih.2⟩

example : Reach 2 (run [.write (lit "a\nb")] (opened 2 [] [])).2 := ⟨_, _, rfl, rfl⟩

/-! ## C10 -/

/-- **C10** After `clear()` on an open buffer every later history gives the results (and the state)
it gives on a new buffer. -/
theorem C10_clear_resets (m : Int) (b b0 : LineBuf) (h : Reach m b)
    (ho : b.lastLine.closed = false) (h0 : LineBuf.new m = .ok b0) (later : List Call) :
    run later (exec .clear b).2 = run later b0 := by
  obtain ⟨items, part, rfl, hi, h1, _⟩ := reach_open h ho
  obtain ⟨_, rfl⟩ := new_ok h0
  simp only [exec, clear_opened]

/-- `clear()` on an open buffer does not raise. -/
theorem C10_clear_succeeds (m : Int) (b : LineBuf) (h : Reach m b)
    (ho : b.lastLine.closed = false) : (clear b).1 = .ok () := by
  obtain ⟨items, part, rfl, hi, h1, _⟩ := reach_open h ho
  rw [clear_opened]

example : ∃ b b0, Reach 2 b ∧ b.lastLine.closed = false ∧ LineBuf.new 2 = .ok b0 ∧
    b.storage.items.length = 2 :=
  ⟨(run [.write (lit "a\nb\nc")] (opened 2 [] [])).2, _, ⟨_, _, rfl, rfl⟩, rfl, rfl, rfl⟩

/-! ## C11 -/

/-- **C11** `new_line()` on an open buffer: does nothing if the unfinished line is empty, has the
effect of `write("\n")` otherwise. -/
theorem C11_new_line (m : Int) (b : LineBuf) (h : Reach m b) (ho : b.lastLine.closed = false) :
    (newLine b).1 = .ok () ∧
    (newLine b).2 = if b.lastLine.buf = [] then b else (write (lit "\n") b).2 := by
  obtain ⟨items, part, rfl, hi, h1, _⟩ := reach_open h ho
  rw [newLine_opened _ _ _ hi h1, write_opened _ _ _ _ hi h1]
  refine ⟨rfl, ?_⟩
  have e : segFrom part (lit "\n") = ([part], []) := by
    show segFrom part [10] = _
    rw [segFrom_break _ _ _ (by decide) (by simp)]; simp
  simp only [e, opened, List.map_cons, List.map_nil]

/-- **C11** observably: the record list of `read()` does not change, the unfinished line becomes a
completed record (it is kept apart from what is written later). -/
theorem C11_new_line_completes (m : Int) (b : LineBuf) (h : Reach m b)
    (ho : b.lastLine.closed = false) :
    (read none (newLine b).2).1 = (read none b).1 ∧ (newLine b).2.lastLine.buf = [] := by
  obtain ⟨items, part, rfl, hi, h1, _⟩ := reach_open h ho
  rw [newLine_opened _ _ _ hi h1]
  by_cases hp : part = []
  · subst hp
    exact ⟨by simp, by simp [opened]⟩
  · simp only [hp, if_false]
    rw [read_opened _ _ _ _ hi h1, read_opened _ _ _ _ (length_lastN_le _ _) h1]
    refine ⟨?_, rfl⟩
    simp only [shown, if_true, List.append_nil, hp, if_false, lastN_lastN, Nat.min_self]

/-- **C11** A second `new_line()` does nothing. -/
theorem C11_new_line_idempotent (m : Int) (b : LineBuf) (h : Reach m b)
    (ho : b.lastLine.closed = false) :
    newLine (newLine b).2 = (.ok (), (newLine b).2) := by
  have hb := C11_new_line_completes m b h ho
  have h1 := C11_new_line m (newLine b).2 (reach_exec h .newLine) (by
    obtain ⟨items, part, rfl, hi, h1, _⟩ := reach_open h ho
    rw [newLine_opened _ _ _ hi h1]
    dsimp only
    split <;> rfl)
  refine Prod.ext h1.1 ?_
  rw [h1.2, if_pos hb.2]

example : ∃ b, Reach 2 b ∧ b.lastLine.closed = false ∧ b.lastLine.buf = lit "b" :=
  ⟨(run [.write (lit "a\nb")] (opened 2 [] [])).2, ⟨_, _, rfl, rfl⟩, rfl, rfl⟩

/-! ## C15 (in-memory buffer) -/

/-- **C15** Creation succeeds exactly for `maxlen >= 1`, and raises `TypeError` otherwise. -/
theorem C15_creation (m : Int) :
    ((∃ b, LineBuf.new m = .ok b) ↔ 1 ≤ m) ∧ (¬ 1 ≤ m → LineBuf.new m = .error .typeError) := by
  unfold LineBuf.new
  refine ⟨⟨?_, ?_⟩, ?_⟩
  · rintro ⟨b, h⟩
    split at h
    · cases h
    · omega
  · intro h
    rw [if_neg (by omega)]
    exact ⟨_, rfl⟩
  · intro h
    rw [if_pos (by omega)]

/-- **C15** A new buffer reads as empty, and reports its `maxlen` after every history. -/
theorem C15_new_buffer (m : Int) (b0 : LineBuf) (h : LineBuf.new m = .ok b0) (cs : List Call) :
    (read none b0).1 = .ok [] ∧ ((run cs b0).2.maxlen : Int) = m := by
  have hr : Reach m (run cs b0).2 := ⟨b0, cs, h, rfl⟩
  obtain ⟨hm, hb⟩ := new_ok h
  refine ⟨by rw [hb]; rw [read_opened _ _ _ _ (by simp) (by omega)]; simp [shown], ?_⟩
  cases hcl : (run cs b0).2.lastLine.closed with
  | true => rw [reach_closed hr hcl]; simp [maxlen, shut]; omega
  | false =>
    obtain ⟨items, part, he, _⟩ := reach_open hr hcl
    rw [he]; simp [maxlen, opened]; omega

end SyncStream
