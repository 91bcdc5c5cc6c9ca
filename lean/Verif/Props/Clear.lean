import Verif.Lemmas.TwoMoments
import Verif.Props.Threads
/-!
# Properties C13, C14, C57: threads that do not read

With `clear`, `len` and delivered items, but without `read` and `close`, a weaker form of atomicity holds: every
call takes effect in one moment, only `clear` needs two.
-/

namespace SyncStream

open Spec LineBuf Conc

theorem exec_inv_ok {ok : Nat → TCall → Prop} {κ κ' : Conf LineBuf Unit Unit TCall Ret} {tr : List (Ev TCall Ret)}
    (h : Exec (threads ok) κ tr κ') : ∀ i c, .inv i c ∈ tr → ok i c := by
  induction h with
  | nil => exact fun _ _ h => nomatch h
  | snoc κ1 κ2 tr e h1 h2 ih =>
    intro i c hm
    rcases List.mem_append.1 hm with hm | hm
    · exact ih i c hm
    · cases h2 with
      | inv j c' _ hok => simp at hm; obtain ⟨rfl, rfl⟩ := hm; exact hok
      | ret j c' r o _ => simp at hm
      | _ => simp at hm

/-- The status in the atomic object. -/
def atomicStat : ClStat → Stat TCall Ret
  | .idle => .idle
  | .called c => .called c
  | .half => .idle
  | .done r => .done r

/-- Without `clear` every call takes effect in one moment. -/
theorem no_clear {l : Log} {tr : List (Ev TCall Ret)} {a : ClConf} (h : ClExec ⟨l, fun _ => .idle⟩ tr a)
    (hn : ∀ i, .inv i (.call .clear) ∉ tr) :
    AExec TStep ⟨l, fun _ => .idle⟩ tr ⟨a.log, fun i => atomicStat (a.stat i)⟩ ∧
    ∀ i, a.stat i ≠ .half ∧ a.stat i ≠ .called (.call .clear) := by
  generalize ha : (⟨l, fun _ => .idle⟩ : ClConf) = a0 at h
  induction h with
  | nil => subst ha; exact ⟨.nil _, fun _ => ⟨nofun, nofun⟩⟩
  | snoc a1 a2 tr e h1 h2 ih =>
    obtain ⟨ih1, ih2⟩ := ih (fun i hi => hn i (List.mem_append_left _ hi))
    have upd_stat : ∀ i s, (fun j => atomicStat (upd a1.stat i s j)) = upd (fun j => atomicStat (a1.stat j)) i (atomicStat s) := by
      intro i s
      funext j
      by_cases e : j = i
      · subst e; simp
      · simp only [upd_other _ _ e]
    have keep : ∀ i s, s ≠ .half → s ≠ .called (.call .clear) →
        ∀ j, upd a1.stat i s j ≠ .half ∧ upd a1.stat i s j ≠ .called (.call .clear) := by
      intro i s x y j
      by_cases e : j = i
      · subst e; simp [x, y]
      · simp only [upd_other _ _ e]; exact ih2 j
    cases h2 with
    | inv i c hi =>
      refine ⟨.snoc _ _ _ _ _ ih1 ?_, keep i _ nofun fun e => ?_⟩
      · rw [upd_stat]
        exact .inv ⟨a1.log, _⟩ i c (by show atomicStat _ = _; rw [hi]; rfl)
      · cases e; exact hn i (by simp)
    | ret i r hi =>
      refine ⟨.snoc _ _ _ _ _ ih1 ?_, keep i _ nofun nofun⟩
      rw [upd_stat]
      exact .ret ⟨a1.log, _⟩ i r (by show atomicStat _ = _; rw [hi]; rfl)
    | effect i l' s he =>
      generalize hs : a1.stat i = s0 at he
      cases he with
      | whole _ c r hc ht =>
        refine ⟨.snoc _ _ _ _ none ih1 ?_, keep i _ nofun nofun⟩
        rw [upd_stat]
        exact .effect ⟨a1.log, _⟩ i c r l' (by show atomicStat _ = _; rw [hs]; rfl) ht
      | first => exact absurd hs (ih2 i).2
      | second => exact absurd hs (ih2 i).1

/-- The hypotheses of C12: a new buffer after the calls `cs` is open and represents the log `l`. -/
theorem start_rep {maxlen : Int} {b0 : LineBuf} (hn : LineBuf.new maxlen = .ok b0) {cs : List Call}
    {l : Log} (hl : Log.Steps { cap := maxlen.toNat } cs (run cs b0).1 l) : (run cs b0).2 = rep l ∧ Ok l := by
  obtain ⟨hm, rfl⟩ := new_ok hn
  have h0 : opened maxlen.toNat [] [] = rep ({ cap := maxlen.toNat } : Log) := by simp [rep]
  have ok0 : Ok ({ cap := maxlen.toNat } : Log) := ⟨by show 1 ≤ maxlen.toNat; omega, noBreak_nil, by simp⟩
  obtain ⟨l', h1, h2, h3, _⟩ := run_refines cs _ ok0
  rw [← h0] at h1 h2
  obtain ⟨-, rfl⟩ := C01_log_deterministic hl h1
  exact ⟨h2, h3⟩

/-! ## C13 -/

/-- **C13**, what remains of it: any number of threads, each making whatever calls of `write`, `new_line`, `clear`,
`flush`, `len`, `maxlen`, `readable`, `writable`, `closed` it likes, and delivering items, on one open buffer (new, or
after any calls `cs`), the primitive steps interleaved in any way.  The results are those of the log on which every
call takes effect in one moment, except that `clear` drops the unfinished line in one moment and the
completed items in a later one; and whenever no call is running, the contents are those of the log.
(Missing: that the two moments are one, which is false, see `C13_violated`; reads at the same time, see
`C59_violated`.) -/
theorem C13_two_moments_partial (maxlen : Int) (b0 : LineBuf) (hn : LineBuf.new maxlen = .ok b0) (cs : List Call)
    (l : Log) (hl : Log.Steps { cap := maxlen.toNat } cs (run cs b0).1 l) (ho : l.closed = false)
    (tr : List (Ev TCall Ret)) (κ : Conf LineBuf Unit Unit TCall Ret)
    (hx : Exec (threads fun _ c => Writing c) (init (run cs b0).2 fun _ => ()) tr κ) :
    ∃ a, ClExec ⟨l, fun _ => .idle⟩ tr a ∧ a.log.closed = false ∧
      ((∀ i, κ.cur i = none) → κ.st.storage.items = lastN a.log.cap a.log.done ∧ κ.st.lastLine.buf = a.log.part ∧
        (exec (.read none) κ.st).1 = .items a.log.view) := by
  obtain ⟨e, h0⟩ := start_rep hn hl
  rw [e] at hx
  obtain ⟨a, own, h1, h2⟩ := Two.exec_inv (fun _ _ h => h) h0 ho hx
  refine ⟨a, h1, h2.fits.opn, fun hq => ?_⟩
  have hs := Two.inv_quiet h2 hq
  rw [hs]
  obtain ⟨m', s1, _⟩ := exec_refines (.read none) a.log h2.fits.ok
  refine ⟨by rw [rep_open h2.fits.opn]; rfl, by rw [rep_open h2.fits.opn]; rfl, ?_⟩
  exact (step_unique s1 (.readAll _ h2.fits.opn)).1

/-- Not vacuous: the race of `C13_violated`, without its last call.  The log drops the (empty) unfinished line, then
"a\nb" is written, then the completed line "a" is dropped. -/
example : ((moves (threads fun _ c => Writing c) 2
      ([.start 0 (.call .clear), .start 1 (.call (.write (lit "a\nb")))] ++ List.replicate 4 (.go 0) ++
        List.replicate 11 (.go 1) ++ List.replicate 2 (.go 0)) (init (opened 9 [] []) fun _ => ())).map
      fun p => (p.1, p.2.st.storage.items, p.2.st.lastLine.buf)) =
    some ([.inv 0 (.call .clear), .inv 1 (.call (.write (lit "a\nb"))), .ret 1 (.nat 1), .ret 0 .unit], [], lit "b") := rfl

/-! ## C14, C57 -/

/-- The calls that neither read nor clear nor close. -/
def Adding (c : TCall) : Prop := Writing c ∧ c ≠ .call .clear

/-- **C14**, what remains of it: while no thread reads, clears or closes, delivering an item is atomic: the results are
those of the log on which every call, also the delivery, takes effect in one moment, and whenever no call is running,
the contents are those of the log, which has all the items delivered (of them and the lines, the newest `maxlen` are
shown).
(Missing: deliveries during a `read`, for which the claim is false, see `C14_violated`.) -/
theorem C14_no_reads_partial (maxlen : Int) (b0 : LineBuf) (hn : LineBuf.new maxlen = .ok b0) (cs : List Call)
    (l : Log) (hl : Log.Steps { cap := maxlen.toNat } cs (run cs b0).1 l) (ho : l.closed = false)
    (tr : List (Ev TCall Ret)) (κ : Conf LineBuf Unit Unit TCall Ret)
    (hx : Exec (threads fun _ c => Adding c) (init (run cs b0).2 fun _ => ()) tr κ) :
    ∃ m stat, AExec TStep ⟨l, fun _ => .idle⟩ tr ⟨m, stat⟩ ∧ m.closed = false ∧
      ((∀ i, κ.cur i = none) → κ.st.storage.items = lastN m.cap m.done ∧ κ.st.lastLine.buf = m.part ∧
        (exec (.read none) κ.st).1 = .items m.view) := by
  obtain ⟨e, h0⟩ := start_rep hn hl
  rw [e] at hx
  obtain ⟨a, own, h1, h2⟩ := Two.exec_inv (fun _ _ h => h.1) h0 ho hx
  obtain ⟨h3, _⟩ := no_clear h1 fun i hi => (exec_inv_ok hx i _ hi).2 rfl
  refine ⟨_, _, h3, h2.fits.opn, fun hq => ?_⟩
  have hs := Two.inv_quiet h2 hq
  rw [hs]
  obtain ⟨m', s1, _⟩ := exec_refines (.read none) a.log h2.fits.ok
  refine ⟨by rw [rep_open h2.fits.opn]; rfl, by rw [rep_open h2.fits.opn]; rfl, ?_⟩
  exact (step_unique s1 (.readAll _ h2.fits.opn)).1

/-- An error is delivered in the middle of a `write` that ends a line. -/
example : ((moves (threads fun _ c => Adding c) 2
      ([.start 0 (.call (.write (lit "b\nc"))), .start 1 (.deliver (.msg (GMsg.new (.exc boom))))] ++
        List.replicate 6 (.go 0) ++ List.replicate 2 (.go 1) ++ List.replicate 5 (.go 0))
      (init (opened 9 [] (lit "a")) fun _ => ())).map fun p => (p.1, p.2.st.storage.items, p.2.st.lastLine.buf)) =
    some ([.inv 0 (.call (.write (lit "b\nc"))), .inv 1 (.deliver (.msg (GMsg.new (.exc boom)))), .ret 1 .unit,
      .ret 0 (.nat 1)], [.str (lit "ab"), .msg (GMsg.new (.exc boom))], lit "c") := rfl

/-- **C57**, what remains of it: while no thread reads, clears or closes, `len()` is linearizable together with all
other calls.
(Missing: `len()` during a `read(size)`, for which the claim is false, see `C57_violated`.) -/
theorem C57_no_reads_partial : Linearizable fun c => Adding c := fun maxlen b0 hn cs l hl ho tr κ hx => by
  obtain ⟨m, stat, h, _⟩ := C14_no_reads_partial maxlen b0 hn cs l hl ho tr κ hx
  exact ⟨_, h⟩

/-- `len()` between the two sections of a `write`. -/
example : ((moves (threads fun _ c => Adding c) 2
      ([.start 0 (.call (.write (lit "b\nc"))), .start 1 (.call .len)] ++
        List.replicate 4 (.go 0) ++ List.replicate 2 (.go 1) ++ List.replicate 7 (.go 0) ++ List.replicate 4 (.go 1))
      (init (opened 9 [] (lit "a")) fun _ => ())).map fun p => p.1) =
    some [.inv 0 (.call (.write (lit "b\nc"))), .inv 1 (.call .len), .ret 0 (.nat 1), .ret 1 (.nat 1)] := rfl

end SyncStream
