import Verif.Lemmas.ProcBuf
import Verif.Spec.HostLog
/-!
# Closed forms of the service's view functions
-/

namespace SyncStream
open Spec LineBuf

/-! ## The inherited buffer -/

/-- The log after a text has been written. -/
def feed (l : Log) (d : PyStr) : Log :=
  { l with done := l.done ++ (segFrom l.part d).1.map .str, part := (segFrom l.part d).2 }

theorem write_rep (d : PyStr) (l : Log) (ok : Ok l) (ho : l.closed = false) :
    LineBuf.write d (rep l) = (.ok (writeRet d), rep (feed l d)) := by
  rw [rep_open ho, rep_open (show (feed l d).closed = false from ho),
    write_opened _ _ _ _ (length_lastN_le _ _) ok.cap, lastN_lastN_append]
  rfl

theorem newLine_rep (l : Log) (ok : Ok l) (ho : l.closed = false) :
    LineBuf.newLine (rep l) = (.ok (), rep l.finish) := by
  rw [rep_open ho, rep_open (show l.finish.closed = false from ho),
    newLine_opened _ _ _ (length_lastN_le _ _) ok.cap]
  by_cases hp : l.part = []
  · simp [Log.finish, Log.all, hp]
  · simp [Log.finish, Log.all, hp, lastN_lastN_append]

theorem clear_rep (l : Log) (ho : l.closed = false) :
    LineBuf.clear (rep l) = (.ok (), rep { l with done := [], part := [] }) := by
  rw [rep_open ho, clear_opened]
  simp [rep, ho]

theorem read_rep (size : Option Int) (l : Log) (ok : Ok l) (ho : l.closed = false) :
    LineBuf.read size (rep l) =
      (.ok (match size with
        | none => l.view
        | some n => if 0 < n then lastN n.toNat l.view else []), rep l) := by
  rw [rep_open ho, read_opened _ _ _ _ (length_lastN_le _ _) ok.cap, shown_eq]
  rfl

theorem len_rep (l : Log) (ok : Ok l) :
    LineBuf.len (rep l) = (.ok (min l.cap ((lastN l.cap l.done).length + 1)), rep l) := by
  have h0 : l.cap ≠ 0 := by have := ok.cap; omega
  cases hc : l.closed with
  | true =>
    have := (ok.closed hc).1
    simp [rep_closed hc, len, maxlen, shut, StringIO.truth, h0, this]
  | false => simp [rep_open hc, len, maxlen, opened, StringIO.truth, h0]

theorem feed_ok {l : Log} (d : PyStr) (ok : Ok l) (ho : l.closed = false) : Ok (feed l d) :=
  ⟨ok.cap, segFrom_cur_noBreak _ _ ok.part, fun h => by rw [show (feed l d).closed = l.closed from rfl, ho] at h; cases h⟩

theorem finish_ok {l : Log} (ok : Ok l) (ho : l.closed = false) : Ok l.finish :=
  ⟨ok.cap, noBreak_nil, fun h => by rw [show l.finish.closed = l.closed from rfl, ho] at h; cases h⟩

theorem feed_lines {l : Log} (d : PyStr) (ok : Ok l) :
    HArrives l (.text d) (feed l d) := .text l d _ _ (lines_segFrom _ _ ok.part)

theorem finish_view (l : Log) : l.finish.view = l.view := by
  simp [Log.finish, Log.view, Log.all]

theorem finish_all (l : Log) : l.finish.all = l.all := by simp [Log.finish, Log.all]

namespace HostBuf

/-- The host buffer with log `l`. -/
def hb (l : Log) (st : PyDict) : HostBuf := { base := rep l, state := st }

theorem onBase_hb {α : Type} (m : Py LineBuf α) (l l' : Log) (st : PyDict) (r : Except Exc α)
    (h : m (rep l) = (r, rep l')) : onBase m (hb l st) = (r, hb l' st) := by
  simp [onBase, hb, h]

theorem store_hb (i : Item) (l : Log) (ho : l.closed = false) (st : PyDict) :
    store i (hb l st) = (.ok (), hb { l with done := l.done ++ [i] } st) := by
  have h := Deque.append_eq (α := Item) { maxlen := l.cap, items := lastN l.cap l.done } i
    (length_lastN_le _ _)
  have hr : rep { l with done := l.done ++ [i] } =
      opened l.cap (lastN l.cap (l.done ++ [i])) l.part := rep_open (by exact ho)
  simp only [store, onBase, onStorage, Py.onPart_apply, Py.modify_apply, hb, rep_open ho, opened,
    hr, h, lastN_lastN_append]

/-- What a POST request asks for. -/
inductive Kind where
  | text (d : PyStr)
  | item (j : Json)
  | eol
  | nothing
  | bad

/-- What a POST request asks for. -/
def kind (env : HEnv) (args : Json) : Kind :=
  let dtype := strip ((args.get (lit "type") (.str [])).strOf env.ext)
  let data := args.get (lit "data") .null
  if dtype = lit "str" then
    if data.isMapping then
      match data.get (lit "value") .null with
      | .null => .nothing
      | v => .text (v.strOf env.ext)
    else .nothing
  else if dtype = lit "error" ∨ dtype = lit "warning" then
    if data.isMapping then .item data else .nothing
  else if dtype = lit "close" then .eol
  else .bad

/-- The effect of a POST request by its kind. -/
def postKind : Kind → Py HostBuf Unit
  | .text d => do
    let _ ← onBase (LineBuf.write d)
    return ()
  | .item j => do
    onBase LineBuf.newLine
    let item ← lift (GMsg.deserialize j)
    store item
  | .eol => onBase LineBuf.newLine
  | .nothing => return ()
  | .bad => Py.raise .typeError

theorem post_kind (env : HEnv) (args : Json) : post env args = postKind (kind env args) := by
  unfold post kind
  extract_lets dtype data
  by_cases h1 : dtype = lit "str"
  · simp only [h1, if_true]
    cases data.isMapping with
    | true =>
      simp only [if_true]
      cases data.get (lit "value") .null <;> rfl
    | false => rfl
  · simp only [h1, if_false]
    by_cases h2 : dtype = lit "error" ∨ dtype = lit "warning"
    · simp only [h2, if_true]
      cases data.isMapping <;> rfl
    · simp only [h2, if_false]
      by_cases h3 : dtype = lit "close"
      · simp only [h3, if_true]; rfl
      · simp only [h3, if_false]; rfl

/-- The log after a POST request by its kind. -/
def kindLog (l : Log) : Kind → Except Exc Unit × Log
  | .text d => (.ok (), feed l d)
  | .item j => match GMsg.deserialize j with
    | .ok i => (.ok (), { l with done := l.all ++ [i], part := [] })
    | .error e => (.error e, l.finish)
  | .eol => (.ok (), l.finish)
  | .nothing => (.ok (), l)
  | .bad => (.error .typeError, l)

theorem postKind_hb (k : Kind) (l : Log) (ok : Ok l) (ho : l.closed = false) (st : PyDict) :
    postKind k (hb l st) = ((kindLog l k).1, hb (kindLog l k).2 st) := by
  have hn := onBase_hb LineBuf.newLine l l.finish st _ (newLine_rep l ok ho)
  cases k with
  | text d =>
    have hw := onBase_hb (LineBuf.write d) l (feed l d) st _ (write_rep d l ok ho)
    simp only [postKind, Py.bind_ok hw, kindLog]; rfl
  | item j =>
    simp only [postKind, Py.bind_ok hn, kindLog]
    cases hd : GMsg.deserialize j with
    | error e => rfl
    | ok i =>
      rw [Py.bind_ok (show lift (.ok i) (hb l.finish st) = (.ok i, hb l.finish st) from rfl)]
      exact store_hb i l.finish ho st
  | eol => exact hn
  | nothing => rfl
  | bad => rfl

theorem kindLog_ok (k : Kind) (l : Log) (ok : Ok l) (ho : l.closed = false) :
    Ok (kindLog l k).2 ∧ (kindLog l k).2.closed = false ∧ (kindLog l k).2.cap = l.cap := by
  have hf : Ok l.finish ∧ l.finish.closed = false ∧ l.finish.cap = l.cap := ⟨finish_ok ok ho, ho, rfl⟩
  cases k with
  | text d => exact ⟨feed_ok d ok ho, ho, rfl⟩
  | item j =>
    simp only [kindLog]
    cases GMsg.deserialize j with
    | ok i => exact ⟨⟨ok.cap, noBreak_nil, fun h => by rw [show Log.closed _ = l.closed from rfl, ho] at h; cases h⟩, ho, rfl⟩
    | error e => exact hf
  | eol => exact hf
  | nothing => exact ⟨ok, ho, rfl⟩
  | bad => exact ⟨ok, ho, rfl⟩

/-- A POST request to a closed buffer changes nothing. -/
theorem postKind_shut (k : Kind) (cap : Nat) (st : PyDict) :
    (postKind k { base := shut cap, state := st }).2 = { base := shut cap, state := st } := by
  cases k with
  | text d =>
    have : onBase (LineBuf.write d) { base := shut cap, state := st } =
        (.error .osError, { base := shut cap, state := st }) := by simp [onBase, write_shut]
    simp only [postKind, Py.bind_error this]
  | item j =>
    have : onBase LineBuf.newLine { base := shut cap, state := st } =
        (.error .valueError, { base := shut cap, state := st }) := by simp [onBase, newLine_shut]
    simp only [postKind, Py.bind_error this]
  | eol =>
    have : onBase LineBuf.newLine { base := shut cap, state := st } =
        (.error .valueError, { base := shut cap, state := st }) := by simp [onBase, newLine_shut]
    simp only [postKind, this]
  | nothing => rfl
  | bad => rfl

/-! ## The requests -/

/-- GET requests. -/
def _root_.SyncStream.Req.isGet : Req → Bool
  | .get _ => true
  | .stateGet _ => true
  | _ => false

theorem read_rep_state (size : Option Int) (l : Log) (ok : Ok l) :
    (LineBuf.read size (rep l)).2 = rep l := by
  cases hc : l.closed with
  | true => rw [rep_closed hc, read_shut]
  | false => rw [read_rep size l ok hc]

theorem readSerialized_state (size : Option Int) (l : Log) (ok : Ok l) (st : PyDict) :
    (readSerialized size (hb l st)).2 = hb l st := by
  unfold readSerialized
  have : onBase (LineBuf.read size) (hb l st) = ((LineBuf.read size (rep l)).1, hb l st) := by
    simp [onBase, hb, read_rep_state size l ok]
  rw [Py.bind_apply, this]
  cases (LineBuf.read size (rep l)).1 <;> rfl

theorem handle_get_state (env : HEnv) (r : Req) (hg : r.isGet = true) (l : Log) (ok : Ok l)
    (st : PyDict) : (handle env r (hb l st)).2 = hb l st := by
  cases r with
  | get n =>
    cases n with
    | none => exact readSerialized_state none l ok st
    | some s =>
      simp only [handle, get]
      cases env.int s with
      | none => rfl
      | some k => exact readSerialized_state (some k) l ok st
  | stateGet s =>
    simp only [handle, stateGet]
    split
    · rfl
    split
    · have := onBase_hb LineBuf.len l l st _ (len_rep l ok)
      rw [Py.bind_ok this]; rfl
    · rfl
  | _ => cases hg

/-- Whatever happens, the buffer is in the state of some log with the same capacity. -/
theorem handle_hb (env : HEnv) (r : Req) (l : Log) (ok : Ok l) (st : PyDict) :
    ∃ l' st', (handle env r (hb l st)).2 = hb l' st' ∧ Ok l' ∧ l'.cap = l.cap ∧
      l'.closed = l.closed := by
  by_cases hg : r.isGet = true
  · exact ⟨l, st, handle_get_state env r hg l ok st, ok, rfl, rfl⟩
  cases r with
  | get n => exact absurd rfl hg
  | stateGet s => exact absurd rfl hg
  | post b =>
    simp only [handle, answerPost]
    cases jsonArgs b with
    | error e => exact ⟨l, st, rfl, ok, rfl, rfl⟩
    | ok a =>
      cases a with
      | none => exact ⟨l, st, rfl, ok, rfl, rfl⟩
      | some args =>
        dsimp only
        rw [post_kind]
        cases hc : l.closed with
        | true =>
          refine ⟨l, st, ?_, ok, rfl, hc⟩
          rw [hb, rep_closed hc]; exact postKind_shut _ _ _
        | false =>
          obtain ⟨h1, h2, h3⟩ := kindLog_ok (kind env args) l ok hc
          exact ⟨_, st, by rw [postKind_hb _ l ok hc st], h1, h3, h2⟩
  | delete =>
    simp only [handle]
    cases hc : l.closed with
    | true =>
      refine ⟨l, st, ?_, ok, rfl, hc⟩
      simp [hb, rep_closed hc, onBase, clear_shut]
    | false =>
      refine ⟨{ l with done := [], part := [] }, st, ?_,
        ⟨ok.cap, noBreak_nil, fun _ => ⟨rfl, rfl⟩⟩, rfl, hc⟩
      rw [onBase_hb LineBuf.clear l _ st _ (clear_rep l hc)]
  | statePost b =>
    simp only [handle, answerPost]
    cases jsonArgs b with
    | error e => exact ⟨l, st, rfl, ok, rfl, rfl⟩
    | ok a =>
      cases a with
      | none => exact ⟨l, st, rfl, ok, rfl, rfl⟩
      | some args =>
        dsimp only
        simp only [statePost]
        split
        · exact ⟨l, st, rfl, ok, rfl, rfl⟩
        split
        · exact ⟨l, _, rfl, ok, rfl, rfl⟩
        · exact ⟨l, st, rfl, ok, rfl, rfl⟩
  | stateDelete => exact ⟨l, _, rfl, ok, rfl, rfl⟩

theorem step_hb (env : HEnv) (o : HOp) (l : Log) (ok : Ok l) (st : PyDict) :
    ∃ l' st', step env o (hb l st) = hb l' st' ∧ Ok l' ∧ l'.cap = l.cap := by
  cases o with
  | req r =>
    obtain ⟨l', st', h1, h2, h3, _⟩ := handle_hb env r l ok st
    exact ⟨l', st', h1, h2, h3⟩
  | buffer c =>
    by_cases hw : ∃ d, c = .write d
    · obtain ⟨d, rfl⟩ := hw; exact ⟨l, st, rfl, ok, rfl⟩
    · obtain ⟨l', _, h2, h3, h4⟩ := exec_refines c l ok
      refine ⟨l', st, ?_, h3, h4⟩
      cases c with
      | write d => exact absurd ⟨d, rfl⟩ hw
      | _ => simp only [step, hb]; rw [h2]
  | stopAll => exact ⟨l, _, rfl, ok, rfl⟩
  | reset => exact ⟨l, _, rfl, ok, rfl⟩

theorem run_hb (env : HEnv) (os : List HOp) (l : Log) (ok : Ok l) (st : PyDict) :
    ∃ l' st', run env os (hb l st) = hb l' st' ∧ Ok l' ∧ l'.cap = l.cap := by
  induction os generalizing l st with
  | nil => exact ⟨l, st, rfl, ok, rfl⟩
  | cons o os ih =>
    obtain ⟨l1, st1, h1, h2, h3⟩ := step_hb env o l ok st
    obtain ⟨l2, st2, g1, g2, g3⟩ := ih l1 h2 st1
    refine ⟨l2, st2, ?_, g2, g3.trans h3⟩
    rw [← g1, ← h1]; rfl

theorem new_hb {m : Int} {h : HostBuf} (hn : new m = .ok h) :
    1 ≤ m ∧ h = hb { cap := m.toNat } [(lit "closed", .bool false), (lit "maxlen", .int m)] ∧
      Ok ({ cap := m.toNat } : Log) := by
  unfold new LineBuf.new at hn
  split at hn
  · cases hn
  · rename_i hm
    cases hn
    exact ⟨by omega, by simp [hb, rep, opened], ⟨by show 1 ≤ m.toNat; omega, noBreak_nil, by simp⟩⟩

end HostBuf
end SyncStream
