import Verif.Lemmas.HostService
import Verif.Props.LineBuffer
import Verif.Props.Proc
/-!
# Properties of the host service: C40, C43, C45, and C06, C07, C26, C27 for `LineHostBuffer`
-/

namespace SyncStream
open Spec LineBuf HostBuf

/-- `h` is a state that some history of requests and local calls leads to, starting from
`LineHostBuffer(maxlen=m)`. -/
def HReach (env : HEnv) (m : Int) (h : HostBuf) : Prop :=
  ∃ h0 os, HostBuf.new m = .ok h0 ∧ HostBuf.run env os h0 = h

theorem hreach_hb {env : HEnv} {m : Int} {h : HostBuf} (hr : HReach env m h) :
    ∃ l st, h = hb l st ∧ Ok l ∧ l.cap = m.toNat ∧ 1 ≤ m := by
  obtain ⟨h0, os, hn, rfl⟩ := hr
  obtain ⟨hm, rfl, ok⟩ := new_hb hn
  obtain ⟨l, st, h1, h2, h3⟩ := run_hb env os _ ok _
  exact ⟨l, st, h1, h2, h3, hm⟩

theorem HostBuf.run_append (env : HEnv) (a b : List HOp) (h : HostBuf) :
    HostBuf.run env (a ++ b) h = HostBuf.run env b (HostBuf.run env a h) := by
  simp [HostBuf.run, List.foldl_append]

theorem hreach_run {env : HEnv} {m : Int} {h : HostBuf} (hr : HReach env m h) (os : List HOp) :
    HReach env m (HostBuf.run env os h) := by
  obtain ⟨h0, os0, hn, rfl⟩ := hr
  exact ⟨h0, os0 ++ os, hn, HostBuf.run_append env os0 os h0⟩

theorem hreach_handle {env : HEnv} {m : Int} {h : HostBuf} (hr : HReach env m h) (r : Req) :
    HReach env m (handle env r h).2 := hreach_run hr [.req r]

/-! ## C40 -/

/-- **C40** After any requests and local calls at most `maxlen` items are stored. -/
theorem C40_bounded (env : HEnv) (m : Int) (h : HostBuf) (hr : HReach env m h) :
    h.base.storage.items.length ≤ m.toNat := by
  obtain ⟨l, st, rfl, ok, hc, hm⟩ := hreach_hb hr
  cases hcl : l.closed with
  | true => simp [hb, rep_closed hcl, shut]
  | false =>
    simp only [hb, rep_open hcl, opened, ← hc]
    exact length_lastN_le _ _

/-- **C40** A GET request changes nothing. -/
theorem C40_get_pure (env : HEnv) (m : Int) (h : HostBuf) (hr : HReach env m h) (r : Req)
    (hg : r.isGet = true) : (handle env r h).2 = h := by
  obtain ⟨l, st, rfl, ok, _, _⟩ := hreach_hb hr
  exact handle_get_state env r hg l ok st

theorem answerPost_status {b : Body} {f : Json → Py HostBuf Unit} {h : HostBuf}
    (hs : 400 ≤ (answerPost b f h).1.status) :
    (answerPost b f h).2 = h ∨ ∃ args e, (f args h).1 = .error e ∧ (answerPost b f h).2 = (f args h).2 := by
  unfold answerPost at hs ⊢
  cases hj : jsonArgs b with
  | error e => exact .inl rfl
  | ok a =>
    rw [hj] at hs
    cases a with
    | none => exact .inl rfl
    | some args =>
      right
      dsimp only at hs ⊢
      cases hx : (f args h).1 with
      | ok u => rw [hx] at hs; simp [answer] at hs
      | error e => exact ⟨args, e, hx, rfl⟩

/-- **C40** A request answered with an error status changes nothing, except that it may complete the
unfinished line; the states do not change. -/
theorem C40_error_changes_nothing (env : HEnv) (m : Int) (h : HostBuf) (hr : HReach env m h)
    (r : Req) (hs : 400 ≤ (handle env r h).1.status) :
    (handle env r h).2 = h ∨
    (handle env r h).2 = { h with base := (LineBuf.newLine h.base).2 } := by
  by_cases hg : r.isGet = true
  · exact .inl (C40_get_pure env m h hr r hg)
  obtain ⟨l, st, rfl, ok, _, _⟩ := hreach_hb hr
  cases r with
  | get n => exact absurd rfl hg
  | stateGet s => exact absurd rfl hg
  | post b =>
    rcases answerPost_status (f := HostBuf.post env) hs with h1 | ⟨args, e, h1, h2⟩
    · exact .inl h1
    · simp only [handle]
      rw [h2]
      rw [post_kind] at h1 ⊢
      cases hc : l.closed with
      | true =>
        left
        rw [hb, rep_closed hc]; exact postKind_shut _ _ _
      | false =>
        rw [postKind_hb _ l ok hc st] at h1 ⊢
        have hn : { hb l st with base := (LineBuf.newLine (hb l st).base).2 } = hb l.finish st := by
          show HostBuf.mk (LineBuf.newLine (rep l)).2 st = _
          rw [newLine_rep l ok hc]; rfl
        rw [hn]
        cases hk : kind env args with
        | text d => rw [hk] at h1; cases h1
        | item j =>
          rw [hk] at h1
          simp only [kindLog] at h1 ⊢
          cases hd : GMsg.deserialize j with
          | ok i => rw [hd] at h1; cases h1
          | error e => exact .inr rfl
        | eol => rw [hk] at h1; cases h1
        | nothing => exact .inl rfl
        | bad => exact .inl rfl
  | delete =>
    left
    cases hc : l.closed with
    | true => simp [handle, hb, rep_closed hc, onBase, clear_shut]
    | false =>
      simp [handle, onBase_hb LineBuf.clear l _ st _ (clear_rep l hc), answer] at hs
  | statePost b =>
    rcases answerPost_status (f := HostBuf.statePost env) hs with h1 | ⟨args, e, h1, h2⟩
    · exact .inl h1
    · left
      simp only [handle]
      rw [h2]
      simp only [HostBuf.statePost] at h1 ⊢
      split
      · rfl
      · rename_i h3
        rw [if_neg h3] at h1
        split at h1
        · cases h1
        · cases h1
  | stateDelete => simp [handle, resetStates, Py.bind_apply, answer] at hs

/-- **C40** in terms of observations: a request answered with an error status does not change what
`read()` shows: no record is added, removed or altered. -/
theorem C40_error_records (env : HEnv) (m : Int) (h : HostBuf) (hr : HReach env m h)
    (r : Req) (hs : 400 ≤ (handle env r h).1.status) (size : Option Int) :
    (LineBuf.read size (handle env r h).2.base).1 = (LineBuf.read size h.base).1 ∧
    (handle env r h).2.state = h.state := by
  rcases C40_error_changes_nothing env m h hr r hs with h1 | h1
  · rw [h1]; exact ⟨rfl, rfl⟩
  · rw [h1]
    refine ⟨?_, rfl⟩
    obtain ⟨l, st, rfl, ok, _, _⟩ := hreach_hb hr
    show (LineBuf.read size (LineBuf.newLine (rep l)).2).1 = (LineBuf.read size (rep l)).1
    cases hc : l.closed with
    | true => rw [rep_closed hc, newLine_shut]
    | false =>
      rw [newLine_rep l ok hc, read_rep _ _ (finish_ok ok hc) hc, read_rep _ _ ok hc, finish_view]

/-- A text, an error post whose data is marked as a message but has no `type` (answered with 500,
completes the line), a post of unknown type (500), and one more text. -/
example : ∃ (env : HEnv) (h : HostBuf), HReach env 2 h ∧
    (handle env (.post (.json (.obj [(lit "type", .str (lit "error")),
      (lit "data", .obj [(lit "/is_syncsdata", .bool true),
        (lit "/type", .str (lit "GroupedMessage"))])]))) h).1.status = 500 ∧
    (handle env (.post (.json (.obj [(lit "type", .str (lit "who"))]))) h).1.status = 500 ∧
    (handle env (.post .malformed) h).1.status = 400 ∧
    h.base.lastLine.buf = lit "b" :=
  ⟨⟨fun _ => [], fun _ => none⟩,
   HostBuf.run ⟨fun _ => [], fun _ => none⟩
    [.req (.post (.json (.obj [(lit "type", .str (lit "str")),
      (lit "data", .obj [(lit "value", .str (lit "a\nb"))])])))]
    (hb { cap := 2 } [(lit "closed", .bool false), (lit "maxlen", .int 2)]),
   ⟨_, _, rfl, by simp [hb, rep, opened]; rfl⟩, rfl, rfl, rfl, rfl⟩

/-! ## The messages of the mirrors -/

/-- The POST request of a message. -/
def HMsg.body : HMsg → Json
  | .text d => HMirror.strMsg d
  | .error m => HMirror.objMsg (lit "error") m
  | .warning m => HMirror.objMsg (lit "warning") m
  | .close => HMirror.closeMsg

/-- The kind of a message. -/
def HMsg.kind : HMsg → Kind
  | .text d => .text d
  | .error m => .item m.serialize
  | .warning m => .item m.serialize
  | .close => .eol

theorem kind_body (env : HEnv) (m : HMsg) : HostBuf.kind env (HMsg.body m) = HMsg.kind m := by
  cases m <;> rfl

theorem arrives_kind (m : HMsg) (l : Log) (ok : Ok l) :
    (kindLog l (HMsg.kind m)).1 = .ok () ∧ HArrives l m (kindLog l (HMsg.kind m)).2 := by
  cases m with
  | text d => exact ⟨rfl, feed_lines d ok⟩
  | error m => exact ⟨rfl, .error l m⟩
  | warning m => exact ⟨rfl, .warning l m⟩
  | close => exact ⟨rfl, .close l⟩

theorem isMapping_body (m : HMsg) : (HMsg.body m).isMapping = true := by cases m <;> rfl

/-- Processing a message. -/
theorem handle_msg (env : HEnv) (m : HMsg) (l : Log) (ok : Ok l) (ho : l.closed = false) (st : PyDict) :
    handle env (.post (.json (HMsg.body m))) (hb l st) =
      ({ status := 201, body := some success }, hb (kindLog l (HMsg.kind m)).2 st) := by
  simp only [handle, answerPost, jsonArgs, isMapping_body, if_true]
  rw [post_kind, kind_body, postKind_hb _ l ok ho st, (arrives_kind m l ok).1]
  rfl

/-- **C27** (host mode) The messages of the mirrors, processed one after the other by an open service, are
all answered with 201 and change its log as specified (`HReplays`). -/
theorem C27_host_replays (env : HEnv) (m : Int) (h0 : HostBuf) (hn : HostBuf.new m = .ok h0)
    (ms : List HMsg) :
    (∀ (pre : List HMsg) (x : HMsg) (post : List HMsg), ms = pre ++ x :: post →
      (handle env (.post (.json (HMsg.body x)))
        (HostBuf.run env (pre.map fun x => .req (.post (.json (HMsg.body x)))) h0)).1.status = 201) ∧
    ∃ l, HReplays { cap := m.toNat } ms l ∧
      (LineBuf.read none
        (HostBuf.run env (ms.map fun x => .req (.post (.json (HMsg.body x)))) h0).base).1 = .ok l.view := by
  obtain ⟨hm, rfl, ok⟩ := new_hb hn
  generalize [(lit "closed", Json.bool false), (lit "maxlen", Json.int m)] = st
  have key : ∀ (ms : List HMsg) (l : Log), Ok l → l.closed = false → ∃ l', HReplays l ms l' ∧
      Ok l' ∧ l'.closed = false ∧
      HostBuf.run env (ms.map fun x => .req (.post (.json (HMsg.body x)))) (hb l st) = hb l' st := by
    intro ms
    induction ms with
    | nil => intro l ok ho; exact ⟨l, .nil l, ok, ho, rfl⟩
    | cons x ms ih =>
      intro l ok ho
      obtain ⟨k1, k2, _⟩ := kindLog_ok (HMsg.kind x) l ok ho
      obtain ⟨l', h1, h2, h3, h4⟩ := ih _ k1 k2
      refine ⟨l', .cons _ _ _ _ _ (arrives_kind x l ok).2 h1, h2, h3, ?_⟩
      rw [← h4]
      show HostBuf.run env _ (handle env _ (hb l st)).2 = _
      rw [handle_msg env x l ok ho st]
  constructor
  · intro pre x post _
    obtain ⟨l', _, h2, h3, h4⟩ := key pre _ ok rfl
    rw [h4, handle_msg env x l' h2 h3 st]
  · obtain ⟨l', h1, h2, h3, h4⟩ := key ms _ ok rfl
    refine ⟨l', h1, ?_⟩
    rw [h4]
    show (LineBuf.read none (rep l')).1 = _
    rw [read_rep _ _ h2 h3]

theorem hreplays_append {l l' : Log} {a b : List HMsg} (h : HReplays l (a ++ b) l') :
    ∃ l1, HReplays l a l1 ∧ HReplays l1 b l' := by
  induction a generalizing l with
  | nil => exact ⟨l, .nil l, h⟩
  | cons x a ih =>
    cases h with
    | cons _ l1 _ _ _ h1 h2 =>
      obtain ⟨l2, g1, g2⟩ := ih h2
      exact ⟨l2, .cons _ _ _ _ _ h1 g1, g2⟩

theorem hreplays_base {l l' : Log} {ms : List HMsg} (h : HReplays l ms l') (hp : l.part = []) :
    ∀ l0 : Log, l0.part = [] → ∃ l0' more, HReplays l0 ms l0' ∧ l'.done = l.done ++ more ∧
      l0'.done = l0.done ++ more ∧ l'.part = l0'.part := by
  suffices H : ∀ l0 : Log, l0.part = l.part → ∃ l0' more, HReplays l0 ms l0' ∧
      l'.done = l.done ++ more ∧ l0'.done = l0.done ++ more ∧ l'.part = l0'.part by
    intro l0 h0; exact H l0 (h0.trans hp.symm)
  clear hp
  induction h with
  | nil l => intro l0 h0; exact ⟨l0, [], .nil l0, by simp, by simp, h0.symm⟩
  | cons l l1 l2 x ms ha _ ih =>
    intro l0 h0
    have step : ∃ l0' more, HArrives l0 x l0' ∧ l1.done = l.done ++ more ∧
        l0'.done = l0.done ++ more ∧ l0'.part = l1.part := by
      cases ha with
      | text d ls r hl =>
        exact ⟨_, ls.map .str, .text l0 d ls r (by rw [h0]; exact hl), rfl, rfl, rfl⟩
      | error m =>
        exact ⟨_, (if l.part = [] then [] else [.str l.part]) ++ [.msg m], .error l0 m,
          by simp [Log.all], by simp [Log.all, h0], rfl⟩
      | warning m =>
        exact ⟨_, (if l.part = [] then [] else [.str l.part]) ++ [.msg m], .warning l0 m,
          by simp [Log.all], by simp [Log.all, h0], rfl⟩
      | close =>
        exact ⟨_, (if l.part = [] then [] else [.str l.part]), .close l0,
          by simp [Log.all], by simp [Log.all, h0], rfl⟩
    obtain ⟨k, more, k1, k2, k3, k4⟩ := step
    obtain ⟨k', more', g1, g2, g3, g4⟩ := ih k k4
    exact ⟨k', more ++ more', .cons _ _ _ _ _ k1 g1, by rw [g2, k2]; simp, by rw [g3, k3]; simp, g4⟩

/-- **C27** (host mode) The order is kept: around an error (or warning, see below) everything sent before it is
shown before it, and everything sent later is shown after it, as if it had been sent to an empty
buffer. -/
theorem C27_host_order (cap : Nat) (before after : List HMsg) (g : GMsg) (x : HMsg)
    (hx : x = .error g ∨ x = .warning g) (l : Log)
    (h : HReplays { cap := cap } (before ++ x :: after) l) :
    ∃ l1 l2, HReplays { cap := cap } before l1 ∧ HReplays { cap := cap } after l2 ∧
      l.all = l1.all ++ [.msg g] ++ l2.all := by
  obtain ⟨l1, h1, h2⟩ := hreplays_append h
  cases h2 with
  | cons _ l3 _ _ _ h3 h4 =>
    have h5 : l3.done = l1.all ++ [.msg g] ∧ l3.part = [] := by
      rcases hx with rfl | rfl <;> cases h3 <;> exact ⟨rfl, rfl⟩
    obtain ⟨l2, more, k1, k2, k3, k4⟩ := hreplays_base h4 h5.2 { cap := cap } rfl
    refine ⟨l1, l2, h1, k1, ?_⟩
    simp only [Log.all, k2, k3, k4, h5.1, List.nil_append, List.append_assoc]

/-- An unfinished text, an error, a text: shown in this order. -/
example (g : GMsg) : HReplays { cap := 9 } [.text (lit "a"), .error g, .text (lit "b\nc")]
    { cap := 9, done := [.str (lit "a"), .msg g, .str (lit "b")], part := lit "c" } :=
  .cons _ _ _ _ _ (.text _ (lit "a") [] (lit "a") (.unfinished _ (by decide +kernel)))
    (.cons _ _ _ _ _ (.error _ g) (.cons _ _ _ _ _ (.text _ (lit "b\nc") [lit "b"] (lit "c")
      (.single (lit "b") 10 _ _ _ (by decide +kernel) (by decide +kernel) (by decide)
        (.unfinished (lit "c") (by decide +kernel)))) (.nil _)))

/-! ## C26 (host mode) -/

/-- The items that a single message should contribute. -/
inductive HItemsOf : HMsg → List Item → Prop
  | text (d : PyStr) (ls : List PyStr) (r : PyStr) : Lines d ls r → HItemsOf (.text d) (ls.map .str)
  | error (m : GMsg) : HItemsOf (.error m) [.msg m]
  | warning (m : GMsg) : HItemsOf (.warning m) [.msg m]
  | close : HItemsOf .close []

/-- The items of a sequence of messages, in order. -/
inductive HAllItems : List HMsg → List Item → Prop
  | nil : HAllItems [] []
  | cons (m : HMsg) (ms : List HMsg) (a b : List Item) :
      HItemsOf m a → HAllItems ms b → HAllItems (m :: ms) (a ++ b)

/-- **C26** (host mode) If every text ends with a line terminator, the records are exactly the items of the
single messages, in order - so every text record is a line of a text of one mirror. -/
theorem C26_host_partial (cap : Nat) (msgs : List HMsg) (l : Log)
    (h : HReplays { cap := cap } msgs l) (he : ∀ d, .text d ∈ msgs → EndsLine d) :
    HAllItems msgs l.all := by
  suffices H : ∀ (l0 : Log), l0.part = [] → HReplays l0 msgs l →
      ∃ its, HAllItems msgs its ∧ l.done = l0.done ++ its ∧ l.part = [] by
    obtain ⟨its, h1, h2, h3⟩ := H { cap := cap } rfl h
    simp only [List.nil_append] at h2
    rw [Log.all, h3, if_pos rfl, List.append_nil, h2]
    exact h1
  clear h
  induction msgs with
  | nil => intro l0 h0 h; cases h; exact ⟨[], .nil, by simp, h0⟩
  | cons m ms ih =>
    intro l0 h0 h
    cases h with
    | cons _ l1 _ _ _ ha hr =>
      have ih' := fun h1 => ih (fun d hd => he d (List.mem_cons_of_mem _ hd)) l1 h1 hr
      cases ha with
      | text d ls r hl =>
        rw [h0, List.nil_append] at hl
        have hr0 := endsLine_rest hl (he d List.mem_cons_self)
        obtain ⟨its, h1, h2, h3⟩ := ih' hr0
        exact ⟨ls.map .str ++ its, .cons _ _ _ _ (.text d ls r hl) h1, by rw [h2]; simp, h3⟩
      | error g =>
        obtain ⟨its, h1, h2, h3⟩ := ih' rfl
        exact ⟨[.msg g] ++ its, .cons _ _ _ _ (.error g) h1, by rw [h2]; simp [Log.all, h0], h3⟩
      | warning g =>
        obtain ⟨its, h1, h2, h3⟩ := ih' rfl
        exact ⟨[.msg g] ++ its, .cons _ _ _ _ (.warning g) h1, by rw [h2]; simp [Log.all, h0], h3⟩
      | close =>
        obtain ⟨its, h1, h2, h3⟩ := ih' rfl
        exact ⟨[] ++ its, .cons _ _ _ _ .close h1, by rw [h2]; simp [Log.all, h0], h3⟩

/-- **C26** (host mode) is false in general: two posts of different mirrors, glued to one record. -/
theorem C26_host_violated : HReplays { cap := 9 } [.text (lit "a\nb"), .text (lit "c\n")]
    { cap := 9, done := [.str (lit "a"), .str (lit "bc")], part := [] } :=
  .cons _ _ _ _ _ (.text _ (lit "a\nb") [lit "a"] (lit "b")
      (.single (lit "a") 10 _ _ _ (by decide +kernel) (by decide +kernel) (by decide)
        (.unfinished (lit "b") (by decide +kernel))))
    (.cons _ _ _ _ _ (.text _ (lit "c\n") [lit "bc"] []
      (.single (lit "bc") 10 _ _ _ (by decide +kernel) (by decide +kernel) (by decide)
        (.unfinished [] noBreak_nil))) (.nil _))

/-! ## C06 and C07 (host mode) -/

theorem kindLog_clean (k : Kind) (l : Log) (ok : Ok l) (hc : TextClean l.done) :
    TextClean (kindLog l k).2.done := by
  have hall : TextClean l.all := by
    intro i hi s hs
    rcases List.mem_append.1 hi with h | h
    · exact hc i h s hs
    · split at h
      · cases h
      · rw [List.mem_singleton] at h; rw [h] at hs; cases hs; exact ok.part
  cases k with
  | text d =>
    intro i hi s hs
    rcases List.mem_append.1 hi with h | h
    · exact hc i h s hs
    · obtain ⟨x, hx, rfl⟩ := List.mem_map.1 h
      cases hs
      exact (lines_noBreak (lines_segFrom _ d ok.part)).1 _ hx
  | item j =>
    simp only [kindLog]
    cases hd : GMsg.deserialize j with
    | error e => exact hall
    | ok i =>
      intro x hx s hs
      rcases List.mem_append.1 hx with h | h
      · exact hall x h s hs
      · rw [List.mem_singleton] at h
        subst h; subst hs
        unfold GMsg.deserialize at hd
        split at hd
        · cases hd
        · cases h1 : j.getItem (lit "type") with
          | error e => rw [h1] at hd; cases hd
          | ok t =>
            cases h2 : j.getItem (lit "data") with
            | error e => rw [h1, h2] at hd; cases hd
            | ok d =>
              cases h3 : d.toTuple with
              | error e =>
                rw [h1, h2] at hd
                simp only [bind, Except.bind, h3] at hd; cases hd
              | ok v =>
                rw [h1, h2] at hd
                simp only [bind, Except.bind, h3] at hd; cases hd
  | eol => exact hall
  | nothing => exact hc
  | bad => exact hc

theorem step_hb_clean (env : HEnv) (o : HOp) (l : Log) (ok : Ok l) (hc : TextClean l.done) (st : PyDict) :
    ∃ l' st', step env o (hb l st) = hb l' st' ∧ Ok l' ∧ l'.cap = l.cap ∧ TextClean l'.done := by
  cases o with
  | stopAll => exact ⟨l, _, rfl, ok, rfl, hc⟩
  | reset => exact ⟨l, _, rfl, ok, rfl, hc⟩
  | buffer c =>
    by_cases hw : ∃ d, c = .write d
    · obtain ⟨d, rfl⟩ := hw; exact ⟨l, st, rfl, ok, rfl, hc⟩
    · obtain ⟨l', hs, h2, h3, h4⟩ := exec_refines c l ok
      refine ⟨l', st, ?_, h3, h4, step_clean hs ok hc⟩
      cases c with
      | write d => exact absurd ⟨d, rfl⟩ hw
      | _ => simp only [step, hb]; rw [h2]
  | req r =>
    by_cases hg : r.isGet = true
    · exact ⟨l, st, handle_get_state env r hg l ok st, ok, rfl, hc⟩
    by_cases hp : ∃ b, r = .post b
    · obtain ⟨b, rfl⟩ := hp
      show ∃ l' st', (handle env (.post b) (hb l st)).2 = _ ∧ _
      simp only [handle, answerPost]
      cases jsonArgs b with
      | error e => exact ⟨l, st, rfl, ok, rfl, hc⟩
      | ok a =>
        cases a with
        | none => exact ⟨l, st, rfl, ok, rfl, hc⟩
        | some args =>
          dsimp only
          rw [post_kind]
          cases hcl : l.closed with
          | true =>
            refine ⟨l, st, ?_, ok, rfl, hc⟩
            rw [hb, rep_closed hcl]; exact postKind_shut _ _ _
          | false =>
            obtain ⟨h1, h2, h3⟩ := kindLog_ok (kind env args) l ok hcl
            exact ⟨_, st, by rw [postKind_hb _ l ok hcl st], h1, h3, kindLog_clean _ l ok hc⟩
    · cases r with
      | post b => exact absurd ⟨b, rfl⟩ hp
      | get n => exact absurd rfl hg
      | stateGet n => exact absurd rfl hg
      | delete =>
        show ∃ l' st', (handle env .delete (hb l st)).2 = _ ∧ _
        simp only [handle]
        cases hcl : l.closed with
        | true =>
          refine ⟨l, st, ?_, ok, rfl, hc⟩
          simp [hb, rep_closed hcl, onBase, clear_shut]
        | false =>
          refine ⟨{ l with done := [], part := [] }, st, ?_,
            ⟨ok.cap, noBreak_nil, fun _ => ⟨rfl, rfl⟩⟩, rfl, fun i hi => by cases hi⟩
          rw [onBase_hb LineBuf.clear l _ st _ (clear_rep l hcl)]
      | statePost b =>
        show ∃ l' st', (handle env (.statePost b) (hb l st)).2 = _ ∧ _
        simp only [handle, answerPost]
        cases jsonArgs b with
        | error e => exact ⟨l, st, rfl, ok, rfl, hc⟩
        | ok a =>
          cases a with
          | none => exact ⟨l, st, rfl, ok, rfl, hc⟩
          | some args =>
            dsimp only
            simp only [statePost]
            split
            · exact ⟨l, st, rfl, ok, rfl, hc⟩
            split
            · exact ⟨l, _, rfl, ok, rfl, hc⟩
            · exact ⟨l, st, rfl, ok, rfl, hc⟩
      | stateDelete => exact ⟨l, _, rfl, ok, rfl, hc⟩

/-- **C06** (host mode) After any requests and local calls every text item that `read` returns is free of
line terminators. -/
theorem C06_host_no_terminators (env : HEnv) (m : Int) (h : HostBuf) (hr : HReach env m h)
    (size : Option Int) (r : List Item) (hrd : (LineBuf.read size h.base).1 = .ok r) : TextClean r := by
  obtain ⟨h0, os, hn, rfl⟩ := hr
  obtain ⟨hm, rfl, ok⟩ := new_hb hn
  have key : ∀ (os : List HOp) (l : Log) (st : PyDict), Ok l → TextClean l.done →
      ∃ l' st', HostBuf.run env os (hb l st) = hb l' st' ∧ Ok l' ∧ TextClean l'.done := by
    intro os
    induction os with
    | nil => intro l st ok hc; exact ⟨l, st, rfl, ok, hc⟩
    | cons o os ih =>
      intro l st ok hc
      obtain ⟨l1, st1, h1, h2, _, h4⟩ := step_hb_clean env o l ok hc st
      obtain ⟨l2, st2, g1, g2, g3⟩ := ih l1 st1 h2 h4
      exact ⟨l2, st2, by rw [← g1, ← h1]; rfl, g2, g3⟩
  obtain ⟨l, st, h1, ok', hc⟩ := key os _ [(lit "closed", .bool false), (lit "maxlen", .int m)] ok
    (fun i hi => by cases hi)
  rw [h1] at hrd
  change (LineBuf.read size (rep l)).1 = _ at hrd
  cases hcl : l.closed with
  | true => rw [rep_closed hcl, read_shut] at hrd; cases hrd
  | false =>
    rw [read_rep _ _ ok' hcl] at hrd
    have hview : TextClean l.view := by
      intro i hi s hs
      have := mem_of_mem_lastN hi
      unfold Log.all at this
      rcases List.mem_append.1 this with h | h
      · exact hc i h s hs
      · split at h
        · cases h
        · rw [List.mem_singleton] at h
          rw [h] at hs; cases hs; exact ok'.part
    cases size with
    | none => cases hrd; exact hview
    | some n =>
      simp only at hrd
      split at hrd
      · cases hrd
        intro i hi
        exact hview i (mem_of_mem_lastN hi)
      · cases hrd; intro i hi; cases hi

/-- **C07** (host mode) is false of the code: a new buffer reads as empty, and the service reports length 1. -/
theorem C07_host_violated (env : HEnv) : ¬ ∀ (m : Int) (h : HostBuf), HReach env m h →
    ∀ r n, (LineBuf.read none h.base).1 = .ok r → (LineBuf.len h.base).1 = .ok n → n = r.length := by
  intro h
  have := h 5 _ ⟨_, [], rfl, rfl⟩ [] 1 rfl rfl
  cases this

/-- **C07** (host mode), what holds: as for `LineBuffer`. -/
theorem C07_host_len_partial (env : HEnv) (m : Int) (h : HostBuf) (hr : HReach env m h) (r : List Item)
    (n : Nat) (hrd : (LineBuf.read none h.base).1 = .ok r) (hn : (LineBuf.len h.base).1 = .ok n) :
    n = if h.base.lastLine.buf ≠ [] ∨ r.length = m.toNat then r.length else r.length + 1 := by
  obtain ⟨l, st, rfl, ok, hc, _⟩ := hreach_hb hr
  change (LineBuf.read none (rep l)).1 = _ at hrd
  change (LineBuf.len (rep l)).1 = _ at hn
  show n = if (rep l).lastLine.buf ≠ [] ∨ _ then _ else _
  cases hcl : l.closed with
  | true => rw [rep_closed hcl, read_shut] at hrd; cases hrd
  | false =>
    rw [read_rep _ _ ok hcl] at hrd
    rw [len_rep l ok] at hn
    cases hrd; cases hn
    have hcap := ok.cap
    have hlast : (rep l).lastLine.buf = l.part := by rw [rep_open hcl]; rfl
    by_cases hp : l.part = []
    · by_cases hv : l.view.length = m.toNat
      · refine Eq.trans ?_ (if_pos (.inr hv)).symm
        show _ = l.view.length
        simp only [Log.view, Log.all, length_lastN, hp, if_true, List.append_nil] at hv ⊢
        omega
      · refine Eq.trans ?_ (if_neg (by
          rintro (h | h)
          · exact h (hlast.trans hp)
          · exact hv h)).symm
        show _ = l.view.length + 1
        simp only [Log.view, Log.all, length_lastN, hp, if_true, List.append_nil] at hv ⊢
        omega
    · refine Eq.trans ?_ (if_pos (.inl (by intro h; exact hp (hlast.symm.trans h)))).symm
      show _ = l.view.length
      simp only [Log.view, Log.all, length_lastN, hp, if_false, List.length_append,
        List.length_singleton]
      omega

example (env : HEnv) : ∃ h, HReach env 3 h ∧
    (LineBuf.read none h.base).1 = .ok [.str (lit "x"), .str (lit "y")] ∧
    (LineBuf.len h.base).1 = .ok 2 :=
  ⟨_, ⟨_, [.req (.post (.json (HMsg.body (.text (lit "x\ny")))))], rfl, rfl⟩, rfl, rfl⟩

/-! ## C43 -/

/-- What the service reports for a state name. -/
def reported (env : HEnv) (h : HostBuf) (name : PyStr) : Option Json :=
  (handle env (.stateGet (some name)) h).1.body.map fun j => j.get (lit "data") .null

/-- A reset of the states, locally or by a request. -/
def HOp.isReset : HOp → Bool
  | .reset => true
  | .req .stateDelete => true
  | _ => false

theorem lookup_append (k : PyStr) (a b : List (PyStr × Json)) :
    Json.lookup k (a ++ b) = (Json.lookup k b).or (Json.lookup k a) := by
  induction a with
  | nil => simp [Json.lookup]
  | cons p a ih =>
    obtain ⟨k', v⟩ := p
    simp only [List.cons_append, Json.lookup, ih]
    cases Json.lookup k b with
    | some w => rfl
    | none => rfl

theorem lookup_filter (k k' : PyStr) (a : List (PyStr × Json)) :
    Json.lookup k (a.filter (·.1 ≠ k')) = if k = k' then none else Json.lookup k a := by
  induction a with
  | nil => simp [Json.lookup]
  | cons p a ih =>
    obtain ⟨k1, v⟩ := p
    by_cases h : k1 = k'
    · subst h
      simp only [ne_eq, decide_not, Bool.false_eq_true, not_false_eq_true, List.filter_cons_of_neg, decide_true, Bool.not_true]
      simp only [ne_eq, decide_not] at ih
      rw [ih]
      by_cases h2 : k = k1
      · simp [h2]
      · have h3 : ¬ k1 = k := fun h => h2 h.symm
        simp only [h2, if_false, Json.lookup, h3]
        cases Json.lookup k a <;> rfl
    · simp only [ne_eq, decide_not, h, decide_false, Bool.not_false, List.filter_cons_of_pos,
        Json.lookup]
      simp only [ne_eq, decide_not] at ih
      rw [ih]
      by_cases h2 : k = k'
      · subst h2; simp [h]
      · simp [h2]

theorem lookup_set (k k' : PyStr) (v : Json) (d : PyDict) :
    Json.lookup k (PyDict.set d k' v) = if k = k' then some v else Json.lookup k d := by
  rw [PyDict.set, lookup_append, lookup_filter]
  by_cases h : k = k'
  · subst h; simp [Json.lookup]
  · have h3 : ¬ k' = k := fun e => h e.symm
    simp [Json.lookup, h, h3]

/-- Requests and calls other than resets touch no state but `closed`. -/
theorem step_state (env : HEnv) (o : HOp) (h : HostBuf) (k : PyStr) (hk : k ≠ lit "closed")
    (hr : o.isReset = false) :
    Json.lookup k (step env o h).state = Json.lookup k h.state := by
  have hbase : ∀ {α : Type} (m : Py LineBuf α) (h : HostBuf), (onBase m h).2.state = h.state :=
    fun _ _ => rfl
  cases o with
  | reset => cases hr
  | stopAll =>
    show Json.lookup k (PyDict.set h.state _ _) = _
    rw [lookup_set, if_neg hk]
  | buffer c => cases c <;> rfl
  | req r =>
    cases r with
    | stateDelete => cases hr
    | get n =>
      have hrs : ∀ size, (readSerialized size h).2.state = h.state := by
        intro size
        simp only [readSerialized, Py.bind_apply]
        cases hx : onBase (LineBuf.read size) h with
        | mk r s =>
          have := hbase (LineBuf.read size) h
          rw [hx] at this
          cases r <;> exact this
      simp only [step, handle, HostBuf.get]
      cases n with
      | none => exact congrArg (Json.lookup k) (hrs none)
      | some s =>
        cases hi : env.int s with
        | none => simp only [hi]; rfl
        | some i => simp only [hi]; exact congrArg (Json.lookup k) (hrs (some i))
    | delete => rfl
    | stateGet n =>
      simp only [step, handle, stateGet]
      split
      · rfl
      split
      · rfl
      · rfl
    | statePost b =>
      simp only [step, handle, answerPost]
      cases jsonArgs b with
      | error e => rfl
      | ok a =>
        cases a with
        | none => rfl
        | some args =>
          dsimp only
          simp only [statePost]
          split
          · rfl
          split
          · rename_i h2
            show Json.lookup k (PyDict.set h.state _ _) = _
            rw [lookup_set, if_neg (by rw [h2]; exact hk)]
          · rfl
    | post b =>
      simp only [step, handle, answerPost]
      cases jsonArgs b with
      | error e => rfl
      | ok a =>
        cases a with
        | none => rfl
        | some args =>
          dsimp only
          rw [post_kind]
          cases kind env args with
          | text d =>
            simp only [postKind, Py.bind_apply]
            cases hx : onBase (LineBuf.write d) h with
            | mk r s =>
              have := hbase (LineBuf.write d) h
              rw [hx] at this
              cases r <;> exact congrArg _ this
          | item j =>
            simp only [postKind, Py.bind_apply]
            cases hx : onBase LineBuf.newLine h with
            | mk r s =>
              have h1 := hbase LineBuf.newLine h
              rw [hx] at h1
              cases r with
              | error e => exact congrArg _ h1
              | ok u =>
                dsimp only
                cases GMsg.deserialize j with
                | error e => exact congrArg _ h1
                | ok i => exact congrArg (Json.lookup k) h1
          | eol => rfl
          | nothing => rfl
          | bad => rfl

/-- **C43** As long as the states have not been reset, the service reports the `maxlen` it was created
with. -/
theorem C43_maxlen_partial (env : HEnv) (m : Int) (h0 : HostBuf) (hn : HostBuf.new m = .ok h0)
    (os : List HOp) (hr : ∀ o ∈ os, o.isReset = false) :
    reported env (HostBuf.run env os h0) (lit "maxlen") = some (.int m) := by
  have key : ∀ (os : List HOp) (h : HostBuf), (∀ o ∈ os, o.isReset = false) →
      Json.lookup (lit "maxlen") (HostBuf.run env os h).state = Json.lookup (lit "maxlen") h.state := by
    intro os
    induction os with
    | nil => intro h _; rfl
    | cons o os ih =>
      intro h hr
      show Json.lookup _ (HostBuf.run env os (step env o h)).state = _
      rw [ih _ fun o ho => hr o (List.mem_cons_of_mem _ ho),
        step_state env o h _ (by decide +kernel) (hr o List.mem_cons_self)]
  have hk := key os h0 hr
  obtain ⟨_, rfl, _⟩ := new_hb hn
  generalize HostBuf.run env os _ = h at hk ⊢
  have e1 : strip (lit "maxlen") = lit "maxlen" := by decide +kernel
  have e2 : ¬ (lit "maxlen" = ([] : PyStr)) := by decide +kernel
  have e3 : ¬ (lit "maxlen" = lit "curlen") := by decide +kernel
  have h1 : stateGet (some (lit "maxlen")) h = (.ok (.int m), h) := by
    simp only [stateGet, Option.getD_some, e1, e2, e3, if_false, Py.gets_apply, Json.get, hk]
    rfl
  simp only [reported, handle, h1]
  rfl

/-- **C43** is false of the code: after a reset the service reports `None`. -/
theorem C43_violated (env : HEnv) : ¬ ∀ (m : Int) (h0 : HostBuf) (os : List HOp),
    HostBuf.new m = .ok h0 →
    reported env (HostBuf.run env os h0) (lit "maxlen") = some (.int m) := by
  intro h
  have := h 5 _ [.req .stateDelete] rfl
  cases this

example (env : HEnv) : ∃ h0, HostBuf.new 5 = .ok h0 ∧
    reported env (HostBuf.run env [.stopAll, .req .delete] h0) (lit "maxlen") = some (.int 5) :=
  ⟨_, rfl, rfl⟩

/-! ## C45 -/

/-- The request posts an error or a warning whose data is a mapping that is not a serialised
message. -/
def Req.foreign (env : HEnv) (r : Req) : Prop :=
  ∃ l d, r = .post (.json (.obj l)) ∧
    (strip (((Json.obj l).get (lit "type") (.str [])).strOf env.ext) = lit "error" ∨
     strip (((Json.obj l).get (lit "type") (.str [])).strOf env.ext) = lit "warning") ∧
    (Json.obj l).get (lit "data") .null = .obj d ∧ isSerialized (.obj d) = false

/-- No stored item is a plain mapping. -/
def NoRaw (items : List Item) : Prop := ∀ j, Item.raw j ∉ items

theorem kind_item {env : HEnv} {args j : Json} (h : kind env args = .item j) :
    (strip ((args.get (lit "type") (.str [])).strOf env.ext) = lit "error" ∨
     strip ((args.get (lit "type") (.str [])).strOf env.ext) = lit "warning") ∧
    args.get (lit "data") .null = j ∧ j.isMapping = true := by
  unfold kind at h
  extract_lets dtype data at h
  split at h
  · split at h
    · split at h <;> cases h
    · cases h
  · split at h
    · rename_i h2
      split at h
      · rename_i h3
        injection h with h
        exact ⟨h2, h, h ▸ h3⟩
      · cases h
    · split at h <;> cases h

theorem deserialize_noRaw {j : Json} {i : Item} (hs : isSerialized j = true)
    (hd : GMsg.deserialize j = .ok i) : ∀ k, i ≠ .raw k := by
  intro k hk
  subst hk
  unfold GMsg.deserialize at hd
  rw [hs] at hd
  simp only [Bool.not_true, Bool.false_eq_true, if_false] at hd
  cases h1 : j.getItem (lit "type") with
  | error e => rw [h1] at hd; cases hd
  | ok t =>
    cases h2 : j.getItem (lit "data") with
    | error e => rw [h1, h2] at hd; cases hd
    | ok d =>
      cases h3 : d.toTuple with
      | error e => rw [h1, h2] at hd; simp only [bind, Except.bind, h3] at hd; cases hd
      | ok v => rw [h1, h2] at hd; simp only [bind, Except.bind, h3] at hd; cases hd

theorem step_noRaw {l l' : Log} {c : Call} {r : Ret} (h : Log.Step l c r l') (hc : NoRaw l.done) :
    NoRaw l'.done := by
  cases h with
  | write d ls r n _ hl _ =>
    intro j hj
    rcases List.mem_append.1 hj with h | h
    · exact hc j h
    · obtain ⟨x, _, hx⟩ := List.mem_map.1 h; cases hx
  | newLine =>
    intro j hj
    rcases List.mem_append.1 hj with h | h
    · exact hc j h
    · simp at h
  | clear | close => intro j hj; cases hj
  | _ => exact hc

theorem all_noRaw {l : Log} (h : NoRaw l.done) : NoRaw l.all := by
  intro j hj
  rcases List.mem_append.1 hj with h1 | h1
  · exact h j h1
  · split at h1
    · cases h1
    · simp at h1

theorem step_hb_noRaw (env : HEnv) (o : HOp) (ho : ∀ r, o = .req r → ¬ r.foreign env) (l : Log)
    (ok : Ok l) (hc : NoRaw l.done) (st : PyDict) :
    ∃ l' st', step env o (hb l st) = hb l' st' ∧ Ok l' ∧ NoRaw l'.done := by
  cases o with
  | stopAll => exact ⟨l, _, rfl, ok, hc⟩
  | reset => exact ⟨l, _, rfl, ok, hc⟩
  | buffer c =>
    by_cases hw : ∃ d, c = .write d
    · obtain ⟨d, rfl⟩ := hw; exact ⟨l, st, rfl, ok, hc⟩
    · obtain ⟨l', hs, h2, h3, _⟩ := exec_refines c l ok
      refine ⟨l', st, ?_, h3, step_noRaw hs hc⟩
      cases c with
      | write d => exact absurd ⟨d, rfl⟩ hw
      | _ => simp only [step, hb]; rw [h2]
  | req r =>
    by_cases hg : r.isGet = true
    · exact ⟨l, st, handle_get_state env r hg l ok st, ok, hc⟩
    cases r with
    | post b =>
      show ∃ l' st', (handle env (.post b) (hb l st)).2 = _ ∧ _
      simp only [handle, answerPost]
      cases b with
      | notJson => exact ⟨l, st, rfl, ok, hc⟩
      | malformed => exact ⟨l, st, rfl, ok, hc⟩
      | json args =>
        cases hmap : args.isMapping with
        | false => simp only [jsonArgs, hmap, Bool.false_eq_true, if_false]; exact ⟨l, st, rfl, ok, hc⟩
        | true =>
          simp only [jsonArgs, hmap, if_true]
          rw [post_kind]
          cases hcl : l.closed with
          | true =>
            refine ⟨l, st, ?_, ok, hc⟩
            rw [hb, rep_closed hcl]; exact postKind_shut _ _ _
          | false =>
            obtain ⟨h1, h2, h3⟩ := kindLog_ok (kind env args) l ok hcl
            refine ⟨_, st, by rw [postKind_hb _ l ok hcl st], h1, ?_⟩
            cases hk : kind env args with
            | text d =>
              intro j hj
              rcases List.mem_append.1 hj with h | h
              · exact hc j h
              · obtain ⟨x, _, hx⟩ := List.mem_map.1 h; cases hx
            | item j =>
              obtain ⟨k1, k2, k3⟩ := kind_item hk
              simp only [kindLog]
              cases hd : GMsg.deserialize j with
              | error e => exact all_noRaw hc
              | ok i =>
                intro x hx
                rcases List.mem_append.1 hx with h | h
                · exact all_noRaw hc x h
                · rw [List.mem_singleton] at h
                  cases hser : isSerialized j with
                  | true => exact deserialize_noRaw hser hd x h.symm
                  | false =>
                    cases args with
                    | obj la =>
                      cases j with
                      | obj d => exact ho _ rfl ⟨la, d, rfl, k1, k2, hser⟩
                      | _ => cases k3
                    | _ => cases hmap
            | eol => exact all_noRaw hc
            | nothing => exact hc
            | bad => exact hc
    | get n => exact absurd rfl hg
    | stateGet n => exact absurd rfl hg
    | delete =>
      show ∃ l' st', (handle env .delete (hb l st)).2 = _ ∧ _
      simp only [handle]
      cases hcl : l.closed with
      | true =>
        refine ⟨l, st, ?_, ok, hc⟩
        simp [hb, rep_closed hcl, onBase, clear_shut]
      | false =>
        refine ⟨{ l with done := [], part := [] }, st, ?_,
          ⟨ok.cap, noBreak_nil, fun _ => ⟨rfl, rfl⟩⟩, fun i hi => by cases hi⟩
        rw [onBase_hb LineBuf.clear l _ st _ (clear_rep l hcl)]
    | statePost b =>
      show ∃ l' st', (handle env (.statePost b) (hb l st)).2 = _ ∧ _
      simp only [handle, answerPost]
      cases jsonArgs b with
      | error e => exact ⟨l, st, rfl, ok, hc⟩
      | ok a =>
        cases a with
        | none => exact ⟨l, st, rfl, ok, hc⟩
        | some args =>
          dsimp only
          simp only [statePost]
          split
          · exact ⟨l, st, rfl, ok, hc⟩
          split
          · exact ⟨l, _, rfl, ok, hc⟩
          · exact ⟨l, st, rfl, ok, hc⟩
    | stateDelete => exact ⟨l, _, rfl, ok, hc⟩

theorem serializeAll_ok {items : List Item} (h : NoRaw items) : ∃ js, serializeAll items = .ok js := by
  induction items with
  | nil => exact ⟨[], rfl⟩
  | cons i rest ih =>
    obtain ⟨js, hjs⟩ := ih fun j hj => h j (List.mem_cons_of_mem _ hj)
    cases i with
    | str s => exact ⟨.str s :: js, by simp [serializeAll, hjs, Functor.map, Except.map]⟩
    | msg m => exact ⟨m.serialize :: js, by simp [serializeAll, hjs, Functor.map, Except.map]⟩
    | raw j => exact absurd List.mem_cons_self (h j)

theorem handle_get_hb (env : HEnv) (n : Option PyStr) (size : Option Int) (l : Log) (ok : Ok l)
    (ho : l.closed = false) (st : PyDict) (js : List Json)
    (hjs : serializeAll (match size with
        | none => l.view
        | some n => if 0 < n then lastN n.toNat l.view else []) = .ok js)
    (hn : n = none ∧ size = none ∨ ∃ s k, n = some s ∧ env.int s = some k ∧ size = some k) :
    handle env (.get n) (hb l st) =
      ({ status := 200, body := some (successData (.arr js)) }, hb l st) := by
  have h1 : readSerialized size (hb l st) = (.ok js, hb l st) := by
    unfold readSerialized
    rw [Py.bind_ok (onBase_hb _ l l st _ (read_rep size l ok ho))]
    exact congrArg (·, hb l st) hjs
  have h2 : HostBuf.get env n (hb l st) = (.ok js, hb l st) := by
    rcases hn with ⟨rfl, rfl⟩ | ⟨s, k, rfl, h3, rfl⟩
    · exact h1
    · simp only [HostBuf.get, h3]
      exact h1
  simp only [handle, h2]
  rfl

/-- **C45** The part that holds: if no error or warning with foreign data has been posted and the buffer
has not been closed locally, every GET request for records (with no `n` or a valid one) is answered
with 200. -/
theorem C45_readable_partial (env : HEnv) (m : Int) (h0 : HostBuf) (hn : HostBuf.new m = .ok h0)
    (os : List HOp) (hf : ∀ r, .req r ∈ os → ¬ r.foreign env)
    (hopen : (HostBuf.run env os h0).base.lastLine.closed = false)
    (n : Option PyStr) (hv : ∀ s, n = some s → (env.int s).isSome) :
    (handle env (.get n) (HostBuf.run env os h0)).1.status = 200 := by
  obtain ⟨hm, rfl, ok⟩ := new_hb hn
  have key : ∀ (os : List HOp) (l : Log) (st : PyDict), (∀ r, .req r ∈ os → ¬ r.foreign env) → Ok l →
      NoRaw l.done → ∃ l' st', HostBuf.run env os (hb l st) = hb l' st' ∧ Ok l' ∧ NoRaw l'.done := by
    intro os
    induction os with
    | nil => intro l st _ ok hc; exact ⟨l, st, rfl, ok, hc⟩
    | cons o os ih =>
      intro l st hf ok hc
      obtain ⟨l1, st1, h1, h2, h3⟩ := step_hb_noRaw env o
        (fun r hr => hf r (by rw [hr]; exact List.mem_cons_self)) l ok hc st
      obtain ⟨l2, st2, g1, g2, g3⟩ := ih l1 st1 (fun r hr => hf r (List.mem_cons_of_mem _ hr)) h2 h3
      exact ⟨l2, st2, by rw [← g1, ← h1]; rfl, g2, g3⟩
  obtain ⟨l, st, h1, ok', hc⟩ := key os _ [(lit "closed", .bool false), (lit "maxlen", .int m)] hf ok
    (fun i hi => by cases hi)
  rw [h1] at hopen ⊢
  have ho : l.closed = false := by
    cases hcl : l.closed with
    | false => rfl
    | true =>
      rw [show (hb l st).base = rep l from rfl, rep_closed hcl] at hopen
      cases hopen
  have hview : NoRaw l.view := fun j hj => all_noRaw hc j (mem_of_mem_lastN hj)
  cases n with
  | none =>
    obtain ⟨js, hjs⟩ := serializeAll_ok hview
    rw [handle_get_hb env none none l ok' ho st js hjs (.inl ⟨rfl, rfl⟩)]
  | some s =>
    obtain ⟨k, hk⟩ := Option.isSome_iff_exists.1 (hv s rfl)
    obtain ⟨js, hjs⟩ := serializeAll_ok (items := if 0 < k then lastN k.toNat l.view else []) (by
      intro j hj
      split at hj
      · exact hview j (mem_of_mem_lastN hj)
      · cases hj)
    rw [handle_get_hb env (some s) (some k) l ok' ho st js hjs (.inr ⟨s, k, rfl, hk, rfl⟩)]

/-- **C45** is false of the code: `{"type": "error", "data": {}}` is answered with 201, and then a GET
request is answered with 500. -/
theorem C45_violated (env : HEnv) : ¬ ∀ (m : Int) (h : HostBuf) (b : Body), HReach env m h →
    (handle env (.post b) h).1.status = 201 →
    (handle env (.get none) (handle env (.post b) h).2).1.status = 200 := by
  intro h
  have := h 5 _ (.json (.obj [(lit "type", .str (lit "error")), (lit "data", .obj [])]))
    ⟨_, [], rfl, rfl⟩ rfl
  cases this

/-- **C45** The mirrors never post foreign data. -/
theorem C45_mirrors_not_foreign (env : HEnv) (x : HMsg) : ¬ Req.foreign env (.post (.json (HMsg.body x))) := by
  rintro ⟨l, d, h1, h2, h3, h4⟩
  cases x with
  | text t =>
    cases h1
    rcases h2 with h2 | h2
    · exact absurd h2 (show ¬ (lit "str" = lit "error") by decide +kernel)
    · exact absurd h2 (show ¬ (lit "str" = lit "warning") by decide +kernel)
  | error g =>
    cases h1
    have : (g.serialize) = .obj d := h3
    rw [← this] at h4; cases h4
  | warning g =>
    cases h1
    have : (g.serialize) = .obj d := h3
    rw [← this] at h4; cases h4
  | close =>
    cases h1
    rcases h2 with h2 | h2
    · exact absurd h2 (show ¬ (lit "close" = lit "error") by decide +kernel)
    · exact absurd h2 (show ¬ (lit "close" = lit "warning") by decide +kernel)

end SyncStream
