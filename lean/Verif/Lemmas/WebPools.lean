import Verif.Lemmas.WebThreads
/-!
# Connection pools among threads

A reader outside a context makes a pool for every call, which belongs to the thread (`PStage`).  A mirror and a reader inside a context use
one pool for all threads, if it has been made before.
-/

namespace SyncStream
open Conc Spec Prog

/-! ## Pools that belong to a call -/

/-- No pool; a pool; a pool with an open response; the response is closed. -/
inductive PStage where
  | idle
  | has (p : Nat)
  | busy (p r : Nat)
  | done (p r : Nat)

/-- The pool of a thread. -/
def PStage.pool : PStage → Option Nat
  | .idle => none
  | .has p => some p
  | .busy p _ => some p
  | .done p _ => some p

/-- What is known of the pool of a thread. -/
def PStage.Ok (x : PStage) (log : List WebEv) : Prop :=
  match x with
  | .idle => True
  | .has p => aboutPool p log = [.made p]
  | .busy p r => ∃ st, aboutPool p log = [.made p, .opened r p st]
  | .done p r => (∃ st, aboutPool p log = [.made p, .opened r p st]) ∧ .closed r ∈ log

/-- What a thread may do. -/
inductive PMove : PStage → WebT → WebT → PStage → Prop
  | still (x : PStage) (w w' : WebT) : w'.log = w.log → w'.pools = w.pools → PMove x w w' x
  | note (x : PStage) (w w' : WebT) (e : WebEv) : poolOf e = none → w'.log = w.log ++ [e] → w'.pools = w.pools → PMove x w w' x
  | made (w w' : WebT) : w'.log = w.log ++ [.made w.pools] → w'.pools = w.pools + 1 → PMove .idle w w' (.has w.pools)
  | opened (w w' : WebT) (p r st : Nat) : w'.log = w.log ++ [.opened r p st] → w'.pools = w.pools → PMove (.has p) w w' (.busy p r)
  | closed (w w' : WebT) (p r : Nat) : w'.log = w.log ++ [.closed r] → w'.pools = w.pools → PMove (.busy p r) w w' (.done p r)
  | unused (w w' : WebT) (p : Nat) : w'.log = w.log ++ [.cleared p] → w'.pools = w.pools → PMove (.has p) w w' .idle
  | used (w w' : WebT) (p r : Nat) : w'.log = w.log ++ [.cleared p] → w'.pools = w.pools → PMove (.done p r) w w' .idle

/-- The protocol of a thread that shares a reader outside a context. -/
def poolProtocol : Protocol RProc PStage where
  Ok x s := s.web.http = none ∧ x.Ok s.web.log
  T x s t y := PMove x s.web t.web y ∧ t.web.http = none

/-- What holds of all pools. -/
structure PInv (a : Nat → PStage) (w : WebT) : Prop where
  owned : Owned poolOf PStage.pool UsedUp a w.pools w.log
  clear : ClearedClosed w.log

theorem PStage.Ok.about (x : PStage) (l l' : List WebEv) (h : x.Ok l) (hl : l <+: l')
    (e : ∀ p, x.pool = some p → about poolOf p l' = about poolOf p l) : x.Ok l' := by
  have e' : ∀ p, x.pool = some p → aboutPool p l' = aboutPool p l := e
  cases x with
  | idle => trivial
  | has p => simp only [PStage.Ok, e' p rfl] at h ⊢; exact h
  | busy p r => simp only [PStage.Ok, e' p rfl] at h ⊢; exact h
  | done p r => simp only [PStage.Ok, e' p rfl] at h ⊢; exact ⟨h.1, hl.subset h.2⟩

theorem UsedUp.about (p : Nat) (l l' : List WebEv) (h : UsedUp p l) (e : about poolOf p l' = about poolOf p l) : UsedUp p l' := by
  have e' : aboutPool p l' = aboutPool p l := e
  unfold UsedUp at h ⊢
  rw [e']
  exact h

theorem aboutPool_snoc {p : Nat} {l l' : List WebEv} {e : WebEv} (h : l' = l ++ [e]) (he : poolOf e = some p) :
    aboutPool p l' = aboutPool p l ++ [e] := by
  show SyncStream.about poolOf p l' = SyncStream.about poolOf p l ++ [e]
  rw [h, about_append, about_one he]

theorem clearedClosed_snoc {l l' : List WebEv} {e : WebEv} (h : ClearedClosed l) (hl : l' = l ++ [e])
    (he : ∀ p, e = .cleared p → ∀ r st, .opened r p st ∈ l → .closed r ∈ l) : ClearedClosed l' := by
  subst hl
  intro a p b hab r st hr
  rcases List.eq_nil_or_concat b with rfl | ⟨b', x, rfl⟩
  · obtain ⟨h1, h2⟩ := List.append_inj' (s₂ := a) (t₂ := [.cleared p]) hab rfl
    cases h1
    cases h2
    exact he p rfl r st hr
  · have h1 : l ++ [e] = (a ++ .cleared p :: b') ++ [x] := by simpa using hab
    exact h a p b' (List.append_inj' h1 rfl).1 r st hr

theorem mem_aboutPool {p r st : Nat} {l : List WebEv} (h : .opened r p st ∈ l) : .opened r p st ∈ aboutPool p l :=
  List.mem_filter.mpr ⟨h, beq_self_eq_true _⟩

theorem pool_keeps {a : Nat → PStage} {w w' : WebT} {i : Nat} {y : PStage} (hok : ∀ j, (a j).Ok w.log) (hI : PInv a w)
    (h : PMove (a i) w w' y) : (∀ j, (upd a i y j).Ok w'.log) ∧ PInv (upd a i y) w' := by
  generalize hx : a i = x at h
  have hoki := hok i
  rw [hx] at hoki
  have step := fun (p : Nat) (e : WebEv) => own_step (Ok := PStage.Ok) (Fin := UsedUp) (y := y) (i := i) (es := [e]) (r := p) (log' := w'.log)
    (n' := w'.pools) PStage.Ok.about UsedUp.about hok hI.owned
  have sole : ∀ {p : Nat} {e : WebEv}, poolOf e = some p → ∀ e' ∈ [e], ∀ q, poolOf e' = some q → q = p := fun h e' he q hq => by
    rw [List.mem_singleton.mp he, h] at hq; cases hq; rfl
  have wrap : ∀ {a' : Nat → PStage}, ClearedClosed w'.log → (∀ j, (a' j).Ok w'.log) ∧ Owned poolOf PStage.pool UsedUp a' w'.pools w'.log →
      (∀ j, (a' j).Ok w'.log) ∧ PInv a' w' := fun h1 h2 => ⟨h2.1, h2.2, h1⟩
  cases h with
  | still _ _ _ h2 h3 =>
    refine wrap (h2 ▸ hI.clear) (own_quiet (es := []) PStage.Ok.about UsedUp.about hok hI.owned (by rw [h2, List.append_nil]) nofun h3 (by rw [hx]) ?_)
    rw [h2]; exact hoki
  | note _ _ _ e h1 h2 h3 =>
    refine wrap (clearedClosed_snoc hI.clear h2 fun p he => by rw [he] at h1; cases h1) (own_quiet PStage.Ok.about UsedUp.about hok hI.owned h2
      (fun e' he => by rw [List.mem_singleton.mp he]; exact h1) h3 (by rw [hx]) ?_)
    refine PStage.Ok.about _ _ _ hoki ⟨_, h2.symm⟩ fun q _ => ?_
    rw [h2, about_append, about_quiet (m := [e]) fun e' he h => (by rw [List.mem_singleton.mp he, h1] at h; cases h), List.append_nil]
  | made _ _ h2 h3 =>
    refine wrap (clearedClosed_snoc hI.clear h2 nofun) (step w.pools _ h2 (sole rfl) (by omega) (fun q hq => by omega) (by omega)
      (.inr ⟨by rw [hx]; rfl, rfl⟩) (.inl rfl) ?_ nofun)
    show aboutPool _ _ = _
    rw [aboutPool_snoc h2 rfl, show aboutPool w.pools w.log = [] from about_quiet fun e he h => Nat.lt_irrefl _ (hI.owned.lt e he _ h)]
    rfl
  | opened _ _ p r st h2 h3 =>
    have hr := hI.owned.own i p (by rw [hx]; rfl)
    exact wrap (clearedClosed_snoc hI.clear h2 nofun) (step p _ h2 (sole rfl) (by omega) (fun q hq => by omega) (by omega)
      (.inl (by rw [hx]; rfl)) (.inl rfl) ⟨st, by rw [aboutPool_snoc h2 rfl, show aboutPool p w.log = _ from hoki]; rfl⟩ nofun)
  | closed _ _ p r h2 h3 =>
    obtain ⟨st, h4⟩ := hoki
    refine wrap (clearedClosed_snoc hI.clear h2 nofun) (own_quiet PStage.Ok.about UsedUp.about hok hI.owned h2
      (fun e' he => by rw [List.mem_singleton.mp he]; rfl) h3 (by rw [hx]; rfl) ⟨⟨st, ?_⟩, by rw [h2]; simp⟩)
    rw [← h4]
    show about poolOf p w'.log = about poolOf p w.log
    rw [h2, about_append, about_quiet (m := [_]) fun e' he h => (by rw [List.mem_singleton.mp he] at h; cases h), List.append_nil]
  | unused _ _ p h2 h3 =>
    have hr := hI.owned.own i p (by rw [hx]; rfl)
    have h4 : aboutPool p w.log = [.made p] := hoki
    refine wrap (clearedClosed_snoc hI.clear h2 fun q he r st hm => ?_) (step p _ h2 (sole rfl) (by omega) (fun q hq => by omega) (by omega)
      (.inl (by rw [hx]; rfl)) (.inr rfl) trivial fun _ => .inl (by rw [aboutPool_snoc h2 rfl, h4]; rfl))
    cases he
    have := mem_aboutPool hm
    rw [h4] at this
    cases List.mem_singleton.mp this
  | used _ _ p r h2 h3 =>
    have hr := hI.owned.own i p (by rw [hx]; rfl)
    obtain ⟨⟨st, h4⟩, h5⟩ := hoki
    refine wrap (clearedClosed_snoc hI.clear h2 fun q he r' st' hm => ?_) (step p _ h2 (sole rfl) (by omega) (fun q hq => by omega) (by omega)
      (.inl (by rw [hx]; rfl)) (.inr rfl) trivial fun _ => .inr ⟨r, st, by rw [aboutPool_snoc h2 rfl, h4]; rfl⟩)
    cases he
    have := mem_aboutPool hm
    rw [h4] at this
    simp only [List.mem_cons, reduceCtorEq, WebEv.opened.injEq, List.not_mem_nil, or_false, false_or] at this
    exact this.1 ▸ h5

namespace WRThr

theorem request_pool (env : HEnv) (p : Nat) (c : RdCall) :
    (request env p c).Follows poolProtocol (fun _ y => y = .has p ∨ ∃ r, y = .done p r) (.has p) := by
  refine .bind (.atom fun s hs => ?_)
  show ∃ y, (PMove (.has p) s.web (WebT.request env p c.req (s.net, s.web)).2.2 y ∧ (WebT.request env p c.req (s.net, s.web)).2.2.http = none) ∧
    Follows _ _ (match (WebT.request env p c.req (s.net, s.web)).1 with
    | .error e => pure (c.answer (.error e))
    | .ok (resp, n) => do
      web (WebT.note (.read n))
      web (WebT.note (.released n))
      web (WebT.note (.closed n))
      return c.answer (.ok resp)) y
  unfold WebT.request
  rcases HNet.request env c.req s.net with ⟨_ | resp, n⟩
  · exact ⟨.has p, ⟨.still _ _ _ rfl rfl, hs.1⟩, .inl rfl⟩
  · refine ⟨.busy p s.web.resps, ⟨.opened _ _ p _ resp.status rfl rfl, hs.1⟩, ?_⟩
    refine .bind (.atom fun _ h => ⟨_, ⟨.note _ _ _ _ rfl rfl rfl, h.1⟩, ?_⟩)
    refine .bind (.atom fun _ h => ⟨_, ⟨.note _ _ _ _ rfl rfl rfl, h.1⟩, ?_⟩)
    exact .bind (.atom fun _ h => ⟨.done p _, ⟨.closed _ _ _ _ rfl rfl, h.1⟩, .inr ⟨_, rfl⟩⟩)

theorem call_pool (env : HEnv) (c : RdCall) :
    (call env c).Follows poolProtocol (fun v y => ∀ a, v = .ok a → y = .idle) .idle := by
  refine .bind (.atom fun s hs => ⟨.idle, ⟨.still _ _ _ rfl rfl, hs.1⟩, ?_⟩)
  show Follows _ _ (if s.web.http.isSome then _ else _) _
  rw [hs.1]
  refine .bind (.atom fun s hs => ⟨.has s.web.pools, ⟨.made _ _ rfl rfl, hs.1⟩, ?_⟩)
  refine .bind ((request_pool env _ c).mono fun v y hy => ?_)
  cases v with
  | error e => exact nofun
  | ok x =>
    rcases hy with rfl | ⟨r, rfl⟩
    · exact .bind (.atom fun t ht => ⟨.idle, ⟨.unused _ _ _ rfl rfl, ht.1⟩, fun _ _ => rfl⟩)
    · exact .bind (.atom fun t ht => ⟨.idle, ⟨.used _ _ _ r rfl rfl, ht.1⟩, fun _ _ => rfl⟩)

end WRThr

/-! ## One pool for all -/

/-- Since `w0` no pool has been made or cleared, and all requests went through `p`. -/
structure Through (p : Nat) (w0 w : WebT) : Prop where
  http : w.http = some p
  pools : w.pools = w0.pools
  finalizers : w.finalizers = w0.finalizers
  log : ∃ es, w.log = w0.log ++ es ∧ ∀ e ∈ es, ∀ q, poolOf e = some q → ∃ r st, e = .opened r p st

/-- All threads do that. -/
def throughProtocol {σ : Type} (web : σ → WebT) (p : Nat) (w0 : WebT) : Protocol σ Unit where
  Ok _ s := Through p w0 (web s)
  T _ _ t _ := Through p w0 (web t)

theorem Through.note {p : Nat} {w0 w w' : WebT} (h : Through p w0 w) (e : WebEv) (he : ∀ q, poolOf e = some q → ∃ r st, e = .opened r p st)
    (h1 : w'.log = w.log ++ [e]) (h2 : w'.http = w.http) (h3 : w'.pools = w.pools) (h4 : w'.finalizers = w.finalizers) : Through p w0 w' := by
  obtain ⟨es, h5, h6⟩ := h.log
  refine ⟨h2.trans h.http, h3.trans h.pools, h4.trans h.finalizers, es ++ [e], by rw [h1, h5, List.append_assoc], fun e' he' => ?_⟩
  rcases List.mem_append.mp he' with he' | he'
  · exact h6 e' he'
  · rw [List.mem_singleton.mp he']; exact he

theorem Through.asked {p : Nat} {w0 : WebT} {s : HNet × WebT} (h : Through p w0 s.2) (env : HEnv) (r : Req) :
    Through p w0 (WebT.request env p r s).2.2 := by
  unfold WebT.request
  rcases HNet.request env r s.1 with ⟨_ | resp, n⟩
  · exact h
  · exact h.note (.opened s.2.resps p resp.status) (fun q _ => ⟨_, _, rfl⟩) rfl rfl rfl rfl

theorem exec_through {σ L O C R : Type} [DecidableEq L] {sys : Sys σ L O C R} {web : σ → WebT} {p : Nat} {s0 : σ}
    (hcall : ∀ i o c, sys.ok i c → (sys.call i o c).Follows (throughProtocol web p (web s0)) (fun _ _ => True) ())
    {obj : Nat → O} (h0 : (web s0).http = some p) {tr : List (Ev C R)} {κ : Conf σ L O C R} (h : Exec sys (init s0 obj) tr κ) :
    Through p (web s0) (web κ.st) := by
  obtain ⟨a, h1, _⟩ := exec_protocol (P := throughProtocol web p (web s0)) (Inv := fun _ _ => True) (x0 := ())
    (fun _ _ _ _ _ _ _ hT => ⟨fun _ => hT, trivial⟩) (fun i o c hok => (hcall i o c hok).mono fun _ _ _ _ _ => rfl)
    ⟨h0, rfl, rfl, [], (List.append_nil _).symm, nofun⟩ trivial h
  exact h1 0

theorem WMThr.request_through (env : HEnv) (p : Nat) (w0 : WebT) (r : Req) :
    (WMThr.request env r).Follows (throughProtocol (·.2) p w0) (fun _ _ => True) () := by
  refine .bind (.mono (Q := fun v _ => v = .ok p) ?_ fun v y hv => ?_)
  · refine .bind (.atom fun s hs => ⟨(), hs, ?_⟩)
    have : s.2.http = some p := hs.http
    show Follows _ _ (if s.2.http.isNone then _ else _) _
    rw [this]
    refine .bind (.atom fun t ht => ⟨(), ht, ?_⟩)
    have : t.2.http = some p := ht.http
    show Follows _ _ (pure (t.2.http.getD 0)) _
    rw [this]
    rfl
  · subst hv
    refine .bind (.atom fun s hs => ⟨(), ?_, ?_⟩)
    · exact Through.asked (s := (s.1.2, s.2)) hs env r
    · show Follows _ _ (match (WebT.request env p r (s.1.2, s.2)).1 with
        | .error e => (pure (.error e) : WMProg (Except Exc Resp))
        | .ok (resp, n) => do
          block r resp n
          return .ok resp) _
      split
      · trivial
      · rename_i resp n _
        refine .bind (.mono (Q := fun _ _ => True) ?_ fun v y _ => by cases v <;> trivial)
        have back : (do web (WebT.note (.released n)); web (WebT.note (.closed n)) : WMProg Unit).Follows (throughProtocol (·.2) p w0)
            (fun _ _ => True) () :=
          .bind (.atom fun t ht => ⟨(), ht.note (.released n) nofun rfl rfl rfl rfl, .atom fun u hu => ⟨(), hu.note (.closed n) nofun rfl rfl rfl rfl, trivial⟩⟩)
        unfold block
        split
        · exact .bind (.atom fun t ht => ⟨(), ht.note (.read n) nofun rfl rfl rfl rfl, back⟩)
        · exact back

theorem web_through (env : HEnv) (p : Nat) (w0 : WebT) {α : Type} (g : HMixed α) :
    (g.web env).Follows (throughProtocol (·.2) p w0) (fun _ _ => True) () := by
  induction g with
  | ret a => trivial
  | raise e => trivial
  | act f k ih => exact fun s hs => ⟨(), hs, ih s.1.1⟩
  | acq l w k ih => exact ih
  | rel l w k ih => exact ih
  | ask r k ih =>
    refine .bind ((WMThr.request_through env p w0 r).mono fun v y _ => ?_)
    cases v with
    | ok x => exact ih x
    | error e => trivial

namespace WRThr

theorem request_through (env : HEnv) (p : Nat) (w0 : WebT) (c : RdCall) :
    (request env p c).Follows (throughProtocol (·.web) p w0) (fun _ _ => True) () := by
  refine .bind (.atom fun s hs => ⟨(), Through.asked (s := (s.net, s.web)) hs env c.req, ?_⟩)
  show Follows _ _ (match (WebT.request env p c.req (s.net, s.web)).1 with
    | .error e => pure (c.answer (.error e))
    | .ok (resp, n) => do
      web (WebT.note (.read n))
      web (WebT.note (.released n))
      web (WebT.note (.closed n))
      return c.answer (.ok resp)) _
  split
  · trivial
  · rename_i resp n _
    exact .bind (.atom fun _ h => ⟨(), h.note (.read n) nofun rfl rfl rfl rfl, .bind (.atom fun _ h => ⟨(), h.note (.released n) nofun rfl rfl rfl rfl,
      .bind (.atom fun _ h => ⟨(), h.note (.closed n) nofun rfl rfl rfl rfl, trivial⟩)⟩)⟩)

theorem prog_through (env : HEnv) (p : Nat) (w0 : WebT) {c : WTCall} (hc : c ≠ .exit) :
    (prog env c).Follows (throughProtocol (·.web) p w0) (fun _ _ => True) () := by
  cases c with
  | exit => exact absurd rfl hc
  | enter =>
    refine .bind (.bind (.atom fun s hs => ⟨(), hs, ?_⟩))
    have : s.web.http = some p := hs.http
    show Follows _ _ (if s.web.http.isNone then _ else _) _
    rw [this]
    trivial
  | call c =>
    refine .bind (.mono (Q := fun _ _ => True) (.bind (.atom fun s hs => ⟨(), hs, ?_⟩)) fun v y _ => by cases v <;> trivial)
    have : s.web.http = some p := hs.http
    show Follows _ _ (if s.web.http.isSome then _ else _) _
    rw [this]
    refine .bind (.atom fun t ht => ⟨(), ht, ?_⟩)
    have : t.web.http = some p := ht.http
    show Follows _ _ (request env (t.web.http.getD 0) c) _
    rw [this]
    exact request_through env p w0 c

end WRThr

end SyncStream
