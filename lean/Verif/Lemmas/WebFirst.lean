import Verif.Lemmas.WebPools
/-!
# The first use of a mirror by one thread

The stages of `LineHostMirror.__http` (`host.py:149-162`) when only thread 0 uses the mirror.
-/

namespace SyncStream
open Conc Spec Prog

/-- The only pool there has been is `p`, and it has not been cleared. -/
structure SolePool (p : Nat) (log : List WebEv) : Prop where
  made : .made p ∈ log
  only : ∀ e ∈ log, ∀ q, poolOf e = some q → q = p ∧ e ≠ .cleared p

/-- A thread that does nothing; one between two requests; one that has seen that there is no pool, has made a pool, has stored it, has registered the finalizer. -/
inductive SStage where
  | out
  | rest
  | seen
  | made (p : Nat)
  | set (p : Nat)
  | ready (p : Nat)

/-- The pool is in use. -/
structure InUse (p : Nat) (w : WebT) : Prop where
  http : w.http = some p
  finalizers : w.finalizers = [p]
  only : SolePool p w.log

/-- No pool has been made. -/
structure NoPool (w : WebT) : Prop where
  http : w.http = none
  finalizers : w.finalizers = []
  log : ∀ e ∈ w.log, poolOf e = none

/-- What the thread knows. -/
def SStage.Ok (w : WebT) : SStage → Prop
  | .out => True
  | .rest => NoPool w ∨ ∃ p, InUse p w
  | .seen => NoPool w
  | .made p => w.http = none ∧ w.finalizers = [] ∧ SolePool p w.log
  | .set p => w.http = some p ∧ w.finalizers = [] ∧ SolePool p w.log
  | .ready p => InUse p w

/-- What it does. -/
def firstProtocol : Protocol ((HMProc × HNet) × WebT) SStage where
  Ok x s := x.Ok s.2
  T x _ t y := (x ≠ .out ∧ y ≠ .out) ∧ y.Ok t.2

theorem SolePool.snoc {p : Nat} {l : List WebEv} (h : SolePool p l) (e : WebEv) (he : ∀ q, poolOf e = some q → q = p ∧ e ≠ .cleared p) :
    SolePool p (l ++ [e]) :=
  ⟨List.mem_append_left _ h.made, fun e' he' => (List.mem_append.mp he').elim (h.only e') fun h => by
    rw [List.mem_singleton.mp h]; exact he⟩

theorem InUse.note {p : Nat} {w w' : WebT} (h : InUse p w) (e : WebEv) (he : ∀ q, poolOf e = some q → q = p ∧ e ≠ .cleared p)
    (h1 : w'.log = w.log ++ [e]) (h2 : w'.http = w.http) (h3 : w'.finalizers = w.finalizers) : InUse p w' :=
  ⟨h2.trans h.http, h3.trans h.finalizers, h1 ▸ h.only.snoc e he⟩

theorem InUse.asked {p : Nat} {s : HNet × WebT} (h : InUse p s.2) (env : HEnv) (r : Req) : InUse p (WebT.request env p r s).2.2 := by
  unfold WebT.request
  rcases HNet.request env r s.1 with ⟨_ | resp, n⟩
  · exact h
  · exact h.note (.opened s.2.resps p resp.status) (fun q hq => by cases hq; exact ⟨rfl, nofun⟩) rfl rfl rfl

namespace WMThr

theorem http_first : http.Follows firstProtocol (fun v y => ∃ p, v = .ok p ∧ y = .ready p) .rest := by
  refine .bind (.atom fun s hs => ?_)
  show ∃ y, ((SStage.rest ≠ .out ∧ y ≠ .out) ∧ y.Ok s.2) ∧ Follows firstProtocol _ (if s.2.http.isNone then _ else _) y
  rcases hs with hs | ⟨p, hs⟩
  · refine ⟨.seen, ⟨⟨nofun, nofun⟩, hs⟩, ?_⟩
    rw [hs.http]
    refine .bind (.atom fun s hs => ⟨.made s.2.pools, ⟨⟨nofun, nofun⟩, hs.http, hs.finalizers, ?_, fun e he q hq => ?_⟩, ?_⟩)
    · exact List.mem_append_right _ (List.mem_singleton.mpr rfl)
    · rcases List.mem_append.mp he with he | he
      · rw [hs.log e he] at hq; cases hq
      · rw [List.mem_singleton.mp he] at hq ⊢; cases hq; exact ⟨rfl, nofun⟩
    · show Follows firstProtocol _ (web (WebT.setHttp s.2.pools) >>= _) _
      generalize s.2.pools = p
      refine .bind (.atom fun t ht => ⟨.set p, ⟨⟨nofun, nofun⟩, rfl, ht.2.1, ht.2.2⟩, ?_⟩)
      refine .bind (.atom fun t ht => ⟨.set p, ⟨⟨nofun, nofun⟩, ht⟩, ?_⟩)
      have : t.2.http = some p := ht.1
      show Follows firstProtocol _ (web (WebT.register (t.2.http.getD 0)) >>= _) _
      rw [this]
      refine .bind (.atom fun t ht => ⟨.ready p, ⟨⟨nofun, nofun⟩, ht.1, ?_, ht.2.2⟩, ?_⟩)
      · show t.2.finalizers ++ [p] = [p]
        rw [ht.2.1]
        rfl
      · refine .bind (.atom fun t ht => ⟨.ready p, ⟨⟨nofun, nofun⟩, ht⟩, ?_⟩)
        exact ⟨p, by show Except.ok (t.2.http.getD 0) = _; rw [(ht : InUse p t.2).http]; rfl, rfl⟩
  · refine ⟨.ready p, ⟨⟨nofun, nofun⟩, hs⟩, ?_⟩
    rw [hs.http]
    refine .bind (.atom fun t ht => ⟨.ready p, ⟨⟨nofun, nofun⟩, ht⟩, ?_⟩)
    exact ⟨p, by show Except.ok (t.2.http.getD 0) = _; rw [(ht : InUse p t.2).http]; rfl, rfl⟩

theorem request_first (env : HEnv) (r : Req) : (request env r).Follows firstProtocol (fun _ y => y = .rest) .rest := by
  refine .bind (http_first.mono fun v y hv => ?_)
  obtain ⟨p, rfl, rfl⟩ := hv
  have finish : ∀ (s t : (HMProc × HNet) × WebT), InUse p t.2 → firstProtocol.T (.ready p) s t .rest := fun s t h => ⟨⟨nofun, nofun⟩, .inr ⟨p, h⟩⟩
  have on : ∀ (s t : (HMProc × HNet) × WebT), InUse p t.2 → firstProtocol.T (.ready p) s t (.ready p) := fun s t h => ⟨⟨nofun, nofun⟩, h⟩
  refine .bind (.atom fun s hs => ?_)
  have ha := InUse.asked (s := (s.1.2, s.2)) hs env r
  show ∃ y, firstProtocol.T (.ready p) s ((s.1.1, (WebT.request env p r (s.1.2, s.2)).2.1), (WebT.request env p r (s.1.2, s.2)).2.2) y ∧
    Follows _ _ (match (WebT.request env p r (s.1.2, s.2)).1 with
      | .error e => (pure (.error e) : WMProg (Except Exc Resp))
      | .ok (resp, n) => do
        block r resp n
        return .ok resp) y
  split
  · exact ⟨.rest, finish _ _ ha, rfl⟩
  · rename_i resp n _
    refine ⟨.ready p, on _ _ ha, .bind (.mono (Q := fun _ y => y = .rest) ?_ fun v y hy => by subst hy; cases v <;> rfl)⟩
    have back : (do web (WebT.note (.released n)); web (WebT.note (.closed n)) : WMProg Unit).Follows firstProtocol (fun _ y => y = .rest) (.ready p) :=
      .bind (.atom fun t ht => ⟨.ready p, on _ _ (InUse.note ht (.released n) nofun rfl rfl rfl),
        .atom fun u hu => ⟨.rest, finish _ _ (InUse.note hu (.closed n) nofun rfl rfl rfl), rfl⟩⟩)
    unfold block
    split
    · exact .bind (.atom fun t ht => ⟨.ready p, on _ _ (InUse.note ht (.read n) nofun rfl rfl rfl), back⟩)
    · exact back

end WMThr

theorem web_first (env : HEnv) {α : Type} (g : HMixed α) : (g.web env).Follows firstProtocol (fun _ y => y = .rest) .rest := by
  induction g with
  | ret a => rfl
  | raise e => rfl
  | act f k ih => exact fun s hs => ⟨.rest, ⟨⟨nofun, nofun⟩, hs⟩, ih s.1.1⟩
  | acq l w k ih => exact ih
  | rel l w k ih => exact ih
  | ask r k ih =>
    refine .bind ((WMThr.request_first env r).mono fun v y hy => ?_)
    subst hy
    cases v with
    | ok x => exact ih x
    | error e => rfl

/-- Between the calls of the only thread the mirror has no pool, or one. -/
theorem exec_first {env : HEnv} {ok : Nat → HMCall → Prop} (hok : ∀ i c, ok i c → i = 0) {s : HMProc × HNet} {w : WebT} (hw : NoPool w)
    {tr : List (Ev HMCall HMRet)} {κ : Conf ((HMProc × HNet) × WebT) Nat Unit HMCall HMRet}
    (h : Exec (webMirrorThreads env ok) (init (s, w) fun _ => ()) tr κ) (hi : κ.cur 0 = none) :
    NoPool κ.st.2 ∨ ∃ p, InUse p κ.st.2 := by
  obtain ⟨a, h1, h2, _, h3, _⟩ := exec_follows (P := fun _ => firstProtocol) (Idle := fun i x => if i = 0 then x = .rest else x = .out)
    (J := fun _ _ _ => True) (M := fun _ _ _ => True) (Inv := fun a _ => ∀ j, j ≠ 0 → a j = .out) (a0 := fun i => if i = 0 then .rest else .out)
    (fun a s t i y hok hI hT => by
      have hi : i = 0 := Classical.byContradiction fun h => hT.1.1 (hI i h)
      subst hi
      refine ⟨fun j => ?_, fun j hj => by rw [upd_other _ _ hj]; exact hI j hj⟩
      by_cases e : j = 0
      · subst e; rw [upd_same]; exact hT.2
      · rw [upd_other _ _ e, hI j e]; trivial)
    (fun _ _ _ _ _ _ _ _ _ => trivial) (fun _ _ _ _ => trivial)
    (fun i o c _ x hc hx _ => by
      have := hok i c hc
      subst this
      rw [if_pos rfl] at hx
      subst hx
      refine Follows.free (Follows.bind ((web_first env (HMixed.prog c)).mono fun v y hy => ?_))
      subst hy
      cases v with
      | ok x => exact fun r' o' _ => ⟨by rw [if_pos rfl], trivial⟩
      | error e => exact nofun)
    (fun i => by
      by_cases e : i = 0
      · rw [if_pos e]; exact .inl hw
      · rw [if_neg e]; trivial)
    (fun i => by
      by_cases e : i = 0
      · rw [if_pos e, if_pos e]
      · rw [if_neg e, if_neg e])
    (fun _ => trivial) (fun j hj => if_neg hj) h
  have h4 := (h3 0 hi).1
  rw [if_pos rfl] at h4
  have h5 := h1 0
  rw [h4] at h5
  exact h5

end SyncStream
