import Verif.Lemmas.Protocol
import Verif.Model.WebThreads
import Verif.Spec.WebThreads
/-!
# Responses and pools among threads

A thread has at most one response open at a time (`RStage`), and only it does something with this response.
-/

namespace SyncStream
open Conc Spec Prog

theorem Prog.Follows.free {σ L K α : Type} {P : Protocol σ K} {Q : Except Exc α → K → Prop} {p : Prog σ L α} {x : K} (h : p.Follows P Q x) :
    p.Follows (P.only fun _ => True) Q x := by
  induction p generalizing x with
  | ret a => exact h
  | raise e => exact h
  | act f k ih =>
    intro s hs
    obtain ⟨y, h1, h2⟩ := h s hs
    exact ⟨y, ⟨h1, trivial⟩, ih s h2⟩
  | acq l w k ih => exact ih h
  | rel l w k ih => exact ih h

/-- All threads follow one protocol and are at the stage `x0` between their calls. -/
theorem exec_protocol {σ L O C R K : Type} [DecidableEq L] {sys : Sys σ L O C R} {P : Protocol σ K} {Inv : (Nat → K) → σ → Prop} {x0 : K}
    (hT : ∀ (a : Nat → K) s t i y, (∀ j, P.Ok (a j) s) → Inv a s → P.T (a i) s t y → (∀ j, P.Ok (upd a i y j) t) ∧ Inv (upd a i y) t)
    (hcall : ∀ i o c, sys.ok i c → (sys.call i o c).Follows P (fun r y => ∀ v, r = .ok v → y = x0) x0)
    {s0 : σ} {obj : Nat → O} (h0 : P.Ok x0 s0) (hI : Inv (fun _ => x0) s0) {tr : List (Ev C R)} {κ : Conf σ L O C R}
    (h : Exec sys (init s0 obj) tr κ) :
    ∃ a : Nat → K, (∀ i, P.Ok (a i) κ.st) ∧ Inv a κ.st ∧ ∀ i, κ.cur i = none → a i = x0 := by
  obtain ⟨a, h1, h2, _, h3, _⟩ := exec_follows (P := fun _ => P) (Idle := fun _ x => x = x0) (J := fun _ _ _ => True)
    (M := fun _ _ _ => True) (Inv := Inv) hT (fun _ _ _ _ _ _ _ _ _ => trivial) (fun _ _ _ _ => trivial)
    (fun i o c _ x hok hx _ => by
      subst hx
      exact ((hcall i o c hok).mono fun r y hy r' o' e => ⟨hy _ e, trivial⟩).free)
    (a0 := fun _ => x0) (fun _ => h0) (fun _ => rfl) (fun _ => trivial) hI h
  exact ⟨a, h1, h2, fun i hi => (h3 i hi).1⟩

/-! ## Responses -/

/-- No response; one that has just come, has been read, has been released. -/
inductive RStage where
  | none
  | fresh (r : Nat)
  | got (r : Nat)
  | back (r : Nat)

/-- The response of a thread. -/
def RStage.resp : RStage → Option Nat
  | .none => Option.none
  | .fresh r => some r
  | .got r => some r
  | .back r => some r

/-- What a thread may do; with `must` it reads every response. -/
inductive RMove (must : Prop) : RStage → WebT → WebT → RStage → Prop
  | quiet (x : RStage) (w w' : WebT) (es : List WebEv) : (∀ e ∈ es, respOf e = none) → w'.log = w.log ++ es → w'.resps = w.resps →
      RMove must x w w' x
  | opened (w w' : WebT) (p st : Nat) : w'.log = w.log ++ [.opened w.resps p st] → w'.resps = w.resps + 1 → RMove must .none w w' (.fresh w.resps)
  | read (w w' : WebT) (r : Nat) : w'.log = w.log ++ [.read r] → w'.resps = w.resps → RMove must (.fresh r) w w' (.got r)
  | unread (w w' : WebT) (r : Nat) : ¬must → w'.log = w.log ++ [.released r] → w'.resps = w.resps → RMove must (.fresh r) w w' (.back r)
  | released (w w' : WebT) (r : Nat) : w'.log = w.log ++ [.released r] → w'.resps = w.resps → RMove must (.got r) w w' (.back r)
  | closed (w w' : WebT) (r : Nat) : w'.log = w.log ++ [.closed r] → w'.resps = w.resps → RMove must (.back r) w w' .none

/-- What is known of the response of a thread. -/
def RStage.Ok (must : Prop) (log : List WebEv) : RStage → Prop
  | .none => True
  | .fresh r => ∃ p st, aboutResp r log = [.opened r p st]
  | .got r => ∃ p st, aboutResp r log = [.opened r p st, .read r]
  | .back r => ∃ p st, (¬must ∧ aboutResp r log = [.opened r p st, .released r]) ∨ aboutResp r log = [.opened r p st, .read r, .released r]

/-- What has become of a response that no thread has. -/
def Gone (must : Prop) (r : Nat) (log : List WebEv) : Prop :=
  ∃ p st, (¬must ∧ aboutResp r log = [.opened r p st, .released r, .closed r]) ∨ aboutResp r log = [.opened r p st, .read r, .released r, .closed r]

/-- The protocol of a thread; `web` is the part of the state that it is about. -/
def respProtocol {σ : Type} (web : σ → WebT) (must : Prop) : Protocol σ RStage where
  Ok x s := x.Ok must (web s).log
  T x s t y := RMove must x (web s) (web t) y

/-- What happened to the object (response or pool) with the number `n`. -/
def about (key : WebEv → Option Nat) (n : Nat) (log : List WebEv) : List WebEv := log.filter fun e => key e == some n

/-- Objects that belong to threads, one to a thread at most: `has` is the one of a thread, `Fin` holds of those that belong to no one;
`n` have been made. -/
structure Owned {K : Type} (key : WebEv → Option Nat) (has : K → Option Nat) (Fin : Nat → List WebEv → Prop) (a : Nat → K) (n : Nat)
    (log : List WebEv) : Prop where
  lt : ∀ e ∈ log, ∀ r, key e = some r → r < n
  apart : ∀ i j r, has (a i) = some r → has (a j) = some r → i = j
  own : ∀ i r, has (a i) = some r → r < n
  gone : ∀ r, r < n → (∀ i, has (a i) ≠ some r) → Fin r log

section
variable {K : Type} {key : WebEv → Option Nat} {has : K → Option Nat} {Fin : Nat → List WebEv → Prop} {Ok : K → List WebEv → Prop}

theorem about_append (r : Nat) (l m : List WebEv) : about key r (l ++ m) = about key r l ++ about key r m := List.filter_append ..

theorem about_quiet {r : Nat} {m : List WebEv} (h : ∀ e ∈ m, key e ≠ some r) : about key r m = [] :=
  List.filter_eq_nil_iff.mpr fun e he => by simpa using h e he

theorem about_one {r : Nat} {e : WebEv} (h : key e = some r) : about key r [e] = [e] :=
  List.filter_eq_self.mpr fun e' he => by rw [List.mem_singleton.mp he, h]; exact beq_self_eq_true _

theorem owned_nil {x : K} (h : has x = none) : Owned key has Fin (fun _ => x) 0 [] :=
  ⟨fun e he => (List.not_mem_nil he).elim, (fun _ _ r hr => by rw [h] at hr; cases hr), (fun _ r hr => by rw [h] at hr; cases hr),
    fun _ hr => (Nat.not_lt_zero _ hr).elim⟩

/-- A thread that goes on with its object `r` (or gets it, or gives it up). -/
theorem own_step (hmono : ∀ x l l', Ok x l → l <+: l' → (∀ r, has x = some r → about key r l' = about key r l) → Ok x l')
    (hfin : ∀ r l l', Fin r l → about key r l' = about key r l → Fin r l')
    {a : Nat → K} {n n' : Nat} {log log' : List WebEv} {i : Nat} {y : K} {es : List WebEv} {r : Nat}
    (hok : ∀ j, Ok (a j) log) (hI : Owned key has Fin a n log) (hl : log' = log ++ es) (hes : ∀ e ∈ es, ∀ q, key e = some q → q = r)
    (hr : n ≤ n') (hn : ∀ q, q < n' → q < n ∨ q = r) (hw : r < n')
    (hx : has (a i) = some r ∨ has (a i) = none ∧ r = n) (hy : has y = some r ∨ has y = none)
    (hyo : Ok y log') (hg : has y = none → Fin r log') :
    (∀ j, Ok (upd a i y j) log') ∧ Owned key has Fin (upd a i y) n' log' := by
  have same : ∀ q, q ≠ r → about key q log' = about key q log := fun q hq => by
    rw [hl, about_append, about_quiet (m := es) fun e he h => hq (hes e he q h), List.append_nil]
  have other : ∀ j, j ≠ i → has (a j) ≠ some r := fun j hj h => by
    rcases hx with hx | ⟨_, hx⟩
    · exact hj (hI.apart j i r h hx)
    · exact Nat.lt_irrefl _ (hx ▸ hI.own j r h)
  refine ⟨fun j => ?_, ⟨fun e he q hq => ?_, fun j k q hj hk => ?_, fun j q hj => ?_, fun q hq hno => ?_⟩⟩
  · by_cases e : j = i
    · subst e; rw [upd_same]; exact hyo
    · rw [upd_other _ _ e]
      exact hmono _ _ _ (hok j) ⟨es, hl.symm⟩ fun q hq => same q fun h => other j e (h ▸ hq)
  · rw [hl] at he
    rcases List.mem_append.mp he with he | he
    · exact Nat.lt_of_lt_of_le (hI.lt e he q hq) hr
    · exact hes e he q hq ▸ hw
  · have key : ∀ j k, has (upd a i y j) = some q → has (upd a i y k) = some q → j = i → k = i := fun j k hj hk e => by
      subst e
      rw [upd_same] at hj
      by_cases e' : k = j
      · exact e'
      · rw [upd_other _ _ e'] at hk
        rcases hy with hy | hy <;> rw [hy] at hj <;> cases hj
        exact absurd hk (other k e')
    by_cases e : j = i
    · rw [e, key j k hj hk e]
    · by_cases e' : k = i
      · rw [e', key k j hk hj e']
      · rw [upd_other _ _ e] at hj
        rw [upd_other _ _ e'] at hk
        exact hI.apart j k q hj hk
  · by_cases e : j = i
    · subst e
      rw [upd_same] at hj
      rcases hy with hy | hy <;> rw [hy] at hj <;> cases hj
      exact hw
    · rw [upd_other _ _ e] at hj
      exact Nat.lt_of_lt_of_le (hI.own j q hj) hr
  · by_cases e : q = r
    · subst e
      refine hg ?_
      rcases hy with hy | hy
      · exact absurd hy (by have := hno i; rwa [upd_same] at this)
      · exact hy
    · refine hfin _ _ _ (hI.gone q ((hn q hq).resolve_right e) fun j hj => ?_) (same q e)
      by_cases e' : j = i
      · subst e'
        rcases hx with hx | ⟨hx, _⟩ <;> rw [hx] at hj <;> cases hj
        exact e rfl
      · exact hno j (by rw [upd_other _ _ e']; exact hj)

/-- Something else happens. -/
theorem own_quiet (hmono : ∀ x l l', Ok x l → l <+: l' → (∀ r, has x = some r → about key r l' = about key r l) → Ok x l')
    (hfin : ∀ r l l', Fin r l → about key r l' = about key r l → Fin r l')
    {a : Nat → K} {n n' : Nat} {log log' : List WebEv} {i : Nat} {y : K} {es : List WebEv}
    (hok : ∀ j, Ok (a j) log) (hI : Owned key has Fin a n log) (hl : log' = log ++ es) (hes : ∀ e ∈ es, key e = none) (hn : n' = n)
    (hy : has y = has (a i)) (hyo : Ok y log') :
    (∀ j, Ok (upd a i y j) log') ∧ Owned key has Fin (upd a i y) n' log' := by
  subst hn
  have same : ∀ q, about key q log' = about key q log := fun q => by
    rw [hl, about_append, about_quiet (m := es) fun e he h => (by rw [hes e he] at h; cases h), List.append_nil]
  have hu : ∀ j, has (upd a i y j) = has (a j) := fun j => by
    by_cases e : j = i
    · subst e; rw [upd_same, hy]
    · rw [upd_other _ _ e]
  refine ⟨fun j => ?_, ⟨fun e he q hq => ?_, fun j k q hj hk => ?_, fun j q hj => ?_, fun q hq hno => ?_⟩⟩
  · by_cases e : j = i
    · subst e; rw [upd_same]; exact hyo
    · rw [upd_other _ _ e]
      exact hmono _ _ _ (hok j) ⟨es, hl.symm⟩ fun q _ => same q
  · rw [hl] at he
    rcases List.mem_append.mp he with he | he
    · exact hI.lt e he q hq
    · rw [hes e he] at hq; cases hq
  · rw [hu] at hj hk; exact hI.apart j k q hj hk
  · rw [hu] at hj; exact hI.own j q hj
  · exact hfin _ _ _ (hI.gone q hq fun j hj => hno j (by rw [hu]; exact hj)) (same q)

end

/-- What holds of all responses. -/
abbrev RespInv (must : Prop) (a : Nat → RStage) (w : WebT) : Prop := Owned respOf RStage.resp (Gone must) a w.resps w.log

theorem RStage.Ok.about {must : Prop} (x : RStage) (l l' : List WebEv) (h : x.Ok must l) (_ : l <+: l')
    (e : ∀ r, x.resp = some r → about respOf r l' = about respOf r l) : x.Ok must l' := by
  have e' : ∀ r, x.resp = some r → aboutResp r l' = aboutResp r l := e
  cases x with
  | none => trivial
  | fresh r => simp only [RStage.Ok, e' r rfl] at h ⊢; exact h
  | got r => simp only [RStage.Ok, e' r rfl] at h ⊢; exact h
  | back r => simp only [RStage.Ok, e' r rfl] at h ⊢; exact h

theorem Gone.about {must : Prop} (r : Nat) (l l' : List WebEv) (h : Gone must r l) (e : about respOf r l' = about respOf r l) : Gone must r l' := by
  have e' : aboutResp r l' = aboutResp r l := e
  unfold Gone at h ⊢
  rw [e']
  exact h

theorem aboutResp_snoc {r : Nat} {l l' : List WebEv} {e : WebEv} (h : l' = l ++ [e]) (he : respOf e = some r) :
    aboutResp r l' = aboutResp r l ++ [e] := by
  show about respOf r l' = about respOf r l ++ [e]
  rw [h, about_append, about_one he]

theorem resp_keeps {must : Prop} {a : Nat → RStage} {w w' : WebT} {i : Nat} {y : RStage} (hok : ∀ j, (a j).Ok must w.log)
    (hI : RespInv must a w) (h : RMove must (a i) w w' y) : (∀ j, (upd a i y j).Ok must w'.log) ∧ RespInv must (upd a i y) w' := by
  generalize hx : a i = x at h
  have hoki := hok i
  rw [hx] at hoki
  have step := fun (r : Nat) (e : WebEv) => own_step (Ok := fun x l => RStage.Ok must l x) (Fin := Gone must) (y := y) (i := i) (es := [e]) (r := r) (log' := w'.log)
    (n' := w'.resps) RStage.Ok.about Gone.about hok hI
  have sole : ∀ {r : Nat} {e : WebEv}, respOf e = some r → ∀ e' ∈ [e], ∀ q, respOf e' = some q → q = r := fun h e' he q hq => by
    rw [List.mem_singleton.mp he, h] at hq; cases hq; rfl
  cases h with
  | quiet _ _ _ es h1 h2 h3 =>
    refine own_quiet (Ok := fun x l => RStage.Ok must l x) RStage.Ok.about Gone.about hok hI h2 h1 h3 (by rw [hx]) ?_
    refine RStage.Ok.about _ _ _ hoki ⟨es, h2.symm⟩ fun q _ => ?_
    rw [h2, about_append, about_quiet (m := es) fun e he h => (by rw [h1 e he] at h; cases h), List.append_nil]
  | opened _ _ p st h2 h3 =>
    refine step w.resps _ h2 (sole rfl) (by omega) (fun q hq => by omega) (by omega) (.inr ⟨by rw [hx]; rfl, rfl⟩) (.inl rfl) ⟨p, st, ?_⟩ nofun
    rw [aboutResp_snoc h2 rfl, show aboutResp w.resps w.log = [] from about_quiet fun e he h => Nat.lt_irrefl _ (hI.lt e he _ h)]
    rfl
  | read _ _ r h2 h3 =>
    obtain ⟨p, st, h4⟩ := hoki
    have hr := hI.own i r (by rw [hx]; rfl)
    exact step r _ h2 (sole rfl) (by omega) (fun q hq => by omega) (by omega) (.inl (by rw [hx]; rfl)) (.inl rfl)
      ⟨p, st, by rw [aboutResp_snoc h2 rfl, h4]; rfl⟩ nofun
  | unread _ _ r h1 h2 h3 =>
    obtain ⟨p, st, h4⟩ := hoki
    have hr := hI.own i r (by rw [hx]; rfl)
    exact step r _ h2 (sole rfl) (by omega) (fun q hq => by omega) (by omega) (.inl (by rw [hx]; rfl)) (.inl rfl)
      ⟨p, st, .inl ⟨h1, by rw [aboutResp_snoc h2 rfl, h4]; rfl⟩⟩ nofun
  | released _ _ r h2 h3 =>
    obtain ⟨p, st, h4⟩ := hoki
    have hr := hI.own i r (by rw [hx]; rfl)
    exact step r _ h2 (sole rfl) (by omega) (fun q hq => by omega) (by omega) (.inl (by rw [hx]; rfl)) (.inl rfl)
      ⟨p, st, .inr (by rw [aboutResp_snoc h2 rfl, h4]; rfl)⟩ nofun
  | closed _ _ r h2 h3 =>
    obtain ⟨p, st, h4⟩ := hoki
    have hr := hI.own i r (by rw [hx]; rfl)
    refine step r _ h2 (sole rfl) (by omega) (fun q hq => by omega) (by omega) (.inl (by rw [hx]; rfl)) (.inr rfl) trivial fun _ =>
      ⟨p, st, h4.imp (fun h => ⟨h.1, ?_⟩) fun h => ?_⟩
    · rw [aboutResp_snoc h2 rfl, h.2]; rfl
    · rw [aboutResp_snoc h2 rfl, h]; rfl

/-- In every race the responses that have not been given back belong to running calls, one to a call at most. -/
theorem exec_responses {σ L O C R : Type} [DecidableEq L] {sys : Sys σ L O C R} {web : σ → WebT} {must : Prop}
    (hcall : ∀ i o c, sys.ok i c → (sys.call i o c).Follows (respProtocol web must) (fun r y => ∀ v, r = .ok v → y = .none) .none)
    {s0 : σ} {obj : Nat → O} (h0 : RespInv must (fun _ => .none) (web s0)) {tr : List (Ev C R)} {κ : Conf σ L O C R}
    (h : Exec sys (init s0 obj) tr κ) :
    ∃ own : Nat → Option Nat, (∀ i, κ.cur i = none → own i = none) ∧ (∀ i j r, own i = some r → own j = some r → i = j) ∧
      ∀ e ∈ (web κ.st).log, ∀ r, respOf e = some r → Gone must r (web κ.st).log ∨ ∃ i, own i = some r := by
  obtain ⟨a, _, h2, h3⟩ := exec_protocol (P := respProtocol web must) (Inv := fun a s => RespInv must a (web s)) (x0 := .none)
    (fun a s t i y hok hI hT => resp_keeps hok hI hT) hcall trivial h0 h
  refine ⟨fun i => (a i).resp, fun i hi => by dsimp only; rw [h3 i hi]; rfl, h2.apart, fun e he r hr => ?_⟩
  by_cases hc : ∃ i, (a i).resp = some r
  · exact .inr hc
  · exact .inl (h2.gone r (h2.lt e he r hr) fun i hi => hc ⟨i, hi⟩)

/-! ### The methods of a mirror -/

/-- A step that has nothing to do with responses. -/
def NoResp {σ : Type} (web : σ → WebT) (s t : σ) : Prop :=
  ∃ es, (∀ e ∈ es, respOf e = none) ∧ (web t).log = (web s).log ++ es ∧ (web t).resps = (web s).resps

theorem NoResp.move {σ : Type} {web : σ → WebT} {must : Prop} {x : RStage} (s t : σ) (_ : (respProtocol web must).Ok x s) (h : NoResp web s t) :
    (respProtocol web must).T x s t x := by
  obtain ⟨es, h1, h2, h3⟩ := h
  exact .quiet _ _ _ es h1 h2 h3

namespace WMThr

theorem http_guar : http.Guar (NoResp (·.2)) := by
  have look : ∀ s : (HMProc × HNet) × WebT, NoResp (·.2) s s := fun s => ⟨[], nofun, (List.append_nil _).symm, rfl⟩
  refine .bind (.atom fun s => look s) fun o => ?_
  cases o with
  | none =>
    refine .bind (.atom fun s => ⟨[.made s.2.pools], fun e he => by rw [List.mem_singleton.mp he]; rfl, rfl, rfl⟩) fun p => ?_
    refine .bind (.atom fun s => ⟨[], nofun, (List.append_nil _).symm, rfl⟩) fun _ => ?_
    refine .bind (.atom fun s => look s) fun q => ?_
    refine .bind (.atom fun s => ⟨[], nofun, (List.append_nil _).symm, rfl⟩) fun _ => ?_
    exact .bind (.atom fun s => look s) fun _ => trivial
  | some p => exact .bind (.atom fun s => look s) fun _ => trivial

theorem block_follows (r : Req) (resp : Resp) (n : Nat) :
    (block r resp n).Follows (respProtocol (·.2) False) (fun _ y => y = .none) (.fresh n) := by
  have back : ∀ x : RStage, (x = .fresh n ∨ x = .got n) →
      (do web (WebT.note (.released n)); web (WebT.note (.closed n)) : WMProg Unit).Follows (respProtocol (·.2) False) (fun _ y => y = .none) x := by
    rintro x hx
    refine .bind (.atom fun s _ => ⟨.back n, ?_, .atom fun t _ => ⟨.none, .closed _ _ n rfl rfl, rfl⟩⟩)
    rcases hx with rfl | rfl
    · exact .unread _ _ n id rfl rfl
    · exact .released _ _ n rfl rfl
  unfold block
  split
  · exact .bind (.atom fun s _ => ⟨.got n, .read _ _ n rfl rfl, back _ (.inr rfl)⟩)
  · exact back _ (.inl rfl)

theorem request_follows (env : HEnv) (r : Req) :
    (request env r).Follows (respProtocol (·.2) False) (fun _ y => y = .none) .none := by
  refine .quiet_bind NoResp.move http_guar (fun p => ?_) fun _ => rfl
  refine .bind (.atom fun s _ => ?_)
  show ∃ y, RMove False .none s.2 (WebT.request env p r (s.1.2, s.2)).2.2 y ∧ Follows _ _ (match (WebT.request env p r (s.1.2, s.2)).1 with
    | .error e => (pure (.error e) : WMProg (Except Exc Resp))
    | .ok (resp, n) => do
      block r resp n
      return .ok resp) y
  unfold WebT.request
  rcases HNet.request env r s.1.2 with ⟨_ | resp, n⟩
  · exact ⟨.none, .quiet _ _ _ [] nofun (List.append_nil _).symm rfl, rfl⟩
  · exact ⟨.fresh s.2.resps, .opened _ _ p resp.status rfl rfl, .bind ((block_follows r resp _).mono fun v y hy => by cases v <;> exact hy)⟩

end WMThr

theorem web_follows (env : HEnv) {α : Type} (g : HMixed α) :
    (g.web env).Follows (respProtocol (·.2) False) (fun _ y => y = .none) .none := by
  induction g with
  | ret a => rfl
  | raise e => rfl
  | act f k ih => exact fun s _ => ⟨.none, .quiet _ _ _ [] nofun (List.append_nil _).symm rfl, ih s.1.1⟩
  | acq l w k ih => exact ih
  | rel l w k ih => exact ih
  | ask r k ih =>
    refine .bind ((WMThr.request_follows env r).mono fun v y hy => ?_)
    subst hy
    cases v with
    | ok x => exact ih x
    | error e => rfl

/-! ### The methods of a reader -/

namespace WRThr

theorem look (s : RProc) : NoResp (·.web) s s := ⟨[], nofun, (List.append_nil _).symm, rfl⟩

theorem enter_guar : enter.Guar (NoResp (·.web)) := by
  refine .bind (.atom look) fun o => ?_
  cases o with
  | none =>
    refine .bind (.atom fun s => ⟨[.made s.web.pools], fun e he => by rw [List.mem_singleton.mp he]; rfl, rfl, rfl⟩) fun p => ?_
    refine .bind (.atom fun s => ⟨[], nofun, (List.append_nil _).symm, rfl⟩) fun _ => ?_
    exact .bind (.atom look) fun n => .atom fun s => ⟨[], nofun, (List.append_nil _).symm, rfl⟩
  | some p => trivial

theorem leave_guar : leave.Guar (NoResp (·.web)) := by
  refine .bind (.atom look) fun n => .ite ?_ trivial
  refine .bind (.atom look) fun o => .ite ?_ trivial
  exact .bind (.atom look) fun p => .atom fun s => ⟨[.cleared (p.getD 0)], fun e he => by rw [List.mem_singleton.mp he]; rfl, rfl, rfl⟩

theorem exit_guar : exit.Guar (NoResp (·.web)) := by
  refine .bind (.atom look) fun n => .ite ?_ leave_guar
  refine .bind (.atom look) fun n => ?_
  exact .bind (.atom fun s => ⟨[], nofun, (List.append_nil _).symm, rfl⟩) fun _ => leave_guar

theorem request_follows (env : HEnv) (p : Nat) (c : RdCall) :
    (request env p c).Follows (respProtocol (·.web) True) (fun _ y => y = .none) .none := by
  refine .bind (.atom fun s _ => ?_)
  show ∃ y, RMove True .none s.web (WebT.request env p c.req (s.net, s.web)).2.2 y ∧
    Follows _ _ (match (WebT.request env p c.req (s.net, s.web)).1 with
    | .error e => pure (c.answer (.error e))
    | .ok (resp, n) => do
      web (WebT.note (.read n))
      web (WebT.note (.released n))
      web (WebT.note (.closed n))
      return c.answer (.ok resp)) y
  unfold WebT.request
  rcases HNet.request env c.req s.net with ⟨_ | resp, n⟩
  · exact ⟨.none, .quiet _ _ _ [] nofun (List.append_nil _).symm rfl, rfl⟩
  · refine ⟨.fresh s.web.resps, .opened _ _ p resp.status rfl rfl, ?_⟩
    refine .bind (.atom fun _ _ => ⟨.got _, .read _ _ _ rfl rfl, ?_⟩)
    refine .bind (.atom fun _ _ => ⟨.back _, .released _ _ _ rfl rfl, ?_⟩)
    exact .bind (.atom fun _ _ => ⟨.none, .closed _ _ _ rfl rfl, rfl⟩)

theorem call_follows (env : HEnv) (c : RdCall) :
    (call env c).Follows (respProtocol (·.web) True) (fun _ y => y = .none) .none := by
  refine .quiet_bind NoResp.move (.atom look) (fun o => ?_) fun _ => rfl
  cases o with
  | some p => exact .quiet_bind NoResp.move (.atom look) (fun q => request_follows env _ c) fun _ => rfl
  | none =>
    refine .quiet_bind NoResp.move (.atom fun s => ⟨[.made s.web.pools], fun e he => by rw [List.mem_singleton.mp he]; rfl, rfl, rfl⟩)
      (fun p => .bind ((request_follows env p c).mono fun v y hy => ?_)) fun _ => rfl
    subst hy
    cases v with
    | ok x =>
      exact .quiet_bind NoResp.move (.atom fun s => ⟨[.cleared p], fun e he => by rw [List.mem_singleton.mp he]; rfl, rfl, rfl⟩)
        (fun _ => rfl) fun _ => rfl
    | error e => rfl

theorem prog_follows (env : HEnv) (c : WTCall) :
    (prog env c).Follows (respProtocol (·.web) True) (fun _ y => y = .none) .none := by
  cases c with
  | enter => exact .quiet_bind NoResp.move enter_guar (fun _ => rfl) fun _ => rfl
  | exit => exact .quiet_bind NoResp.move exit_guar (fun _ => rfl) fun _ => rfl
  | call c => exact .bind ((call_follows env c).mono fun v y hy => by subst hy; cases v <;> rfl)

end WRThr

end SyncStream
