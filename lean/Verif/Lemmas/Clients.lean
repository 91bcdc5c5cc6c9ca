import Verif.Spec.Observe
import Verif.Spec.Clients
import Verif.Lemmas.Conc
/-!
# Clients of a linearizable service

The operations of the service take their steps one by one, but the clients notice nothing of that: every execution has a history in which each
operation is performed in one moment.
-/

namespace SyncStream
open Conc Spec

section Histories
variable {C' R' C R O α A : Type}

theorem seen_append (h h' : List (HEvent C' R' C R)) : seen (h ++ h') = seen h ++ seen h' := by
  induction h with
  | nil => rfl
  | cons e h ih => cases e <;> simp [seen, ih]

theorem opsOf_append (h h' : List (HEvent C' R' C R)) : opsOf (h ++ h') = opsOf h ++ opsOf h' := by
  induction h with
  | nil => rfl
  | cons e h ih => cases e <;> simp [opsOf, ih]

theorem own_append (i : Nat) (h h' : List (HEvent C' R' C R)) : own i (h ++ h') = own i h ++ own i h' := List.filter_append ..

theorem own_same {i : Nat} {e : HEvent C' R' C R} (h : e.who = i) : own i [e] = [e] := by simp [own, h]

theorem own_other {i : Nat} {e : HEvent C' R' C R} (h : e.who ≠ i) : own i [e] = [] := by simp [own, h]

theorem Spec.Serves.append {act : A → Nat → C → R → A → Prop} {s t u : A} {l l' : List (Nat × C × R)} (h : Serves act s l t) (h' : Serves act t l' u) :
    Serves act s (l ++ l') u := by
  induction h with
  | nil => exact h'
  | cons s t u i q a l h1 _ ih => exact .cons _ _ _ _ _ _ _ h1 (ih h')

theorem Spec.Asks.append {q q1 q2 : Ask C R α} {l l' : List (C × R)} (h : Asks q l q1) (h' : Asks q1 l' q2) : Asks q (l ++ l') q2 := by
  induction h with
  | nil => exact h'
  | cons c r k l q' _ ih => exact .cons _ _ _ _ _ (ih h')

variable {cl : O → C' → Ask C R (R' × O)} {i : Nat} {o o' : O} {h : List (HEvent C' R' C R)}

theorem Spec.ClientRun.inv (hr : ClientRun cl i o h o' none) (c : C') : ClientRun cl i o (h ++ [.inv i c]) o' (some (c, cl o' c)) := by
  generalize hn : (none : Option (C' × Ask C R (R' × O))) = x at hr
  induction hr with
  | nil o => exact .within o c [] _ (.nil _)
  | call o o1 o' c1 l r h rest h1 h2 ih =>
    have := ClientRun.call o o1 o' c1 l r _ _ h1 (ih hn)
    simpa using this
  | within => cases hn

theorem Spec.ClientRun.op {c : C'} {q : C} {k : R → Ask C R (R' × O)} (hr : ClientRun cl i o h o' (some (c, .ask q k))) (a : R) :
    ClientRun cl i o (h ++ [.op i q a]) o' (some (c, k a)) := by
  generalize hn : (some (c, .ask q k) : Option (C' × Ask C R (R' × O))) = x at hr
  induction hr with
  | nil => cases hn
  | call o o1 o' c1 l r h rest h1 h2 ih =>
    have := ClientRun.call o o1 o' c1 l r _ _ h1 (ih hn)
    simpa using this
  | within o c l q h1 =>
    cases hn
    have := ClientRun.within (i := i) o _ _ _ (h1.append (.cons _ a _ _ _ (.nil _)))
    simpa [asOps] using this

theorem Spec.ClientRun.ret {c : C'} {r : R'} {o2 : O} (hr : ClientRun cl i o h o' (some (c, .done (r, o2)))) :
    ClientRun cl i o (h ++ [.ret i r]) o2 none := by
  generalize hn : (some (c, .done (r, o2)) : Option (C' × Ask C R (R' × O))) = x at hr
  induction hr with
  | nil => cases hn
  | call o o1 o' c1 l r1 h rest h1 h2 ih =>
    have := ClientRun.call o o1 o2 c1 l r1 _ _ h1 (ih hn)
    simpa using this
  | within o c l q h1 =>
    cases hn
    exact .call _ _ _ _ _ _ _ _ h1 (.nil _)

end Histories

namespace Conc
variable {C R C' R' σ L O : Type} [DecidableEq L]

/-- An operation of the service without interruption. -/
def Performs (sys : Sys σ L Unit C R) (s : σ) (i : Nat) (c : C) (r : R) (t : σ) : Prop := (sys.call i () c).seq s = (.ok (r, ()), t)

/-- A client at work, the operation that is performed for it, and what it has left to do in the history. -/
inductive Working (sys : Sys σ L Unit C R) (i : Nat) :
    Option (C' × Prog σ L (R' × O)) → Option (C × Prog σ L (R × Unit)) → Stat C R → Option (C' × Ask C R (R' × O)) → Prop
  | idle : Working sys i none none .idle none
  | between (c' : C') (q : Ask C R (R' × O)) : Working sys i (some (c', q.prog sys i)) none .idle (some (c', q))
  | called (c' : C') (c : C) (k : R → Ask C R (R' × O)) (p : Prog σ L (R × Unit)) :
      Working sys i (some (c', p.bind fun x => (k x.1).prog sys i)) (some (c, p)) (.called c) (some (c', .ask c k))
  | done (c' : C') (c : C) (k : R → Ask C R (R' × O)) (p : Prog σ L (R × Unit)) (r : R) :
      Working sys i (some (c', p.bind fun x => (k x.1).prog sys i)) (some (c, p)) (.done r) (some (c', k r))

variable {P : Parts σ L} {S : C → L} {sys : Sys σ L Unit C R} {cl : Nat → O → C' → Ask C R (R' × O)} {ok : Nat → C' → Prop}
variable {s : σ} {obj : Nat → O}

/-- The clients, the service, the linearized service, and the history so far. -/
structure Attends (sys : Sys σ L Unit C R) (cl : Nat → O → C' → Ask C R (R' × O)) (s : σ) (obj : Nat → O) (κ : Conf σ L O C' R')
    (κh : Conf σ L Unit C R) (a : AConf (σ × (Nat → Unit)) C R) (h : List (HEvent C' R' C R)) (rest : Nat → Option (C' × Ask C R (R' × O))) : Prop where
  st : κh.st = κ.st
  held : κh.held = κ.held
  thr : ∀ i, Working sys i (κ.cur i) (κh.cur i) (a.stat i) (rest i)
  run : ∀ i, ClientRun (cl i) i (obj i) (own i h) (κ.obj i) (rest i)
  serves : Serves (Performs sys) s (opsOf h) a.st.1
  within : ∀ i c q, rest i = some (c, q) → q.Within (sys.ok i)

/-- Client `i` has gone on in the history only if the service has performed its operation. -/
def Goes1 (a a1 : AConf (σ × (Nat → Unit)) C R) (rest rest' : Nat → Option (C' × Ask C R (R' × O))) (i : Nat) : Prop :=
  (rest' i = rest i ∧ a1.stat i = a.stat i) ∨
  ∃ c' c k r, a.stat i = .called c ∧ rest i = some (c', .ask c k) ∧ a1.stat i = .done r ∧ rest' i = some (c', k r)

/-- The service performs an operation. -/
theorem Attends.effect {κ : Conf σ L O C' R'} {κh : Conf σ L Unit C R} {a a1 : AConf (σ × (Nat → Unit)) C R} {h : List (HEvent C' R' C R)}
    {rest : Nat → Option (C' × Ask C R (R' × O))} (ht : Attends sys cl s obj κ κh a h rest) (hs : AStep (seqSpec sys) a none a1) :
    ∃ h' rest', Attends sys cl s obj κ κh a1 h' rest' ∧ seen h' = seen h ∧ ∀ i, Goes1 a a1 rest rest' i := by
  cases hs with
  | effect j c r st hj hsp =>
    obtain ⟨u, h1, -, -⟩ := hsp
    have hw := ht.thr j
    rw [hj] at hw
    generalize hcur : κ.cur j = x at hw
    generalize hcurh : κh.cur j = y at hw
    generalize hrest : rest j = z at hw
    cases hw with
    | called c' _ k p =>
      have hrun := ht.run j
      rw [hrest] at hrun
      refine ⟨h ++ [.op j c r], upd rest j (some (c', k r)), ⟨ht.st, ht.held, fun i => ?_, fun i => ?_, ?_, fun i c1 q1 e => ?_⟩, by simp [seen_append, seen],
        fun i => ?_⟩
      · by_cases e : i = j
        · subst e
          simp only [upd_same, hcur, hcurh]
          exact .done c' c k p r
        · simp only [upd_other _ _ e]
          exact ht.thr i
      · rw [own_append]
        by_cases e : i = j
        · subst e
          rw [upd_same, show own i [HEvent.op i c r] = [(HEvent.op i c r : HEvent C' R' C R)] from own_same rfl]
          exact hrun.op r
        · rw [own_other (e := HEvent.op j c r) (fun e' => e e'.symm), List.append_nil, upd_other _ _ e]
          exact ht.run i
      · rw [opsOf_append]
        exact ht.serves.append (.cons _ _ _ _ _ _ _ h1 (.nil _))
      · by_cases ej : i = j
        · subst ej
          rw [upd_same] at e
          cases e
          exact (ht.within i _ _ hrest).2 r
        · rw [upd_other _ _ ej] at e
          exact ht.within i _ _ e
      · by_cases e : i = j
        · subst e
          exact .inr ⟨c', c, k, r, hj, hrest, upd_same .., upd_same ..⟩
        · exact .inl ⟨upd_other _ _ e, upd_other _ _ e⟩

/-- All that is kept up. -/
def Going (P : Parts σ L) (S : C → L) (sys : Sys σ L Unit C R) (cl : Nat → O → C' → Ask C R (R' × O)) (s : σ) (obj : Nat → O) (κ : Conf σ L O C' R')
    (κh : Conf σ L Unit C R) (a : AConf (σ × (Nat → Unit)) C R) (h : List (HEvent C' R' C R)) (rest : Nat → Option (C' × Ask C R (R' × O))) : Prop :=
  (∃ tr, Exec sys (init s fun _ => ()) tr κh) ∧ Rel P S sys (fun _ _ => True) κh a ∧ Attends sys cl s obj κ κh a h rest

variable {rank : L → Nat}

/-- A step of the service. -/
theorem Going.step (hs : OrderlySys sys rank) (hd : Disciplined P S sys fun _ _ => True) {κ : Conf σ L O C' R'} {κh κh' : Conf σ L Unit C R}
    {a : AConf (σ × (Nat → Unit)) C R} {h : List (HEvent C' R' C R)} {rest : Nat → Option (C' × Ask C R (R' × O))}
    (hg : Going P S sys cl s obj κ κh a h rest) {e : Option (Ev C R)} (st : Step sys κh e κh') :
    ∃ a1 a' h' rest', (∃ tr, Exec sys (init s fun _ => ()) tr κh') ∧ Rel P S sys (fun _ _ => True) κh' a' ∧
      Attends sys cl s obj κ κh a1 h' rest' ∧ seen h' = seen h ∧ ((e = none ∧ a' = a1) ∨ (e ≠ none ∧ (∀ i, Goes1 a a1 rest rest' i) ∧ AStep (seqSpec sys) a1 e a')) := by
  obtain ⟨⟨tr, hx⟩, hr, ht⟩ := hg
  have htd := tended_exec hs.rising (tended_init trivial fun _ => ()) hx
  obtain ⟨a', ⟨a1, h3, h4⟩, hr'⟩ := step_rel hd (fun i hi l => by
    obtain ⟨H, x1, x2, _⟩ := htd.stack i
    rw [x1, x2 hi]; rfl) hr st
  have hx' : ∃ tr, Exec sys (init s fun _ => ()) tr κh' := ⟨_, .snoc _ _ _ _ _ hx st⟩
  have key : ∃ h1 rest1, Attends sys cl s obj κ κh a1 h1 rest1 ∧ seen h1 = seen h ∧ ∀ i, Goes1 a a1 rest rest1 i := by
    rcases h3 with h3 | h3
    · subst h3; exact ⟨h, rest, ht, rfl, fun _ => .inl ⟨rfl, rfl⟩⟩
    · exact ht.effect h3
  obtain ⟨h1, rest1, ht1, e1, f1⟩ := key
  rcases h4 with ⟨h4, h5⟩ | h4
  · exact ⟨a1, a', h1, rest1, hx', hr', ht1, e1, .inl ⟨h4, h5⟩⟩
  · cases e with
    | some e => exact ⟨a1, a', h1, rest1, hx', hr', ht1, e1, .inr ⟨nofun, f1, h4⟩⟩
    | none =>
      obtain ⟨h2, rest2, ht2, e2, f2⟩ := ht1.effect h4
      exact ⟨a', a', h2, rest2, hx', hr', ht2, e2.trans e1, .inl ⟨rfl, rfl⟩⟩

/-- The service begins an operation for a client. -/
theorem Going.begin (hs : OrderlySys sys rank) (hd : Disciplined P S sys fun _ _ => True) {κ : Conf σ L O C' R'} {κh : Conf σ L Unit C R}
    {a : AConf (σ × (Nat → Unit)) C R} {h : List (HEvent C' R' C R)} {rest : Nat → Option (C' × Ask C R (R' × O))}
    (hg : Going P S sys cl s obj κ κh a h rest) {i : Nat} (hi : κh.cur i = none) {c' : C'} {c : C} {k : R → Ask C R (R' × O)}
    (hq : rest i = some (c', .ask c k)) :
    ∃ κh' a' h' rest', Going P S sys cl s obj κ κh' a' h' rest' ∧ seen h' = seen h ∧ κh'.cur i = some (c, sys.call i () c) ∧
      κ.cur i = some (c', (sys.call i () c).bind fun x => (k x.1).prog sys i) ∧ a'.stat i = .called c ∧ rest' i = some (c', .ask c k) := by
  have hok := (hg.2.2.within i _ _ hq).1
  obtain ⟨a1, a', h', rest', hx, hr, ht, e1, ⟨e2, -⟩ | ⟨-, f1, e2⟩⟩ := hg.step hs hd (.inv κh i c hi hok)
  · cases e2
  · have hw0 := hg.2.2.thr i
    rw [hi] at hw0
    have hst0 : a.stat i = .idle := by
      generalize κ.cur i = x at hw0
      generalize rest i = y at hw0
      generalize hz : a.stat i = z at hw0
      cases hw0 <;> rfl
    have hq' : rest' i = some (c', .ask c k) := by
      rcases f1 i with ⟨f, -⟩ | ⟨_, _, _, _, f, -⟩
      · exact f.trans hq
      · rw [hst0] at f; cases f
    have hw := ht.thr i
    rw [hi, hq'] at hw
    generalize hx1 : κ.cur i = x at hw
    generalize hx2 : a1.stat i = z at hw
    cases hw with
    | between =>
      cases e2 with
      | inv _ _ hst =>
        refine ⟨_, _, h', rest', ⟨hx, hr, ht.st, ht.held, fun j => ?_, ht.run, ht.serves, ht.within⟩, e1, upd_same .., rfl, upd_same .., hq'⟩
        by_cases e : j = i
        · subst e
          simp only [upd_same, hx1, hq']
          exact .called c' c k _
        · simp only [upd_other _ _ e]
          exact ht.thr j

/-- The service has performed an operation for a client. -/
theorem Going.finish (hs : OrderlySys sys rank) (hd : Disciplined P S sys fun _ _ => True) {κ : Conf σ L O C' R'} {κh : Conf σ L Unit C R}
    {a : AConf (σ × (Nat → Unit)) C R} {h : List (HEvent C' R' C R)} {rest : Nat → Option (C' × Ask C R (R' × O))}
    (hg : Going P S sys cl s obj κ κh a h rest) {i : Nat} {c : C} {r : R} (hi : κh.cur i = some (c, .ret (r, ()))) {c' : C'}
    {k : R → Ask C R (R' × O)} (hk : κ.cur i = some (c', (k r).prog sys i))
    (hrest : a.stat i = .called c ∧ rest i = some (c', .ask c k) ∨ ∃ r', a.stat i = .done r' ∧ rest i = some (c', k r')) :
    ∃ κh' a' h' rest', Going P S sys cl s obj κ κh' a' h' rest' ∧ seen h' = seen h ∧ κh'.cur i = none ∧
      rest' i = some (c', k r) := by
  obtain ⟨a1, a', h', rest', hx, hr, ht, e1, ⟨e2, -⟩ | ⟨-, f1, e2⟩⟩ := hg.step hs hd (.ret κh i c r () hi)
  · cases e2
  · cases e2 with
    | ret _ _ hst =>
      have hq : rest' i = some (c', k r) := by
        rcases f1 i with ⟨f, f'⟩ | ⟨_, _, _, r2, f, f2, f3, f4⟩
        · rcases hrest with ⟨g1, g2⟩ | ⟨r', g1, g2⟩
          · rw [f', g1] at hst; cases hst
          · rw [f', g1] at hst; cases hst; exact f.trans g2
        · rcases hrest with ⟨g1, g2⟩ | ⟨r', g1, g2⟩
          · rw [g2] at f2; cases f2
            rw [f3] at hst; cases hst
            exact f4
          · rw [g1] at f; cases f
      refine ⟨_, _, h', rest', ⟨hx, hr, ht.st, ht.held, fun j => ?_, ht.run, ht.serves, ht.within⟩, e1, upd_same .., hq⟩
      by_cases e : j = i
      · subst e
        simp only [upd_same, hk, hq]
        exact .between _ _
      · simp only [upd_other _ _ e]
        exact ht.thr j

/-- Client `i` is between two calls, has come to the end of its call, or waits for an operation that has steps left. -/
def Settled (κ : Conf σ L O C' R') (κh : Conf σ L Unit C R) (rest : Nat → Option (C' × Ask C R (R' × O))) (i : Nat) : Prop :=
  κ.cur i = none ∨ (∃ c' x, κh.cur i = none ∧ rest i = some (c', .done x)) ∨ ∃ c p, κh.cur i = some (c, p) ∧ ∀ x, p ≠ .ret x

theorem Going.settleBetween (hs : OrderlySys sys rank) (hd : Disciplined P S sys fun _ _ => True) {κ : Conf σ L O C' R'} {i : Nat} {c' : C'}
    (q : Ask C R (R' × O)) : ∀ {κh : Conf σ L Unit C R} {a : AConf (σ × (Nat → Unit)) C R} {h : List (HEvent C' R' C R)}
    {rest : Nat → Option (C' × Ask C R (R' × O))}, Going P S sys cl s obj κ κh a h rest → κh.cur i = none → rest i = some (c', q) →
    ∃ κh' a' h' rest', Going P S sys cl s obj κ κh' a' h' rest' ∧ seen h' = seen h ∧ Settled κ κh' rest' i := by
  induction q with
  | done x => exact fun hg hi hq => ⟨_, _, _, _, hg, rfl, .inr (.inl ⟨_, _, hi, hq⟩)⟩
  | ask c k ih =>
    intro κh a h rest hg hi hq
    obtain ⟨κh1, a1, h1, rest1, hg1, e1, hi1, hk1, hst1, hr1⟩ := hg.begin hs hd hi hq
    by_cases hp : ∃ x, sys.call i () c = .ret x
    · obtain ⟨⟨r, u⟩, hp⟩ := hp
      rw [hp] at hk1 hi1
      obtain ⟨κh2, a2, h2, rest2, hg2, e2, hi2, hr2⟩ := hg1.finish hs hd hi1 hk1 (.inl ⟨hst1, hr1⟩)
      obtain ⟨κh3, a3, h3, rest3, hg3, e3, hs3⟩ := ih r hg2 hi2 hr2
      exact ⟨_, _, _, _, hg3, e3.trans (e2.trans e1), hs3⟩
    · exact ⟨_, _, _, _, hg1, e1, .inr (.inr ⟨c, _, hi1, fun x hx => hp ⟨x, hx⟩⟩)⟩

theorem Going.settle (hs : OrderlySys sys rank) (hd : Disciplined P S sys fun _ _ => True) {κ : Conf σ L O C' R'} (i : Nat)
    {κh : Conf σ L Unit C R} {a : AConf (σ × (Nat → Unit)) C R} {h : List (HEvent C' R' C R)}
    {rest : Nat → Option (C' × Ask C R (R' × O))} (hg : Going P S sys cl s obj κ κh a h rest) :
    ∃ κh' a' h' rest', Going P S sys cl s obj κ κh' a' h' rest' ∧ seen h' = seen h ∧ Settled κ κh' rest' i := by
  have hw := hg.2.2.thr i
  generalize hx1 : κ.cur i = x at hw
  generalize hx2 : κh.cur i = y at hw
  generalize hx3 : a.stat i = z at hw
  generalize hx4 : rest i = v at hw
  have key : ∀ {c' : C'} {c : C} {k : R → Ask C R (R' × O)} {p : Prog σ L (R × Unit)},
      κ.cur i = some (c', p.bind fun x => (k x.1).prog sys i) → κh.cur i = some (c, p) →
      (a.stat i = .called c ∧ rest i = some (c', .ask c k) ∨ ∃ r', a.stat i = .done r' ∧ rest i = some (c', k r')) →
      ∃ κh' a' h' rest', Going P S sys cl s obj κ κh' a' h' rest' ∧ seen h' = seen h ∧ Settled κ κh' rest' i := by
    intro c' c k p g1 g2 g3
    by_cases hp : ∃ x, p = .ret x
    · obtain ⟨⟨r, u⟩, rfl⟩ := hp
      obtain ⟨κh2, a2, h2, rest2, hg2, e2, hi2, hr2⟩ := hg.finish hs hd g2 g1 g3
      obtain ⟨κh3, a3, h3, rest3, hg3, e3, hs3⟩ := hg2.settleBetween hs hd _ hi2 hr2
      exact ⟨_, _, _, _, hg3, e3.trans e2, hs3⟩
    · exact ⟨_, _, _, _, hg, rfl, .inr (.inr ⟨c, _, g2, fun x hx => hp ⟨x, hx⟩⟩)⟩
  cases hw with
  | idle => exact ⟨_, _, _, _, hg, rfl, .inl hx1⟩
  | between c' q => exact hg.settleBetween hs hd q hx2 hx4
  | called c' c k p => exact key hx1 hx2 (.inl ⟨hx3, hx4⟩)
  | done c' c k p r => exact key hx1 hx2 (.inr ⟨r, hx3, hx4⟩)

/-- What a client has left to do, if its operation has steps left. -/
theorem Attends.inside {κ : Conf σ L O C' R'} {κh : Conf σ L Unit C R} {a : AConf (σ × (Nat → Unit)) C R} {h : List (HEvent C' R' C R)}
    {rest : Nat → Option (C' × Ask C R (R' × O))} (ht : Attends sys cl s obj κ κh a h rest) {i : Nat} {c : C} {p : Prog σ L (R × Unit)}
    (hi : κh.cur i = some (c, p)) : ∃ c' F, κ.cur i = some (c', p.bind F) ∧ ∀ p', Working sys i (some (c', p'.bind F)) (some (c, p')) (a.stat i) (rest i) := by
  have hw := ht.thr i
  rw [hi] at hw
  generalize κ.cur i = x at hw
  generalize a.stat i = z at hw
  generalize rest i = v at hw
  cases hw with
  | called c' _ k _ => exact ⟨c', _, rfl, fun p' => .called ..⟩
  | done c' _ k _ r => exact ⟨c', _, rfl, fun p' => .done ..⟩

theorem Attends.none {κ : Conf σ L O C' R'} {κh : Conf σ L Unit C R} {a : AConf (σ × (Nat → Unit)) C R} {h : List (HEvent C' R' C R)}
    {rest : Nat → Option (C' × Ask C R (R' × O))} (ht : Attends sys cl s obj κ κh a h rest) {i : Nat} (hi : κh.cur i = none) :
    a.stat i = .idle ∧ ∀ c' q, rest i = some (c', q) → κ.cur i = some (c', q.prog sys i) := by
  have hw := ht.thr i
  rw [hi] at hw
  generalize κ.cur i = x at hw
  generalize a.stat i = z at hw
  generalize rest i = v at hw
  cases hw with
  | idle => exact ⟨rfl, nofun⟩
  | between c' q => exact ⟨rfl, fun _ _ h => by cases h; rfl⟩

/-- A step of the clients. -/
theorem Going.clients (hs : OrderlySys sys rank) (hd : Disciplined P S sys fun _ _ => True)
    (hcl : ∀ i o c, ok i c → (cl i o c).Within (sys.ok i)) {κ κ' : Conf σ L O C' R'} {κh : Conf σ L Unit C R}
    {a : AConf (σ × (Nat → Unit)) C R} {h : List (HEvent C' R' C R)} {rest : Nat → Option (C' × Ask C R (R' × O))}
    (hg : Going P S sys cl s obj κ κh a h rest) {e : Option (Ev C' R')} (st : Step (clients sys cl ok) κ e κ') :
    ∃ κh' a' h' rest', Going P S sys cl s obj κ' κh' a' h' rest' ∧ seen h' = seen h ++ e.toList := by
  cases st with
  | inv i c hc hok =>
    obtain ⟨hx, hr, ht⟩ := hg
    have hw := ht.thr i
    have hrun := ht.run i
    rw [hc] at hw
    generalize hx2 : κh.cur i = y at hw
    generalize hx3 : a.stat i = z at hw
    generalize hx4 : rest i = v at hw hrun
    cases hw with
    | idle =>
      refine ⟨κh, a, h ++ [.inv i c], upd rest i (some (c, cl i (κ.obj i) c)),
        ⟨hx, hr, ht.st, ht.held, fun j => ?_, fun j => ?_, ?_, fun j c1 q1 e => ?_⟩, by simp [seen_append, seen]⟩
      · by_cases e : j = i
        · subst e
          simp only [upd_same, hx2, hx3]
          exact .between c _
        · simp only [upd_other _ _ e]
          exact ht.thr j
      · rw [own_append]
        by_cases e : j = i
        · subst e
          rw [upd_same, show own j [HEvent.inv j c] = [(HEvent.inv j c : HEvent C' R' C R)] from own_same rfl]
          exact hrun.inv c
        · rw [own_other (e := HEvent.inv i c) (fun e' => e e'.symm), List.append_nil, upd_other _ _ e]
          exact ht.run j
      · rw [opsOf_append]
        exact ht.serves.append (.nil _)
      · by_cases ej : j = i
        · subst ej
          rw [upd_same] at e
          cases e
          exact hcl j _ c hok
        · rw [upd_other _ _ ej] at e
          exact ht.within j _ _ e
  | act i c f k hc =>
    obtain ⟨κh1, a1, h1, rest1, hg1, e1, h0 | ⟨c', x, h0, h0'⟩ | ⟨c1, p, h0, h0'⟩⟩ := hg.settle hs hd i
    · rw [h0] at hc; cases hc
    · have := (hg1.2.2.none h0).2 _ _ h0'
      rw [this] at hc; cases hc
    · cases p with
      | ret x => exact absurd rfl (h0' x)
      | raise e =>
        obtain ⟨c', F, g1, -⟩ := hg1.2.2.inside h0
        rw [g1] at hc; cases hc
      | acq l w k' =>
        obtain ⟨c', F, g1, -⟩ := hg1.2.2.inside h0
        rw [g1] at hc; cases hc
      | rel l w k' =>
        obtain ⟨c', F, g1, -⟩ := hg1.2.2.inside h0
        rw [g1] at hc; cases hc
      | act f' k' =>
        obtain ⟨a2, a', h', rest', hx, hr, ht, e2, ⟨-, e3⟩ | ⟨e3, -⟩⟩ := hg1.step hs hd (.act κh1 i c1 f' k' h0)
        · subst e3
          obtain ⟨c', F, g1, g2⟩ := ht.inside h0
          rw [g1] at hc
          cases hc
          refine ⟨_, _, h', rest', ⟨hx, hr, by simp only [ht.st], ht.held, fun j => ?_, ht.run, ht.serves, ht.within⟩, by simp [e2, e1]⟩
          by_cases e : j = i
          · subst e
            simp only [upd_same, ht.st]
            exact g2 _
          · simp only [upd_other _ _ e]
            exact ht.thr j
        · exact absurd rfl e3
  | acq i c l w k hc hcan =>
    obtain ⟨κh1, a1, h1, rest1, hg1, e1, h0 | ⟨c', x, h0, h0'⟩ | ⟨c1, p, h0, h0'⟩⟩ := hg.settle hs hd i
    · rw [h0] at hc; cases hc
    · have := (hg1.2.2.none h0).2 _ _ h0'
      rw [this] at hc; cases hc
    · cases p with
      | ret x => exact absurd rfl (h0' x)
      | raise e =>
        obtain ⟨c', F, g1, -⟩ := hg1.2.2.inside h0
        rw [g1] at hc; cases hc
      | act f' k' =>
        obtain ⟨c', F, g1, -⟩ := hg1.2.2.inside h0
        rw [g1] at hc; cases hc
      | rel l w k' =>
        obtain ⟨c', F, g1, -⟩ := hg1.2.2.inside h0
        rw [g1] at hc; cases hc
      | acq l' w' k' =>
        have hll : l' = l ∧ w' = w := by
          obtain ⟨c', F, g1, -⟩ := hg1.2.2.inside h0
          rw [g1] at hc; cases hc; exact ⟨rfl, rfl⟩
        obtain ⟨rfl, rfl⟩ := hll
        have hcan' : CanTake sys κh1 i l' w' := by
          unfold CanTake at hcan ⊢
          rw [hg1.2.2.held]; exact hcan
        obtain ⟨a2, a', h', rest', hx, hr, ht, e2, ⟨-, e3⟩ | ⟨e3, -⟩⟩ := hg1.step hs hd (.acq κh1 i c1 l' w' k' h0 hcan')
        · subst e3
          obtain ⟨c', F, g1, g2⟩ := ht.inside h0
          rw [g1] at hc
          cases hc
          refine ⟨_, _, h', rest', ⟨hx, hr, ht.st, by simp only [ht.held], fun j => ?_, ht.run, ht.serves, ht.within⟩, by simp [e2, e1]⟩
          by_cases e : j = i
          · subst e
            simp only [upd_same]
            exact g2 _
          · simp only [upd_other _ _ e]
            exact ht.thr j
        · exact absurd rfl e3
  | rel i c l w k hc =>
    obtain ⟨κh1, a1, h1, rest1, hg1, e1, h0 | ⟨c', x, h0, h0'⟩ | ⟨c1, p, h0, h0'⟩⟩ := hg.settle hs hd i
    · rw [h0] at hc; cases hc
    · have := (hg1.2.2.none h0).2 _ _ h0'
      rw [this] at hc; cases hc
    · cases p with
      | ret x => exact absurd rfl (h0' x)
      | raise e =>
        obtain ⟨c', F, g1, -⟩ := hg1.2.2.inside h0
        rw [g1] at hc; cases hc
      | act f' k' =>
        obtain ⟨c', F, g1, -⟩ := hg1.2.2.inside h0
        rw [g1] at hc; cases hc
      | acq l w k' =>
        obtain ⟨c', F, g1, -⟩ := hg1.2.2.inside h0
        rw [g1] at hc; cases hc
      | rel l' w' k' =>
        obtain ⟨a2, a', h', rest', hx, hr, ht, e2, ⟨-, e3⟩ | ⟨e3, -⟩⟩ := hg1.step hs hd (.rel κh1 i c1 l' w' k' h0)
        · subst e3
          obtain ⟨c', F, g1, g2⟩ := ht.inside h0
          rw [g1] at hc
          cases hc
          refine ⟨_, _, h', rest', ⟨hx, hr, ht.st, by simp only [ht.held], fun j => ?_, ht.run, ht.serves, ht.within⟩, by simp [e2, e1]⟩
          by_cases e : j = i
          · subst e
            simp only [upd_same]
            exact g2 _
          · simp only [upd_other _ _ e]
            exact ht.thr j
        · exact absurd rfl e3
  | ret i c r o hc =>
    obtain ⟨κh1, a1, h1, rest1, hg1, e1, h0 | ⟨c', x, h0, h0'⟩ | ⟨c1, p, h0, h0'⟩⟩ := hg.settle hs hd i
    · rw [h0] at hc; cases hc
    · obtain ⟨hx, hr, ht⟩ := hg1
      obtain ⟨hst, hk⟩ := ht.none h0
      rw [hk _ _ h0'] at hc
      cases hc
      have hrun := ht.run i
      rw [h0'] at hrun
      refine ⟨κh1, a1, h1 ++ [.ret i r], upd rest1 i none, ⟨hx, hr, ht.st, ht.held, fun j => ?_, fun j => ?_, ?_, fun j c1 q1 e => ?_⟩,
        by simp [seen_append, seen, e1]⟩
      · by_cases e : j = i
        · subst e
          simp only [upd_same, h0, hst]
          exact .idle
        · simp only [upd_other _ _ e]
          exact ht.thr j
      · rw [own_append]
        by_cases e : j = i
        · subst e
          simp only [upd_same]
          rw [show own j [HEvent.ret j r] = [(HEvent.ret j r : HEvent C' R' C R)] from own_same rfl]
          exact hrun.ret
        · rw [own_other (e := HEvent.ret i r) (fun e' => e e'.symm), List.append_nil, upd_other _ _ e]
          simp only [upd_other _ _ e]
          exact ht.run j
      · rw [opsOf_append]
        exact ht.serves.append (.nil _)
      · by_cases ej : j = i
        · subst ej
          rw [upd_same] at e
          cases e
        · rw [upd_other _ _ ej] at e
          exact ht.within j _ _ e
    · obtain ⟨c', F, g1, -⟩ := hg1.2.2.inside h0
      rw [g1] at hc
      cases p with
      | ret x => exact absurd rfl (h0' x)
      | raise => cases hc
      | act => cases hc
      | acq => cases hc
      | rel => cases hc

/-- Every execution of the clients has a history in which the service performs each operation in one moment.  In it every client makes its calls as if
it were alone with the answers that it gets; and when nothing is being performed the service is in the state of the history. -/
theorem exec_clients (hs : OrderlySys sys rank) (hd : Disciplined P S sys fun _ _ => True)
    (hcl : ∀ i o c, ok i c → (cl i o c).Within (sys.ok i)) (hI : P.I s) {tr : List (Ev C' R')} {κ : Conf σ L O C' R'}
    (hx : Exec (clients sys cl ok) (init s obj) tr κ) :
    ∃ (h : List (HEvent C' R' C R)) (rest : Nat → Option (C' × Ask C R (R' × O))) (t : σ), seen h = tr ∧ Serves (Performs sys) s (opsOf h) t ∧
      (∀ i, ClientRun (cl i) i (obj i) (own i h) (κ.obj i) (rest i)) ∧ (∀ i, rest i = none ↔ κ.cur i = none) ∧
      ((∀ i, κ.cur i = none) → ∀ l, P.eqS l κ.st t) := by
  have key : ∃ κh a h rest, Going P S sys cl s obj κ κh a h rest ∧ seen h = tr := by
    generalize hκ : init s obj = κ0 at hx
    induction hx with
    | nil =>
      subst hκ
      exact ⟨init s fun _ => (), ⟨(s, fun _ => ()), fun _ => .idle⟩, [], fun _ => none, ⟨⟨[], .nil _⟩, init_rel s _ hI fun _ => trivial,
        rfl, rfl, fun _ => .idle, fun _ => .nil _, .nil _, nofun⟩, rfl⟩
    | snoc κ' κ'' tr e h1 h2 ih =>
      obtain ⟨κh, a, h, rest, hg, e1⟩ := ih
      obtain ⟨κh', a', h', rest', hg', e2⟩ := hg.clients hs hd hcl h2
      exact ⟨κh', a', h', rest', hg', by rw [e2, e1]⟩
  obtain ⟨κh, a, h, rest, ⟨-, hr, ht⟩, e1⟩ := key
  refine ⟨h, rest, a.st.1, e1, ht.serves, ht.run, fun i => ?_, fun hq l => ?_⟩
  · have hw := ht.thr i
    generalize κ.cur i = x at hw
    generalize κh.cur i = y at hw
    generalize a.stat i = z at hw
    generalize rest i = v at hw
    cases hw <;> simp
  · rw [← ht.st]
    refine (hr.quiet fun i => ?_).1 l
    have hw := ht.thr i
    rw [hq i] at hw
    generalize κh.cur i = y at hw
    generalize a.stat i = z at hw
    generalize rest i = v at hw
    cases hw
    rfl

end Conc

/-! ## Calls in a history -/

/-- Only allowed calls are made. -/
theorem exec_calls_ok {σ L O C R : Type} [DecidableEq L] {sys : Conc.Sys σ L O C R} {κ0 κ : Conc.Conf σ L O C R} {tr : List (Ev C R)}
    (h : Conc.Exec sys κ0 tr κ) {i : Nat} {c : C} (hc : Ev.inv i c ∈ tr) : sys.ok i c := by
  induction h with
  | nil => cases hc
  | snoc κ' κ'' tr e h1 h2 ih =>
    rcases List.mem_append.1 hc with hc | hc
    · exact ih hc
    · cases h2 with
      | inv j c' h3 h4 =>
        simp only [Option.toList, List.mem_singleton] at hc
        cases hc
        exact h4
      | ret j c' r o h3 => simp [Option.toList] at hc
      | act => cases hc
      | acq => cases hc
      | rel => cases hc

section history
variable {C' R' C R O α : Type} {i : Nat}

theorem asks_within {P : C → Prop} {q q' : Ask C R α} {l : List (C × R)} (h : Asks q l q') (hq : q.Within P) : ∀ x ∈ l, P x.1 := by
  induction h with
  | nil => exact nofun
  | cons c r k l q' h ih =>
    intro x hx
    rcases List.mem_cons.1 hx with rfl | hx
    · exact hq.1
    · exact ih (hq.2 r) x hx

/-- What the operations of a client have in common. -/
theorem Spec.ClientRun.within_ops {cl : O → C' → Ask C R (R' × O)} {okc : C' → Prop} {P : C → Prop} (hcl : ∀ o c, okc c → (cl o c).Within P) {o o' : O}
    {h : List (HEvent C' R' C R)} {rest : Option (C' × Ask C R (R' × O))} (hr : ClientRun cl i o h o' rest)
    (hc : ∀ c, HEvent.inv i c ∈ h → okc c) : ∀ j q a, HEvent.op j q a ∈ h → P q := by
  have key : ∀ (l : List (C × R)) (j : Nat) (q : C) (a : R), (HEvent.op j q a : HEvent C' R' C R) ∈ asOps i l → (q, a) ∈ l := by
    intro l j q a h
    obtain ⟨x, h1, h2⟩ := List.mem_map.1 h
    cases h2
    exact h1
  induction hr with
  | nil => exact nofun
  | call o o1 o' c l r h rest h1 h2 ih =>
    intro j q a hm
    have hc0 := hc c List.mem_cons_self
    rcases List.mem_cons.1 hm with hm | hm
    · cases hm
    rcases List.mem_append.1 hm with hm | hm
    · exact asks_within h1 (hcl o c hc0) _ (key l j q a hm)
    rcases List.mem_cons.1 hm with hm | hm
    · cases hm
    exact ih (fun c' h => hc c' (List.mem_cons_of_mem _ (List.mem_append_right _ (List.mem_cons_of_mem _ h)))) j q a hm
  | within o c l q0 h1 =>
    intro j q a hm
    rcases List.mem_cons.1 hm with hm | hm
    · cases hm
    exact asks_within h1 (hcl o c (hc c List.mem_cons_self)) _ (key l j q a hm)

theorem seen_split {h : List (HEvent C' R' C R)} {a b : List (Ev C' R')} {e : Ev C' R'} (hs : seen h = a ++ e :: b) :
    ∃ h1 x h2, h = h1 ++ x :: h2 ∧ seen h1 = a ∧ seen [x] = [e] ∧ seen h2 = b := by
  induction h generalizing a with
  | nil => cases a <;> cases hs
  | cons x h ih =>
    cases x with
    | op j q r =>
      obtain ⟨h1, x, h2, rfl, g1, g2, g3⟩ := ih (a := a) hs
      exact ⟨.op j q r :: h1, x, h2, rfl, g1, g2, g3⟩
    | inv j c =>
      cases a with
      | nil => cases hs; exact ⟨[], .inv j c, h, rfl, rfl, rfl, rfl⟩
      | cons y a =>
        obtain ⟨rfl, hs'⟩ := List.cons_eq_cons.1 (hs : Ev.inv j c :: seen h = _)
        obtain ⟨h1, x, h2, rfl, g1, g2, g3⟩ := ih hs'
        exact ⟨.inv j c :: h1, x, h2, rfl, congrArg _ g1, g2, g3⟩
    | ret j r =>
      cases a with
      | nil => cases hs; exact ⟨[], .ret j r, h, rfl, rfl, rfl, rfl⟩
      | cons y a =>
        obtain ⟨rfl, hs'⟩ := List.cons_eq_cons.1 (hs : Ev.ret j r :: seen h = _)
        obtain ⟨h1, x, h2, rfl, g1, g2, g3⟩ := ih hs'
        exact ⟨.ret j r :: h1, x, h2, rfl, congrArg _ g1, g2, g3⟩

/-- Events of a client without calls that begin or end are operations. -/
theorem own_ops {h : List (HEvent C' R' C R)} (hs : ∀ e ∈ seen h, ¬ ofThread i e) : ∃ l, own i h = asOps i l := by
  induction h with
  | nil => exact ⟨[], rfl⟩
  | cons x h ih =>
    cases x with
    | op j q r =>
      obtain ⟨l, hl⟩ := ih hs
      by_cases e : j = i
      · subst e
        exact ⟨(q, r) :: l, by rw [show own j (.op j q r :: h) = .op j q r :: own j h by simp [own, HEvent.who], hl]; rfl⟩
      · exact ⟨l, by rw [show own i (.op j q r :: h) = own i h by simp [own, HEvent.who, e], hl]⟩
    | inv j c =>
      obtain ⟨l, hl⟩ := ih fun e he => hs e (List.mem_cons_of_mem _ he)
      have e : j ≠ i := fun e => hs (.inv j c) List.mem_cons_self e
      exact ⟨l, by rw [show own i (.inv j c :: h) = own i h by simp [own, HEvent.who, e], hl]⟩
    | ret j r =>
      obtain ⟨l, hl⟩ := ih fun e he => hs e (List.mem_cons_of_mem _ he)
      have e : j ≠ i := fun e => hs (.ret j r) List.mem_cons_self e
      exact ⟨l, by rw [show own i (.ret j r :: h) = own i h by simp [own, HEvent.who, e], hl]⟩

theorem asOps_ret {l l' : List (C × R)} {r r' : R'} {h h' : List (HEvent C' R' C R)} (e : asOps i l ++ .ret i r :: h = asOps i l' ++ .ret i r' :: h') :
    l = l' ∧ r = r' ∧ h = h' := by
  induction l generalizing l' with
  | nil =>
    cases l' with
    | nil => cases e; exact ⟨rfl, rfl, rfl⟩
    | cons => cases e
  | cons x l ih =>
    cases l' with
    | nil => cases e
    | cons y l' =>
      obtain ⟨h1, h2⟩ := List.cons_eq_cons.1 (e : HEvent.op i x.1 x.2 :: (asOps i l ++ .ret i r :: h) = .op i y.1 y.2 :: (asOps i l' ++ .ret i r' :: h'))
      obtain ⟨rfl, rfl, rfl⟩ := ih h2
      obtain ⟨x1, x2⟩ := x
      obtain ⟨y1, y2⟩ := y
      cases h1
      exact ⟨rfl, rfl, rfl⟩

theorem asOps_pass {l : List (C × R)} {r : R'} {c : C'} {X Y h : List (HEvent C' R' C R)} (e : X ++ .inv i c :: Y = asOps i l ++ .ret i r :: h) :
    ∃ X', X = asOps i l ++ .ret i r :: X' ∧ X' ++ .inv i c :: Y = h := by
  induction l generalizing X with
  | nil =>
    cases X with
    | nil => cases e
    | cons y X => obtain ⟨rfl, e'⟩ := List.cons_eq_cons.1 e; exact ⟨X, rfl, e'⟩
  | cons x l ih =>
    cases X with
    | nil => cases e
    | cons y X =>
      obtain ⟨rfl, e'⟩ := List.cons_eq_cons.1 e
      obtain ⟨X', rfl, h2⟩ := ih e'
      exact ⟨X', rfl, h2⟩

theorem Spec.ClientRun.call_at {cl : O → C' → Ask C R (R' × O)} {o o' : O} {h : List (HEvent C' R' C R)} {rest : Option (C' × Ask C R (R' × O))}
    (hr : ClientRun cl i o h o' rest) {c : C'} {l : List (C × R)} {r : R'} : ∀ {X Y : List (HEvent C' R' C R)},
    h = X ++ .inv i c :: (asOps i l ++ .ret i r :: Y) → ∃ o1 o2, Asks (cl o1 c) l (.done (r, o2)) ∧ ClientRun cl i o X o1 none := by
  induction hr with
  | nil => intro X Y e; cases X <;> cases e
  | call o o1 o' c' l' r' h rest h1 h2 ih =>
    intro X Y e
    cases X with
    | nil =>
      obtain ⟨h3, h4⟩ := List.cons_eq_cons.1 e
      obtain ⟨rfl, rfl, -⟩ := asOps_ret h4
      cases h3
      exact ⟨o, o1, h1, .nil _⟩
    | cons x X =>
      obtain ⟨rfl, e'⟩ := List.cons_eq_cons.1 e
      obtain ⟨X', rfl, h3⟩ := asOps_pass e'.symm
      obtain ⟨p1, p2, g1, g2⟩ := ih h3.symm
      exact ⟨p1, p2, g1, .call _ _ _ _ _ _ _ _ h1 g2⟩
  | within o c' l' q h1 =>
    intro X Y e
    exfalso
    have hm : (HEvent.ret i r : HEvent C' R' C R) ∈ (.inv i c' :: asOps i l' : List (HEvent C' R' C R)) := by
      rw [e]; simp
    rcases List.mem_cons.1 hm with hm | hm
    · cases hm
    · obtain ⟨x, -, hx⟩ := List.mem_map.1 hm
      cases hx

/-- A call that has returned, in the history. -/
theorem history_returns {cl : O → C' → Ask C R (R' × O)} {o o' : O} {h : List (HEvent C' R' C R)} {rest : Option (C' × Ask C R (R' × O))}
    (hr : ClientRun cl i o (own i h) o' rest) {a b d : List (Ev C' R')} {c : C'} {r : R'} (hs : seen h = a ++ .inv i c :: b ++ .ret i r :: d)
    (hb : ∀ e ∈ b, ¬ ofThread i e) : ∃ h1 h2 h3 l o1 o2, h = h1 ++ .inv i c :: h2 ++ .ret i r :: h3 ∧ seen h1 = a ∧ seen h2 = b ∧ seen h3 = d ∧
      own i h2 = asOps i l ∧ Asks (cl o1 c) l (.done (r, o2)) ∧ ClientRun cl i o (own i h1) o1 none := by
  obtain ⟨hh, y, h3, rfl, g1, g2, g3⟩ := seen_split hs
  obtain ⟨h1, x, h2, rfl, f1, f2, f3⟩ := seen_split g1
  have ex : x = .inv i c := by cases x <;> cases f2; rfl
  have ey : y = .ret i r := by cases y <;> cases g2; rfl
  subst ex ey
  obtain ⟨l, hl⟩ := own_ops (i := i) (h := h2) (by rw [f3]; exact hb)
  have e : own i (h1 ++ .inv i c :: h2 ++ .ret i r :: h3) = own i h1 ++ .inv i c :: (asOps i l ++ .ret i r :: own i h3) := by
    rw [← hl]
    simp [own, HEvent.who]
  obtain ⟨o1, o2, k, k'⟩ := hr.call_at e
  exact ⟨h1, h2, h3, l, o1, o2, rfl, f1, f3, g3, hl, k, k'⟩

end history
end SyncStream
