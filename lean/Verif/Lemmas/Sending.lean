import Mathlib.Data.Finset.Card
import Verif.Spec.Sending
import Verif.Props.ProcSys
/-!
# Lemmas on sending mirrors
-/

namespace SyncStream
open Spec

/-! ## Pickling -/

theorem MObj.pickle_ok {o c : MObj} (h : o.pickle = .ok c) :
    o.mirror.buf.closed = false ∧ o.lock = false ∧ o.saved = false ∧ c = { mirror := o.mirror } := by
  unfold MObj.pickle at h
  split at h
  · cases h
  split at h
  · cases h
  split at h
  · cases h
  · cases h
    simp_all

theorem MObj.pickle_of {o : MObj} (h1 : o.mirror.buf.closed = false) (h2 : o.lock = false)
    (h3 : o.saved = false) : o.pickle = .ok { mirror := o.mirror } := by
  simp [MObj.pickle, h1, h2, h3]

namespace Heap

@[simp] theorem add_size (h : Heap) (o : MObj) : (h.add o).size = h.size + 1 := rfl
@[simp] theorem put_size (h : Heap) (i : Nat) (o : MObj) : (h.put i o).size = h.size := rfl

theorem add_old {h : Heap} {i : Nat} (hi : i < h.size) (o : MObj) : (h.add o).obj i = h.obj i := by
  simp only [add]; rw [if_neg (by omega)]

@[simp] theorem add_new (h : Heap) (o : MObj) : (h.add o).obj h.size = o := by simp [add]

@[simp] theorem put_same (h : Heap) (i : Nat) (o : MObj) : (h.put i o).obj i = o := by simp [put]

theorem put_other {h : Heap} {i j : Nat} (hj : j ≠ i) (o : MObj) : (h.put i o).obj j = h.obj j := by
  simp [put, hj]

/-- What a message with objects amounts to. -/
theorem pickle_spec (os : List Nat) (memo : Nat → Option Nat) (h : Heap) (memo' : Nat → Option Nat)
    (h' : Heap) (hlt : ∀ x ∈ os, x < h.size) (hm : ∀ x y, memo x = some y → y < h.size)
    (hinj : ∀ x x' y, memo x = some y → memo x' = some y → x = x')
    (he : pickle os memo h = .ok (memo', h')) :
    h.size ≤ h'.size ∧ (∀ i, i < h.size → h'.obj i = h.obj i) ∧
    (∀ x y, memo x = some y → memo' x = some y) ∧ (∀ x ∈ os, ∃ y, memo' x = some y) ∧
    (∀ x y, memo' x = some y → memo x = some y ∨
      (x ∈ os ∧ h.size ≤ y ∧ y < h'.size ∧ (h.obj x).pickle = .ok (h'.obj y))) ∧
    (∀ x x' y, memo' x = some y → memo' x' = some y → x = x') ∧
    (∀ i, h.size ≤ i → i < h'.size → ∃ x ∈ os, (h.obj x).pickle = .ok (h'.obj i)) := by
  induction os generalizing memo h with
  | nil =>
    cases he
    exact ⟨Nat.le_refl _, fun _ _ => rfl, fun _ _ hx => hx, (by simp), fun x y hx => .inl hx, hinj,
      fun i h1 h2 => absurd h2 (by omega)⟩
  | cons o os ih =>
    simp only [pickle] at he
    cases hmo : memo o with
    | some z =>
      rw [hmo] at he
      obtain ⟨a, b, c, d, e, f, g⟩ := ih memo h (fun x hx => hlt x (List.mem_cons_of_mem _ hx)) hm hinj he
      refine ⟨a, b, c, ?_, ?_, f, ?_⟩
      · intro x hx
        rcases List.mem_cons.1 hx with rfl | hx
        · exact ⟨z, c _ _ hmo⟩
        · exact d x hx
      · intro x y hx
        rcases e x y hx with h1 | ⟨h1, h2⟩
        · exact .inl h1
        · exact .inr ⟨List.mem_cons_of_mem _ h1, h2⟩
      · intro i h1 h2
        obtain ⟨x, hx, hp⟩ := g i h1 h2
        exact ⟨x, List.mem_cons_of_mem _ hx, hp⟩
    | none =>
      rw [hmo] at he
      cases hp : (h.obj o).pickle with
      | error e => rw [hp] at he; cases he
      | ok c =>
        rw [hp] at he
        have ho : o < h.size := hlt o List.mem_cons_self
        obtain ⟨a, b, c', d, e, f, g⟩ := ih _ (h.add c)
          (fun x hx => Nat.lt_succ_of_lt (hlt x (List.mem_cons_of_mem _ hx)))
          (by
            intro x y hx
            split at hx
            · cases hx; simp
            · exact Nat.lt_succ_of_lt (hm x y hx))
          (by
            intro x x' y hx hx'
            split at hx <;> split at hx'
            · subst_vars; rfl
            · cases hx; exact absurd (hm _ _ hx') (Nat.lt_irrefl _)
            · cases hx'; exact absurd (hm _ _ hx) (Nat.lt_irrefl _)
            · exact hinj x x' y hx hx') he
        simp only [add_size] at a
        have hnew : memo' o = some h.size := c' o h.size (by simp)
        refine ⟨by omega, ?_, ?_, ?_, ?_, f, ?_⟩
        · intro i hi
          rw [b i (Nat.lt_succ_of_lt hi), add_old hi]
        · intro x y hx
          refine c' x y ?_
          rw [if_neg (by rintro rfl; rw [hmo] at hx; cases hx)]
          exact hx
        · intro x hx
          rcases List.mem_cons.1 hx with rfl | hx
          · exact ⟨_, hnew⟩
          · exact d x hx
        · intro x y hx
          rcases e x y hx with h1 | ⟨h1, h2, h3, h4⟩
          · split at h1
            · cases h1
              rename_i hxo
              subst hxo
              refine .inr ⟨List.mem_cons_self, Nat.le_refl _, by omega, ?_⟩
              rw [b _ (by simp), add_new]; exact hp
            · exact .inl h1
          · refine .inr ⟨List.mem_cons_of_mem _ h1, ?_, h3, ?_⟩
            · simp only [add_size] at h2; omega
            · rw [add_old (hlt x (List.mem_cons_of_mem _ h1))] at h4; exact h4
        · intro i h1 h2
          rcases Nat.lt_or_ge h.size i with hi | hi
          · obtain ⟨x, hx, hq⟩ := g i hi h2
            rw [add_old (hlt x (List.mem_cons_of_mem _ hx))] at hq
            exact ⟨x, List.mem_cons_of_mem _ hx, hq⟩
          · have : i = h.size := by omega
            subst this
            refine ⟨o, List.mem_cons_self, ?_⟩
            rw [b _ (by simp), add_new]; exact hp

/-- Pickling succeeds if all objects can be pickled. -/
theorem pickle_succeeds (os : List Nat) (memo : Nat → Option Nat) (h : Heap) (hlt : ∀ x ∈ os, x < h.size)
    (hp : ∀ x ∈ os, ∃ c, (h.obj x).pickle = .ok c) : ∃ r, pickle os memo h = .ok r := by
  induction os generalizing memo h with
  | nil => exact ⟨_, rfl⟩
  | cons o os ih =>
    simp only [pickle]
    cases memo o with
    | some z =>
      exact ih memo h (fun x hx => hlt x (List.mem_cons_of_mem _ hx))
        (fun x hx => hp x (List.mem_cons_of_mem _ hx))
    | none =>
      obtain ⟨c, hc⟩ := hp o List.mem_cons_self
      simp only [hc]
      refine ih _ _ (fun x hx => Nat.lt_succ_of_lt (hlt x (List.mem_cons_of_mem _ hx))) ?_
      intro x hx
      rw [add_old (hlt x (List.mem_cons_of_mem _ hx))]
      exact hp x (List.mem_cons_of_mem _ hx)

end Heap

/-! ## What holds in all histories -/

/-- The references point to objects; the objects are mirrors as they can occur; an object without lock has
never been used. -/
structure SendInv (s : SendSys) : Prop where
  own : s.own < s.heap.size
  ref : ∀ o ∈ s.ref, o < s.heap.size
  reach : ∀ i, i < s.heap.size → MReach (s.heap.obj i).mirror.queue (s.heap.obj i).mirror
  fresh : ∀ i, i < s.heap.size → (s.heap.obj i).lock = false → (s.heap.obj i).mirror.buf = {}

namespace SendSys

theorem holds_mem {s : SendSys} {t o : Nat} (h : s.holds t = some o) : o ∈ s.ref :=
  List.mem_of_getElem? h

/-- What a message with references does, if it can be sent. -/
theorem send_spec {s s' : SendSys} (hi : SendInv s) (ts : List Nat) (h : send ts s = (.ok (), s')) :
    s'.main = s.main ∧ s'.net = s.net ∧ s'.own = s.own ∧ s'.ref.length = s.ref.length ∧
    s.heap.size ≤ s'.heap.size ∧
    (∀ i, i < s.heap.size → s'.heap.obj i = s.heap.obj i) ∧
    (∀ t, t ∉ ts → s'.holds t = s.holds t) ∧
    (∀ t o, t ∈ ts → s.holds t = some o → ∃ o', s'.holds t = some o' ∧ s.heap.size ≤ o' ∧
      o' < s'.heap.size ∧ (s.heap.obj o).pickle = .ok (s'.heap.obj o')) ∧
    (∀ t t' o o', t ∈ ts → t' ∈ ts → s.holds t = some o → s.holds t' = some o' →
      (s'.holds t = s'.holds t' ↔ o = o')) ∧
    (∀ i, s.heap.size ≤ i → i < s'.heap.size → ∃ t ∈ ts, ∃ o, s.holds t = some o ∧
      (s.heap.obj o).pickle = .ok (s'.heap.obj i)) := by
  unfold send at h
  cases hp : Heap.pickle (ts.filterMap s.holds) (fun _ => none) s.heap with
  | error e => rw [hp] at h; cases h
  | ok r =>
    obtain ⟨memo, h'⟩ := r
    rw [hp] at h
    simp only [Prod.mk.injEq, true_and] at h
    subst h
    obtain ⟨a, b, _, d, e, f, g⟩ := Heap.pickle_spec _ _ _ _ _
      (fun x hx => by
        obtain ⟨t, _, ht⟩ := List.mem_filterMap.1 hx
        exact hi.ref _ (holds_mem ht)) (fun _ _ hx => by cases hx) (fun _ _ _ hx => by cases hx) hp
    have hold : ∀ t o, t ∈ ts → s.holds t = some o → ∃ o', memo o = some o' ∧
        (s.ref.mapIdx fun t o => if t ∈ ts then (memo o).getD o else o)[t]? = some o' ∧
        s.heap.size ≤ o' ∧ o' < h'.size ∧ (s.heap.obj o).pickle = .ok (h'.obj o') := by
      intro t o ht ho
      obtain ⟨o', ho'⟩ := d o (List.mem_filterMap.2 ⟨t, ht, ho⟩)
      refine ⟨o', ho', ?_, ?_⟩
      · have ho2 : s.ref[t]? = some o := ho
        rw [List.getElem?_mapIdx, ho2]
        simp [ht, ho']
      · rcases e o o' ho' with h1 | ⟨_, h2⟩
        · cases h1
        · exact h2
    refine ⟨rfl, rfl, rfl, by simp, a, b, ?_, ?_, ?_, ?_⟩
    · intro t ht
      simp only [holds, List.getElem?_mapIdx]
      cases s.ref[t]? <;> simp [ht]
    · intro t o ht ho
      obtain ⟨o', _, h1, h2⟩ := hold t o ht ho
      exact ⟨o', h1, h2⟩
    · intro t t' o o' ht ht' ho ho'
      obtain ⟨p, hm, h1, _⟩ := hold t o ht ho
      obtain ⟨p', hm', h1', _⟩ := hold t' o' ht' ho'
      simp only [holds]
      rw [h1, h1']
      constructor
      · intro h; cases h; exact f o o' p hm hm'
      · rintro rfl
        rw [hm] at hm'; exact hm'
    · intro i h1 h2
      obtain ⟨x, hx, hq⟩ := g i h1 h2
      obtain ⟨t, ht, ho⟩ := List.mem_filterMap.1 hx
      exact ⟨t, ht, x, ho, hq⟩

/-- A message that cannot be sent changes nothing. -/
theorem send_error {s s' : SendSys} {ts : List Nat} {e : Exc} (h : send ts s = (.error e, s')) : s' = s := by
  unfold send at h
  split at h
  · exact (Prod.mk.inj h).2.symm
  · cases h

theorem use_some {s : SendSys} {t o : Nat} (h : s.holds t = some o) (c : MCall) :
    use t c s = ((Mirror.exec c ((s.heap.obj o).mirror, s.net)).1,
      { s with heap := s.heap.put o { s.heap.obj o with
                 mirror := (Mirror.exec c ((s.heap.obj o).mirror, s.net)).2.1,
                 lock := (s.heap.obj o).lock || c.locks },
               net := (Mirror.exec c ((s.heap.obj o).mirror, s.net)).2.2 }) := by
  simp only [use, h]

theorem use_none {s : SendSys} {t : Nat} (h : s.holds t = none) (c : MCall) : use t c s = (.unit, s) := by
  simp only [use, h]

theorem inv_new {maxlen : Int} {room : List Room} {s : SendSys} (h : new maxlen room = .ok s) :
    SendInv s ∧ ∃ p0, ProcBuf.new maxlen = .ok p0 ∧
      s = { main := p0, heap := { obj := fun _ => { mirror := p0.mirror }, size := 1 }, own := 0,
            net := { room := room } } ∧ p0.mirror = Mirror.new 0 ∧ p0.nMirrors = 0 := by
  unfold new at h
  cases hp : ProcBuf.new maxlen with
  | error e => rw [hp] at h; cases h
  | ok p0 =>
    rw [hp] at h
    have h2 : s = _ := (Except.ok.inj h).symm
    have hp0 : p0.mirror = Mirror.new 0 ∧ p0.nMirrors = 0 := by
      simp only [ProcBuf.new, LineBuf.new] at hp
      split at hp
      · cases hp
      · cases hp; exact ⟨rfl, rfl⟩
    refine ⟨?_, p0, rfl, h2, hp0⟩
    rw [h2]
    refine ⟨Nat.zero_lt_one, by simp, fun i _ => ?_, fun i _ _ => ?_⟩
    · simp only [hp0.1]; exact .new false none
    · simp only [hp0.1]; rfl

theorem inv_put {s : SendSys} (h : SendInv s) {o : Nat} (x : MObj) (n : Net)
    (hn : o < s.heap.size → MReach x.mirror.queue x.mirror) (hf : o < s.heap.size → x.lock = false → x.mirror.buf = {}) :
    SendInv { s with heap := s.heap.put o x, net := n } := by
  refine ⟨h.own, h.ref, fun i hi => ?_, fun i hi => ?_⟩
  · by_cases e : i = o
    · subst e; simp only [Heap.put_same]; exact hn hi
    · simp only [Heap.put_other e]; exact h.reach i hi
  · by_cases e : i = o
    · subst e; simp only [Heap.put_same]; exact hf hi
    · simp only [Heap.put_other e]; exact h.fresh i hi

theorem mreach_exec {m : Mirror} (h : MReach m.queue m) (c : MCall) (n : Net) :
    MReach (Mirror.exec c (m, n)).2.1.queue (Mirror.exec c (m, n)).2.1 := by
  rw [(Mirror.exec_norm c m n (mreach_norm h).1).2.1]
  exact .call c m n h

theorem inv_use {s : SendSys} (h : SendInv s) (t : Nat) (c : MCall) : SendInv (use t c s).2 := by
  cases ho : s.holds t with
  | none => rw [use_none ho]; exact h
  | some o =>
    rw [use_some ho]
    refine inv_put h _ _ (fun hlt => mreach_exec (h.reach o hlt) c s.net) (fun hlt hl => ?_)
    simp only [Bool.or_eq_false_iff] at hl
    have hb := h.fresh o hlt hl.1
    cases c with
    | setTimeout t => exact hb
    | setAggressive a => exact hb
    | _ => cases hl.2

theorem inv_main {α : Type} {s : SendSys} (h : SendInv s) (m : Py PNet α) : SendInv (onMain m s).2 :=
  ⟨h.own, h.ref, h.reach, h.fresh⟩

theorem inv_add {s : SendSys} (h : SendInv s) (x : MObj) (hn : MReach x.mirror.queue x.mirror)
    (hf : x.lock = false → x.mirror.buf = {}) (own : Nat) (ref : List Nat) (ho : own < s.heap.size + 1)
    (hr : ∀ o ∈ ref, o < s.heap.size + 1) :
    SendInv { s with heap := s.heap.add x, own := own, ref := ref } := by
  refine ⟨ho, hr, fun i hi => ?_, fun i hi => ?_⟩
  · rcases Nat.lt_or_ge i s.heap.size with h1 | h1
    · simp only [Heap.add_old h1]; exact h.reach i h1
    · simp only [Heap.add_size] at hi
      have : i = s.heap.size := by omega
      subst this; simpa using hn
  · rcases Nat.lt_or_ge i s.heap.size with h1 | h1
    · simp only [Heap.add_old h1]; exact h.fresh i h1
    · simp only [Heap.add_size] at hi
      have : i = s.heap.size := by omega
      subst this; simpa using hf

theorem inv_send {s : SendSys} (h : SendInv s) (ts : List Nat) : SendInv (send ts s).2 := by
  cases hs : send ts s with
  | mk r s' =>
    cases r with
    | error e => rw [send_error hs]; exact h
    | ok u =>
      obtain ⟨h1, h2, h3, h4, h5, h6, h7, h8, h9, h10⟩ := send_spec h ts hs
      refine ⟨by rw [h3]; exact Nat.lt_of_lt_of_le h.own h5, fun o ho => ?_, fun i hi => ?_, fun i hi hl => ?_⟩
      · obtain ⟨t, ht⟩ := List.getElem?_of_mem ho
        have ht' : s'.holds t = some o := ht
        by_cases hm : t ∈ ts
        · cases hx : s.holds t with
          | none =>
            have : s'.ref.length ≤ t := by rw [h4]; simpa [holds] using hx
            have := List.getElem?_eq_none this
            rw [ht] at this; cases this
          | some o0 =>
            obtain ⟨o', e1, _, e2, _⟩ := h8 t o0 hm hx
            rw [ht'] at e1; cases e1; exact e2
        · rw [h7 t hm] at ht'
          exact Nat.lt_of_lt_of_le (h.ref _ (holds_mem ht')) h5
      · rcases Nat.lt_or_ge i s.heap.size with g | g
        · simp only [h6 i g]; exact h.reach i g
        · obtain ⟨t, _, o, ho, hp⟩ := h10 i g hi
          obtain ⟨_, _, _, e⟩ := MObj.pickle_ok hp
          simp only [e]
          exact h.reach o (h.ref _ (holds_mem ho))
      · rcases Nat.lt_or_ge i s.heap.size with g | g
        · simp only [h6 i g] at hl ⊢; exact h.fresh i g hl
        · obtain ⟨t, _, o, ho, hp⟩ := h10 i g hi
          obtain ⟨_, e0, _, e⟩ := MObj.pickle_ok hp
          simp only [e]
          exact h.fresh o (h.ref _ (holds_mem ho)) e0

theorem reset_new (p : ProcBuf) (n : Net) (s' : PNet) (h : ProcBuf.resetStates (p, n) = (.ok (), s')) :
    s'.1.mirror = Mirror.new p.nextQueue := by
  unfold ProcBuf.resetStates at h
  simp only [Py.bind_apply, Py.gets_apply] at h
  split at h
  · simp only [Py.raise_apply] at h; cases h
  · have := (Prod.mk.inj h).2
    rw [← this]

theorem reset_error (p : ProcBuf) (n : Net) (e : Exc) (s' : PNet)
    (h : ProcBuf.resetStates (p, n) = (.error e, s')) : s' = (p, n) := by
  unfold ProcBuf.resetStates at h
  simp only [Py.bind_apply, Py.gets_apply] at h
  split at h
  · simp only [Py.raise_apply] at h; exact (Prod.mk.inj h).2.symm
  · cases h

theorem inv_exec {s : SendSys} (h : SendInv s) (op : SOp) : SendInv (exec op s).2 := by
  cases op with
  | take =>
    refine ⟨h.own, ?_, h.reach, h.fresh⟩
    intro o ho
    rcases List.mem_append.1 ho with g | g
    · exact h.ref o g
    · rw [List.mem_singleton.1 g]; exact h.own
  | send ts => exact inv_send h ts
  | fork t =>
    simp only [exec]
    cases ho : s.holds t with
    | none => exact h
    | some o =>
      have hlt := h.ref _ (holds_mem ho)
      refine inv_add h _ (h.reach o hlt) (h.fresh o hlt) _ _ (Nat.lt_succ_of_lt h.own) ?_
      intro x hx
      rcases List.mem_or_eq_of_mem_set hx with g | g
      · exact Nat.lt_succ_of_lt (h.ref x g)
      · omega
  | use t c => exact inv_use h t c
  | enter t =>
    simp only [exec]
    cases ho : s.holds t with
    | none => exact h
    | some o => exact inv_put h _ _ (h.reach o) (h.fresh o)
  | leave t exc =>
    simp only [exec]
    cases ho : s.holds t with
    | none => exact h
    | some o =>
      exact inv_use (inv_put h { s.heap.obj o with saved := false } s.net (h.reach o) (h.fresh o)) t (.close exc)
  | receive => exact inv_main h ProcBuf.receive
  | stopAll => exact inv_main h ProcBuf.stopAll
  | forceStop => exact inv_main h ProcBuf.forceStop
  | reset =>
    simp only [exec]
    cases hr : onMain ProcBuf.resetStates s with
    | mk r s' =>
      have h' : SendInv s' := by have := inv_main h ProcBuf.resetStates; rw [hr] at this; exact this
      cases r with
      | error e => exact h'
      | ok u =>
        cases u
        have hm : s'.main.mirror = Mirror.new s.main.nextQueue := by
          simp only [onMain] at hr
          cases hq : ProcBuf.resetStates (s.main, s.net) with
          | mk r pn =>
            rw [hq] at hr
            simp only [Prod.mk.injEq] at hr
            rw [← hr.2]
            rw [hr.1] at hq
            exact reset_new _ _ _ hq
        refine inv_add h' _ ?_ ?_ _ s'.ref (Nat.lt_succ_self _) (fun o ho => Nat.lt_succ_of_lt (h'.ref o ho))
        · simp only [hm]; exact .new false none
        · intro _; simp only [hm]; rfl
  | buffer c =>
    cases c with
    | write d => exact inv_main h (ProcBuf.write d)
    | _ => exact ⟨h.own, h.ref, h.reach, h.fresh⟩

theorem inv_run {s : SendSys} (h : SendInv s) (os : List SOp) : SendInv (run os s) := by
  induction os generalizing s with
  | nil => exact h
  | cons o os ih => exact ih (inv_exec h o)

theorem run_append (a b : List SOp) (s : SendSys) : run (a ++ b) s = run b (run a s) := by
  simp [run, List.foldl_append]

end SendSys

/-! ## If the rules are kept, everyone has a mirror of their own -/

/-- The state of `ProcSys` that belongs to a state here. -/
def Sim (s : SendSys) (a : ProcSys) : Prop :=
  a.main = s.main ∧ a.net = s.net ∧ a.mirrors = s.ref.map fun o => (s.heap.obj o).mirror

/-- What the rules guarantee. -/
structure Apart (n : Nat) (sent : List Nat) (s : SendSys) : Prop where
  inv : SendInv s
  len : s.ref.length = n
  lt : ∀ t ∈ sent, t < n
  own : s.heap.obj s.own = { mirror := s.main.mirror }
  unsent : ∀ t o, s.holds t = some o → t ∉ sent → (s.heap.obj o).lock = false ∧ (s.heap.obj o).saved = false
  alone : ∀ t o, t ∈ sent → s.holds t = some o → o ≠ s.own ∧ ∀ t', t' ≠ t → s.holds t' ≠ some o

theorem apart_new {maxlen : Int} {room : List Room} {s : SendSys} (h : SendSys.new maxlen room = .ok s) :
    Apart 0 [] s ∧ ∃ p0, ProcBuf.new maxlen = .ok p0 ∧ Sim s { main := p0, net := { room := room } } := by
  obtain ⟨hi, p0, hp, rfl, _, _⟩ := SendSys.inv_new h
  exact ⟨⟨hi, rfl, (by simp), rfl, fun t o ho => by simp [SendSys.holds] at ho, fun t o ht => by simp at ht⟩,
    p0, hp, rfl, rfl, rfl⟩

namespace SendSys

theorem holds_none_iff {s : SendSys} {t : Nat} : s.holds t = none ↔ s.ref.length ≤ t := by
  simp [holds]

theorem holds_some_of_lt {s : SendSys} {t : Nat} (h : t < s.ref.length) : ∃ o, s.holds t = some o :=
  ⟨s.ref[t], by simp [holds, h]⟩

/-- Changing an object that one reference alone has. -/
theorem sim_put {s : SendSys} {a : ProcSys} (h : Sim s a) {t o : Nat} (ho : s.holds t = some o)
    (ha : ∀ t', t' ≠ t → s.holds t' ≠ some o) (x : MObj) (n : Net) :
    Sim { s with heap := s.heap.put o x, net := n } { a with mirrors := a.mirrors.set t x.mirror, net := n } := by
  refine ⟨h.1, rfl, ?_⟩
  simp only [h.2.2]
  apply List.ext_getElem?
  intro i
  simp only [List.getElem?_set, List.getElem?_map, List.length_map]
  by_cases hi : t = i
  · subst hi
    have ho' : s.ref[t]? = some o := ho
    have hlt : t < s.ref.length := by
      rcases Nat.lt_or_ge t s.ref.length with g | g
      · exact g
      · rw [List.getElem?_eq_none g] at ho'; cases ho'
    have hg : s.ref[t] = o := by rw [List.getElem?_eq_getElem hlt] at ho'; exact Option.some.inj ho'
    simp [hlt, hg]
  · simp only [hi, if_false]
    cases hr : s.ref[i]? with
    | none => rfl
    | some o' =>
      have : o' ≠ o := by
        rintro rfl
        exact ha i (fun e => hi e.symm) hr
      simp [Heap.put_other this]

theorem sim_same {s : SendSys} {a : ProcSys} (h : Sim s a) {t o : Nat} (ho : s.holds t = some o) :
    ({ a with mirrors := a.mirrors.set t (s.heap.obj o).mirror, net := s.net } : ProcSys) = a := by
  have hm : a.mirrors[t]? = some (s.heap.obj o).mirror := by
    have ho' : s.ref[t]? = some o := ho
    rw [h.2.2]; simp [ho']
  obtain ⟨a1, a2, a3⟩ := a
  simp only [ProcSys.mk.injEq, true_and]
  refine ⟨?_, h.2.1.symm⟩
  apply List.ext_getElem?
  intro i
  simp only at hm
  by_cases hi : t = i
  · subst hi
    rw [List.getElem?_set_self (by
      rcases Nat.lt_or_ge t a2.length with g | g
      · exact g
      · rw [List.getElem?_eq_none g] at hm; cases hm)]
    exact hm.symm
  · rw [List.getElem?_set_ne hi]

theorem apart_put {n : Nat} {sent : List Nat} {s : SendSys} (h : Apart n sent s) {t o : Nat} (ht : t ∈ sent)
    (ho : s.holds t = some o) (x : MObj) (net : Net)
    (hi : SendInv { s with heap := s.heap.put o x, net := net }) :
    Apart n sent { s with heap := s.heap.put o x, net := net } := by
  obtain ⟨h1, h2⟩ := h.alone t o ht ho
  refine ⟨hi, h.len, h.lt, ?_, ?_, h.alone⟩
  · simp only [Heap.put_other h1.symm]; exact h.own
  · intro t' o' ho' hs'
    have : o' ≠ o := by
      rintro rfl
      exact h2 t' (by rintro rfl; exact hs' ht) ho'
    simp only [Heap.put_other this]
    exact h.unsent t' o' ho' hs'

theorem step_mirror {s : SendSys} {a : ProcSys} (h : Sim s a) {t o : Nat} (ho : s.holds t = some o)
    (c : MCall) : ProcSys.step (.mirror t c) a =
      { a with mirrors := a.mirrors.set t (Mirror.exec c ((s.heap.obj o).mirror, s.net)).2.1,
               net := (Mirror.exec c ((s.heap.obj o).mirror, s.net)).2.2 } := by
  have : a.mirrors[t]? = some (s.heap.obj o).mirror := by
    have ho' : s.ref[t]? = some o := ho
    rw [h.2.2]; simp [ho']
  simp only [ProcSys.step, this, h.2.1]

theorem use_sim {n : Nat} {sent : List Nat} {s : SendSys} {a : ProcSys} (h : Apart n sent s) (hs : Sim s a)
    {t : Nat} (ht : t ∈ sent) (c : MCall) :
    Apart n sent (use t c s).2 ∧ Sim (use t c s).2 (ProcSys.step (.mirror t c) a) := by
  cases ho : s.holds t with
  | none =>
    rw [use_none ho]
    refine ⟨h, ?_⟩
    have : a.mirrors[t]? = none := by
      have ho' : s.ref[t]? = none := ho
      rw [hs.2.2]; simpa using ho'
    simp only [ProcSys.step, this]; exact hs
  | some o =>
    have hi := inv_use h.inv t c
    rw [use_some ho] at hi ⊢
    refine ⟨apart_put h ht ho _ _ hi, ?_⟩
    rw [step_mirror hs ho]
    exact sim_put hs ho (h.alone t o ht ho).2 _ _

/-- A reference gets a new object of its own. -/
theorem apart_move {n : Nat} {sent : List Nat} {s s' : SendSys} (h : Apart n sent s) (hi : SendInv s')
    (t : Nat) (hm : s'.main = s.main) (ho : s'.own = s.own) (hl : s'.ref.length = s.ref.length)
    (hold : ∀ i, i < s.heap.size → s'.heap.obj i = s.heap.obj i)
    (hoth : ∀ t', t' ≠ t → s'.holds t' = s.holds t') (o' : Nat) (hn : s'.holds t = some o')
    (hge : s.heap.size ≤ o') : Apart n (t :: sent) s' := by
  refine ⟨hi, hl.trans h.len, ?_, ?_, ?_, ?_⟩
  · intro x hx
    rcases List.mem_cons.1 hx with rfl | g
    · rw [← h.len, ← hl]
      rcases Nat.lt_or_ge x s'.ref.length with g | g
      · exact g
      · rw [holds_none_iff.2 g] at hn; cases hn
    · exact h.lt x g
  · rw [ho, hold _ h.inv.own, hm]; exact h.own
  · intro t' x hx hs'
    rw [List.mem_cons, not_or] at hs'
    rw [hoth t' hs'.1] at hx
    rw [hold _ (h.inv.ref _ (holds_mem hx))]
    exact h.unsent t' x hx hs'.2
  · intro t' x ht' hx
    by_cases e : t' = t
    · subst e
      rw [hn] at hx; cases hx
      refine ⟨by rw [ho]; have := h.inv.own; omega, fun t'' ht'' e => ?_⟩
      rw [hoth t'' ht''] at e
      have := h.inv.ref _ (holds_mem e); omega
    · have hin : t' ∈ sent := by
        rcases List.mem_cons.1 ht' with g | g
        · exact absurd g e
        · exact g
      rw [hoth t' e] at hx
      obtain ⟨g1, g2⟩ := h.alone t' x hin hx
      refine ⟨by rw [ho]; exact g1, fun t'' ht'' e' => ?_⟩
      by_cases e2 : t'' = t
      · subst e2
        rw [hn] at e'; cases e'
        have := h.inv.ref _ (holds_mem hx); omega
      · rw [hoth t'' e2] at e'
        exact g2 t'' ht'' e'

theorem sim_move {s s' : SendSys} {a : ProcSys} (hi : SendInv s) (h : Sim s a) (t : Nat) (hm : s'.main = s.main)
    (hnet : s'.net = s.net) (hold : ∀ i, i < s.heap.size → s'.heap.obj i = s.heap.obj i)
    (hoth : ∀ t', t' ≠ t → s'.holds t' = s.holds t') (o o' : Nat) (hn0 : s.holds t = some o)
    (hn : s'.holds t = some o')
    (he : (s'.heap.obj o').mirror = (s.heap.obj o).mirror) : Sim s' a := by
  refine ⟨h.1.trans hm.symm, h.2.1.trans hnet.symm, ?_⟩
  rw [h.2.2]
  apply List.ext_getElem?
  intro i
  simp only [List.getElem?_map]
  by_cases e : i = t
  · subst e
    have h1 : s.ref[i]? = some o := hn0
    have h2 : s'.ref[i]? = some o' := hn
    simp [h1, h2, he]
  · have h1 : s'.ref[i]? = s.ref[i]? := hoth i e
    rw [h1]
    cases hr : s.ref[i]? with
    | none => rfl
    | some x => simp [hold x (hi.ref _ (List.mem_of_getElem? hr))]

theorem apart_more {n : Nat} {sent : List Nat} {s : SendSys} (h : Apart n sent s) {t : Nat} (ht : t ∈ sent) :
    Apart n (t :: sent) s :=
  ⟨h.inv, h.len, (fun x hx => by
      rcases List.mem_cons.1 hx with rfl | g
      · exact h.lt _ ht
      · exact h.lt x g), h.own, fun t' o ho hs => h.unsent t' o ho (fun g => hs (List.mem_cons_of_mem _ g)),
    fun t' o ht' ho => h.alone t' o (by
      rcases List.mem_cons.1 ht' with g | g
      · rw [g]; exact ht
      · exact g) ho⟩

theorem send_sim {n : Nat} {sent : List Nat} {s : SendSys} {a : ProcSys} (h : Apart n sent s) (hs : Sim s a)
    {t : Nat} (ht : t < n) : Apart n (t :: sent) (send [t] s).2 ∧ Sim (send [t] s).2 a := by
  obtain ⟨o, ho⟩ := holds_some_of_lt (s := s) (t := t) (by rw [h.len]; exact ht)
  cases hr : send [t] s with
  | mk r s' =>
    cases r with
    | error e =>
      have e' := send_error hr
      subst e'
      refine ⟨?_, hs⟩
      by_cases hin : t ∈ sent
      · exact apart_more h hin
      · exfalso
        obtain ⟨h1, h2⟩ := h.unsent t o ho hin
        have hlt := h.inv.ref _ (holds_mem ho)
        have hc : (s'.heap.obj o).mirror.buf.closed = false := by rw [h.inv.fresh o hlt h1]
        obtain ⟨r, hp⟩ := Heap.pickle_succeeds ([t].filterMap s'.holds) (fun _ => none) s'.heap
          (by intro x hx; simp [ho] at hx; rw [hx]; exact hlt)
          (by intro x hx; simp [ho] at hx; rw [hx]; exact ⟨_, MObj.pickle_of hc h1 h2⟩)
        simp only [send, hp] at hr
        cases hr
    | ok u =>
      cases u
      obtain ⟨h1, h2, h3, h4, h5, h6, h7, h8, h9, h10⟩ := send_spec h.inv [t] hr
      obtain ⟨o', e1, e2, e3, e4⟩ := h8 t o (List.mem_singleton.2 rfl) ho
      have hi := inv_send h.inv [t]
      rw [hr] at hi
      have hoth : ∀ t', t' ≠ t → s'.holds t' = s.holds t' := fun t' ht' => h7 t' (by simpa using ht')
      exact ⟨apart_move h hi t h1 h3 h4 h6 hoth o' e1 e2,
        sim_move h.inv hs t h1 h2 h6 hoth o o' ho e1 (by rw [(MObj.pickle_ok e4).2.2.2])⟩

theorem fork_sim {n : Nat} {sent : List Nat} {s : SendSys} {a : ProcSys} (h : Apart n sent s) (hs : Sim s a)
    {t : Nat} (ht : t < n) : Apart n (t :: sent) (exec (.fork t) s).2 ∧ Sim (exec (.fork t) s).2 a := by
  have hi := inv_exec h.inv (.fork t)
  obtain ⟨o, ho⟩ := holds_some_of_lt (s := s) (t := t) (by rw [h.len]; exact ht)
  have hlt : t < s.ref.length := by rw [h.len]; exact ht
  simp only [exec, ho] at hi ⊢
  have hoth : ∀ t', t' ≠ t → (s.ref.set t s.heap.size)[t']? = s.holds t' := by
    intro t' ht'
    rw [List.getElem?_set_ne (fun e => ht' e.symm)]; rfl
  have hn : (s.ref.set t s.heap.size)[t]? = some s.heap.size := by simp [hlt]
  exact ⟨apart_move h hi t rfl rfl (by simp) (fun i g => Heap.add_old g _) hoth s.heap.size hn (Nat.le_refl _),
    sim_move h.inv hs t rfl rfl (fun i g => Heap.add_old g _) hoth o s.heap.size ho hn (by simp)⟩

theorem receive_mirror (p : ProcBuf) (n : Net) : (ProcBuf.receive (p, n)).2.1.mirror = p.mirror := by
  cases hq : n.queues p.mirror.queue with
  | nil => rw [receive_empty p n hq]
  | cons m ms =>
    obtain ⟨f, hf, h⟩ := receive_local m
    rw [h p n ms hq]
    exact (hf p).1

theorem apart_main {α : Type} {n : Nat} {sent : List Nat} {s : SendSys} (h : Apart n sent s) (m : Py PNet α)
    (hm : (m (s.main, s.net)).2.1.mirror = s.main.mirror) : Apart n sent (onMain m s).2 :=
  ⟨inv_main h.inv m, h.len, h.lt, by simp only [onMain]; rw [hm]; exact h.own, h.unsent, h.alone⟩

theorem sim_main {α : Type} {s : SendSys} {a : ProcSys} (h : Sim s a) (m : Py PNet α) :
    (onMain m s).1 = (ProcSys.onMain m a).1 ∧ Sim (onMain m s).2 (ProcSys.onMain m a).2 := by
  obtain ⟨h1, h2, h3⟩ := h
  simp only [onMain, ProcSys.onMain, h1, h2]
  exact ⟨trivial, rfl, rfl, h3⟩

/-- One step that keeps the rules. -/
theorem step_sim {n : Nat} {sent : List Nat} {s : SendSys} {a : ProcSys} (h : Apart n sent s) (hs : Sim s a)
    (op : SOp) (os : List SOp) (hp : Proper n sent (op :: os)) :
    ∃ n' sent', Apart n' sent' (exec op s).2 ∧ Sim (exec op s).2 (ProcSys.run (abs op) a) ∧
      Proper n' sent' os := by
  cases op with
  | take =>
    have hin : ∀ {t}, t < n → (s.ref ++ [s.own])[t]? = s.holds t := by
      intro t ht
      rw [List.getElem?_append_left (by rw [h.len]; exact ht)]; rfl
    have hnew : ∀ {t o}, n ≤ t → (s.ref ++ [s.own])[t]? = some o → o = s.own := by
      intro t o ht ho
      rw [List.getElem?_append_right (by rw [h.len]; exact ht)] at ho
      cases hx : t - s.ref.length with
      | zero => rw [hx] at ho; simp at ho; exact ho.symm
      | succ k => rw [hx] at ho; simp at ho
    refine ⟨n + 1, sent, ⟨inv_exec h.inv .take, ?_, fun t ht => Nat.lt_succ_of_lt (h.lt t ht), h.own, ?_, ?_⟩,
      ⟨?_, hs.2.1, ?_⟩, hp⟩
    · simp [exec, onMain, ProcBuf.takeMirror, h.len]
    · intro t o ho hns
      rcases Nat.lt_or_ge t n with g | g
      · exact h.unsent t o ((hin g).symm.trans ho) hns
      · rw [hnew g ho]
        exact (show (s.heap.obj s.own).lock = false ∧ (s.heap.obj s.own).saved = false by
          rw [h.own]; exact ⟨rfl, rfl⟩)
    · intro t o ht ho
      obtain ⟨g1, g2⟩ := h.alone t o ht ((hin (h.lt t ht)).symm.trans ho)
      refine ⟨g1, fun t' ht' ho' => ?_⟩
      rcases Nat.lt_or_ge t' n with g | g
      · exact g2 t' ht' ((hin g).symm.trans ho')
      · exact g1 (hnew g ho')
    · show _ = ({ s.main with nMirrors := s.main.nMirrors + 1 } : ProcBuf)
      rw [← hs.1]; rfl
    · show a.mirrors ++ [a.main.mirror] = (s.ref ++ [s.own]).map fun o => (s.heap.obj o).mirror
      rw [List.map_append, hs.2.2, List.map_singleton, h.own, hs.1]
  | send ts =>
    obtain ⟨t, rfl, ht, hp⟩ := hp
    obtain ⟨g1, g2⟩ := send_sim h hs ht
    exact ⟨n, t :: sent, g1, g2, hp⟩
  | fork t =>
    obtain ⟨ht, hp⟩ := hp
    obtain ⟨g1, g2⟩ := fork_sim h hs ht
    exact ⟨n, t :: sent, g1, g2, hp⟩
  | use t c =>
    obtain ⟨ht, hp⟩ := hp
    obtain ⟨g1, g2⟩ := use_sim h hs ht c
    exact ⟨n, sent, g1, g2, hp⟩
  | enter t =>
    obtain ⟨ht, hp⟩ := hp
    refine ⟨n, sent, ?_⟩
    have hi := inv_exec h.inv (.enter t)
    obtain ⟨o, ho⟩ := holds_some_of_lt (s := s) (t := t) (by rw [h.len]; exact h.lt t ht)
    simp only [exec, ho] at hi ⊢
    refine ⟨apart_put h ht ho { s.heap.obj o with saved := true } s.net hi, ?_, hp⟩
    have := sim_put hs ho (h.alone t o ht ho).2 { s.heap.obj o with saved := true } s.net
    rw [sim_same hs ho] at this
    exact this
  | leave t exc =>
    obtain ⟨ht, hp⟩ := hp
    refine ⟨n, sent, ?_⟩
    obtain ⟨o, ho⟩ := holds_some_of_lt (s := s) (t := t) (by rw [h.len]; exact h.lt t ht)
    simp only [exec, ho]
    have hi : SendInv { s with heap := s.heap.put o { s.heap.obj o with saved := false } } :=
      inv_put h.inv { s.heap.obj o with saved := false } s.net (h.inv.reach o) (h.inv.fresh o)
    have h1 := apart_put h ht ho { s.heap.obj o with saved := false } s.net hi
    have h2 := sim_put hs ho (h.alone t o ht ho).2 { s.heap.obj o with saved := false } s.net
    rw [sim_same hs ho] at h2
    obtain ⟨g1, g2⟩ := use_sim h1 h2 ht (.close exc)
    exact ⟨g1, g2, hp⟩
  | receive =>
    exact ⟨n, sent, apart_main h ProcBuf.receive (receive_mirror _ _), (sim_main hs ProcBuf.receive).2, hp⟩
  | stopAll => exact ⟨n, sent, apart_main h ProcBuf.stopAll rfl, (sim_main hs ProcBuf.stopAll).2, hp⟩
  | forceStop => exact ⟨n, sent, apart_main h ProcBuf.forceStop rfl, (sim_main hs ProcBuf.forceStop).2, hp⟩
  | reset =>
    refine ⟨n, sent, ?_⟩
    have hi := inv_exec h.inv .reset
    obtain ⟨e1, e2⟩ := sim_main hs ProcBuf.resetStates
    simp only [exec] at hi ⊢
    show _ ∧ Sim _ (ProcSys.onMain ProcBuf.resetStates a).2 ∧ _
    have href : (onMain ProcBuf.resetStates s).2.ref = s.ref := rfl
    have hheap : (onMain ProcBuf.resetStates s).2.heap = s.heap := rfl
    have hown : (onMain ProcBuf.resetStates s).2.own = s.own := rfl
    have hmain : (onMain ProcBuf.resetStates s).2.main = (ProcBuf.resetStates (s.main, s.net)).2.1 := rfl
    cases hr : onMain ProcBuf.resetStates s with
    | mk r s' =>
      rw [hr] at e1 e2 href hheap hown hi
      simp only at href hheap hown
      cases r with
      | error e =>
        refine ⟨⟨hi, by rw [href]; exact h.len, h.lt, ?_, ?_, ?_⟩, e2, hp⟩
        · have : s'.main.mirror = s.main.mirror := by
            rw [hr] at hmain
            simp only [onMain] at hr
            cases hq : ProcBuf.resetStates (s.main, s.net) with
            | mk r pn =>
              rw [hq] at hr hmain
              have := (Prod.mk.inj hr).1
              subst this
              rw [hmain, reset_error _ _ _ _ hq]
          simp only [hheap, hown, this]; exact h.own
        · intro t o ho
          simp only [hheap]
          exact h.unsent t o (by simpa only [holds, href] using ho)
        · intro t o ht ho
          simp only [hown]
          have hh : s'.holds = s.holds := by funext x; simp only [holds, href]
          rw [hh] at ho ⊢
          exact h.alone t o ht ho
      | ok u =>
        cases u
        have hh : s'.holds = s.holds := by funext x; simp only [holds, href]
        refine ⟨⟨hi, by simp only [href]; exact h.len, h.lt, ?_, ?_, ?_⟩, ⟨e2.1, e2.2.1, ?_⟩, hp⟩
        · simp
        · intro t o ho hns
          replace ho : s.holds t = some o := by rw [← hh]; exact ho
          have hlt := h.inv.ref _ (holds_mem ho)
          simp only [hheap, Heap.add_old hlt]
          exact h.unsent t o ho hns
        · intro t o ht ho
          replace ho : s.holds t = some o := by rw [← hh]; exact ho
          have hlt := h.inv.ref _ (holds_mem ho)
          refine ⟨by simp only [hheap]; omega, fun t' ht' ho' => ?_⟩
          replace ho' : s.holds t' = some o := by rw [← hh]; exact ho'
          exact (h.alone t o ht ho).2 t' ht' ho'
        · simp only [e2.2.2, href, hheap]
          refine List.map_congr_left fun o ho => ?_
          rw [Heap.add_old (h.inv.ref o ho)]
  | buffer c =>
    refine ⟨n, sent, ?_⟩
    have key : ∀ p : ProcBuf, p.mirror = s.main.mirror → Apart n sent { s with main := p } := fun p hpm =>
      ⟨⟨h.inv.own, h.inv.ref, h.inv.reach, h.inv.fresh⟩, h.len, h.lt, by simp only [hpm]; exact h.own,
        h.unsent, h.alone⟩
    cases c with
    | write d => exact ⟨apart_main h (ProcBuf.write d) rfl, (sim_main hs (ProcBuf.write d)).2, hp⟩
    | _ =>
      refine ⟨key _ rfl, ⟨?_, hs.2.1, hs.2.2⟩, hp⟩
      simp only [abs, ProcSys.run, List.foldl_cons, List.foldl_nil, ProcSys.step, exec, hs.1]

/-- A history that keeps the rules. -/
theorem run_sim (os : List SOp) {n : Nat} {sent : List Nat} {s : SendSys} {a : ProcSys} (h : Apart n sent s)
    (hs : Sim s a) (hp : Proper n sent os) : Sim (run os s) (ProcSys.run (os.flatMap abs) a) := by
  induction os generalizing n sent s a with
  | nil => exact hs
  | cons op os ih =>
    obtain ⟨n', sent', h1, h2, h3⟩ := step_sim h hs op os hp
    rw [List.flatMap_cons, sysRun_append]
    exact ih h1 h2 h3

end SendSys
end SyncStream
