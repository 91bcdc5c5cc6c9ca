import Verif.Model.HostSystem
import Verif.Lemmas.Clients
import Verif.Lemmas.HostMirror
import Verif.Spec.HostSystem
import Verif.Props.HostConc
import Verif.Props.Message
import Verif.Lemmas.Order
/-!
# The methods of mirrors and readers as clients, and the sequential model

Fed with the answers of `HNet.request`, the methods of `Model/HostSystem.lean` are those of `Model/Host.lean`.
-/

namespace SyncStream
open Spec Conc

variable {α β : Type} {env : HEnv}

/-- A client whose requests are answered by the network of the sequential model. -/
def Ask.onNet (env : HEnv) : Ask Req (Except Exc Resp) α → HNet → α × HNet
  | .done a, n => (a, n)
  | .ask r k, n => (k (HNet.request env r n).1).onNet env (HNet.request env r n).2

theorem Ask.onNet_bind (p : Ask Req (Except Exc Resp) α) (g : α → Ask Req (Except Exc Resp) β) (n : HNet) :
    (p.bind g).onNet env n = (g (p.onNet env n).1).onNet env (p.onNet env n).2 := by
  induction p generalizing n with
  | done a => rfl
  | ask r k ih => exact ih _ _

namespace HMAsk

/-- The method `p` is the method `m` of the sequential model. -/
def Agree (env : HEnv) (p : HMAsk α) (m : Py HMNet α) : Prop :=
  ∀ a n, m (a, n) = (((p a).onNet env n).1.1, (((p a).onNet env n).1.2, ((p a).onNet env n).2))

theorem Agree.pure (a : α) : Agree env (pure a) (pure a) := fun _ _ => rfl

theorem Agree.raise (e : Exc) : Agree env (raise e : HMAsk α) (Py.raise e) := fun _ _ => rfl

theorem Agree.bind {p : HMAsk α} {m : Py HMNet α} {g : α → HMAsk β} {k : α → Py HMNet β} (h : Agree env p m) (hg : ∀ a, Agree env (g a) (k a)) :
    Agree env (p >>= g) (m >>= k) := by
  intro a n
  have e : ((p >>= g) a).onNet env n = _ := Ask.onNet_bind ..
  rw [e, Py.bind_apply, h a n]
  generalize ((p a).onNet env n) = x
  obtain ⟨⟨r, b⟩, n'⟩ := x
  cases r with
  | ok r => exact hg r b n'
  | error e => rfl

theorem Agree.gets (f : HMirror → α) : Agree env (gets f) (Py.gets fun s => f s.1) := fun _ _ => rfl

theorem Agree.onBuf (p : Py StringIO α) : Agree env (onBuf p) (HMirror.onBuf p) := fun a n => by
  show Py.onPart _ _ _ _ = _
  rw [Py.onPart_apply]
  rfl

theorem Agree.request (r : Req) : Agree env (request r) (HMirror.request env r) := fun a n => by
  show Py.onPart _ _ _ _ = _
  rw [Py.onPart_apply]
  rfl

theorem Agree.ite {c : Prop} [Decidable c] {p q : HMAsk α} {m k : Py HMNet α} (h1 : Agree env p m) (h2 : Agree env q k) :
    Agree env (if c then p else q) (if c then m else k) := by
  by_cases h : c
  · rw [if_pos h, if_pos h]; exact h1
  · rw [if_neg h, if_neg h]; exact h2

theorem agree_fail (r : Resp) : Agree env (fail r : HMAsk α) r.fail := by
  unfold fail Resp.fail
  cases r.body <;> exact .raise _

theorem agree_expectOk (r : Req) : Agree env (expectOk r) (HMirror.expectOk env r) :=
  .bind (.request r) fun _ => .ite (.pure _) (agree_fail _)

theorem agree_closed : Agree env closed HMirror.closed := .gets _
theorem agree_readable : Agree env readable HMirror.readable := .gets _
theorem agree_writable : Agree env writable HMirror.writable := .gets _
theorem agree_clear : Agree env clear HMirror.clear := .bind (.onBuf _) fun _ => .onBuf _
theorem agree_setAggressive (b : Bool) : Agree env (setAggressive b) (HMirror.setAggressive b) := fun _ _ => rfl

theorem agree_sendData (d : PyStr) : Agree env (sendData d) (HMirror.sendData env d) :=
  .bind agree_closed fun _ => .ite (.pure _) (agree_expectOk _)

theorem agree_checkStates : Agree env checkStates (HMirror.checkStates env) := by
  refine .bind agree_closed fun _ => .ite (.pure _) (.bind (.request _) fun r => .ite ?_ (agree_fail _))
  cases r.body with
  | none => exact .raise _
  | some j =>
    dsimp only
    generalize j.get (lit "data") .null = x
    cases x with
    | bool b => cases b <;> first | exact .raise _ | exact .pure _
    | _ => exact .pure _

theorem agree_writeCore (d : PyStr) (check : Bool) : Agree env (writeCore d check) (HMirror.writeCore env d check) :=
  .bind (.ite agree_checkStates (.pure _)) fun _ => .bind (.gets _) fun _ =>
    .ite (.bind (agree_sendData d) fun _ => .pure _)
      (.ite (.bind (.onBuf _) fun _ => .bind (.onBuf _) fun _ => .bind (agree_sendData _) fun _ => .bind (.onBuf _) fun _ => .bind (.onBuf _) fun _ => .pure _)
        (.ite (.onBuf _) (.pure _)))

theorem agree_write (d : PyStr) : Agree env (write d) (HMirror.write env d) :=
  .bind agree_writable fun _ => .ite (.raise _) (agree_writeCore d true)

theorem agree_newLine (check : Bool) : Agree env (newLine check) (HMirror.newLine env check) :=
  .bind (.onBuf _) fun _ => .ite (.bind (agree_writeCore _ _) fun _ => .pure _) (.pure _)

theorem agree_sendEnd (check : Bool) (j : Json) : Agree env (sendEnd check j) (HMirror.sendAfter env check j) :=
  .bind agree_closed fun _ => .ite (.pure _) (.bind (agree_newLine check) fun _ => agree_expectOk _)

theorem agree_close (exc : Option ExcObj) : Agree env (close exc) (HMirror.close env exc) := by
  cases exc with
  | none => exact .bind agree_closed fun _ => .ite (.pure _) (.bind (agree_sendEnd _ _) fun _ => .bind agree_clear fun _ => .onBuf _)
  | some e => exact .bind agree_closed fun _ => .ite (.pure _) (.bind (agree_sendEnd _ _) fun _ => .bind agree_clear fun _ => .onBuf _)

theorem agree_read : Agree env read HMirror.read := .bind agree_readable fun _ => .ite (.raise _) (.onBuf _)

theorem Agree.result {p : HMAsk α} {m : Py HMNet α} (h : Agree env p m) (f : α → HMRet) (a : HMirror) (n : HNet) :
    (let (r, s') := m (a, n); (HMRet.of f r, s')) = (((result f p a).onNet env n).1.1, (((result f p a).onNet env n).1.2, ((result f p a).onNet env n).2)) := by
  rw [h a n]
  unfold HMAsk.result
  rw [Ask.onNet_bind]
  rfl

/-- A call, fed with the answers of the network, is the call of the sequential model. -/
theorem exec_onNet (env : HEnv) (c : HMCall) (a : HMirror) (n : HNet) :
    HMirror.exec env c (a, n) = (((exec c a).onNet env n).1.1, (((exec c a).onNet env n).1.2, ((exec c a).onNet env n).2)) := by
  cases c with
  | write d => exact (agree_write d).result .nat a n
  | newLine k => exact (agree_newLine k).result (fun _ => .unit) a n
  | read => exact agree_read.result .text a n
  | clear => exact agree_clear.result (fun _ => .unit) a n
  | flush => exact (Agree.onBuf StringIO.flush).result (fun _ => .unit) a n
  | sendData d => exact (agree_sendData d).result (fun _ => .unit) a n
  | sendEof => exact (agree_sendEnd _ _).result (fun _ => .unit) a n
  | sendError e => exact (agree_sendEnd _ _).result (fun _ => .unit) a n
  | sendWarning e => exact (agree_sendEnd _ _).result (fun _ => .unit) a n
  | checkStates => exact agree_checkStates.result (fun _ => .unit) a n
  | close e => exact (agree_close e).result (fun _ => .unit) a n
  | closed => exact agree_closed.result .bool a n
  | readable => exact agree_readable.result .bool a n
  | writable => exact agree_writable.result .bool a n
  | setAggressive b => exact (agree_setAggressive b).result (fun _ => .unit) a n

end HMAsk

/-! ## Readers -/

/-- The pools have no influence. -/
def PoolFree (m : Nat → Py RNet α) (f : HNet → Except Exc α × HNet) : Prop := ∀ p s, (m p s).1 = (f s.net).1 ∧ (m p s).2.net = (f s.net).2

theorem poolFree_withHttp {m : Nat → Py RNet α} {f : HNet → Except Exc α × HNet} (h : PoolFree m f) (s : RNet) :
    (Reader.withHttp m s).1 = (f s.net).1 ∧ (Reader.withHttp m s).2.net = (f s.net).2 := by
  have e : Reader.withHttp m s = match s.reader.http with
      | some p => m p s
      | none => ((m s.nextPool { s with nextPool := s.nextPool + 1, pools := s.pools ++ [.created s.nextPool] }).1,
          (Reader.clearPool s.nextPool (m s.nextPool { s with nextPool := s.nextPool + 1, pools := s.pools ++ [.created s.nextPool] }).2).2) := by
    unfold Reader.withHttp
    rw [Py.bind_ok (rfl : (Py.gets _ : Py RNet _) s = _)]
    cases s.reader.http <;> rfl
  rw [e]
  cases s.reader.http with
  | some p => exact h p s
  | none => exact h s.nextPool { s with nextPool := s.nextPool + 1, pools := s.pools ++ [.created s.nextPool] }

/-- A request whose answer is looked at. -/
theorem poolFree_request (r : Req) (g : Resp → Py RNet α) (y : Resp → Except Exc α) (hg : ∀ x s, g x s = (y x, s)) :
    PoolFree (fun p => Reader.request env p r >>= g) fun n => ((HNet.request env r n).1.bind y, (HNet.request env r n).2) := by
  intro p s
  have e : Reader.request env p r s = ((HNet.request env r s.net).1, { s with pools := s.pools ++ [.used p], net := (HNet.request env r s.net).2 }) := rfl
  show ((Reader.request env p r >>= g) s).1 = _ ∧ ((Reader.request env p r >>= g) s).2.net = _
  cases hx : (HNet.request env r s.net).1 with
  | ok x =>
    rw [hx] at e
    rw [Py.bind_ok e, hg]
    exact ⟨by simp only [hx]; rfl, rfl⟩
  | error x =>
    rw [hx] at e
    rw [Py.bind_error e]
    exact ⟨by simp only [hx]; rfl, rfl⟩

theorem loaded_ok {n : Nat} (h : n < 400) (j : Json) : RdCall.loaded ⟨n, some j⟩ = .ok j := if_pos h
theorem loaded_error {n : Nat} (h : ¬ n < 400) (j : Json) : RdCall.loaded ⟨n, some j⟩ = .error .connectionError := if_neg h

theorem dataOf_eq (x : Resp) (s : RNet) (h : x.status < 400) :
    Reader.dataOf x s = ((RdCall.loaded x).bind fun j => j.getItem (lit "data"), s) := by
  obtain ⟨n, body⟩ := x
  cases body with
  | none => rfl
  | some j => rw [loaded_ok h]; rfl

theorem fail_loaded (x : Resp) (s : RNet) (h : ¬ x.status < 400) (y : Json → Except Exc α) : (x.fail : Py RNet α) s = ((RdCall.loaded x).bind y, s) := by
  obtain ⟨n, body⟩ := x
  cases body with
  | none => rfl
  | some j => rw [loaded_error h]; rfl

theorem getStates_free (name : PyStr) : PoolFree (Reader.getStates env name) fun n =>
    ((HNet.request env (.stateGet (some name)) n).1.bind fun x => (RdCall.loaded x).bind fun j => j.getItem (lit "data"),
      (HNet.request env (.stateGet (some name)) n).2) := by
  refine poolFree_request _ _ _ fun x s => ?_
  by_cases h : x.status < 400
  · rw [if_pos h]; exact dataOf_eq x s h
  · rw [if_neg h]; exact fail_loaded x s h _

theorem successful_free (r : Req) : PoolFree (fun p => do Reader.successful (← Reader.request env p r)) fun n =>
    ((HNet.request env r n).1.bind fun x => (RdCall.loaded x).bind fun j => .ok ((j.get (lit "message") (.str [])).eqStr (lit "success")),
      (HNet.request env r n).2) := by
  refine poolFree_request _ _ _ fun x s => ?_
  obtain ⟨n, body⟩ := x
  unfold Reader.successful
  by_cases h : n < 400
  · rw [if_pos h]
    cases body with
    | none => rfl
    | some j => rw [loaded_ok h]; rfl
  · rw [if_neg h]; exact fail_loaded ⟨n, body⟩ s h _

theorem read_free (size : Option Int) : PoolFree (fun p => do
      let resp ← Reader.request env p (.get (Reader.query size))
      if resp.status < 400 then
        let data ← Reader.dataOf resp
        fun s => ((do Reader.deserializeAll (← data.toTuple) : Except Exc (List Item)), s)
      else resp.fail) fun n =>
    ((HNet.request env (.get (Reader.query size)) n).1.bind fun x => (RdCall.loaded x).bind fun j =>
      (j.getItem (lit "data")).bind fun d => (d.toTuple).bind Reader.deserializeAll,
      (HNet.request env (.get (Reader.query size)) n).2) := by
  refine poolFree_request _ _ _ fun x s => ?_
  by_cases h : x.status < 400
  · rw [if_pos h]
    have e := dataOf_eq x s h
    cases hx : RdCall.loaded x with
    | error e' => rw [hx] at e; exact Py.bind_error e
    | ok j =>
      rw [hx] at e
      cases hy : j.getItem (lit "data") with
      | error e' =>
        rw [show Except.bind (.ok j) (fun j => j.getItem (lit "data")) = .error e' from hy] at e
        refine (Py.bind_error e).trans ?_
        show _ = ((j.getItem (lit "data")).bind _, s)
        rw [hy]; rfl
      | ok d =>
        rw [show Except.bind (.ok j) (fun j => j.getItem (lit "data")) = .ok d from hy] at e
        refine (Py.bind_ok e).trans ?_
        show _ = ((j.getItem (lit "data")).bind _, s)
        rw [hy]; rfl
  · rw [if_neg h]; exact fail_loaded x s h _

theorem answer_of {c : RdCall} {z : Json → Except Exc α} {f : α → RdRet} (h : ∀ j, c.meaning j = (z j).map f) (x : Except Exc Resp) :
    (match (x.bind fun r => (RdCall.loaded r).bind z) with | .ok a => f a | .error e => .exc e) = c.answer x := by
  cases x with
  | error e => rfl
  | ok x =>
    show _ = match ((RdCall.loaded x).bind c.meaning : Except Exc RdRet) with | .ok r => r | .error e => .exc e
    show (match (RdCall.loaded x).bind z with | .ok a => f a | .error e => .exc e) = _
    cases hx : RdCall.loaded x with
    | error e => rfl
    | ok j =>
      show (match z j with | .ok a => f a | .error e => RdRet.exc e) = match c.meaning j with | .ok r => r | .error e => .exc e
      rw [h]
      cases z j <;> rfl

/-- A call of a reader, fed with the answer of the network, is the call of the sequential model. -/
theorem reader_onNet (env : HEnv) (c : RdCall) (s : RNet) :
    (c.run env s).1 = (c.exec.onNet env s.net).1 ∧ (c.run env s).2.net = (c.exec.onNet env s.net).2 := by
  have fin : ∀ {α : Type} {c : RdCall} {z : Json → Except Exc α} {f : α → RdRet} {x : Except Exc α × RNet}, (∀ j, c.meaning j = (z j).map f) →
      (x.1 = ((HNet.request env c.req s.net).1.bind fun r => (RdCall.loaded r).bind z) ∧ x.2.net = (HNet.request env c.req s.net).2) →
      (match x.1 with | .ok a => f a | .error e => .exc e) = (c.exec.onNet env s.net).1 ∧ x.2.net = (c.exec.onNet env s.net).2 := by
    intro α c z f x h h1
    refine ⟨?_, h1.2⟩
    rw [h1.1]
    exact answer_of h _
  have two : ∀ x : Except Exc Json, (x.bind fun a => .ok (RdRet.json a)) = x.map RdRet.json := fun x => by cases x <;> rfl
  cases c with
  | read size =>
    refine fin (c := .read size) (f := .items) (fun j => ?_) (poolFree_withHttp (read_free size) s)
    show ((j.getItem (lit "data")).bind fun d => d.toTuple.bind fun t => (Reader.deserializeAll t).bind fun i => .ok (RdRet.items i)) = _
    cases j.getItem (lit "data") with
    | error e => rfl
    | ok d =>
      show (d.toTuple.bind _) = Except.map _ (d.toTuple.bind _)
      cases d.toTuple with
      | error e => rfl
      | ok t =>
        show (Reader.deserializeAll t).bind _ = Except.map _ (Reader.deserializeAll t)
        cases Reader.deserializeAll t <;> rfl
  | len => exact fin (c := .len) (f := .json) (fun j => two _) (poolFree_withHttp (getStates_free _) s)
  | maxlen => exact fin (c := .maxlen) (f := .json) (fun j => two _) (poolFree_withHttp (getStates_free _) s)
  | closed => exact fin (c := .closed) (f := .json) (fun j => two _) (poolFree_withHttp (getStates_free _) s)
  | clear => exact fin (c := .clear) (f := .bool) (fun _ => rfl) (poolFree_withHttp (successful_free _) s)
  | resetStates => exact fin (c := .resetStates) (f := .bool) (fun _ => rfl) (poolFree_withHttp (successful_free _) s)
  | stopAll => exact fin (c := .stopAll) (f := .bool) (fun _ => rfl) (poolFree_withHttp (successful_free _) s)

/-! ## Operations of one process among those of the others -/

section mine
variable {C R A : Type} {act : A → Nat → C → R → A → Prop} {i : Nat}

theorem mine_app (l l' : List (Nat × C × R)) : mine i (l ++ l') = mine i l ++ mine i l' := List.filterMap_append ..

/-- Up to the first operation for process `i`. -/
theorem mine_split {l : List (Nat × C × R)} {q : C} {a : R} {rest : List (C × R)} (h : mine i l = (q, a) :: rest) :
    ∃ others l', l = others ++ (i, q, a) :: l' ∧ mine i others = [] ∧ mine i l' = rest := by
  induction l with
  | nil => cases h
  | cons x l ih =>
    obtain ⟨j, q', a'⟩ := x
    by_cases e : j = i
    · subst e
      have h' : (q', a') :: mine j l = (q, a) :: rest := by
        rw [← h]; simp [mine]
      cases h'
      exact ⟨[], l, rfl, rfl, rfl⟩
    · have h' : mine i l = (q, a) :: rest := by
        rw [← h]; simp [mine, e]
      obtain ⟨others, l', rfl, h2, h3⟩ := ih h'
      refine ⟨(j, q', a') :: others, l', rfl, ?_, h3⟩
      rw [← h2]; simp [mine, e]

theorem Spec.Serves.split {s u : A} {l l' : List (Nat × C × R)} (h : Serves act s (l ++ l') u) : ∃ t, Serves act s l t ∧ Serves act t l' u := by
  induction l generalizing s with
  | nil => exact ⟨s, .nil _, h⟩
  | cons x l ih =>
    cases h with
    | cons _ t _ j q a _ h1 h2 =>
      obtain ⟨t', h3, h4⟩ := ih h2
      exact ⟨t', .cons _ _ _ _ _ _ _ h1 h3, h4⟩

end mine

theorem serves_run {s t : HostBuf} {l : List (Nat × HOp × HRet)} (h : Serves (HostBuf.AtOnce env) s l t) : HostBuf.run env (asked l) s = t := by
  induction h with
  | nil => rfl
  | cons s t u j q a l h1 h2 ih => rw [← ih, h1.2]; rfl

theorem Spec.Woven.append {i : Nat} {fs fs' : List Fate} {l l' : List (Nat × HOp × HRet)} (h : Woven i fs l) (h' : Woven i fs' l') :
    Woven i (fs ++ fs') (l ++ l') := by
  induction h with
  | nil => exact h'
  | ok others q a fs l h1 h2 ih => rw [List.append_assoc]; exact .ok _ _ _ _ _ h1 ih
  | noReply others q a e fs l h1 h2 ih => rw [List.append_assoc]; exact .noReply _ _ _ _ _ _ h1 ih
  | lost e fs l h2 ih => exact .lost _ _ _ ih

/-- What process `i` does in one call, as it looks to the sequential model: see `Woven`. -/
theorem sent_onNet {i : Nat} (p : Ask Req (Except Exc Resp) α) : ∀ {os : List Outcome} {l : List (HOp × HRet)} {a : α}, Asks (p.sent os) l (.done a) →
    ∀ {L : List (Nat × HOp × HRet)} {s t : HostBuf} {l' : List (HOp × HRet)}, Serves (HostBuf.AtOnce env) s L t → mine i L = l ++ l' →
    ∃ fates L1 L2 s' new, L = L1 ++ L2 ∧ mine i L1 = l ∧ mine i L2 = l' ∧ Serves (HostBuf.AtOnce env) s' L2 t ∧ Woven i fates L1 ∧
      l.map (·.1) = new.map (fun r => .req r.wire) ∧ (∀ f ∈ fates, f.outcome = .ok ∨ f.outcome ∈ os) ∧
      ∀ fs old, p.onNet env { service := s, fates := fates ++ fs, sent := old } = (a, { service := s', fates := fs, sent := old ++ new }) := by
  induction p with
  | done a =>
    intro os l a' h L s t l' hs hl
    cases h
    exact ⟨[], [], L, s, [], rfl, rfl, hl, hs, .nil, rfl, nofun, fun fs old => by rw [List.append_nil]; rfl⟩
  | ask r k ih =>
    intro os l a h L s t l' hs hl
    have hmem : ∀ o, o ∈ os.tail → o ∈ os := fun o => List.mem_of_mem_tail
    cases ho : os.headD .ok with
    | ok =>
      have e : (Ask.ask r k).sent os = .ask (.req r.wire) fun x => (k x.received).sent os.tail := by
        simp only [Ask.sent, ho]
      rw [e] at h
      cases h with
      | cons _ x _ l _ h1 =>
      obtain ⟨others, L', rfl, g1, g2⟩ := mine_split hl
      obtain ⟨s1, k1, k2⟩ := hs.split
      cases k2 with
      | cons _ s2 _ _ _ _ _ k2 k3 =>
      obtain ⟨rfl, rfl⟩ := k2
      obtain ⟨fates, L1, L2, s', new, rfl, j1, j2, j3, j4, j5, j6, j7⟩ := ih _ h1 k3 g2
      refine ⟨⟨asked others, .ok⟩ :: fates, others ++ (i, _, _) :: L1, L2, s', r :: new, by rw [List.append_assoc]; rfl, ?_, j2, j3, .ok _ _ _ _ _ g1 j4,
        by rw [List.map_cons, j5]; rfl, ?_, fun fs old => ?_⟩
      · rw [mine_app, g1, List.nil_append, ← j1]; simp [mine]
      · intro f hf
        rcases List.mem_cons.1 hf with rfl | hf
        · exact .inl rfl
        · exact (j6 f hf).imp_right (hmem _)
      · have e1 : HNet.request env r { service := s, fates := ⟨asked others, .ok⟩ :: fates ++ fs, sent := old } =
            (HRet.received (HThr.result env (.req r.wire) s1), { service := HostBuf.step env (.req r.wire) s1, fates := fates ++ fs, sent := old ++ [r] }) := by
          rw [← serves_run k1]; rfl
        show (k _).onNet env _ = _
        rw [e1]
        refine (j7 fs (old ++ [r])).trans ?_
        rw [List.append_assoc]; rfl
    | lost x =>
      have e : (Ask.ask r k).sent os = (k (.error x)).sent os.tail := by
        simp only [Ask.sent, ho]
      rw [e] at h
      obtain ⟨fates, L1, L2, s', new, rfl, j1, j2, j3, j4, j5, j6, j7⟩ := ih _ h hs hl
      refine ⟨⟨[], .lost x⟩ :: fates, L1, L2, s', new, rfl, j1, j2, j3, .lost _ _ _ j4, j5, ?_, fun fs old => j7 fs old⟩
      intro f hf
      rcases List.mem_cons.1 hf with rfl | hf
      · right
        cases os with
        | nil => cases ho
        | cons o os => exact List.mem_cons.2 (.inl ho.symm)
      · exact (j6 f hf).imp_right (hmem _)
    | noReply x =>
      have e : (Ask.ask r k).sent os = .ask (.req r.wire) fun _ => (k (.error x)).sent os.tail := by
        simp only [Ask.sent, ho]
      rw [e] at h
      cases h with
      | cons _ y _ l _ h1 =>
      obtain ⟨others, L', rfl, g1, g2⟩ := mine_split hl
      obtain ⟨s1, k1, k2⟩ := hs.split
      cases k2 with
      | cons _ s2 _ _ _ _ _ k2 k3 =>
      obtain ⟨rfl, rfl⟩ := k2
      obtain ⟨fates, L1, L2, s', new, rfl, j1, j2, j3, j4, j5, j6, j7⟩ := ih _ h1 k3 g2
      refine ⟨⟨asked others, .noReply x⟩ :: fates, others ++ (i, _, _) :: L1, L2, s', r :: new, by rw [List.append_assoc]; rfl, ?_, j2, j3, .noReply _ _ _ _ _ _ g1 j4,
        by rw [List.map_cons, j5]; rfl, ?_, fun fs old => ?_⟩
      · rw [mine_app, g1, List.nil_append, ← j1]; simp [mine]
      · intro f hf
        rcases List.mem_cons.1 hf with rfl | hf
        · right
          cases os with
          | nil => cases ho
          | cons o os => exact List.mem_cons.2 (.inl ho.symm)
        · exact (j6 f hf).imp_right (hmem _)
      · have e1 : HNet.request env r { service := s, fates := ⟨asked others, .noReply x⟩ :: fates ++ fs, sent := old } =
            (.error x, { service := HostBuf.step env (.req r.wire) s1, fates := fates ++ fs, sent := old ++ [r] }) := by
          rw [← serves_run k1]; rfl
        show (k _).onNet env _ = _
        rw [e1]
        refine (j7 fs (old ++ [r])).trans ?_
        rw [List.append_assoc]; rfl

/-! ## The history of one process -/

section own
variable {C' R' C R : Type} {i : Nat}

theorem callsBy_append (l l' : List (Ev C' R')) : callsBy i (l ++ l') = callsBy i l ++ callsBy i l' := List.filterMap_append ..
theorem retsBy_append (l l' : List (Ev C' R')) : retsBy i (l ++ l') = retsBy i l ++ retsBy i l' := List.filterMap_append ..

theorem own_cons_same {e : HEvent C' R' C R} {h : List (HEvent C' R' C R)} (he : e.who = i) : own i (e :: h) = e :: own i h := by
  unfold own; rw [List.filter_cons_of_pos]; simp [he]

theorem own_cons_other {e : HEvent C' R' C R} {h : List (HEvent C' R' C R)} (he : e.who ≠ i) : own i (e :: h) = own i h := by
  unfold own; rw [List.filter_cons_of_neg]; simp [he]

/-- The calls, results and operations of a process are those in its own history. -/
theorem own_view (h : List (HEvent C' R' C R)) : callsBy i (seen (own i h)) = callsBy i (seen h) ∧ retsBy i (seen (own i h)) = retsBy i (seen h) ∧
    mine i (opsOf (own i h)) = mine i (opsOf h) := by
  induction h with
  | nil => exact ⟨rfl, rfl, rfl⟩
  | cons e h ih =>
    obtain ⟨h1, h2, h3⟩ := ih
    by_cases he : e.who = i
    · rw [own_cons_same he]
      cases e with
      | inv j c => exact ⟨by simp only [seen, callsBy, List.filterMap_cons] at h1 ⊢; rw [h1], by simpa [seen, retsBy] using h2, h3⟩
      | op j q a => exact ⟨h1, h2, by simp only [opsOf, mine, List.filterMap_cons] at h3 ⊢; rw [h3]⟩
      | ret j r => exact ⟨by simpa [seen, callsBy] using h1, by simp only [seen, retsBy, List.filterMap_cons] at h2 ⊢; rw [h2], h3⟩
    · rw [own_cons_other he]
      cases e with
      | inv j c =>
        have he : j ≠ i := he
        exact ⟨by simpa [seen, callsBy, he] using h1, by simpa [seen, retsBy] using h2, h3⟩
      | op j q a =>
        have he : j ≠ i := he
        exact ⟨h1, h2, by simpa [opsOf, mine, he] using h3⟩
      | ret j r =>
        have he : j ≠ i := he
        exact ⟨by simpa [seen, callsBy] using h1, by simpa [seen, retsBy, he] using h2, h3⟩

theorem asOps_view (l : List (C × R)) : seen (asOps i l : List (HEvent C' R' C R)) = [] ∧ mine i (opsOf (asOps i l : List (HEvent C' R' C R))) = l := by
  induction l with
  | nil => exact ⟨rfl, rfl⟩
  | cons x l ih =>
    refine ⟨ih.1, ?_⟩
    show mine i ((i, x.1, x.2) :: opsOf (asOps i l : List (HEvent C' R' C R))) = x :: l
    conv => rhs; rw [← ih.2]
    simp [mine]

end own

theorem asks_bind_done {C R : Type} (p : Ask C R α) (f : α → β) : ∀ {l : List (C × R)} {b : β},
    Asks (p.bind fun x => .done (f x)) l (.done b) → ∃ a, Asks p l (.done a) ∧ b = f a := by
  induction p with
  | done a => intro l b h; cases h; exact ⟨a, .nil _, rfl⟩
  | ask c k ih =>
    intro l b h
    cases h with
    | cons _ r _ l _ h1 =>
      obtain ⟨a, g1, g2⟩ := ih r h1
      exact ⟨a, .cons _ _ _ _ _ g1, g2⟩

/-- Calls of the process `i`, as they look to the sequential model. -/
theorem run_onNet {i : Nat} {m m' : HMirror} {hist : List (HEvent HSCall HSRet HOp HRet)} {rest : Option (HSCall × Ask HOp HRet (HSRet × HMirror))}
    (h : ClientRun hostClient i m hist m' rest) : rest = none → ∀ {cs : List (HMCall × List Outcome)}, callsBy i (seen hist) = cs.map (fun x => .mirror x.1 x.2) →
    ∀ {L : List (Nat × HOp × HRet)} {s t : HostBuf}, Serves (HostBuf.AtOnce env) s L t → mine i L = mine i (opsOf hist) →
    ∃ fates L1 L2 s' new rs, L = L1 ++ L2 ∧ mine i L2 = [] ∧ Serves (HostBuf.AtOnce env) s' L2 t ∧ Woven i fates L1 ∧
      (mine i L1).map (·.1) = new.map (fun r => .req r.wire) ∧ (∀ f ∈ fates, f.outcome = .ok ∨ ∃ x ∈ cs, f.outcome ∈ x.2) ∧
      retsBy i (seen hist) = rs.map .mirror ∧
      ∀ fs old, HMirror.run env (cs.map (·.1)) (m, { service := s, fates := fates ++ fs, sent := old }) =
        (rs, (m', { service := s', fates := fs, sent := old ++ new })) := by
  induction h with
  | nil o =>
    intro _ cs hc L s t hs hl
    cases cs with
    | nil => exact ⟨[], [], L, s, [], [], rfl, hl, hs, .nil, rfl, nofun, rfl, fun fs old => by rw [List.append_nil]; rfl⟩
    | cons => cases hc
  | within => intro h; cases h
  | call o o1 o' c l r h rest h1 h2 ih =>
    intro e cs hc L s t hs hl
    have v1 : callsBy i (seen (.inv i c :: (asOps i l ++ .ret i r :: h) : List (HEvent HSCall HSRet HOp HRet))) = c :: callsBy i (seen h) := by
      show callsBy i (.inv i c :: seen (asOps i l ++ .ret i r :: h)) = _
      rw [seen_append, (asOps_view l).1]
      simp [callsBy, seen]
    have v2 : retsBy i (seen (.inv i c :: (asOps i l ++ .ret i r :: h) : List (HEvent HSCall HSRet HOp HRet))) = r :: retsBy i (seen h) := by
      show retsBy i (.inv i c :: seen (asOps i l ++ .ret i r :: h)) = _
      rw [seen_append, (asOps_view l).1]
      simp [retsBy, seen]
    have v3 : mine i (opsOf (.inv i c :: (asOps i l ++ .ret i r :: h) : List (HEvent HSCall HSRet HOp HRet))) = l ++ mine i (opsOf h) := by
      show mine i (opsOf (asOps i l ++ .ret i r :: h)) = _
      rw [opsOf_append, mine_app, (asOps_view l).2]; rfl
    rw [v1] at hc
    rw [v3] at hl
    rw [v2]
    cases cs with
    | nil => cases hc
    | cons x cs =>
      obtain ⟨x, os⟩ := x
      rw [List.map_cons] at hc
      obtain ⟨rfl, hc'⟩ := List.cons_eq_cons.1 hc
      obtain ⟨⟨r', o''⟩, g1, g2⟩ := asks_bind_done _ _ h1
      cases g2
      obtain ⟨fates, L1, L2, s', new, rfl, j1, j2, j3, j4, j5, j6, j7⟩ := sent_onNet (env := env) _ g1 hs hl
      obtain ⟨fates', L1', L2', s'', new', rs, rfl, k1, k2, k3, k4, k5, k6, k7⟩ := ih e hc' j3 j2
      refine ⟨fates ++ fates', L1 ++ L1', L2', s'', new ++ new', r' :: rs, by rw [List.append_assoc], k1, k2, j4.append k3, ?_, ?_, by rw [k6]; rfl,
        fun fs old => ?_⟩
      · rw [mine_app, List.map_append, List.map_append, j1, j5, k4]
      · intro f hf
        rcases List.mem_append.1 hf with hf | hf
        · exact (j6 f hf).imp_right fun h => ⟨_, List.mem_cons_self, h⟩
        · exact (k5 f hf).imp_right fun ⟨x, h1, h2⟩ => ⟨x, List.mem_cons_of_mem _ h1, h2⟩
      · have e1 : HMirror.exec env x (o, { service := s, fates := fates ++ (fates' ++ fs), sent := old }) =
            (r', (o'', { service := s', fates := fates' ++ fs, sent := old ++ new })) := by
          rw [HMAsk.exec_onNet, j7]
        simp only [List.map_cons, HMirror.run, e1, k7, List.append_assoc]

/-! ## What mirrors ask for -/

/-- The requests of mirrors. -/
def Req.Polite (r : Req) : Prop := r = .stateGet (some (lit "closed")) ∨ ∃ m : HMsg, r = .post (.json m.post)

namespace HMAsk

/-- All requests are those of mirrors. -/
def Pol (p : HMAsk α) : Prop := ∀ m, (p m).Within Req.Polite

theorem Pol.pure (a : α) : Pol (pure a) := fun _ => trivial
theorem Pol.raise (e : Exc) : Pol (raise e : HMAsk α) := fun _ => trivial
theorem Pol.gets (f : HMirror → α) : Pol (gets f) := fun _ => trivial
theorem Pol.onBuf (p : Py StringIO α) : Pol (onBuf p) := fun _ => trivial
theorem Pol.request {r : Req} (h : r.Polite) : Pol (request r) := fun _ => ⟨h, fun _ => trivial⟩

theorem within_bind' {C R : Type} {P : C → Prop} {p : Ask C R α} {g : α → Ask C R β} (hp : p.Within P) (hg : ∀ a, (g a).Within P) :
    (p.bind g).Within P := by
  induction p with
  | done a => exact hg a
  | ask c k ih => exact ⟨hp.1, fun r => ih r (hp.2 r)⟩

theorem Pol.bind {p : HMAsk α} {g : α → HMAsk β} (h : Pol p) (hg : ∀ a, Pol (g a)) : Pol (p >>= g) := fun m =>
  within_bind' (h m) fun x => by
    obtain ⟨r, m'⟩ := x
    cases r with
    | ok a => exact hg a m'
    | error e => exact trivial

theorem Pol.ite {c : Prop} [Decidable c] {p q : HMAsk α} (h1 : Pol p) (h2 : Pol q) : Pol (if c then p else q) := by
  by_cases h : c
  · rw [if_pos h]; exact h1
  · rw [if_neg h]; exact h2

theorem pol_fail (r : Resp) : Pol (fail r : HMAsk α) := by
  unfold fail
  cases r.body <;> exact .raise _

theorem pol_expectOk (m : HMsg) : Pol (expectOk (.post (.json m.post))) :=
  .bind (.request (.inr ⟨m, rfl⟩)) fun _ => .ite (.pure _) (pol_fail _)

theorem pol_clear : Pol clear := .bind (.onBuf _) fun _ => .onBuf _
theorem pol_closed : Pol closed := .gets _
theorem pol_setAggressive (b : Bool) : Pol (setAggressive b) := fun _ => trivial

theorem pol_sendData (d : PyStr) : Pol (sendData d) := .bind (.gets _) fun _ => .ite (.pure _) (pol_expectOk (.text d))

theorem pol_checkStates : Pol checkStates := by
  refine .bind (.gets _) fun _ => .ite (.pure _) (.bind (.request (.inl rfl)) fun r => .ite ?_ (pol_fail _))
  cases r.body with
  | none => exact .raise _
  | some j =>
    dsimp only
    generalize j.get (lit "data") .null = x
    cases x with
    | bool b => cases b <;> first | exact .raise _ | exact .pure _
    | _ => exact .pure _

theorem pol_writeCore (d : PyStr) (check : Bool) : Pol (writeCore d check) :=
  .bind (.ite pol_checkStates (.pure _)) fun _ => .bind (.gets _) fun _ =>
    .ite (.bind (pol_sendData d) fun _ => .pure _)
      (.ite (.bind (.onBuf _) fun _ => .bind (.onBuf _) fun _ => .bind (pol_sendData _) fun _ => .bind (.onBuf _) fun _ => .bind (.onBuf _) fun _ => .pure _)
        (.ite (.onBuf _) (.pure _)))

theorem pol_newLine (check : Bool) : Pol (newLine check) :=
  .bind (.onBuf _) fun _ => .ite (.bind (pol_writeCore _ _) fun _ => .pure _) (.pure _)

theorem pol_sendEnd (check : Bool) (m : HMsg) : Pol (sendEnd check m.post) :=
  .bind (.gets _) fun _ => .ite (.pure _) (.bind (pol_newLine check) fun _ => pol_expectOk _)

theorem pol_close (exc : Option ExcObj) : Pol (close exc) := by
  cases exc with
  | none => exact .bind pol_closed fun _ => .ite (.pure _) (.bind (pol_sendEnd _ .close) fun _ => .bind pol_clear fun _ => .onBuf _)
  | some e => exact .bind pol_closed fun _ => .ite (.pure _) (.bind (pol_sendEnd _ (.error _)) fun _ => .bind pol_clear fun _ => .onBuf _)

theorem Pol.result {p : HMAsk α} (h : Pol p) (f : α → HMRet) (m : HMirror) : (result f p m).Within Req.Polite :=
  within_bind' (h m) fun _ => trivial

theorem exec_polite (c : HMCall) (m : HMirror) : (exec c m).Within Req.Polite := by
  cases c with
  | write d => exact Pol.result (.bind (.gets _) fun _ => .ite (.raise _) (pol_writeCore d true)) _ m
  | newLine k => exact Pol.result (pol_newLine k) _ m
  | read => exact Pol.result (.bind (.gets _) fun _ => .ite (.raise _) (.onBuf _)) _ m
  | clear => exact Pol.result pol_clear _ m
  | flush => exact Pol.result (.onBuf _) _ m
  | sendData d => exact Pol.result (pol_sendData d) _ m
  | sendEof => exact Pol.result (pol_sendEnd _ .close) _ m
  | sendError e => exact Pol.result (pol_sendEnd _ (.error _)) _ m
  | sendWarning e => exact Pol.result (pol_sendEnd _ (.warning _)) _ m
  | checkStates => exact Pol.result pol_checkStates _ m
  | close e => exact Pol.result (pol_close e) _ m
  | closed => exact Pol.result (.gets _) _ m
  | readable => exact Pol.result (.gets _) _ m
  | writable => exact Pol.result (.gets _) _ m
  | setAggressive b => exact Pol.result (pol_setAggressive b) _ m

end HMAsk

/-! ## Messages on their way -/

theorem wire_post (m : HMsg) : Json.wire m.post = m.wire.post := by
  have k1 : Json.wireStr (lit "type") = lit "type" := by decide +kernel
  have k2 : Json.wireStr (lit "data") = lit "data" := by decide +kernel
  have k3 : Json.wireStr (lit "str") = lit "str" := by decide +kernel
  have k4 : Json.wireStr (lit "value") = lit "value" := by decide +kernel
  have k5 : Json.wireStr (lit "error") = lit "error" := by decide +kernel
  have k6 : Json.wireStr (lit "warning") = lit "warning" := by decide +kernel
  have k7 : Json.wireStr (lit "close") = lit "close" := by decide +kernel
  have k8 : Json.wireStr (lit "/is_syncsdata") = lit "/is_syncsdata" := by decide +kernel
  have k9 : Json.wireStr (lit "/type") = lit "/type" := by decide +kernel
  have k0 : Json.wireStr (lit "GroupedMessage") = lit "GroupedMessage" := by decide +kernel
  cases m <;> simp only [HMsg.post, HMsg.wire, GMsg.serialize, Json.wire, Json.wirePairs, k1, k2, k3, k4, k5, k6, k7, k8, k9, k0]

theorem post_inj {m m' : HMsg} (h : m.post = m'.post) : m = m' := by
  cases m <;> cases m' <;> simp only [HMsg.post, Json.obj.injEq, List.cons.injEq, Prod.mk.injEq, Json.str.injEq, true_and, and_true] at h
  all_goals first
    | rfl
    | exact absurd h.1 (by decide)
    | exact absurd h (by decide)
    | (cases h; rfl)
    | exact congrArg _ (C46_injective _ _ h)

/-- The message that an operation brings. -/
noncomputable def HOp.msg? (q : HOp) : Option HMsg :=
  open Classical in if h : ∃ m : HMsg, q = .req (.post (.json m.post)) then some h.choose else none

theorem msg?_post (m : HMsg) : (HOp.req (.post (.json m.post))).msg? = some m := by
  have h : ∃ m' : HMsg, HOp.req (.post (.json m.post)) = .req (.post (.json m'.post)) := ⟨m, rfl⟩
  unfold HOp.msg?
  rw [dif_pos h]
  have e := h.choose_spec
  injection e with e
  injection e with e
  injection e with e
  rw [← post_inj e]

theorem msg?_none {q : HOp} (h : ∀ b, q ≠ .req (.post b)) : q.msg? = none := by
  unfold HOp.msg?
  rw [dif_neg]
  rintro ⟨m, hm⟩
  exact h _ hm

/-! ## A service that nobody stops -/

/-- The operations meant. -/
def HOp.Calm : HOp → Prop
  | .req (.post b) => ∃ m : HMsg, b = .json m.post
  | .req (.get _) => True
  | .req (.stateGet _) => True
  | _ => False

/-- The answers to mirrors. -/
def HRet.Calm (q : HOp) (a : HRet) : Prop :=
  (q = .req (.stateGet (some (lit "closed"))) → a = found (.bool false)) ∧ ∀ m : HMsg, q = .req (.post (.json m.post)) → a = done 201

theorem calm_step {l : Log} {h h' : HostBuf} {i : Nat} {q : HOp} {a : HRet} (hq : q.Calm) (hr : HRep ⟨l, false⟩ h) (ha : HostBuf.AtOnce env h i q a h') :
    HRet.Calm q a ∧ ∃ l', HReplays l q.msg?.toList l' ∧ HRep ⟨l', false⟩ h' ∧ l'.cap = l.cap := by
  have two : ∀ {q : HOp}, (∀ b, q ≠ .req (.post b)) → q.msg?.toList = [] := fun hq => by rw [msg?_none hq]; rfl
  have stay : ∀ r : Req, r.isGet = true → HostBuf.AtOnce env h i (.req r) a h' → HRep ⟨l, false⟩ h' := by
    intro r hg ha
    obtain ⟨st, rfl, ok, rest⟩ := hr
    have e : h' = HostBuf.hb l st := ha.2.trans (HostBuf.handle_get_state env r hg l ok st)
    rw [e]
    exact ⟨st, rfl, ok, rest⟩
  cases q with
  | buffer c => exact hq.elim
  | stopAll => exact hq.elim
  | reset => exact hq.elim
  | req r =>
    cases r with
    | delete => exact hq.elim
    | statePost => exact hq.elim
    | stateDelete => exact hq.elim
    | get n => exact ⟨⟨nofun, nofun⟩, l, by rw [two (q := .req (.get n)) (fun _ e => nomatch e)]; exact .nil _, stay _ rfl ha, rfl⟩
    | stateGet n =>
      refine ⟨⟨fun e => ?_, nofun⟩, l, by rw [two (q := .req (.stateGet n)) (fun _ e => nomatch e)]; exact .nil _, stay _ rfl ha, rfl⟩
      cases e
      obtain ⟨s', h1, -⟩ := hrep_step env (o := .req (.stateGet (some (lit "closed")))) (show HShared.Meant _ from Or.inr rfl) hr ha
      cases h1
      rfl
    | post b =>
      obtain ⟨m, rfl⟩ := hq
      obtain ⟨s', h1, h2⟩ := hrep_step env (o := .req (.post (.json m.post))) (show HShared.Meant _ from ⟨m, rfl⟩) hr ha
      generalize hj : m.post = j at h1
      cases h1 with
      | msg m' l' h3 =>
        cases post_inj hj
        refine ⟨⟨nofun, fun _ _ => rfl⟩, l', ?_, h2, ?_⟩
        · rw [msg?_post]; exact .cons _ _ _ _ _ h3 (.nil _)
        · cases h3 <;> rfl

theorem replays_append {l l' l'' : Log} {ms ms' : List HMsg} (h : HReplays l ms l') (h' : HReplays l' ms' l'') : HReplays l (ms ++ ms') l'' := by
  induction h with
  | nil => exact h'
  | cons l l1 l2 m ms h1 h2 ih => exact .cons _ _ _ _ _ h1 (ih h')

/-- Operations performed one after the other. -/
theorem calm_serves {s t : HostBuf} {L : List (Nat × HOp × HRet)} (hs : Serves (HostBuf.AtOnce env) s L t) : (∀ x ∈ L, x.2.1.Calm) →
    ∀ {l : Log}, HRep ⟨l, false⟩ s → (∀ x ∈ L, HRet.Calm x.2.1 x.2.2) ∧ ∃ l', HReplays l (L.filterMap fun x => x.2.1.msg?) l' ∧ HRep ⟨l', false⟩ t ∧ l'.cap = l.cap := by
  induction hs with
  | nil s => exact fun _ l hr => ⟨nofun, l, .nil _, hr, rfl⟩
  | cons s t u i q a L h1 h2 ih =>
    intro hc l hr
    obtain ⟨g1, l1, g2, g3, g4⟩ := calm_step (hc _ List.mem_cons_self) hr h1
    obtain ⟨k1, l2, k2, k3, k4⟩ := ih (fun x hx => hc x (List.mem_cons_of_mem _ hx)) g3
    refine ⟨fun x hx => ?_, l2, ?_, k3, k4.trans g4⟩
    · rcases List.mem_cons.1 hx with rfl | hx
      · exact g1
      · exact k1 x hx
    · have e : ((i, q, a) :: L).filterMap (fun x => x.2.1.msg?) = q.msg?.toList ++ L.filterMap fun x => x.2.1.msg? := by
        cases hq : q.msg? <;> simp [hq]
      rw [e]
      exact replays_append g2 k2

theorem posts_append {rs rs' : List Req} {ms ms' : List HMsg} (h : Posts rs ms) (h' : Posts rs' ms') : Posts (rs ++ rs') (ms ++ ms') := by
  induction h with
  | nil => exact h'
  | msg m rs ms h ih => exact .msg _ _ _ ih
  | check rs ms h ih => exact .check _ _ ih

/-- A method of a mirror that gets such answers does what it does alone with such a service. -/
theorem calm_onNet (p : Ask Req (Except Exc Resp) α) (hp : p.Within Req.Polite) : ∀ {l : List (HOp × HRet)} {a : α}, Asks (p.sent []) l (.done a) →
    (∀ x ∈ l, HRet.Calm x.1 x.2) → ∀ {lg : Log} {s : HostBuf} (old : List Req), HRep ⟨lg, false⟩ s →
    ∃ lg' s' new ms, p.onNet env { service := s, sent := old } = (a, { service := s', sent := old ++ new }) ∧ HRep ⟨lg', false⟩ s' ∧
      Posts new ms ∧ l.filterMap (fun x => x.1.msg?) = ms.map HMsg.wire := by
  induction p with
  | done a =>
    intro l a' h hl lg s old hr
    cases h
    exact ⟨lg, s, [], [], by rw [List.append_nil]; rfl, hr, .nil, rfl⟩
  | ask r k ih =>
    intro l a h hl lg s old hr
    have e : (Ask.ask r k).sent [] = .ask (.req r.wire) fun x => (k x.received).sent [] := rfl
    rw [e] at h
    cases h with
    | cons _ x _ l _ h1 =>
    have hx := hl _ List.mem_cons_self
    have e1 : HNet.request env r { service := s, sent := old } =
        (HRet.received (HThr.result env (.req r.wire) s), { service := HostBuf.step env (.req r.wire) s, sent := old ++ [r] }) := rfl
    have same : HThr.result env (.req r.wire) s = x ∧ ∃ lg' ms, HRep ⟨lg', false⟩ (HostBuf.step env (.req r.wire) s) ∧ Posts [r] ms ∧
        (HOp.req r.wire).msg?.toList = ms.map HMsg.wire := by
      rcases hp.1 with rfl | ⟨m, rfl⟩
      · obtain ⟨g1, l1, -, g3, -⟩ := calm_step (env := env) (i := 0) (q := .req (.stateGet (some (lit "closed")))) trivial hr ⟨rfl, rfl⟩
        exact ⟨(g1.1 rfl).trans (hx.1 rfl).symm, l1, [], g3, .check _ _ .nil, by rw [msg?_none (by nofun)]; rfl⟩
      · have ew : (Req.post (.json m.post)).wire = .post (.json m.wire.post) := by
          show Req.post (.json (Json.wire m.post)) = _
          rw [wire_post]
        rw [ew] at hx ⊢
        obtain ⟨g1, l1, -, g3, -⟩ := calm_step (env := env) (i := 0) (q := .req (.post (.json m.wire.post))) ⟨_, rfl⟩ hr ⟨rfl, rfl⟩
        exact ⟨(g1.2 _ rfl).trans (hx.2 _ rfl).symm, l1, [m], g3, .msg _ _ _ .nil, by rw [msg?_post]; rfl⟩
    obtain ⟨g1, lg', ms, g2, g3, g4⟩ := same
    obtain ⟨lg2, s2, new, ms2, k1, k2, k3, k4⟩ := ih _ (hp.2 _) h1 (fun y hy => hl y (List.mem_cons_of_mem _ hy)) (old ++ [r]) g2
    refine ⟨lg2, s2, r :: new, ms ++ ms2, ?_, k2, posts_append g3 k3, ?_⟩
    · show (k _).onNet env _ = _
      rw [e1, g1]
      refine k1.trans ?_
      rw [List.append_assoc]; rfl
    · have e : ((HOp.req r.wire, x) :: l).filterMap (fun x => x.1.msg?) = (HOp.req r.wire).msg?.toList ++ l.filterMap fun x => x.1.msg? := by
        cases hq : (HOp.req r.wire).msg? <;> simp [hq]
      rw [e, g4, k4, List.map_append]

/-- The requests of a peaceful call. -/
theorem peaceful_within (m : HMirror) (c : HSCall) (hc : HSCall.Peaceful c) : (hostClient m c).Within HOp.Calm := by
  have key : ∀ {γ : Type} {P : Req → Prop}, (∀ r, P r → (HOp.req r.wire).Calm) → ∀ (p : Ask Req (Except Exc Resp) γ), p.Within P → ∀ os, (p.sent os).Within HOp.Calm := by
    intro γ P hP p
    induction p with
    | done a => exact fun _ _ => trivial
    | ask r k ih =>
      intro hp os
      cases ho : os.headD .ok with
      | ok => simp only [Ask.sent, ho]; exact ⟨hP _ hp.1, fun x => ih _ (hp.2 _) _⟩
      | lost e => simp only [Ask.sent, ho]; exact ih _ (hp.2 _) _
      | noReply e => simp only [Ask.sent, ho]; exact ⟨hP _ hp.1, fun x => ih _ (hp.2 _) _⟩
  cases c with
  | mirror c os =>
    refine HMAsk.within_bind' (key (P := Req.Polite) (fun r hr => ?_) _ (HMAsk.exec_polite c m) _) fun _ => trivial
    rcases hr with rfl | ⟨x, rfl⟩
    · exact trivial
    · exact ⟨x.wire, congrArg Body.json (wire_post x)⟩
  | reader c os =>
    refine HMAsk.within_bind' (key (P := fun r => (HOp.req r.wire).Calm) (fun r hr => hr) (RdCall.exec c) ?_ _) fun _ => trivial
    refine ⟨?_, fun _ => trivial⟩
    cases c <;> first | exact trivial | exact hc.elim
  | stopAll => exact hc.elim
  | reset => exact hc.elim

/-- The operations of a reader's question bring no message. -/
theorem reader_no_msg {m m' : HMirror} {c : RdCall} {os : List Outcome} {l : List (HOp × HRet)} {r : HSRet}
    (h : Asks (hostClient m (.reader c os)) l (.done (r, m'))) :
    l.filterMap (fun x => x.1.msg?) = [] ∧ m' = m ∧ ∃ x, r = .reader x := by
  obtain ⟨x, h1, h2⟩ := asks_bind_done _ _ h
  cases h2
  refine ⟨?_, rfl, x, rfl⟩
  have key : ∀ b, HOp.req c.req.wire ≠ .req (.post b) := by cases c <;> exact nofun
  unfold RdCall.exec at h1
  cases ho : os.headD .ok with
  | ok =>
    simp only [Ask.sent, ho] at h1
    cases h1 with
    | cons _ y _ l _ h1 => cases h1; simp [msg?_none key]
  | lost e =>
    simp only [Ask.sent, ho] at h1
    cases h1
    rfl
  | noReply e =>
    simp only [Ask.sent, ho] at h1
    cases h1 with
    | cons _ y _ l _ h1 => cases h1; simp [msg?_none key]

/-- Peaceful calls of the process `i` among others, and the calls on its mirror alone. -/
theorem calm_run {i : Nat} {m m' : HMirror} {hist : List (HEvent HSCall HSRet HOp HRet)} {rest : Option (HSCall × Ask HOp HRet (HSRet × HMirror))}
    (h : ClientRun hostClient i m hist m' rest) : rest = none → (∀ c ∈ callsBy i (seen hist), HSCall.Peaceful c) →
    (∀ x ∈ mine i (opsOf hist), HRet.Calm x.1 x.2) → ∀ {lg : Log} {s : HostBuf} (old : List Req), HRep ⟨lg, false⟩ s →
    ∃ s' new ms, HMirror.run env (mirrorCalls i (seen hist)) (m, { service := s, sent := old }) =
        (mirrorRets i (seen hist), (m', { service := s', sent := old ++ new })) ∧
      Posts new ms ∧ (mine i (opsOf hist)).filterMap (fun x => x.1.msg?) = ms.map HMsg.wire := by
  induction h with
  | nil o => exact fun _ _ _ lg s old hr => ⟨s, [], [], by rw [List.append_nil]; rfl, .nil, rfl⟩
  | within => intro h; cases h
  | call o o1 o' c l r h rest h1 h2 ih =>
    intro e hc hl lg s old hr
    have v1 : callsBy i (seen (.inv i c :: (asOps i l ++ .ret i r :: h) : List (HEvent HSCall HSRet HOp HRet))) = c :: callsBy i (seen h) := by
      show callsBy i (.inv i c :: seen (asOps i l ++ .ret i r :: h)) = _
      rw [seen_append, (asOps_view l).1]
      simp [callsBy, seen]
    have v2 : retsBy i (seen (.inv i c :: (asOps i l ++ .ret i r :: h) : List (HEvent HSCall HSRet HOp HRet))) = r :: retsBy i (seen h) := by
      show retsBy i (.inv i c :: seen (asOps i l ++ .ret i r :: h)) = _
      rw [seen_append, (asOps_view l).1]
      simp [retsBy, seen]
    have v3 : mine i (opsOf (.inv i c :: (asOps i l ++ .ret i r :: h) : List (HEvent HSCall HSRet HOp HRet))) = l ++ mine i (opsOf h) := by
      show mine i (opsOf (asOps i l ++ .ret i r :: h)) = _
      rw [opsOf_append, mine_app, (asOps_view l).2]; rfl
    rw [v1] at hc
    rw [v3] at hl ⊢
    have hl1 : ∀ x ∈ l, HRet.Calm x.1 x.2 := fun x hx => hl x (List.mem_append_left _ hx)
    have hl2 := fun x hx => hl x (List.mem_append_right _ hx)
    have hc0 := hc c List.mem_cons_self
    have hc1 := fun c hx => hc c (List.mem_cons_of_mem _ hx)
    cases c with
    | stopAll => exact hc0.elim
    | reset => exact hc0.elim
    | reader c os =>
      obtain ⟨g1, rfl, x, rfl⟩ := reader_no_msg h1
      obtain ⟨s', new, ms, k1, k2, k3⟩ := ih e hc1 hl2 old hr
      refine ⟨s', new, ms, ?_, k2, by rw [List.filterMap_append, g1, k3]; rfl⟩
      unfold mirrorCalls mirrorRets
      rw [v1, v2]
      exact k1
    | mirror c os =>
      cases (show os = [] from hc0)
      obtain ⟨⟨r', o''⟩, g1, g2⟩ := asks_bind_done _ _ h1
      cases g2
      obtain ⟨lg', s', new, ms, j1, j2, j3, j4⟩ := calm_onNet (env := env) _ (HMAsk.exec_polite c o) g1 hl1 old hr
      obtain ⟨s'', new', ms', k1, k2, k3⟩ := ih e hc1 hl2 (old ++ new) j2
      refine ⟨s'', new ++ new', ms ++ ms', ?_, posts_append j3 k2, by rw [List.filterMap_append, j4, k3, List.map_append]⟩
      have e1 : HMirror.exec env c (o, { service := s, sent := old }) = (r', (o'', { service := s', sent := old ++ new })) := by
        rw [HMAsk.exec_onNet, j1]
      have w1 : mirrorCalls i (seen (.inv i (.mirror c []) :: (asOps i l ++ .ret i (.mirror r') :: h) : List (HEvent HSCall HSRet HOp HRet))) =
          c :: mirrorCalls i (seen h) := by unfold mirrorCalls; rw [v1]; rfl
      have w2 : mirrorRets i (seen (.inv i (.mirror c []) :: (asOps i l ++ .ret i (.mirror r') :: h) : List (HEvent HSCall HSRet HOp HRet))) =
          r' :: mirrorRets i (seen h) := by unfold mirrorRets; rw [v2]; rfl
      rw [w1, w2]
      simp only [HMirror.run, e1, k1, List.append_assoc]

/-- A list of operations is a merge of those for the single processes. -/
theorem merge_mine {C R γ : Type} (f : C → Option γ) (n : Nat) (l : List (Nat × C × R)) (h : ∀ x ∈ l, x.1 < n) :
    Merge ((List.range n).map fun i => (mine i l).filterMap fun x => f x.1) (l.filterMap fun x => f x.2.1) := by
  induction l using List.reverseRecOn with
  | nil => exact .done _ fun s hs => by obtain ⟨i, -, rfl⟩ := List.mem_map.1 hs; rfl
  | append_singleton l x ih =>
    have h1 := merge_range (ih fun y hy => h y (List.mem_append_left _ hy)) (h x (by simp)) (f x.2.1).toList
    have e1 : (l ++ [x]).filterMap (fun x => f x.2.1) = l.filterMap (fun x => f x.2.1) ++ (f x.2.1).toList := by
      rw [List.filterMap_append]
      congr 1
    have e2 : (fun i => (mine i (l ++ [x])).filterMap fun x => f x.1) =
        upd (fun i => (mine i l).filterMap fun x => f x.1) x.1 ((mine x.1 l).filterMap (fun x => f x.1) ++ (f x.2.1).toList) := by
      funext i
      by_cases e : i = x.1
      · subst e
        rw [upd_same, mine_app, List.filterMap_append]
        congr 1
        simp only [mine, List.filterMap_cons, if_true]
        cases f x.2.1 <;> rfl
      · rw [upd_other _ _ e, mine_app]
        simp [mine, Ne.symm e]
    rw [e1, e2]
    exact h1

end SyncStream
