import Verif.Lemmas.HostSystem
/-!
# Lemmas about the flag that stops the mirrors, in the host mode as a whole
-/

namespace SyncStream
open Spec LineBuf HostBuf Conc

/-! ## Histories -/

section history
variable {C' R' C R O : Type} {i : Nat}

theorem asOps_append (l l' : List (C × R)) : (asOps i (l ++ l') : List (HEvent C' R' C R)) = asOps i l ++ asOps i l' := List.map_append ..

/-- The operation at a place of a client's history belongs to the call before it. -/
theorem Spec.ClientRun.op_at {cl : O → C' → Ask C R (R' × O)} {o o' : O} {h : List (HEvent C' R' C R)} {rest : Option (C' × Ask C R (R' × O))}
    (hr : ClientRun cl i o h o' rest) {q : C} {a : R} : ∀ {X Y : List (HEvent C' R' C R)}, h = X ++ .op i q a :: Y →
    ∃ X' c l o1 l' p, X = X' ++ .inv i c :: asOps i l ∧ Asks (cl o1 c) (l ++ (q, a) :: l') p := by
  have inner : ∀ (l : List (C × R)) {X Y Z : List (HEvent C' R' C R)}, asOps i l ++ Z = X ++ .op i q a :: Y →
      (∃ l1 l2, l = l1 ++ (q, a) :: l2 ∧ X = asOps i l1) ∨ ∃ X', X = asOps i l ++ X' ∧ Z = X' ++ .op i q a :: Y := by
    intro l
    induction l with
    | nil => exact fun e => .inr ⟨_, rfl, e⟩
    | cons x l ih =>
      intro X Y Z e
      cases X with
      | nil =>
        have e1 := (List.cons_eq_cons.1 e).1
        obtain ⟨q', a'⟩ := x
        cases e1
        exact .inl ⟨[], l, rfl, rfl⟩
      | cons y X =>
        obtain ⟨rfl, e2⟩ := List.cons_eq_cons.1 e
        rcases ih e2 with ⟨l1, l2, rfl, rfl⟩ | ⟨X', rfl, e3⟩
        · exact .inl ⟨x :: l1, l2, rfl, rfl⟩
        · exact .inr ⟨X', rfl, e3⟩
  induction hr with
  | nil => intro X Y e; cases X <;> cases e
  | call o o1 o' c l r h rest h1 h2 ih =>
    intro X Y e
    cases X with
    | nil => cases e
    | cons x X =>
      obtain ⟨rfl, e1⟩ := List.cons_eq_cons.1 e
      rcases inner l e1 with ⟨l1, l2, rfl, rfl⟩ | ⟨X', rfl, e2⟩
      · exact ⟨[], c, l1, o, l2, _, rfl, h1⟩
      · cases X' with
        | nil => cases e2
        | cons y X' =>
          obtain ⟨rfl, e3⟩ := List.cons_eq_cons.1 e2
          obtain ⟨X2, c2, l2, o2, l2', p2, rfl, g⟩ := ih e3
          exact ⟨.inv i c :: (asOps i l ++ .ret i r :: X2), c2, l2, o2, l2', p2, by simp, g⟩
  | within o c l p h1 =>
    intro X Y e
    cases X with
    | nil => cases e
    | cons x X =>
      obtain ⟨rfl, e1⟩ := List.cons_eq_cons.1 e
      rcases inner (Z := []) l ((List.append_nil _).trans e1) with ⟨l1, l2, rfl, rfl⟩ | ⟨X', rfl, e2⟩
      · exact ⟨[], c, l1, o, l2, _, rfl, h1⟩
      · cases X' <;> cases e2

/-- A beginning of a client's own events, in the whole. -/
theorem own_split {h X Y : List (HEvent C' R' C R)} {e : HEvent C' R' C R} (hs : own i h = X ++ e :: Y) :
    ∃ h1 h2, h = h1 ++ e :: h2 ∧ own i h1 = X ∧ own i h2 = Y := by
  obtain ⟨h1, h3, rfl, e1, e2⟩ := List.filter_eq_append_iff.1 hs
  obtain ⟨h4, h2, rfl, e3, -, e5⟩ := List.filter_eq_cons_iff.1 e2
  refine ⟨h1 ++ h4, h2, by simp, ?_, e5⟩
  rw [own_append]
  have : own i h4 = [] := List.filter_eq_nil_iff.2 fun x hx => e3 x hx
  rw [this, List.append_nil]
  exact e1

theorem own_asOps_seen {h : List (HEvent C' R' C R)} {l : List (C × R)} (hs : own i h = asOps i l) : ∀ e ∈ seen h, ¬ ofThread i e := by
  intro e he hi
  have e1 : seen (own i h) = [] := by rw [hs]; exact (asOps_view l).1
  have key : ∀ h : List (HEvent C' R' C R), e ∈ seen h → e ∈ seen (own i h) := by
    intro h
    induction h with
    | nil => exact fun h => h
    | cons x h ih =>
      intro hm
      by_cases hx : x.who = i
      · rw [own_cons_same hx]
        cases x with
        | op => exact ih hm
        | inv =>
          rcases List.mem_cons.1 hm with rfl | hm
          · exact List.mem_cons_self
          · exact List.mem_cons_of_mem _ (ih hm)
        | ret =>
          rcases List.mem_cons.1 hm with rfl | hm
          · exact List.mem_cons_self
          · exact List.mem_cons_of_mem _ (ih hm)
      · rw [own_cons_other hx]
        cases x with
        | op => exact ih hm
        | inv =>
          rcases List.mem_cons.1 hm with rfl | hm
          · exact (hx hi).elim
          · exact ih hm
        | ret =>
          rcases List.mem_cons.1 hm with rfl | hm
          · exact (hx hi).elim
          · exact ih hm
  have := key h he
  rw [e1] at this
  cases this

/-- The operation at a place of the history belongs to a call that has begun and has not returned. -/
theorem op_call {cl : O → C' → Ask C R (R' × O)} {o o' : O} {rest : Option (C' × Ask C R (R' × O))} {q : C} {a : R}
    {X Y : List (HEvent C' R' C R)} (hr : ClientRun cl i o (own i (X ++ .op i q a :: Y)) o' rest) :
    ∃ X1 c X2 l o1 l' p, X = X1 ++ .inv i c :: X2 ∧ (∀ e ∈ seen X2, ¬ ofThread i e) ∧ Asks (cl o1 c) (l ++ (q, a) :: l') p := by
  have e : own i (X ++ .op i q a :: Y) = own i X ++ .op i q a :: own i Y := by
    rw [own_append, own_cons_same (e := .op i q a) (i := i) rfl]
  obtain ⟨X', c, l, o1, l', p, h1, h2⟩ := hr.op_at e
  obtain ⟨X1, X2, rfl, -, h3⟩ := own_split h1
  exact ⟨X1, c, X2, l, o1, l', p, rfl, own_asOps_seen h3, h2⟩

/-- Two beginnings of a history, the first of which ends with something visible. -/
theorem begin_le {h1 h2 k1 k2 : List (HEvent C' R' C R)} {j : Nat} {r : R'} {d : List (Ev C' R')}
    (e : h1 ++ .ret j r :: h2 = k1 ++ k2) (hs : seen k1 = seen h1 ++ .ret j r :: d) : ∃ g, k1 = h1 ++ .ret j r :: g ∧ seen g = d := by
  rcases List.append_eq_append_iff.1 e with ⟨g, rfl, e2⟩ | ⟨g, rfl, e2⟩
  · cases g with
    | nil =>
      exfalso
      rw [List.append_nil] at hs
      have := congrArg List.length hs
      simp at this
    | cons x g =>
      obtain ⟨rfl, -⟩ := List.cons_eq_cons.1 e2
      refine ⟨g, rfl, ?_⟩
      rw [seen_append] at hs
      have := List.append_cancel_left hs
      exact (List.cons_eq_cons.1 this).2
  · exfalso
    rw [seen_append] at hs
    have := congrArg List.length hs
    simp at this

theorem Spec.Asks.split {α : Type} {p p' : Ask C R α} {l l' : List (C × R)} (h : Asks p (l ++ l') p') : ∃ p1, Asks p l p1 ∧ Asks p1 l' p' := by
  induction l generalizing p with
  | nil => exact ⟨p, .nil _, h⟩
  | cons x l ih =>
    cases h with
    | cons c r k _ _ h1 =>
      obtain ⟨p1, g1, g2⟩ := ih h1
      exact ⟨p1, .cons _ _ _ _ _ g1, g2⟩

end history

/-! ## The flag -/

variable {env : HEnv}

/-- The flag, as `check_states` asks for it. -/
def HostBuf.flag (h : HostBuf) : Json := (Json.lookup (lit "closed") h.state).getD .null

/-- Operations that set the flag. -/
def HOp.sets : HOp → Option Bool
  | .stopAll => some true
  | .reset => some false
  | .req (.statePost _) => some true
  | .req .stateDelete => some false
  | _ => none

/-- Operations of clients. -/
def HOp.Usual : HOp → Prop
  | .buffer _ => False
  | .req (.statePost b) => b = .json stopBody
  | _ => True

theorem lookup_append_single (k : PyStr) (v : Json) (l : List (PyStr × Json)) : Json.lookup k (l ++ [(k, v)]) = some v := by
  induction l with
  | nil => simp [Json.lookup]
  | cons x l ih =>
    obtain ⟨k', w⟩ := x
    simp only [List.cons_append, Json.lookup, ih]

theorem flag_set (st : PyDict) (b : LineBuf) (v : Json) : HostBuf.flag ⟨b, PyDict.set st (lit "closed") v⟩ = v := by
  unfold HostBuf.flag PyDict.set
  rw [lookup_append_single]
  rfl

/-- A method that leaves the states alone. -/
def KeepsState {α : Type} (p : Py HostBuf α) : Prop := ∀ h, (p h).2.state = h.state

namespace KeepsState
variable {α β : Type}

theorem pure (a : α) : KeepsState (pure a) := fun _ => rfl
theorem raise (e : Exc) : KeepsState (Py.raise e : Py HostBuf α) := fun _ => rfl
theorem lift (x : Except Exc α) : KeepsState (HostBuf.lift x) := fun _ => rfl
theorem onBase (p : Py LineBuf α) : KeepsState (HostBuf.onBase p) := fun h => by
  simp only [HostBuf.onBase, Py.onPart_apply]
theorem bind {p : Py HostBuf α} {g : α → Py HostBuf β} (hp : KeepsState p) (hg : ∀ a, KeepsState (g a)) : KeepsState (p >>= g) := fun h => by
  have e := hp h
  rw [Py.bind_apply]
  cases hx : p h with
  | mk r h' =>
    rw [hx] at e
    cases r with
    | ok a => exact (hg a h').trans e
    | error x => exact e
theorem ite {c : Prop} [Decidable c] {p q : Py HostBuf α} (h1 : KeepsState p) (h2 : KeepsState q) : KeepsState (if c then p else q) := by
  by_cases h : c
  · rw [if_pos h]; exact h1
  · rw [if_neg h]; exact h2
end KeepsState

theorem keeps_post (args : Json) : KeepsState (HostBuf.post env args) := by
  refine .ite ?_ (.ite ?_ (.ite (.onBase _) (.raise _)))
  · refine .ite ?_ (.pure _)
    cases ((args.get (lit "data") .null).get (lit "value") .null) <;> first | exact .pure _ | exact .bind (.onBase _) fun _ => .pure _
  · exact .ite (.bind (.onBase _) fun _ => .bind (.lift _) fun _ => .onBase _) (.pure _)

theorem keeps_get (n : Option PyStr) : KeepsState (HostBuf.get env n) := by
  refine .bind ?_ fun _ => .bind (.onBase _) fun _ => .lift _
  cases n with
  | none => exact .pure _
  | some s => dsimp only; cases env.int s <;> first | exact .pure _ | exact .raise _

/-- What an operation does to the flag. -/
theorem flag_step {o : HOp} (ho : o.Usual) (h : HostBuf) :
    (o.sets = none → (HostBuf.step env o h).flag = h.flag) ∧ ∀ b, o.sets = some b → (HostBuf.step env o h).flag = .bool b := by
  have keep : ∀ h' : HostBuf, h'.state = h.state → h'.flag = h.flag := fun h' e => by unfold HostBuf.flag; rw [e]
  cases o with
  | buffer c => exact ho.elim
  | stopAll => exact ⟨(fun e => nomatch e), fun b e => by cases e; exact flag_set _ _ _⟩
  | reset => exact ⟨(fun e => nomatch e), fun b e => by cases e; rfl⟩
  | req r =>
    cases r with
    | post b =>
      refine ⟨fun _ => keep _ ?_, fun b e => nomatch e⟩
      show (HostBuf.answerPost b (HostBuf.post env) h).2.state = _
      unfold HostBuf.answerPost
      cases HostBuf.jsonArgs b with
      | error e => rfl
      | ok x => cases x with
        | none => rfl
        | some args => exact keeps_post args h
    | get n => exact ⟨fun _ => keep _ (keeps_get n h), fun b e => nomatch e⟩
    | delete => exact ⟨fun _ => keep _ (KeepsState.onBase LineBuf.clear h), fun b e => nomatch e⟩
    | stateGet s =>
      refine ⟨fun _ => keep _ ?_, fun b e => nomatch e⟩
      refine KeepsState.ite (.raise _) (.ite (.bind (.onBase _) fun _ => .pure _) fun _ => rfl) h
    | stateDelete => exact ⟨(fun e => nomatch e), fun b e => by cases e; rfl⟩
    | statePost b =>
      cases (show b = .json stopBody from ho)
      refine ⟨(fun e => nomatch e), fun b e => ?_⟩
      cases e
      have h1 : HostBuf.statePost env stopBody h = (.ok (), { h with state := PyDict.set h.state (lit "closed") (.bool true) }) := by
        have e1 : strip ((stopBody.get (lit "state") (.str [])).strOf env.ext) = lit "closed" := by
          show strip (lit "closed") = _; decide
        have e2 : strip (asciiLower ((stopBody.get (lit "value") .null).strOf env.ext)) = lit "true" := by
          show strip (asciiLower (lit "true")) = _; decide
        unfold HostBuf.statePost
        simp only [e1, e2, if_neg (show ¬ lit "closed" = [] by decide)]
        rfl
      have e : HostBuf.step env (.req (.statePost (.json stopBody))) h = { h with state := PyDict.set h.state (lit "closed") (.bool true) } := by
        show (handle env (.statePost (.json stopBody)) h).2 = _
        simp only [handle, answerPost, jsonArgs, show stopBody.isMapping = true from rfl, if_true, h1]
      rw [e]
      exact flag_set _ _ _

/-- The flag after operations none of which sets it otherwise. -/
theorem flag_serves {b : Bool} {s t : HostBuf} {L : List (Nat × HOp × HRet)} (hs : Serves (HostBuf.AtOnce env) s L t)
    (hL : ∀ x ∈ L, x.2.1.Usual ∧ x.2.1.sets ≠ some (!b)) (h0 : s.flag = .bool b) : t.flag = .bool b := by
  induction hs with
  | nil => exact h0
  | cons s t u i q a l h1 h2 ih =>
    obtain ⟨g1, g2⟩ := hL _ List.mem_cons_self
    refine ih (fun x hx => hL x (List.mem_cons_of_mem _ hx)) ?_
    rw [h1.2]
    cases hq : q.sets with
    | none => rw [(flag_step g1 s).1 hq]; exact h0
    | some b' =>
      rw [(flag_step g1 s).2 b' hq]
      have hne : b' ≠ !b := fun e => g2 (by rw [hq, e])
      cases b <;> cases b' <;> first | rfl | exact (hne rfl).elim

/-- The question of `check_states`. -/
theorem flag_answer {h : HostBuf} {b : Bool} (hf : h.flag = .bool b) :
    HThr.result env (.req (.stateGet (some (lit "closed")))) h = found (.bool b) := by
  have : (handle env (.stateGet (some (lit "closed"))) h).1 = { status := 200, body := some (successData h.flag) } := by
    have e : strip ((some (lit "closed")).getD []) = lit "closed" := by decide
    simp only [handle, HostBuf.stateGet, e, if_neg (show ¬ lit "closed" = [] by decide), if_neg (show ¬ lit "closed" = lit "curlen" by decide)]
    rfl
  show HRet.resp _ = _
  rw [this, hf]
  rfl

/-- What a call of the clients asks for. -/
theorem client_flags (m : HMirror) (c : HSCall) : (hostClient m c).Within fun o => o.Usual ∧ (o.sets = none ∨ o.sets = HSCall.sets c) := by
  have key : ∀ {γ : Type} {P : Req → Prop} {Q : HOp → Prop}, (∀ r, P r → Q (.req r.wire)) → ∀ (p : Ask Req (Except Exc Resp) γ), p.Within P → ∀ os, (p.sent os).Within Q := by
    intro γ P Q hP p
    induction p with
    | done a => exact fun _ _ => trivial
    | ask r k ih =>
      intro hp os
      cases ho : os.headD .ok with
      | ok => simp only [Ask.sent, ho]; exact ⟨hP _ hp.1, fun x => ih _ (hp.2 _) _⟩
      | lost e => simp only [Ask.sent, ho]; exact ih _ (hp.2 _) _
      | noReply e => simp only [Ask.sent, ho]; exact ⟨hP _ hp.1, fun x => ih _ (hp.2 _) _⟩
  cases c with
  | mirror c os =>
    refine HMAsk.within_bind' (key (P := Req.Polite) (fun r hr => ?_) _ (HMAsk.exec_polite c m) _) fun _ => trivial
    rcases hr with rfl | ⟨x, rfl⟩
    · exact ⟨trivial, .inl rfl⟩
    · exact ⟨trivial, .inl rfl⟩
  | reader c os =>
    refine HMAsk.within_bind' (key (P := fun r => (HOp.req r.wire).Usual ∧ ((HOp.req r.wire).sets = none ∨ (HOp.req r.wire).sets = HSCall.sets (.reader c os)))
      (fun r hr => hr) (RdCall.exec c) ?_ _) fun _ => trivial
    refine ⟨?_, fun _ => trivial⟩
    cases c with
    | stopAll => exact ⟨rfl, .inr rfl⟩
    | resetStates => exact ⟨trivial, .inr rfl⟩
    | _ => exact ⟨trivial, .inl rfl⟩
  | stopAll => exact ⟨⟨trivial, .inr rfl⟩, fun _ => trivial⟩
  | reset => exact ⟨⟨trivial, .inr rfl⟩, fun _ => trivial⟩

/-! ## Methods that do not stop -/

/-- The method does not raise `StopIteration`, unless the network does. -/
def Goes {α : Type} : Ask Req (Except Exc Resp) (Except Exc α × HMirror) → Prop
  | .done a => a.1 ≠ .error .stopIteration
  | .ask _ k => ∀ x, x ≠ .error .stopIteration → Goes (k x)

namespace HMAsk
variable {α β : Type}

/-- The method does not raise `StopIteration` of its own. -/
def Going (p : HMAsk α) : Prop := ∀ m, Goes (p m)

theorem Going.pure (a : α) : Going (pure a) := fun _ e => nomatch e
theorem Going.raise {e : Exc} (h : e ≠ .stopIteration) : Going (raise e : HMAsk α) := fun _ e' => h (by injection e')
theorem Going.gets (f : HMirror → α) : Going (gets f) := fun _ e => nomatch e
theorem Going.onBuf {p : Py StringIO α} (h : ∀ s, (p s).1 ≠ .error .stopIteration) : Going (onBuf p) := fun _ => h _
theorem Going.request (r : Req) : Going (request r) := fun _ _ hx => hx

theorem goes_bind {p : Ask Req (Except Exc Resp) (Except Exc α × HMirror)} {g : Except Exc α × HMirror → Ask Req (Except Exc Resp) (Except Exc β × HMirror)}
    (hp : Goes p) (hg : ∀ a, a.1 ≠ .error .stopIteration → Goes (g a)) : Goes (p.bind g) := by
  induction p with
  | done a => exact hg a hp
  | ask c k ih => exact fun x hx => ih x (hp x hx)

theorem Going.bind {p : HMAsk α} {g : α → HMAsk β} (h : Going p) (hg : ∀ a, Going (g a)) : Going (p >>= g) := fun m =>
  goes_bind (h m) fun x hx => by
    obtain ⟨r, m'⟩ := x
    cases r with
    | ok a => exact hg a m'
    | error e => exact fun e' => hx (by injection e' with e'; rw [e'])

theorem Going.ite {c : Prop} [Decidable c] {p q : HMAsk α} (h1 : Going p) (h2 : Going q) : Going (if c then p else q) := by
  by_cases h : c
  · rw [if_pos h]; exact h1
  · rw [if_neg h]; exact h2

theorem going_sendData (d : PyStr) : Going (sendData d) :=
  .bind (.gets _) fun _ => .ite (.pure _) (.bind (.request _) fun r => .ite (.pure _) (by
    unfold fail
    cases r.body <;> exact .raise (by decide)))

/-- What follows the check in `__write`. -/
theorem going_unchecked (d : PyStr) : Going (writeCore d false) := by
  have io : ∀ (s : StringIO), (StringIO.write d s).1 ≠ .error .stopIteration ∧ (StringIO.getvalue s).1 ≠ .error .stopIteration ∧
      (StringIO.seek0 s).1 ≠ .error .stopIteration ∧ (StringIO.truncate0 s).1 ≠ .error .stopIteration := by
    intro s
    cases hc : s.closed <;> by_cases hd : d = [] <;> simp [StringIO.write, StringIO.getvalue, StringIO.seek0, StringIO.truncate0, StringIO.check, Py.bind_apply, hc, hd, Py.gets, Py.modify]
  exact .bind (Going.pure ()) fun _ => .bind (.gets _) fun _ =>
    .ite (.bind (going_sendData d) fun _ => .pure _)
      (.ite (.bind (.onBuf fun s => (io s).1) fun _ => .bind (.onBuf fun s => (io s).2.1) fun _ => .bind (going_sendData _) fun _ =>
        .bind (.onBuf fun s => (io s).2.2.1) fun _ => .bind (.onBuf fun s => (io s).2.2.2) fun _ => .pure _)
        (.ite (.onBuf fun s => (io s).1) (.pure _)))

end HMAsk
end SyncStream
