import Verif.Lemmas.LazyAttrThreads
import Verif.Lemmas.LazyAlone
import Verif.Lemmas.HostThreads
import Verif.Lemmas.Alone
import Verif.Lemmas.Sched
import Verif.Lemmas.Observe
/-!
# C90: lazy attributes used by several threads
-/

namespace SyncStream
open Conc Spec LazyAttrThreads

variable {env : ATEnv} {n : Nat} {w : ATWorld}

/-- C90 (all versions of Python): whichever thread uses a lazy attribute, and whenever, it uses the object that the module has under the name
(and the module has one), which has what the thread asks for; and from then on the name of the parent module is bound to the object, not to the lazy attribute.
The same for threads that look the name up and call what they find (if the name was not bound to another object in the beginning). -/
theorem C90_object (env : ATEnv) (n : Nat) (w : ATWorld) (hw : AttrsDefined env w) (tr : List (Ev ATCall (Except Exc ATRes)))
    (κ : Conf ATWorld Nat Unit ATCall (Except Exc ATRes)) (hx : Exec (lazyAttrThreads env n) (init w fun _ => ()) tr κ)
    (i : Nat) (c : ATCall) (v : Option Nat) (hr : Returns tr i c (.ok (.obj v))) :
    (∀ a, UsesAttr a c → v = env.value (env.attrs a).mobj (env.attrs a).attr ∧ env.has v (Asked c) = true ∧
      ModuleHas env.mods (env.attrs a).mobj (env.attrs a).attr ∧ ∃ p, (env.attrs a).parent = some p ∧ Replaced env κ.st p (env.attrs a).attr) ∧
    (∀ p x, c = .use p x → env.has v (lit "__call__") = true ∧
      (IsTarget env p x v ∧ Replaced env κ.st p x ∨ ∃ u, v = some u ∧ w.ns p x = some (.obj u))) := by
  obtain ⟨-, -, h⟩ := reached hw hx
  obtain ⟨t, ⟨-, h2, -⟩, h3⟩ := h i c _ hr
  obtain ⟨h4, h5⟩ := h2 v rfl
  refine ⟨fun a ha => ?_, fun p x hc => ?_⟩
  · obtain ⟨e1, -, ⟨e2, e6⟩, -, p, e4, e5⟩ := h4 a ha
    exact ⟨e2, e1, e6, p, e4, h3.names _ _ e5⟩
  · obtain ⟨e1, e2⟩ := h5 p x hc
    exact ⟨e1, e2.imp (fun e => ⟨e.1, h3.names _ _ e.2⟩) id⟩

/-- C90 (all versions of Python): all threads that use a lazy attribute use the same object. -/
theorem C90_same (env : ATEnv) (n : Nat) (w : ATWorld) (hw : AttrsDefined env w) (tr : List (Ev ATCall (Except Exc ATRes)))
    (κ : Conf ATWorld Nat Unit ATCall (Except Exc ATRes)) (hx : Exec (lazyAttrThreads env n) (init w fun _ => ()) tr κ)
    (i j : Nat) (c c' : ATCall) (v v' : Option Nat) (hr : Returns tr i c (.ok (.obj v))) (hr' : Returns tr j c' (.ok (.obj v')))
    (a : Nat) (ha : UsesAttr a c) (ha' : UsesAttr a c') : v = v' :=
  ((C90_object env n w hw tr κ hx i c v hr).1 a ha).1.trans ((C90_object env n w hw tr κ hx j c' v' hr').1 a ha').1.symm

/-- A step changes the state only as it should. -/
theorem later_step (hw : AttrsDefined env w) {tr : List (Ev ATCall (Except Exc ATRes))} {κ κ' : Conf ATWorld Nat Unit ATCall (Except Exc ATRes)}
    (hx : Exec (lazyAttrThreads env n) (init w fun _ => ()) tr κ) {e : Option (Ev ATCall (Except Exc ATRes))}
    (st : Step (lazyAttrThreads env n) κ e κ') : Later env w κ.st κ'.st := by
  obtain ⟨h1, h2, -⟩ := reached hw hx
  cases st with
  | act i c f k hi => exact (h2 i c _ hi κ.st (steady.refl _)).1 h1
  | inv | acq | rel | ret => exact steady.refl _ h1

theorem later_exec (hw : AttrsDefined env w) {tr tr' : List (Ev ATCall (Except Exc ATRes))} {κ κ' : Conf ATWorld Nat Unit ATCall (Except Exc ATRes)}
    (hx : Exec (lazyAttrThreads env n) (init w fun _ => ()) tr κ) (hx' : Exec (lazyAttrThreads env n) κ tr' κ') :
    Later env w κ.st κ'.st ∧ Exec (lazyAttrThreads env n) (init w fun _ => ()) (tr ++ tr') κ' := by
  induction hx' with
  | nil => exact ⟨steady.refl _ (reached hw hx).1, by rw [List.append_nil]; exact hx⟩
  | snoc κ1 κ2 tr' e h1 h2 ih =>
    obtain ⟨h3, h4⟩ := ih
    have h5 := later_step hw h4 h2
    exact ⟨⟨h5.good, fun a v h => h5.objs a v (h3.objs a v h), fun p x h => h5.names p x (h3.names p x h)⟩,
      by rw [← List.append_assoc]; exact .snoc _ _ _ _ _ h4 h2⟩

/-- C90 (all versions of Python): a name is bound to what it was bound to in the beginning, or has been replaced by the object of a lazy attribute
with this name and parent; what has been replaced remains so. -/
theorem C90_name (env : ATEnv) (n : Nat) (w : ATWorld) (hw : AttrsDefined env w) (tr tr' : List (Ev ATCall (Except Exc ATRes)))
    (κ κ' : Conf ATWorld Nat Unit ATCall (Except Exc ATRes)) (hx : Exec (lazyAttrThreads env n) (init w fun _ => ()) tr κ)
    (hx' : Exec (lazyAttrThreads env n) κ tr' κ') (p : Nat) (x : PyStr) :
    (κ.st.ns p x = w.ns p x ∨ Replaced env κ.st p x) ∧ (Replaced env κ.st p x → Replaced env κ'.st p x) ∧
    ∀ i b, Returns tr i (.name p x) (.ok (.bound b)) → w.ns p x = some b ∨ ∃ v, b = .ofValue v ∧ IsTarget env p x v := by
  obtain ⟨h1, -, h2⟩ := reached hw hx
  refine ⟨h1.names p x, (later_exec hw hx hx').1.names p x, fun i b hr => ?_⟩
  obtain ⟨t, ⟨-, -, h3⟩, -⟩ := h2 i _ _ hr
  obtain ⟨q, y, hc, h⟩ := h3 b rfl
  cases hc
  exact h

/-- What a use of a lazy attribute whose object is known does: one look. -/
theorem prog_known {c : ATCall} {a : Nat} (ha : UsesAttr a c) (v : Nat) : ∃ f k, prog env n c = .act f k ∧ (∀ s, f s = s) ∧
    ∀ s, s.objs a = some v → k s = .ret (if env.has (some v) (Asked c) = true then .ok (.obj (some v)) else .error .attributeError, ()) := by
  have key : ∀ (attr : PyStr), ∃ f k, ((loadAttr env n a >>= fun v => if env.has v attr then return ATRes.obj v else Prog.raise .attributeError).outcome >>=
      fun r => (return (r, ()) : ATProg (Except Exc ATRes × Unit))) = .act f k ∧ (∀ s, f s = s) ∧
      ∀ s, s.objs a = some v → k s = .ret (if env.has (some v) attr = true then .ok (.obj (some v)) else .error .attributeError, ()) := by
    intro attr
    refine ⟨_, _, rfl, fun _ => rfl, fun s hs => ?_⟩
    dsimp only
    rw [hs]
    show (Prog.outcome (if env.has (some v) attr then return ATRes.obj (some v) else Prog.raise .attributeError)).bind _ = _
    cases env.has (some v) attr <;> rfl
  cases c with
  | call b => cases ha; exact key _
  | getattr b attr =>
    obtain ⟨rfl, h⟩ := ha
    have e : attrGetattr env n b attr = loadAttr env n b >>= fun v => if env.has v attr then return ATRes.obj v else Prog.raise .attributeError := by
      unfold attrGetattr
      rw [h]
      rfl
    dsimp only [prog, body]
    rw [e]
    exact key attr
  | run | name | use => exact ha.elim

/-- C90 (all versions of Python): when a lazy attribute has once been used and its object is not `None`, a later use of it by any thread waits for nobody,
loads and changes nothing, and gives the same object (or `AttributeError`, if the object does not have what is asked for). -/
theorem C90_settled (env : ATEnv) (n : Nat) (w : ATWorld) (hw : AttrsDefined env w) (tr tr' : List (Ev ATCall (Except Exc ATRes)))
    (κ κ1 κ2 : Conf ATWorld Nat Unit ATCall (Except Exc ATRes)) (hx : Exec (lazyAttrThreads env n) (init w fun _ => ()) tr κ)
    (i j a v : Nat) (c c' : ATCall) (hr : Returns tr i c (.ok (.obj (some v)))) (ha : UsesAttr a c) (ha' : UsesAttr a c')
    (st : Step (lazyAttrThreads env n) κ (some (.inv j c')) κ1) (hx' : Exec (lazyAttrThreads env n) κ1 tr' κ2) (hj : ∀ e ∈ tr', ¬ofThread j e) :
    (∀ k, ¬WaitsFor (lazyAttrThreads env n) κ2 j k) ∧
    (∃ p, κ2.cur j = some (c', p) ∧ p.seq κ2.st =
      (.ok (if env.has (some v) (Asked c') = true then .ok (.obj (some v)) else .error .attributeError, ()), κ2.st)) ∧
    ∀ r κ3, Step (lazyAttrThreads env n) κ2 (some (.ret j r)) κ3 →
      r = if env.has (some v) (Asked c') = true then .ok (.obj (some v)) else .error .attributeError := by
  obtain ⟨f, k, hp, hf, hk⟩ := prog_known (env := env) (n := n) ha' v
  have h0 : κ.st.objs a = some v := by
    obtain ⟨t, ⟨-, h2, -⟩, h3⟩ := (reached hw hx).2.2 i c _ hr
    exact h3.objs _ _ (((h2 _ rfl).1 a ha).2.2.2.1 v rfl)
  have hx1 : Exec (lazyAttrThreads env n) (init w fun _ => ()) (tr ++ [.inv j c']) κ1 := .snoc _ _ _ _ _ hx st
  have h1 : κ1.st.objs a = some v := by cases st with | inv => exact h0
  have c1 : κ1.cur j = some (c', .act f k) := by
    cases st with
    | inv _ _ hc hok => rw [← hp]; exact upd_same _ _ _
  have key : κ2.st.objs a = some v ∧ (κ2.cur j = some (c', .act f k) ∨
      κ2.cur j = some (c', .ret (if env.has (some v) (Asked c') = true then .ok (.obj (some v)) else .error .attributeError, ()))) := by
    refine ⟨(later_exec hw hx1 hx').1.objs _ _ h1, ?_⟩
    clear st
    induction hx' with
    | nil => exact .inl c1
    | snoc κa κb tr' e ha hs ih =>
      have ih := ih (fun e he => hj e (List.mem_append.mpr (.inl he)))
      have hoa := (later_exec hw hx1 ha).1.objs _ _ h1
      have same : ∀ i x, i ≠ j → (upd κa.cur i x j = some (c', .act f k) ∨
        upd κa.cur i x j = some (c', .ret (if env.has (some v) (Asked c') = true then .ok (.obj (some v)) else .error .attributeError, ()))) :=
        fun i x hi => by rw [upd_other _ _ (Ne.symm hi)]; exact ih
      cases hs with
      | inv i c hi hok => exact same _ _ (hj _ (List.mem_append.mpr (.inr (.head _))))
      | act i c f' k' hi =>
        by_cases e : i = j
        · subst e
          rcases ih with ih | ih <;> rw [ih] at hi <;> cases hi
          refine .inr ?_
          show upd κa.cur i _ i = _
          rw [upd_same, hk _ hoa]
        · exact same _ _ e
      | acq i c l w' k' hi _ =>
        by_cases e : i = j
        · subst e
          rcases ih with ih | ih <;> rw [ih] at hi <;> cases hi
        · exact same _ _ e
      | rel i c l w' k' hi =>
        by_cases e : i = j
        · subst e
          rcases ih with ih | ih <;> rw [ih] at hi <;> cases hi
        · exact same _ _ e
      | ret i c r o hi => exact same _ _ (hj _ (List.mem_append.mpr (.inr (.head _))))
  obtain ⟨k1, k2⟩ := key
  refine ⟨fun k' ⟨c2, l, w', q, hc, _⟩ => ?_, ?_, fun r κ3 hs => ?_⟩
  · rcases k2 with k2 | k2 <;> rw [k2] at hc <;> cases hc
  · rcases k2 with k2 | k2
    · refine ⟨_, k2, ?_⟩
      show (k κ2.st).seq (f κ2.st) = _
      rw [hk _ k1, hf]
      rfl
    · exact ⟨_, k2, rfl⟩
  · cases hs with
    | ret _ c2 _ o hc =>
      rcases k2 with k2 | k2 <;> rw [k2] at hc <;> cases hc
      rfl

/-- C90 (newer versions of Python): the code of a module is run at most once. -/
theorem C90_once (env : ATEnv) (he : env.mods.strict = true) (n : Nat) (w : ATWorld) (hw : AttrsDefined env w) (hm : AtRest w.mods)
    (tr : List (Ev ATCall (Except Exc ATRes))) (κ : Conf ATWorld Nat Unit ATCall (Except Exc ATRes))
    (hx : Exec (lazyAttrThreads env n) (init w fun _ => ()) tr κ) : κ.st.mods.started.Nodup := by
  obtain ⟨a, ha⟩ := minding he hw hm hx
  exact ha.inv.nodup

/-- C90 (newer versions of Python): when a use of a lazy attribute, or of a name that was bound to one, gives its object, the module has been loaded, or its
code has ended with an exception: nobody uses an object of a module that is half loaded. -/
theorem C90_loaded (env : ATEnv) (he : env.mods.strict = true) (n : Nat) (w : ATWorld) (hw : AttrsDefined env w) (hm : AtRest w.mods)
    (tr : List (Ev ATCall (Except Exc ATRes))) (κ κ' : Conf ATWorld Nat Unit ATCall (Except Exc ATRes))
    (hx : Exec (lazyAttrThreads env n) (init w fun _ => ()) tr κ) (j : Nat) (v : Option Nat)
    (st : Step (lazyAttrThreads env n) κ (some (.ret j (.ok (.obj v)))) κ') :
    ∃ c p, κ.cur j = some (c, p) ∧
      (∀ a, UsesAttr a c → env.mods.bare (env.attrs a).attr = false → CodeEnded κ.st.mods (env.attrs a).mobj) ∧
      ∀ q x, c = .use q x → (∃ u, v = some u ∧ w.ns q x = some (.obj u)) ∨
        ∃ a, (env.attrs a).parent = some q ∧ (env.attrs a).attr = x ∧ (env.mods.bare x = false → CodeEnded κ.st.mods (env.attrs a).mobj) := by
  obtain ⟨a, ha⟩ := minding he hw hm hx
  cases st with
  | ret _ c _ o hc =>
    obtain ⟨h1, h2⟩ := (ha.run j c _ hc).2 _ rfl v rfl
    refine ⟨c, _, hc, fun b hb hbare => (ha.ok j).1.known _ (h1 b hb hbare), fun q x hq => (h2 q x hq).imp id ?_⟩
    rintro ⟨b, e1, e2, e3⟩
    exact ⟨b, e1, e2, fun hb => (ha.ok j).1.known _ (e3 (by rw [e2]; exact hb))⟩

/-- C90 (all versions of Python): if the modules can be ordered so that the code of each uses only later ones (and itself), and each depends only on later ones,
the threads do not wait for one another forever. -/
theorem C90_no_deadlock (env : ATEnv) (n : Nat) (w : ATWorld) (rank : Nat → Nat) (ho : Ordered rank env.mods w.mods) :
    DeadlockFree (lazyAttrThreads env n) (init w fun _ => ()) :=
  deadlockFree_of_rising (rising (rank := rank) (fun i u t h j hj => ho i j (.inl ⟨u, t, h, hj⟩)) n)
    (fun i d hd => ho i d (.inr hd)) _

/-- The call uses the lazy attribute `a`, or a name that is bound to it. -/
def Reaches (w : ATWorld) (a : Nat) (c : ATCall) : Prop := UsesAttr a c ∨ ∃ p x, c = .use p x ∧ w.ns p x = some (.lazy a)

theorem seq_onMods {α : Type} (p : LTProg α) (t : ATWorld) : (onMods p).seq t = ((p.seq t.mods).1, { t with mods := (p.seq t.mods).2 }) :=
  Prog.seq_onPart (get := ATWorld.mods) (set := fun m w => { w with mods := m }) (fun _ _ => rfl) (fun _ _ _ => rfl) (fun _ => rfl) p t

/-- A call that reaches the lazy attribute gives what loading it gives. -/
theorem seq_prog {a : Nat} {c : ATCall} {t t' : ATWorld} {v : Option Nat} (hc : Reaches t a c) (h : (loadAttr env n a).seq t = (.ok v, t')) :
    (prog env n c).seq t = (.ok (if env.has v (Asked c) = true then .ok (.obj v) else .error .attributeError, ()), t') := by
  have key : ∀ attr : PyStr, (loadAttr env n a >>= fun v => if env.has v attr then return ATRes.obj v else Prog.raise .attributeError).seq t =
      (if env.has v attr = true then .ok (.obj v) else .error .attributeError, t') := fun attr => by
    rw [Prog.seq_bind_ok h]
    cases env.has v attr <;> rfl
  have done : ∀ {p : ATProg ATRes} {r}, body env n c = p → p.seq t = (r, t') → (prog env n c).seq t = (.ok (r, ()), t') := fun {p r} e hp => by
    have : (body env n c).outcome.seq t = (.ok r, t') := by rw [Prog.seq_outcome, e, hp]
    rw [prog, Prog.seq_bind_ok this]
    rfl
  cases c with
  | call b =>
    rcases hc with rfl | ⟨_, _, h, _⟩
    · exact done rfl (key _)
    · cases h
  | getattr b attr =>
    rcases hc with ⟨rfl, hp⟩ | ⟨_, _, h, _⟩
    · exact done (by dsimp only [body]; unfold attrGetattr; rw [hp]; rfl) (key _)
    · cases h
  | use p x =>
    rcases hc with h | ⟨_, _, h, hb⟩
    · exact h.elim
    · cases h
      have hl : (lookName p x).seq t = (.ok (.lazy a), t) := by
        refine (Prog.seq_atom _ t).trans ?_
        show (match t.ns p x with
          | some b => (Except.ok b, t)
          | none => (Except.error Exc.attributeError, t)) = _
        rw [hb]
      exact done rfl ((Prog.seq_bind_ok hl).trans (key _))
  | run | name => rcases hc with h | ⟨_, _, h, _⟩ <;> first | exact h.elim | cases h

/-- C90 (all versions of Python): while the other threads do nothing, the first use of a lazy attribute, or of a name bound to it, gives its object, or
`AttributeError` if the object does not have what is asked for; then the module has been loaded, the object is remembered, and the name is bound to it.
The code of the modules is assumed to use later modules only. -/
theorem C90_alone (env : ATEnv) (rank : Nat → Nat) (top : Nat) (hr : ∀ i, rank i ≤ top) (hc : env.mods.bare (lit "__class__") = true)
    (hn : env.mods.bare (lit "__name__") = true) (hg : env.mods.bare (lit "__getattribute__") = true) (hco : CodeOrdered rank env.mods) (n : Nat)
    (hd : 2 * top + 2 ≤ n) (κ κ' : Conf ATWorld Nat Unit ATCall (Except Exc ATRes)) (hidle : ∀ j, κ.cur j = none)
    (hw : ∀ i, NotTouched env.mods κ.st.mods i ∨ HasLoaded env.mods κ.st.mods i) (hdeps : DepsOrdered rank κ.st.mods) (a : Nat)
    (ho : κ.st.objs a = none) (ha : CanFind env.mods (env.attrs a).mobj (env.attrs a).attr) (q : Nat) (hq : (env.attrs a).parent = some q)
    (j : Nat) (c : ATCall) (hca : Reaches κ.st a c) (r : Except Exc ATRes) (hx : Exec (lazyAttrThreads env n) κ [.inv j c, .ret j r] κ') :
    r = (if env.has (env.value (env.attrs a).mobj (env.attrs a).attr) (Asked c) = true
      then .ok (.obj (env.value (env.attrs a).mobj (env.attrs a).attr)) else .error .attributeError) ∧
    (env.mods.bare (env.attrs a).attr = false → HasLoaded env.mods κ'.st.mods (env.attrs a).mobj) ∧
    κ'.st.objs a = env.value (env.attrs a).mobj (env.attrs a).attr ∧ (∀ b, b ≠ a → κ'.st.objs b = κ.st.objs b) ∧
    κ'.st.ns q (env.attrs a).attr = some (.ofValue (env.value (env.attrs a).mobj (env.attrs a).attr)) ∧
    (∀ p x, (p, x) ≠ (q, (env.attrs a).attr) → κ'.st.ns p x = κ.st.ns p x) ∧
    (∀ k, NotTouched env.mods κ'.st.mods k ∨ HasLoaded env.mods κ'.st.mods k) ∧ (∀ k, HasLoaded env.mods κ.st.mods k → HasLoaded env.mods κ'.st.mods k) ∧
    DepsOrdered rank κ'.st.mods ∧ κ'.st.mods.failed = κ.st.mods.failed := by
  obtain ⟨o, he⟩ := exec_alone hidle hx
  have hw0 : LazyThreads.ReadyFrom env.mods rank 0 κ.st.mods := fun k _ => ⟨hw k, hdeps k⟩
  have hgo := (LazyThreads.works hr hc hn hco top (env.attrs a).mobj (by omega) n (by omega)).1
  obtain ⟨w1, e1, a1, -⟩ := hgo (lit "__getattribute__") ⟨by decide, .inl hg⟩ κ.st.mods (hw0.mono (Nat.zero_le _))
  have a10 := a1.lower (Nat.zero_le _) hw0
  have hw1 : LazyThreads.ReadyFrom env.mods rank 0 w1 := fun k h => a10.ready k h
  obtain ⟨w2, e2, a2, hl⟩ := hgo (env.attrs a).attr ha w1 (hw1.mono (Nat.zero_le _))
  have a20 := a2.lower (Nat.zero_le _) hw1
  have hload : (loadAttr env n a).seq κ.st = (.ok (env.target a), ⟨w2,
      fun b => if b = a then env.target a else κ.st.objs b,
      fun p y => if p = q ∧ y = (env.attrs a).attr then some (.ofValue (env.target a)) else κ.st.ns p y⟩) := by
    have s0 : (gets (·.objs a)).seq κ.st = (.ok none, κ.st) := (Prog.seq_atom _ _).trans (by dsimp only; rw [ho])
    have s1 : (onMods (LazyThreads.go env.mods n (.get (env.attrs a).mobj (lit "__getattribute__")))).seq κ.st = (.ok (), { κ.st with mods := w1 }) := by
      rw [seq_onMods, e1]
    have s2 : (onMods (LazyThreads.go env.mods n (.get (env.attrs a).mobj (env.attrs a).attr))).seq { κ.st with mods := w1 } =
        (.ok (), { κ.st with mods := w2 }) := by
      rw [seq_onMods, e2]
    rw [loadAttr, Prog.seq_bind_ok s0]
    dsimp only
    rw [Prog.seq_bind_ok s1, Prog.seq_bind_ok s2, hq]
    rfl
  have := (seq_prog hca hload).symm.trans he
  simp only [Prod.mk.injEq, Except.ok.injEq] at this
  obtain ⟨⟨rfl, -⟩, e⟩ := this
  rw [← e]
  refine ⟨rfl, fun h => ?_, if_pos rfl, fun b hb => if_neg hb, if_pos ⟨rfl, rfl⟩, fun p x h => if_neg fun ⟨e1, e2⟩ => h (by rw [e1, e2]),
    fun k => (a20.ready k (Nat.zero_le _)).1, fun k hk => a20.keep k (a10.keep k hk), fun k => (a20.ready k (Nat.zero_le _)).2,
    a20.failed.trans a10.failed⟩
  rcases hl with ⟨-, hl⟩ | hl
  · simp only [Bool.and_eq_true] at hl
    rw [hl.2] at h; cases h
  · exact hl

section Cases

/-- The package 0 with the lazy attribute `Buffer` (the others are not used) of module 1; the object is 7.  `early`: the modules have all attributes from
the beginning of their code. -/
def somePackage (strict early : Bool) : ATEnv where
  mods :=
    { strict := strict
      bare := fun a => a == lit "__name__" || a == lit "__class__" || a == lit "__getattribute__"
      early := fun _ _ => early
      defines := fun _ _ => true
      code := fun _ => [] }
  attrs := fun _ => { mobj := 1, attr := lit "Buffer", parent := some 0 }
  value := fun _ _ => some 7
  has := fun v _ => v == some 7

/-- The package has been imported. -/
def freshPackage : ATWorld where
  mods := { objs := fun _ => { cls := .lazy } }
  objs := fun _ => none
  ns := fun p x => if p = 0 ∧ x = lit "Buffer" then some (.lazy 0) else none

theorem freshPackage_defined (strict early : Bool) : AttrsDefined (somePackage strict early) freshPackage :=
  ⟨fun _ => rfl, fun p x a h => by
    dsimp only [freshPackage] at h
    split at h
    · rename_i e; exact ⟨congrArg some e.1.symm, e.2.symm⟩
    · cases h⟩

theorem freshPackage_atRest : AtRest freshPackage.mods := ⟨.nil, fun _ => .inl ⟨nofun, rfl, nofun, nofun⟩⟩

/-- `package.Buffer(...)` -/
def useBuffer : ATCall := .use 0 (lit "Buffer")

/-- `n` steps of thread `i`. -/
def attrSteps (i n : Nat) : List (Move ATCall) := List.replicate n (.go i)

/-- Two threads move; `check` is asked at the end. -/
def attrEnds (env : ATEnv) (ms : List (Move ATCall))
    (check : List (Ev ATCall (Except Exc ATRes)) → Conf ATWorld Nat Unit ATCall (Except Exc ATRes) → Bool) : Bool :=
  match moves (lazyAttrThreads env 10) 2 ms (init freshPackage fun _ => ()) (fun _ => true) with
  | none => false
  | some (tr, κ) => check tr κ

theorem exec_attrEnds {env : ATEnv} {ms : List (Move ATCall)}
    {check : List (Ev ATCall (Except Exc ATRes)) → Conf ATWorld Nat Unit ATCall (Except Exc ATRes) → Bool} (h : attrEnds env ms check = true) :
    ∃ tr κ, Exec (lazyAttrThreads env 10) (init freshPackage fun _ => ()) tr κ ∧ check tr κ = true := by
  unfold attrEnds at h
  split at h
  · cases h
  · rename_i tr κ e
    exact ⟨tr, κ, moves_sound (fun _ _ _ _ _ => trivial) (fun _ _ _ => rfl) e (fun _ _ => trivial), h⟩

/-- C90 is violated with all versions of Python: two threads call `package.Buffer` for the first time.  The module defines it and its code does nothing
else; one thread gets the object, the other one `AttributeError`, because the first has changed the class of the module object after the other had found
the method of its former class (`utils.py:159`). -/
theorem C90_first_use_violated (strict : Bool) : ∃ (env : ATEnv) (w : ATWorld) (n : Nat) (tr : List (Ev ATCall (Except Exc ATRes)))
    (κ : Conf ATWorld Nat Unit ATCall (Except Exc ATRes)), env.mods.strict = strict ∧ AttrsDefined env w ∧ AtRest w.mods ∧
    w.ns 0 (lit "Buffer") = some (.lazy 0) ∧ (env.attrs 0).mobj = 1 ∧ env.mods.defines 1 (lit "Buffer") = true ∧ env.mods.code 1 = [] ∧
    env.value 1 (lit "Buffer") = some 7 ∧ env.has (some 7) (lit "__call__") = true ∧
    Exec (lazyAttrThreads env n) (init w fun _ => ()) tr κ ∧ κ.st.mods.started = [1] ∧ κ.st.mods.failed = [] ∧
    Returns tr 0 (.use 0 (lit "Buffer")) (.ok (.obj (some 7))) ∧ Returns tr 1 (.use 0 (lit "Buffer")) (.error .attributeError) := by
  have key : attrEnds (somePackage strict false) ([.start 0 useBuffer, .start 1 useBuffer] ++ attrSteps 1 3 ++ attrSteps 0 (if strict then 23 else 18) ++ attrSteps 1 2)
      (fun tr κ => κ.st.mods.started == [1] && κ.st.mods.failed == [] &&
        match tr with
        | [.inv 0 (.use 0 x), .inv 1 (.use 0 y), .ret 0 (.ok (.obj (some 7))), .ret 1 (.error .attributeError)] => x == lit "Buffer" && y == lit "Buffer"
        | _ => false) = true := by
    cases strict <;> decide +kernel
  obtain ⟨tr, κ, h1, h2⟩ := exec_attrEnds key
  simp only [Bool.and_eq_true, beq_iff_eq] at h2
  obtain ⟨⟨h2, h3⟩, h4⟩ := h2
  split at h4
  · simp only [Bool.and_eq_true, beq_iff_eq] at h4
    obtain ⟨rfl, rfl⟩ := h4
    exact ⟨_, _, _, _, κ, rfl, freshPackage_defined strict false, freshPackage_atRest, by decide, rfl, rfl, rfl, rfl, rfl, h1, h2, h3,
      ⟨[], [.inv 1 _], [.ret 1 _], rfl, by simp [ofThread]⟩, ⟨[.inv 0 _], [.ret 0 _], [], rfl, by simp [ofThread]⟩⟩
  · cases h4

/-- C90 is violated with older versions of Python: while one thread loads the module, another one calls the object, though the code of the module has not
come to its end. -/
theorem C90_half_violated : ∃ (env : ATEnv) (w : ATWorld) (n : Nat) (tr : List (Ev ATCall (Except Exc ATRes)))
    (κ : Conf ATWorld Nat Unit ATCall (Except Exc ATRes)), env.mods.strict = false ∧ AttrsDefined env w ∧ AtRest w.mods ∧
    (env.attrs 0).mobj = 1 ∧ env.mods.bare (lit "Buffer") = false ∧
    Exec (lazyAttrThreads env n) (init w fun _ => ()) tr κ ∧ Returns tr 1 (.call 0) (.ok (.obj (some 7))) ∧ ¬CodeEnded κ.st.mods 1 := by
  have key : attrEnds (somePackage false true) ([.start 0 (.call 0)] ++ attrSteps 0 9 ++ [.start 1 (.call 0)] ++ attrSteps 1 8)
      (fun tr κ => κ.st.mods.finished == [] && κ.st.mods.failed == [] &&
        match tr with
        | [.inv 0 (.call 0), .inv 1 (.call 0), .ret 1 (.ok (.obj (some 7)))] => true
        | _ => false) = true := by decide +kernel
  obtain ⟨tr, κ, h1, h2⟩ := exec_attrEnds key
  simp only [Bool.and_eq_true, beq_iff_eq] at h2
  obtain ⟨⟨h2, h3⟩, h4⟩ := h2
  split at h4
  · exact ⟨_, _, _, _, κ, rfl, freshPackage_defined false true, freshPackage_atRest, rfl, by decide, h1,
      ⟨[.inv 0 _], [], [], rfl, by simp⟩, fun h => by unfold CodeEnded at h; rw [h2, h3] at h; rcases h with h | h <;> cases h⟩
  · cases h4

/-- Newer versions: thread 1 uses the name while thread 0 loads the module; it waits for the lock (its step is not possible), and then gets the same
object; the code has been run once and the name is bound to the object. -/
example : attrEnds (somePackage true true) ([.start 0 useBuffer] ++ attrSteps 0 13 ++ [.start 1 useBuffer] ++ attrSteps 1 4) (fun _ _ => true) = false ∧
    attrEnds (somePackage true true) ([.start 0 useBuffer] ++ attrSteps 0 13 ++ [.start 1 useBuffer] ++ attrSteps 1 3 ++ attrSteps 0 10 ++ attrSteps 1 10)
      (fun tr κ => κ.st.mods.started == [1] && κ.st.mods.finished == [1] && κ.st.ns 0 (lit "Buffer") == some (.obj 7) &&
        match tr with
        | [.inv 0 _, .inv 1 _, .ret 0 (.ok (.obj (some 7))), .ret 1 (.ok (.obj (some 7)))] => true
        | _ => false) = true := by decide +kernel

/-- After the first use another thread that has kept the lazy attribute needs two steps (`C90_settled`). -/
example : attrEnds (somePackage true false) ([.start 0 useBuffer] ++ attrSteps 0 23 ++ [.start 1 (.call 0)] ++ attrSteps 1 2)
    (fun tr _ => match tr with
      | [.inv 0 _, .ret 0 (.ok (.obj (some 7))), .inv 1 (.call 0), .ret 1 (.ok (.obj (some 7)))] => true
      | _ => false) = true := by decide +kernel

/-- A lazy attribute of a package that is not in `sys.modules` cannot be used (`utils.py:224-228`). -/
example : attrEnds { somePackage true false with attrs := fun _ => { mobj := 1, attr := lit "Buffer", parent := none } } ([.start 0 (.call 0)] ++ attrSteps 0 20)
    (fun tr κ => κ.st.mods.finished == [1] && match tr with
      | [.inv 0 (.call 0), .ret 0 (.error .keyError)] => true
      | _ => false) = true := by decide +kernel

/-- Thread 3 calls `package.Buffer` while nobody else does anything (`C90_alone`). -/
example (strict early : Bool) (κ : Conf ATWorld Nat Unit ATCall (Except Exc ATRes)) (r : Except Exc ATRes)
    (hx : Exec (lazyAttrThreads (somePackage strict early) 10) (init freshPackage fun _ => ()) [.inv 3 useBuffer, .ret 3 r] κ) :
    r = .ok (.obj (some 7)) ∧ 1 ∈ κ.st.mods.finished ∧ κ.st.ns 0 (lit "Buffer") = some (.obj 7) := by
  have h := C90_alone (somePackage strict early) (fun _ => 0) 0 (fun _ => Nat.le_refl _) rfl rfl rfl (fun i u t h => nomatch h) 10 (by decide)
    (init freshPackage fun _ => ()) κ (fun _ => rfl) (fun i => .inl ⟨.inl rfl, fun _ => rfl, nofun, nofun⟩) (fun i d hd => nomatch hd) 0 rfl
    ⟨(by decide : lit "Buffer" ≠ lit "__path__"), .inr rfl⟩ 0 rfl 3 useBuffer (.inr ⟨_, _, rfl, by decide⟩) r hx
  exact ⟨h.1, (h.2.1 rfl).1, h.2.2.2.2.1⟩

/-- The threads do not wait for one another forever (`C90_no_deadlock`). -/
example (strict : Bool) : DeadlockFree (lazyAttrThreads (somePackage strict false) 10) (init freshPackage fun _ => ()) :=
  C90_no_deadlock _ _ _ id fun i j h => by
    rcases h with ⟨u, t, h, -⟩ | h <;> cases h

end Cases

end SyncStream
