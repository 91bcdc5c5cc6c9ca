import Verif.Spec.Web
/-!
# Lemmas for C74: what the methods append to the log
-/

namespace SyncStream
open Spec

namespace Web
variable {σ α β : Type}

/-- Nothing but response blocks and events of pools between them; `n` responses so far.  `U st` : a response with the status
`st` may be given back unread. -/
inductive Tidy (U : Nat → Prop) : List WebEv → Nat → Prop
  | nil : Tidy U [] 0
  | made {l n} (p : Nat) : Tidy U l n → Tidy U (l ++ [.made p]) n
  | cleared {l n} (p : Nat) : Tidy U l n → Tidy U (l ++ [.cleared p]) n
  | unread {l n} (p st : Nat) : U st → Tidy U l n → Tidy U (l ++ [.opened n p st, .released n, .closed n]) (n + 1)
  | read {l n} (p st : Nat) : Tidy U l n → Tidy U (l ++ [.opened n p st, .read n, .released n, .closed n]) (n + 1)

theorem about_append (r : Nat) (l m : List WebEv) : aboutResp r (l ++ m) = aboutResp r l ++ aboutResp r m :=
  List.filter_append ..

theorem Tidy.lt {U : Nat → Prop} {l : List WebEv} {n : Nat} (h : Tidy U l n) : ∀ e ∈ l, ∀ r, respOf e = some r → r < n := by
  induction h with
  | nil => intro e he; cases he
  | made p _ ih =>
    intro e he r hr
    rcases List.mem_append.mp he with h | h
    · exact ih e h r hr
    · rw [List.mem_singleton.mp h] at hr; cases hr
  | cleared p _ ih =>
    intro e he r hr
    rcases List.mem_append.mp he with h | h
    · exact ih e h r hr
    · rw [List.mem_singleton.mp h] at hr; cases hr
  | unread p st _ _ ih =>
    intro e he r hr
    rcases List.mem_append.mp he with h | h
    · exact Nat.lt_succ_of_lt (ih e h r hr)
    · simp only [List.mem_cons, List.not_mem_nil, or_false] at h
      rcases h with rfl | rfl | rfl <;> (cases hr; exact Nat.lt_succ_self _)
  | read p st _ ih =>
    intro e he r hr
    rcases List.mem_append.mp he with h | h
    · exact Nat.lt_succ_of_lt (ih e h r hr)
    · simp only [List.mem_cons, List.not_mem_nil, or_false] at h
      rcases h with rfl | rfl | rfl | rfl <;> (cases hr; exact Nat.lt_succ_self _)

theorem Tidy.about_new {U : Nat → Prop} {l : List WebEv} {n r : Nat} (h : Tidy U l n) (hr : n ≤ r) : aboutResp r l = [] := by
  refine List.filter_eq_nil_iff.mpr fun e he hq => ?_
  exact absurd (h.lt e he r (eq_of_beq hq)) (by omega)

theorem Tidy.about {U : Nat → Prop} {l : List WebEv} {n : Nat} (h : Tidy U l n) : ∀ r, r < n → ∃ p st,
    aboutResp r l = [.opened r p st, .released r, .closed r] ∧ U st ∨
    aboutResp r l = [.opened r p st, .read r, .released r, .closed r] := by
  induction h with
  | nil => intro r hr; cases hr
  | made p _ ih =>
    intro r hr
    obtain ⟨q, st, h⟩ := ih r hr
    exact ⟨q, st, by rw [about_append]; simpa [aboutResp, respOf] using h⟩
  | cleared p _ ih =>
    intro r hr
    obtain ⟨q, st, h⟩ := ih r hr
    exact ⟨q, st, by rw [about_append]; simpa [aboutResp, respOf] using h⟩
  | @unread l n p st u t ih =>
    intro r hr
    by_cases hn : r = n
    · subst hn
      refine ⟨p, st, Or.inl ⟨?_, u⟩⟩
      rw [about_append, t.about_new (Nat.le_refl _)]
      simp [aboutResp, respOf]
    · obtain ⟨q, st', h⟩ := ih r (by omega)
      refine ⟨q, st', ?_⟩
      rw [about_append]
      have hn' : n ≠ r := fun h => hn h.symm
      simpa [aboutResp, respOf, hn'] using h
  | @read l n p st t ih =>
    intro r hr
    by_cases hn : r = n
    · subst hn
      refine ⟨p, st, Or.inr ?_⟩
      rw [about_append, t.about_new (Nat.le_refl _)]
      simp [aboutResp, respOf]
    · obtain ⟨q, st', h⟩ := ih r (by omega)
      refine ⟨q, st', ?_⟩
      rw [about_append]
      have hn' : n ≠ r := fun h => hn h.symm
      simpa [aboutResp, respOf, hn'] using h

theorem Tidy.givenBack {U : Nat → Prop} {l : List WebEv} {n : Nat} (h : Tidy U l n) : GivenBack l := by
  intro e he r hr
  obtain ⟨p, st, h | h⟩ := h.about r (h.lt e he r hr)
  · exact ⟨p, st, Or.inl h.1⟩
  · exact ⟨p, st, Or.inr h⟩

theorem openResps_append (l m : List WebEv) (o : List Nat) : openResps (l ++ m) o = openResps m (openResps l o) := by
  induction l generalizing o with
  | nil => rfl
  | cons e l ih => cases e <;> exact ih _

theorem Tidy.closed {U : Nat → Prop} {l : List WebEv} {n : Nat} (h : Tidy U l n) : openResps l [] = [] := by
  induction h with
  | nil => rfl
  | made p _ ih => rw [openResps_append, ih]; rfl
  | cleared p _ ih => rw [openResps_append, ih]; rfl
  | unread p st _ _ ih => rw [openResps_append, ih]; simp [openResps]
  | read p st _ ih => rw [openResps_append, ih]; simp [openResps]

theorem prefix_split {A : Type} {l a b : List A} (h : l <+: a ++ b) : l <+: a ∨ ∃ c, c <+: b ∧ l = a ++ c := by
  obtain ⟨t, ht⟩ := h
  rcases List.append_eq_append_iff.mp ht with ⟨c, h1, h2⟩ | ⟨c, h1, h2⟩
  · exact Or.inl ⟨c, h1.symm⟩
  · exact Or.inr ⟨c, ⟨t, h2.symm⟩, h1⟩

theorem Tidy.oneOpen {U : Nat → Prop} {l : List WebEv} {n : Nat} (h : Tidy U l n) : OneOpen l := by
  have key : ∀ (l b : List WebEv), openResps l [] = [] → OneOpen l → (∀ c, c <+: b → (openResps c []).length ≤ 1) →
      OneOpen (l ++ b) := by
    intro l b h0 h1 h2 c hc
    rcases prefix_split hc with h | ⟨d, hd, rfl⟩
    · exact h1 c h
    · rw [openResps_append, h0]
      exact h2 d hd
  have inits : ∀ b : List WebEv, (∀ k ≤ b.length, (openResps (b.take k) []).length ≤ 1) →
      ∀ c, c <+: b → (openResps c []).length ≤ 1 := by
    intro b h c hc
    rw [List.prefix_iff_eq_take.mp hc]
    exact h _ hc.length_le
  induction h with
  | nil => intro c hc; rw [List.prefix_nil.mp hc]; exact Nat.zero_le _
  | made p t ih => exact key _ _ t.closed ih (inits _ fun k hk => by
    simp only [List.length_cons, List.length_nil] at hk
    rcases k with _ | _ | _ | _ | _ | k <;> simp [openResps] <;> omega)
  | cleared p t ih => exact key _ _ t.closed ih (inits _ fun k hk => by
    simp only [List.length_cons, List.length_nil] at hk
    rcases k with _ | _ | _ | _ | _ | k <;> simp [openResps] <;> omega)
  | unread p st _ t ih => exact key _ _ t.closed ih (inits _ fun k hk => by
    simp only [List.length_cons, List.length_nil] at hk
    rcases k with _ | _ | _ | _ | _ | k <;> simp [openResps] <;> omega)
  | read p st t ih => exact key _ _ t.closed ih (inits _ fun k hk => by
    simp only [List.length_cons, List.length_nil] at hk
    rcases k with _ | _ | _ | _ | _ | k <;> simp [openResps] <;> omega)

/-- Cut a list at an element of its end. -/
theorem cut_last {A : Type} {l a b m : List A} {x : A} (h : l ++ m = a ++ x :: b) :
    (∃ b', l = a ++ x :: b') ∨ ∃ c, a = l ++ c ∧ m = c ++ x :: b := by
  rcases List.append_eq_append_iff.mp h with ⟨c, h1, h2⟩ | ⟨c, h1, h2⟩
  · exact Or.inr ⟨c, h1, h2⟩
  · cases c with
    | nil => exact Or.inr ⟨[], by simpa using h1.symm, by simpa using h2.symm⟩
    | cons y c =>
      obtain ⟨rfl, rfl⟩ := List.cons_eq_cons.mp h2
      exact Or.inl ⟨c, h1⟩

theorem Tidy.clearedIdle {U : Nat → Prop} {l : List WebEv} {n : Nat} (h : Tidy U l n) : ClearedIdle l := by
  have key : ∀ (l m : List WebEv), openResps l [] = [] → ClearedIdle l →
      (∀ c p b, m = c ++ WebEv.cleared p :: b → c = []) → ClearedIdle (l ++ m) := by
    intro l m h0 h1 h2 a p b e
    rcases cut_last e with ⟨b', h⟩ | ⟨c, rfl, h⟩
    · exact h1 a p b' h
    · rw [h2 c p b h, List.append_nil]; exact h0
  induction h with
  | nil => intro a p b e; simp at e
  | made p t ih =>
    refine key _ _ t.closed ih fun c q b e => ?_
    rcases c with _ | ⟨_, _ | _⟩ <;> simp at e
  | cleared p t ih =>
    refine key _ _ t.closed ih fun c q b e => ?_
    rcases c with _ | ⟨_, _ | _⟩ <;> simp at e
    rfl
  | unread p st _ t ih =>
    refine key _ _ t.closed ih fun c q b e => ?_
    rcases c with _ | ⟨_, _ | ⟨_, _ | ⟨_, _ | _⟩⟩⟩ <;> simp at e
  | read p st t ih =>
    refine key _ _ t.closed ih fun c q b e => ?_
    rcases c with _ | ⟨_, _ | ⟨_, _ | ⟨_, _ | ⟨_, _ | _⟩⟩⟩⟩ <;> simp at e

theorem Tidy.readFirst {l : List WebEv} {n : Nat} (h : Tidy (fun _ => False) l n) : ReadBeforeRelease l := by
  have key : ∀ (l m : List WebEv), ReadBeforeRelease l →
      (∀ c r b, m = c ++ WebEv.released r :: b → WebEv.read r ∈ c) → ReadBeforeRelease (l ++ m) := by
    intro l m h1 h2 a r b e
    rcases cut_last e with ⟨b', h⟩ | ⟨c, rfl, h⟩
    · exact h1 a r b' h
    · exact List.mem_append_right _ (h2 c r b h)
  induction h with
  | nil => intro a p b e; simp at e
  | made p t ih =>
    refine key _ _ ih fun c q b e => ?_
    rcases c with _ | ⟨_, _ | _⟩ <;> simp at e
  | cleared p t ih =>
    refine key _ _ ih fun c q b e => ?_
    rcases c with _ | ⟨_, _ | _⟩ <;> simp at e
  | unread p st u t ih => exact u.elim
  | read p st t ih =>
    refine key _ _ ih fun c q b e => ?_
    rcases c with _ | ⟨_, _ | ⟨_, _ | ⟨_, _ | ⟨_, _ | _⟩⟩⟩⟩ <;> simp at e
    obtain ⟨rfl, rfl, rfl, _⟩ := e
    exact List.mem_cons_of_mem _ (List.mem_singleton.mpr rfl)

/-- What a request does: nothing if it fails, or one response that is given back. -/
def Eff (U : Nat → Prop) (p : Nat) (w w' : Web) : Prop :=
  w' = w ∨ ∃ st, (U st ∧ w' = { w with
      resps := w.resps + 1
      log := w.log ++ [.opened w.resps p st, .released w.resps, .closed w.resps] }) ∨
    w' = { w with
      resps := w.resps + 1
      log := w.log ++ [.opened w.resps p st, .read w.resps, .released w.resps, .closed w.resps] }

theorem Eff.tidy {U : Nat → Prop} {p : Nat} {w w' : Web} (h : Eff U p w w') (t : Tidy U w.log w.resps) :
    Tidy U w'.log w'.resps := by
  rcases h with rfl | ⟨st, ⟨u, rfl⟩ | rfl⟩
  · exact t
  · exact .unread p st u t
  · exact .read p st t

/-- What a block may do: read the response, once; it must, unless `U`. -/
def Reads (U : Nat → Prop) (k : Nat) (resp : Resp) (m : Py (σ × Web) α) : Prop :=
  ∀ s, (U resp.status ∧ (m s).2.2 = s.2) ∨ (m s).2.2 = { s.2 with log := s.2.log ++ [.read k] }

theorem lift_web (m : Py σ α) (s : σ × Web) : (lift m s).2.2 = s.2 := rfl

theorem reads_load {U : Nat → Prop} {k : Nat} {resp : Resp} (m : Py σ α) : Reads U k resp (load k m) :=
  fun _ => Or.inr rfl

theorem reads_bind {U : Nat → Prop} {k : Nat} {resp : Resp} {m : Py (σ × Web) α} {f : α → Py σ β} (h : Reads U k resp m) :
    Reads U k resp (m >>= fun a => lift (f a)) := by
  intro s
  rw [Py.bind_apply]
  cases hm : m s with
  | mk x s' =>
    have := h s
    rw [hm] at this
    cases x <;> exact this

theorem eff_withRequest {U : Nat → Prop} {p : Nat} {req : Py σ Resp} {body : Nat → Resp → Py (σ × Web) α}
    (h : ∀ k resp, Reads U k resp (body k resp)) (s : σ × Web) : Eff U p s.2 (withRequest p req body s).2.2 := by
  unfold withRequest
  rw [Py.bind_apply]
  obtain ⟨t, w⟩ := s
  have h0 : lift req (t, w) = ((req t).1, ((req t).2, w)) := rfl
  rw [h0]
  cases hq : req t with
  | mk x t' =>
    cases x with
    | error e => exact Or.inl rfl
    | ok resp =>
      refine Or.inr ⟨resp.status, ?_⟩
      change (U _ ∧ (finish w.resps (body w.resps resp (t', { w with
        resps := w.resps + 1, log := w.log ++ [.opened w.resps p resp.status] })).2).2.2 = _) ∨
        (finish w.resps (body w.resps resp (t', { w with
        resps := w.resps + 1, log := w.log ++ [.opened w.resps p resp.status] })).2).2.2 = _
      generalize hb : body w.resps resp
        (t', { w with resps := w.resps + 1, log := w.log ++ [.opened w.resps p resp.status] }) = y
      have := h w.resps resp (t', { w with resps := w.resps + 1, log := w.log ++ [.opened w.resps p resp.status] })
      rw [hb] at this
      obtain ⟨y1, y2, y3⟩ := y
      dsimp only at this
      have hf : (finish w.resps (y2, y3) : Except Exc Unit × (σ × Web)).2.2 =
          { y3 with log := y3.log ++ [.released w.resps] ++ [.closed w.resps] } := rfl
      rw [hf]
      rcases this with ⟨u, rfl⟩ | rfl
      · refine Or.inl ⟨u, ?_⟩
        simp
      · refine Or.inr ?_
        simp

/-- A method keeps a property of the responses and pools. -/
def Keeps (P : Web → Prop) (m : Py (σ × Web) α) : Prop := ∀ s, P s.2 → P (m s).2.2

theorem Keeps.bind {P : Web → Prop} {m : Py (σ × Web) α} {f : α → Py (σ × Web) β} (hm : Keeps P m) (hf : ∀ a, Keeps P (f a)) :
    Keeps P (m >>= f) := by
  intro s hs
  rw [Py.bind_apply]
  have := hm s hs
  cases h : m s with
  | mk x s' =>
    rw [h] at this
    cases x with
    | error e => exact this
    | ok a => exact hf a s' this

theorem keeps_lift {P : Web → Prop} (m : Py σ α) : Keeps P (lift m) := fun _ h => h
theorem keeps_pure {P : Web → Prop} (a : α) : Keeps P (pure a : Py (σ × Web) α) := fun _ h => h
theorem keeps_raise {P : Web → Prop} (e : Exc) : Keeps P (Py.raise e : Py (σ × Web) α) := fun _ h => h

/-- Without the log it is another method. -/
def Same (m' : Py (σ × Web) α) (m : Py σ α) : Prop := ∀ s w, ((m' (s, w)).1, (m' (s, w)).2.1) = m s

theorem same_lift (m : Py σ α) : Same (lift m) m := fun _ _ => rfl
theorem same_pure (a : α) : Same (pure a : Py (σ × Web) α) (pure a) := fun _ _ => rfl
theorem same_raise (e : Exc) : Same (Py.raise e : Py (σ × Web) α) (Py.raise e) := fun _ _ => rfl

theorem Same.bind {m' : Py (σ × Web) α} {m : Py σ α} {f' : α → Py (σ × Web) β} {f : α → Py σ β} (hm : Same m' m)
    (hf : ∀ a, Same (f' a) (f a)) : Same (m' >>= f') (m >>= f) := by
  intro s w
  rw [Py.bind_apply, Py.bind_apply, ← hm s w]
  cases h : m' (s, w) with
  | mk x s' =>
    obtain ⟨s', w'⟩ := s'
    cases x with
    | error e => rfl
    | ok a => exact hf a s' w'

theorem same_load (k : Nat) (m : Py σ α) : Same (load k m) m := fun _ _ => rfl

theorem same_withRequest {p : Nat} {req : Py σ Resp} {body : Nat → Resp → Py (σ × Web) α} {body' : Resp → Py σ α}
    (h : ∀ k resp, Same (body k resp) (body' resp)) : Same (withRequest p req body) (req >>= body') := by
  refine (same_lift req).bind fun resp s w => ?_
  exact h w.resps resp s _

theorem Same.ite {m₁ m₂ : Py (σ × Web) α} {n₁ n₂ : Py σ α} (c : Prop) [Decidable c] (h1 : Same m₁ n₁) (h2 : Same m₂ n₂) :
    Same (if c then m₁ else m₂) (if c then n₁ else n₂) := by
  split
  · exact h1
  · exact h2

end Web
end SyncStream
