import Verif.Lemmas.Retries
/-!
# Requests that are made again: C80
-/

namespace SyncStream
open Spec LineBuf HostBuf

variable {env : HEnv}

/-- **C80** Which attempts are made: the request is made again after a failure if and only if at most 10 attempts, at most 5 connections
and at most 2 reads have failed, and no read of a POST request.  The call returns an answer if and only if the last attempt was answered;
else it raises.  The attempts that arrived are processed, nothing else. -/
theorem C80_attempts (env : HEnv) (r : Req) (n : TNet) :
    ∃ fails t, Made 10 5 2 r n.tries fails t ∧
      (TNet.request env r n).2.made = n.made ++ (fails ++ [t]) ∧
      (TNet.request env r n).2.tries = n.tries.drop (fails.length + 1) ∧
      (TNet.request env r n).2.sent = n.sent ++ List.replicate ((fails ++ [t]).countP reached) r ∧
      ((∃ a, (TNet.request env r n).1 = .ok a) ↔ answered t = true) := by
  obtain ⟨fails, t, hm, e⟩ := urlopen_does (env := env) (r := r) n.tries {} n
  have e' : TNet.request env r n = _ := e
  refine ⟨fails, t, hm, by rw [e'], by rw [e'], by rw [e'], ?_⟩
  rw [e']
  obtain ⟨b, w⟩ := t
  cases w <;> simp [ending, outcomeOf, answered]

/-- **C80** `Made` leaves no choice. -/
theorem C80_attempts_unique (a b c : Nat) (r : Req) (tries f1 f2 : List Try) (t1 t2 : Try)
    (h1 : Made a b c r tries f1 t1) (h2 : Made a b c r tries f2 t2) : f1 = f2 ∧ t1 = t2 := by
  have shorter : ∀ {x y : List Try}, Again a b c r (x ++ y) → Again a b c r x := fun {x y} g =>
    ⟨fun t ht => g.1 t (by simp [ht]), by have := g.2.1; rw [List.length_append] at this; omega,
      by have := g.2.2.1; rw [List.countP_append] at this; omega,
      by have := g.2.2.2.1; rw [List.countP_append] at this; omega,
      fun hp => by have := g.2.2.2.2 hp; rw [List.countP_append] at this; omega⟩
  have lt : ∀ {x y : List Try} {s u : Try}, Made a b c r tries x s → Made a b c r tries y u → ¬ x.length < y.length := by
    intro x y s u hx hy hl
    have p : x ++ [s] <+: y ++ [u] := List.prefix_of_prefix_length_le hx.1 hy.1 (by simp; omega)
    have q : x ++ [s] <+: y := List.prefix_of_prefix_length_le p (List.prefix_append y [u]) (by simp; omega)
    obtain ⟨z, rfl⟩ := q
    exact hx.2.2 (shorter hy.2.1)
  have hl : f1.length = f2.length := Nat.le_antisymm (Nat.not_lt.1 (lt h2 h1)) (Nat.not_lt.1 (lt h1 h2))
  have p : f1 ++ [t1] <+: f2 ++ [t2] := List.prefix_of_prefix_length_le h1.1 h2.1 (by simp [hl])
  have q := p.eq_of_length (by simp [hl])
  exact ⟨(List.append_inj q hl).1, by simpa using (List.append_inj q hl).2⟩

/-- A lost connection is made again, and the call returns. -/
example : (TNet.request ⟨fun _ => [], fun _ => none⟩ .delete
      ⟨hb { cap := 3 } [], [⟨[], .refused true .connectionError⟩, ⟨[], .noReply .connectionError⟩], [], []⟩).2.made.map answered =
    [false, false, true] := rfl

/-- **C80** At most 11 attempts, of which at most 3 are processed; a POST request is processed at most once, and once if it is answered;
every request that is answered is processed. -/
theorem C80_bounds (env : HEnv) (r : Req) (n : TNet) :
    ∃ used k, (TNet.request env r n).2.made = n.made ++ used ∧ (TNet.request env r n).2.sent = n.sent ++ List.replicate k r ∧
      1 ≤ used.length ∧ used.length ≤ 11 ∧ k ≤ 3 ∧ (isPost r = true → k ≤ 1) ∧
      ∀ a, (TNet.request env r n).1 = .ok a → 1 ≤ k := by
  obtain ⟨fails, t, hm, h1, -, h3, h4⟩ := C80_attempts env r n
  have g := hm.2.1
  have hle : fails.countP reached ≤ fails.countP broken := by
    refine List.countP_mono_left fun u hu hre => ?_
    have := g.1 u hu
    obtain ⟨b, w⟩ := u
    cases w <;> simp_all [answered, broken, reached]
  have h1' : [t].countP reached ≤ 1 := List.countP_le_length
  refine ⟨fails ++ [t], _, h1, h3, by simp, by have := g.2.1; simp; omega, ?_, fun hp => ?_, fun a ha => ?_⟩
  · rw [List.countP_append]; have := g.2.2.2.1; omega
  · rw [List.countP_append]; have := g.2.2.2.2 hp; omega
  · have : answered t = true := h4.1 ⟨a, ha⟩
    have hre : reached t = true := by obtain ⟨b, w⟩ := t; cases w <;> first | rfl | cases this
    rw [List.countP_append]; simp [hre]

/-- **C80** A request with its attempts is a request of `Model/Host.lean`, for which the attempts that were processed and not answered
are requests like those of others. -/
theorem C80_covered (env : HEnv) (r : Req) (n : TNet) :
    ∃ fails t, Made 10 5 2 r n.tries fails t ∧ ∀ fs s, HNet.request env r ⟨n.service, ⟨meanwhile r fails t, ending t⟩ :: fs, s⟩ =
      ((TNet.request env r n).1, ⟨(TNet.request env r n).2.service, fs, s ++ if reached t then [r] else []⟩) := by
  obtain ⟨fails, t, hm, e⟩ := urlopen_does (env := env) (r := r) n.tries {} n
  have e' : TNet.request env r n = _ := e
  refine ⟨fails, t, hm, fun fs s => ?_⟩
  rw [HNet.request_fate, e']
  obtain ⟨b, w⟩ := t
  cases w <;> rfl

/-- **C80** A GET or POST request with its attempts is one request, before which only the others use the service. -/
theorem C80_once (env : HEnv) (m : Int) (r : Req) (n : TNet) (hr : HReach env m n.service) (hd : r ≠ .delete ∧ r ≠ .stateDelete) :
    ∃ fails t, Made 10 5 2 r n.tries fails t ∧ ∀ fs s, HNet.request env r ⟨n.service, ⟨others (fails ++ [t]), ending t⟩ :: fs, s⟩ =
      ((TNet.request env r n).1, ⟨(TNet.request env r n).2.service, fs, s ++ if reached t then [r] else []⟩) := by
  obtain ⟨fails, t, hm, e⟩ := urlopen_does (env := env) (r := r) n.tries {} n
  have e' : TNet.request env r n = _ := e
  have hq : r.isGet = true ∨ ∀ u ∈ fails, reached u = false := by
    cases r with
    | get q => exact .inl rfl
    | stateGet q => exact .inl rfl
    | post b => exact .inr (post_unreached rfl hm.2.1)
    | statePost b => exact .inr (post_unreached rfl hm.2.1)
    | delete => exact absurd rfl hd.1
    | stateDelete => exact absurd rfl hd.2
  refine ⟨fails, t, hm, fun fs s => ?_⟩
  rw [run_meanwhile hr t hq] at e'
  rw [HNet.request_fate, e']
  obtain ⟨b, w⟩ := t
  cases w <;> rfl

/-- **C80** If nobody uses the service between the attempts, any request with its attempts is one request: GET, DELETE and POST. -/
theorem C80_alone (env : HEnv) (m : Int) (r : Req) (n : TNet) (hr : HReach env m n.service) (ha : ∀ t ∈ n.tries.tail, t.before = []) :
    ∃ fails t o, Made 10 5 2 r n.tries fails t ∧ ∀ fs s, HNet.request env r ⟨n.service, ⟨(n.tries.headD {}).before, o⟩ :: fs, s⟩ =
      ((TNet.request env r n).1, ⟨(TNet.request env r n).2.service, fs, s ++ if (fails ++ [t]).any reached then [r] else []⟩) := by
  obtain ⟨fails, t, hm, e⟩ := urlopen_does (env := env) (r := r) n.tries {} n
  have e' : TNet.request env r n = _ := e
  obtain ⟨z, hz⟩ := hm.1
  cases fails with
  | nil =>
    have hb : (n.tries.headD {}).before = t.before := by
      cases ht : n.tries with
      | nil => rw [ht] at hz; simp at hz; rw [hz.1]; rfl
      | cons u us => rw [ht] at hz; simp at hz; rw [hz.1]; rfl
    refine ⟨[], t, ending t, hm, fun fs s => ?_⟩
    rw [HNet.request_fate, e', hb]
    obtain ⟨b, w⟩ := t
    cases w <;> rfl
  | cons f0 fails =>
    obtain ⟨us, hus⟩ : ∃ us, n.tries = f0 :: us := by
      cases ht : n.tries with
      | nil => rw [ht] at hz; simp at hz
      | cons u us => rw [ht] at hz; simp at hz; exact ⟨us, by rw [hz.1]⟩
    rw [hus] at hz ha
    have hz' : fails ++ [t] ++ z = us ++ [⟨[], .answered⟩] := by simpa using hz
    have hall : ∀ u ∈ fails ++ [t], u.before = [] := by
      intro u hu
      have : u ∈ us ++ [⟨[], .answered⟩] := by rw [← hz']; exact List.mem_append_left _ hu
      rcases List.mem_append.1 this with h | h
      · exact ha u h
      · rw [List.mem_singleton.1 h]
    have h1 := hreach_run hr f0.before
    have em : meanwhile r (f0 :: fails) t = f0.before ++ List.replicate ((f0 :: fails).countP reached) (.req r.wire) := by
      rw [meanwhile_cons, meanwhile_alone (fun u hu => hall u (by simp [hu])) (hall t (by simp)), List.countP_cons]
      cases reached f0 <;> simp [List.replicate_succ]
    rw [em, HostBuf.run_append] at e'
    rw [hus] at hm ⊢
    cases hk : (f0 :: fails).countP reached with
    | zero =>
      rw [hk] at e'
      refine ⟨_, t, ending t, hm, fun fs s => ?_⟩
      have hany : (f0 :: fails).any reached = false := by
        rw [List.countP_eq_zero] at hk
        rw [List.any_eq_false]
        exact hk
      rw [HNet.request_fate, e', List.any_append, hany]
      obtain ⟨b, w⟩ := t
      cases w <;> rfl
    | succ k =>
      have hp : isPost r = false := by
        cases hp : isPost r with
        | false => rfl
        | true =>
          have : (f0 :: fails).countP reached = 0 := List.countP_eq_zero.2 fun u hu => by rw [post_unreached hp hm.2.1 u hu]; exact Bool.false_ne_true
          omega
      have hany : (f0 :: fails ++ [t]).any reached = true := by
        obtain ⟨u, hu, hre⟩ := List.countP_pos_iff.1 (by omega : 0 < (f0 :: fails).countP reached)
        exact List.any_eq_true.2 ⟨u, List.mem_append_left _ hu, hre⟩
      rw [hk, run_repeat h1 hp] at e'
      cases ht : ending t with
      | ok =>
        refine ⟨_, t, .ok, hm, fun fs s => ?_⟩
        rw [HNet.request_fate, e', ht, hany]
        simp only [outcomeOf, handle_twice h1 hp]
        rfl
      | lost x =>
        refine ⟨_, t, .noReply x, hm, fun fs s => ?_⟩
        rw [HNet.request_fate, e', ht, hany]
        rfl
      | noReply x =>
        refine ⟨_, t, .noReply x, hm, fun fs s => ?_⟩
        rw [HNet.request_fate, e', ht, hany]
        simp only [outcomeOf, handle_twice h1 hp]
        rfl

/-- **C80** To a mirror the attempts do not show: its calls give the results, the mirror, the service and the processed POST requests of
`Model/Host.lean`, for fates in which only the requests of others come before its own. -/
theorem C80_mirror (env : HEnv) (m : Int) (cs : List HMCall) (a : HMirror) (n : TNet) (hr : HReach env m n.service) :
    ∃ (fates : List Fate) (used : List Try) (new sent : List Req),
      (TNet.mirrorRun env cs a n).2.2.made = n.made ++ used ∧ (TNet.mirrorRun env cs a n).2.2.sent = n.sent ++ new ∧
      others used = fates.flatMap (·.before) ∧ new.filter isPost = sent.filter isPost ∧
      HReach env m (TNet.mirrorRun env cs a n).2.2.service ∧
      ∀ fs s, HMirror.run env cs (a, ⟨n.service, fates ++ fs, s⟩) =
        ((TNet.mirrorRun env cs a n).1, ((TNet.mirrorRun env cs a n).2.1, ⟨(TNet.mirrorRun env cs a n).2.2.service, fs, s ++ sent⟩)) := by
  induction cs generalizing a n with
  | nil =>
    refine ⟨[], [], [], [], ?_, ?_, rfl, rfl, hr, fun fs s => ?_⟩ <;> simp [TNet.mirrorRun, HMirror.run]
  | cons c cs ih =>
    obtain ⟨f1, u1, n1, s1, a1, a2, a3, a4, a5, a6⟩ :=
      onTries_onNet (HMAsk.exec c a) (Ask.within_imp (fun _ h => Req.Polite.mild h) _ (HMAsk.exec_polite c a)) n hr
    obtain ⟨f2, u2, n2, s2, b1, b2, b3, b4, b5, b6⟩ := ih ((HMAsk.exec c a).onTries env n).1.2 ((HMAsk.exec c a).onTries env n).2 a5
    refine ⟨f1 ++ f2, u1 ++ u2, n1 ++ n2, s1 ++ s2, ?_, ?_, ?_, ?_, b5, fun fs s => ?_⟩
    · rw [← List.append_assoc, ← a1]; exact b1
    · rw [← List.append_assoc, ← a2]; exact b2
    · rw [List.flatMap_append, ← a3, ← b3]; simp [others]
    · rw [List.filter_append, List.filter_append, a4, b4]
    · have e1 : HMirror.exec env c (a, ⟨n.service, f1 ++ (f2 ++ fs), s⟩) =
          (((HMAsk.exec c a).onTries env n).1.1, (((HMAsk.exec c a).onTries env n).1.2, ⟨((HMAsk.exec c a).onTries env n).2.service, f2 ++ fs, s ++ s1⟩)) := by
        rw [HMAsk.exec_onNet, a6]
      simp only [HMirror.run, List.append_assoc, e1, b6 fs (s ++ s1), TNet.mirrorRun]

/-- The mirror's POST arrives although no connection could be made at first and the others wrote meanwhile; the lost GET is repeated. -/
example : (TNet.mirrorRun ⟨fun _ => [], fun _ => none⟩ [.write (lit "x\n")] { aggressive := true }
      ⟨hb { cap := 3 } [(lit "closed", .bool false)],
        [⟨[], .noReply .connectionError⟩, ⟨[], .answered⟩, ⟨[], .refused true .connectionError⟩,
          ⟨[.req (.post (.json (HMsg.post (.text (lit "y\n")))))], .answered⟩], [], []⟩).2.2.service.base.storage.items.map
        (fun | .str s => s | _ => lit "msg") = [lit "y", lit "x"] := by decide +kernel

/-! ## What does not hold -/

/-- The number of records in an answer. -/
def Resp.records (r : Resp) : Nat :=
  match r.body with
  | some (.obj [_, (_, .arr l)]) => l.length
  | _ => 0

/-- The flag in an answer. -/
def Resp.flag (r : Resp) : Bool :=
  match r.body with
  | some (.obj [_, (_, .bool b)]) => b
  | _ => false

/-- A reader's method that is a DELETE request, of which the first attempt was processed and not answered and the second was answered after
the others had used the service (`ops`), took effect in one moment: there is a place in `ops` for it. -/
def InOneMoment (env : HEnv) (c : RdCall) (h : HostBuf) (e : Exc) (ops : List HOp) : Prop :=
  ∃ a b, ops = a ++ b ∧
    replies env ops (handle env c.req h).2 = replies env a h ++ replies env b (handle env c.req (HostBuf.run env a h)).2 ∧
    (TNet.readerRun env c ⟨h, [⟨[], .noReply e⟩, ⟨ops, .answered⟩], [], []⟩).2.service =
      HostBuf.run env b (handle env c.req (HostBuf.run env a h)).2

/-- **C80** `LineHostReader.clear` with a lost answer does not take effect in one moment: others see that everything has been removed,
write a line, and that line is removed, too. -/
theorem C80_clear_violated : ¬ ∀ (env : HEnv) (m : Int) (h : HostBuf), HReach env m h → ∀ e ops, InOneMoment env .clear h e ops := by
  intro hyp
  obtain ⟨a, b, h1, h2, h3⟩ := hyp ⟨fun _ => [], fun _ => none⟩ 5 _ ⟨_, [.req (.post (.json (HMsg.body (.text (lit "old\n")))))], rfl, rfl⟩ .connectionError
    [.req (.get none), .req (.post (.json (HMsg.body (.text (lit "a\n")))))]
  match a, h1 with
  | [], h1 =>
    obtain rfl : _ = b := h1
    exact absurd (congrArg (fun h : HostBuf => h.base.storage.items.length) h3) (by decide +kernel)
  | x :: a, h1 =>
    obtain ⟨rfl, -⟩ := List.cons.inj h1
    have g := congrArg (fun l : List Resp => l.head?.map Resp.records) h2
    simp only [replies, List.cons_append, List.head?_cons, Option.map_some, Option.some.injEq] at g
    exact absurd g (by decide +kernel)

/-- **C80** Nor does `LineHostReader.reset_states`: others see that the mirrors may go on, stop them again, and the mirrors go on. -/
theorem C80_reset_violated (env : HEnv) : ¬ ∀ (m : Int) (h : HostBuf), HReach env m h → ∀ e ops, InOneMoment env .resetStates h e ops := by
  intro hyp
  obtain ⟨a, b, h1, h2, h3⟩ := hyp 5 _ ⟨_, [.stopAll], rfl, rfl⟩ .connectionError [.req (.stateGet (some (lit "closed"))), .stopAll]
  match a, h1 with
  | [], h1 =>
    obtain rfl : _ = b := h1
    exact absurd (congrArg (fun h : HostBuf => (handle env (.stateGet (some (lit "closed"))) h).1.flag) h3) (by
      show false ≠ true
      decide)
  | x :: a, h1 =>
    obtain ⟨rfl, -⟩ := List.cons.inj h1
    exact absurd (congrArg (fun l : List Resp => l.head?.map Resp.flag) h2) (by
      show some false ≠ some true
      decide)

end SyncStream
