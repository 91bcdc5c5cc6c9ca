import Verif.Spec.Retries
import Verif.Lemmas.HostSystem
import Verif.Props.HostService
/-!
# Lemmas about the attempts made for a request
-/

namespace SyncStream
open Spec LineBuf HostBuf

variable {env : HEnv} {r : Req}

theorem Req.again_eq (r : Req) : r.again = !isPost r := by cases r <;> rfl

theorem again_nil {a b c : Nat} : Again a b c r [] := ⟨by simp, by simp, by simp, by simp, by simp⟩

theorem not_again_answered {a b c : Nat} {l : List Try} {t : Try} (h : answered t = true) : ¬ Again a b c r (l ++ [t]) :=
  fun g => by have := g.1 t (by simp); rw [h] at this; cases this

/-- One more failure in front. -/
theorem again_cons {a b c : Nat} {t : Try} {l : List Try} (ht : answered t = false) :
    Again a b c r (t :: l) ↔
      (a ≠ 0 ∧ (unconnected t = true → b ≠ 0) ∧ (broken t = true → c ≠ 0 ∧ isPost r = false)) ∧
        Again (a - 1) (b - if unconnected t then 1 else 0) (c - if broken t then 1 else 0) r l := by
  unfold Again
  simp only [List.mem_cons, forall_eq_or_imp, ht, true_and, List.length_cons, List.countP_cons]
  cases hu : unconnected t <;> cases hb : broken t <;> cases hp : isPost r <;>
    simp only [if_true, if_false, Bool.false_eq_true, true_implies, false_implies, reduceCtorEq, and_true, true_and, ne_eq,
      Nat.add_zero, Nat.sub_zero, and_false, false_and] <;>
    (constructor <;> rintro ⟨⟩ <;> (try refine ⟨?_, ?_⟩) <;> grind)

theorem run_nil (h : HostBuf) : HostBuf.run env [] h = h := rfl

theorem meanwhile_cons (r : Req) (t : Try) (l : List Try) (u : Try) :
    meanwhile r (t :: l) u = t.before ++ (if reached t then [.req r.wire] else []) ++ meanwhile r l u := by
  simp [meanwhile]

/-- The answer to a request, by how it ends. -/
def outcomeOf (env : HEnv) (r : Req) (o : Outcome) (h : HostBuf) : Except Exc Resp × HostBuf × List Req :=
  match o with
  | .ok => (.ok { (HostBuf.handle env r.wire h).1 with body := (HostBuf.handle env r.wire h).1.body.map Json.wire },
      (HostBuf.handle env r.wire h).2, [r])
  | .lost e => (.error e, h, [])
  | .noReply e => (.error e, (HostBuf.handle env r.wire h).2, [r])

theorem HNet.request_fate (f : Fate) (fs : List Fate) (h : HostBuf) (s : List Req) :
    HNet.request env r ⟨h, f :: fs, s⟩ =
      ((outcomeOf env r f.outcome (HostBuf.run env f.before h)).1,
        ⟨(outcomeOf env r f.outcome (HostBuf.run env f.before h)).2.1, fs, s ++ (outcomeOf env r f.outcome (HostBuf.run env f.before h)).2.2⟩) := by
  obtain ⟨b, o⟩ := f
  cases o <;> simp [HNet.request, outcomeOf]

/-- What `urlopen` does. -/
def Does (env : HEnv) (r : Req) (ts : List Try) (c : Retry) (n : TNet) : Prop :=
  ∃ fails t, Made c.total c.connect c.read r ts fails t ∧
    TNet.urlopen env r ts c n =
      ((outcomeOf env r (ending t) (HostBuf.run env (meanwhile r fails t) n.service)).1,
        { service := (outcomeOf env r (ending t) (HostBuf.run env (meanwhile r fails t) n.service)).2.1
          tries := ts.drop (fails.length + 1)
          sent := n.sent ++ List.replicate ((fails ++ [t]).countP reached) r
          made := n.made ++ (fails ++ [t]) })

theorem Does.again {ts : List Try} {c c' : Retry} {t : Try} {n : TNet}
    (ht : answered t = false) (h0 : c.total ≠ 0) (h1 : unconnected t = true → c.connect ≠ 0)
    (h2 : broken t = true → c.read ≠ 0 ∧ isPost r = false) (h3 : c'.total = c.total - 1)
    (h4 : c'.connect = c.connect - if unconnected t then 1 else 0) (h5 : c'.read = c.read - if broken t then 1 else 0)
    (n' : TNet) (h6 : n'.service = HostBuf.run env (t.before ++ if reached t then [.req r.wire] else []) n.service)
    (h7 : n'.sent = n.sent ++ List.replicate ([t].countP reached) r) (h8 : n'.made = n.made ++ [t])
    (h9 : TNet.urlopen env r (t :: ts) c n = TNet.urlopen env r ts c' n')
    (ih : Does env r ts c' n') : Does env r (t :: ts) c n := by
  obtain ⟨fails, u, ⟨m1, m2, m3⟩, e⟩ := ih
  refine ⟨t :: fails, u, ⟨?_, ?_, ?_⟩, ?_⟩
  · obtain ⟨z, hz⟩ := m1
    exact ⟨z, by rw [List.cons_append, List.cons_append, hz, List.cons_append]⟩
  · rw [again_cons ht, ← h3, ← h4, ← h5]
    exact ⟨⟨h0, h1, h2⟩, m2⟩
  · rw [List.cons_append, again_cons ht, ← h3, ← h4, ← h5]
    exact fun g => m3 g.2
  · rw [h9, e, h6, h7, h8, meanwhile_cons, HostBuf.run_append env _ (meanwhile r fails u)]
    simp only [List.length_cons, List.drop_succ_cons, List.append_assoc, List.cons_append, List.nil_append]
    congr 4
    rw [List.replicate_append_replicate, ← List.countP_append]
    rfl

theorem Does.stop {ts : List Try} {c : Retry} {t : Try} {n : TNet} (hn : ¬ Again c.total c.connect c.read r [t])
    (e : TNet.urlopen env r (t :: ts) c n =
      ((outcomeOf env r (ending t) (HostBuf.run env t.before n.service)).1,
        { service := (outcomeOf env r (ending t) (HostBuf.run env t.before n.service)).2.1
          tries := ts
          sent := n.sent ++ List.replicate ([t].countP reached) r
          made := n.made ++ [t] })) : Does env r (t :: ts) c n :=
  ⟨[], t, ⟨⟨ts ++ [⟨[], .answered⟩], rfl⟩, again_nil, hn⟩, e⟩

theorem urlopen_does (ts : List Try) (c : Retry) (n : TNet) : Does env r ts c n := by
  induction ts generalizing c n with
  | nil =>
    refine ⟨[], ⟨[], .answered⟩, ⟨⟨[], rfl⟩, again_nil, not_again_answered (l := []) rfl⟩, ?_⟩
    rfl
  | cons t ts ih =>
    obtain ⟨b, w⟩ := t
    cases w with
    | answered => exact .stop (not_again_answered (l := []) rfl) rfl
    | refused k e =>
      cases hc : c.noConnection k with
      | none =>
        refine .stop ?_ ?_
        · rw [again_cons rfl]
          unfold Retry.noConnection at hc
          cases k <;> grind [unconnected]
        · simp [TNet.urlopen, hc, outcomeOf, ending, reached]
      | some c' =>
        have e9 : TNet.urlopen env r (⟨b, .refused k e⟩ :: ts) c n =
            TNet.urlopen env r ts c' { n with tries := ts, service := HostBuf.run env b n.service, made := n.made ++ [⟨b, .refused k e⟩] } := by
          simp [TNet.urlopen, hc]
        refine .again rfl ?_ ?_ ?_ ?_ ?_ ?_ _ ?_ ?_ ?_ e9 (ih _ _)
        all_goals unfold Retry.noConnection at hc
        all_goals first
          | (cases k <;> grind [unconnected, broken])
          | simp [reached]
    | lost e =>
      cases hc : c.readError r with
      | none =>
        refine .stop ?_ ?_
        · rw [again_cons rfl]
          unfold Retry.readError at hc
          rw [Req.again_eq] at hc
          grind [broken]
        · simp [TNet.urlopen, hc, outcomeOf, ending, reached]
      | some c' =>
        have e9 : TNet.urlopen env r (⟨b, .lost e⟩ :: ts) c n =
            TNet.urlopen env r ts c' { n with tries := ts, service := HostBuf.run env b n.service, made := n.made ++ [⟨b, .lost e⟩] } := by
          simp [TNet.urlopen, hc]
        refine .again rfl ?_ ?_ ?_ ?_ ?_ ?_ _ ?_ ?_ ?_ e9 (ih _ _)
        all_goals unfold Retry.readError at hc
        all_goals rw [Req.again_eq] at hc
        all_goals first
          | grind [unconnected, broken]
          | simp [reached]
    | noReply e =>
      cases hc : c.readError r with
      | none =>
        refine .stop ?_ ?_
        · rw [again_cons rfl]
          unfold Retry.readError at hc
          rw [Req.again_eq] at hc
          grind [broken]
        · simp [TNet.urlopen, hc, outcomeOf, ending, reached, TNet.process]
      | some c' =>
        have e9 : TNet.urlopen env r (⟨b, .noReply e⟩ :: ts) c n =
            TNet.urlopen env r ts c'
              (TNet.process env r { n with tries := ts, service := HostBuf.run env b n.service, made := n.made ++ [⟨b, .noReply e⟩] }) := by
          simp [TNet.urlopen, hc]
        refine .again rfl ?_ ?_ ?_ ?_ ?_ ?_ _ ?_ ?_ ?_ e9 (ih _ _)
        all_goals unfold Retry.readError at hc
        all_goals rw [Req.again_eq] at hc
        all_goals first
          | grind [unconnected, broken]
          | simp [reached, TNet.process, HostBuf.run, HostBuf.step]

/-! ## Requests that may be processed several times -/

theorem wire_isGet (r : Req) : r.wire.isGet = r.isGet := by
  cases r with
  | post b => cases b <;> rfl
  | statePost b => cases b <;> rfl
  | _ => rfl

/-- The attempts that are made do not contain requests of others. -/
theorem run_meanwhile {m : Int} {h : HostBuf} (hr : HReach env m h) {fails : List Try} (t : Try)
    (hg : r.isGet = true ∨ ∀ u ∈ fails, reached u = false) :
    HostBuf.run env (meanwhile r fails t) h = HostBuf.run env (others (fails ++ [t])) h := by
  induction fails generalizing h with
  | nil => simp [meanwhile, others]
  | cons u fails ih =>
    have e1 : others (u :: fails ++ [t]) = u.before ++ others (fails ++ [t]) := by simp [others]
    have hr' := hreach_run hr u.before
    rw [meanwhile_cons, e1, HostBuf.run_append, HostBuf.run_append, HostBuf.run_append,
      ← ih hr' (hg.imp_right fun g v hv => g v (List.mem_cons_of_mem _ hv))]
    congr 1
    rcases hg with hg | hg
    · split
      · exact C40_get_pure env m _ hr' _ ((wire_isGet r).trans hg)
      · rfl
    · rw [hg u List.mem_cons_self]; rfl

theorem post_unreached {a b c : Nat} {fails : List Try} (hp : isPost r = true) (h : Again a b c r fails) :
    ∀ u ∈ fails, reached u = false := by
  intro u hu
  have h1 := h.1 u hu
  have h2 : broken u = false := by
    have := h.2.2.2.2 hp
    rw [List.countP_eq_zero] at this
    simpa using this u hu
  obtain ⟨b, w⟩ := u
  cases w <;> simp_all [answered, broken, reached]

theorem outcomeOf_sent (t : Try) (h : HostBuf) : (outcomeOf env r (ending t) h).2.2 = List.replicate ([t].countP reached) r := by
  obtain ⟨b, w⟩ := t
  cases w <;> rfl

/-- Processing a request that is not a POST twice is processing it once. -/
theorem handle_twice {m : Int} {h : HostBuf} (hr : HReach env m h) (hp : isPost r = false) :
    HostBuf.handle env r.wire (HostBuf.handle env r.wire h).2 = HostBuf.handle env r.wire h := by
  cases r with
  | post b => cases hp
  | statePost b => cases hp
  | get q => rw [C40_get_pure env m h hr _ rfl]
  | stateGet q => rw [C40_get_pure env m h hr _ rfl]
  | stateDelete => rfl
  | delete =>
    obtain ⟨l, st, rfl, ok, -, -⟩ := hreach_hb hr
    cases hc : l.closed with
    | true =>
      have e : LineBuf.clear (rep l) = ((LineBuf.clear (rep l)).1, rep l) := by rw [rep_closed hc]; rfl
      have e' := HostBuf.onBase_hb LineBuf.clear l l st _ e
      simp only [Req.wire, HostBuf.handle, e']
    | false =>
      have e1 := HostBuf.onBase_hb LineBuf.clear l _ st _ (clear_rep l hc)
      have e2 := HostBuf.onBase_hb LineBuf.clear { l with done := [], part := [] } _ st _ (clear_rep { l with done := [], part := [] } hc)
      simp only [Req.wire, HostBuf.handle, e1, e2]

theorem run_repeat {m : Int} {h : HostBuf} (hr : HReach env m h) (hp : isPost r = false) (k : Nat) :
    HostBuf.run env (List.replicate (k + 1) (.req r.wire)) h = (HostBuf.handle env r.wire h).2 := by
  induction k generalizing h with
  | zero => rfl
  | succ k ih =>
    have := ih (hreach_handle hr r.wire)
    rw [handle_twice hr hp] at this
    exact this

theorem meanwhile_alone {fails : List Try} {t : Try} (hf : ∀ u ∈ fails, u.before = []) (ht : t.before = []) :
    meanwhile r fails t = List.replicate (fails.countP reached) (.req r.wire) := by
  induction fails with
  | nil => simpa [meanwhile] using ht
  | cons u fails ih =>
    rw [meanwhile_cons, ih fun v hv => hf v (List.mem_cons_of_mem _ hv), hf u List.mem_cons_self, List.countP_cons]
    cases reached u <;> simp [List.replicate_succ]

/-! ## Clients -/

theorem Ask.within_imp {α C R : Type} {P Q : C → Prop} (h : ∀ c, P c → Q c) (p : Ask C R α) (hp : p.Within P) : p.Within Q := by
  induction p with
  | done a => trivial
  | ask c k ih => exact ⟨h c hp.1, fun x => ih x (hp.2 x)⟩

/-- The requests that are no DELETE. -/
def Mild (r : Req) : Prop := r.isGet = true ∨ isPost r = true

theorem Req.Polite.mild {r : Req} (h : r.Polite) : Mild r := by
  rcases h with rfl | ⟨m, rfl⟩
  · exact .inl rfl
  · exact .inr rfl

theorem filter_replicate_get {r : Req} (h : isPost r = false) (k : Nat) : (List.replicate k r).filter isPost = [] := by
  simp [h]

/-- One request. -/
theorem request_mild {m : Int} (n : TNet) (hr : HReach env m n.service) (hm : Mild r) :
    ∃ (f : Fate) (used : List Try) (new sent : List Req),
      (TNet.request env r n).2.made = n.made ++ used ∧ (TNet.request env r n).2.sent = n.sent ++ new ∧
      others used = f.before ∧ new.filter isPost = sent.filter isPost ∧ HReach env m (TNet.request env r n).2.service ∧
      ∀ fs s, HNet.request env r ⟨n.service, f :: fs, s⟩ =
        ((TNet.request env r n).1, ⟨(TNet.request env r n).2.service, fs, s ++ sent⟩) := by
  obtain ⟨fails, t, hmade, e⟩ := urlopen_does (env := env) (r := r) n.tries {} n
  have e' : TNet.request env r n = _ := e
  have hq : r.isGet = true ∨ ∀ u ∈ fails, reached u = false := hm.imp_right fun hp => post_unreached hp hmade.2.1
  rw [run_meanwhile hr t hq] at e'
  refine ⟨⟨others (fails ++ [t]), ending t⟩, fails ++ [t], List.replicate ((fails ++ [t]).countP reached) r,
    List.replicate ([t].countP reached) r, by rw [e'], by rw [e'], rfl, ?_, ?_, fun fs s => ?_⟩
  · rcases hq with hg | hu
    · have hp : isPost r = false := by cases r <;> first | rfl | cases hg
      rw [filter_replicate_get hp, filter_replicate_get hp]
    · have : fails.countP reached = 0 := List.countP_eq_zero.2 fun u h => by simp [hu u h]
      rw [List.countP_append, this, Nat.zero_add]
  · rw [e']
    have h1 := hreach_run hr (others (fails ++ [t]))
    cases ending t with
    | ok => exact hreach_handle h1 _
    | lost e => exact h1
    | noReply e => exact hreach_handle h1 _
  · rw [HNet.request_fate, e', ← outcomeOf_sent (env := env) t (HostBuf.run env (others (fails ++ [t])) n.service)]

/-- A client. -/
theorem onTries_onNet {α : Type} {m : Int} (p : Ask Req (Except Exc Resp) α) (hp : p.Within Mild) (n : TNet) (hr : HReach env m n.service) :
    ∃ (fates : List Fate) (used : List Try) (new sent : List Req),
      (p.onTries env n).2.made = n.made ++ used ∧ (p.onTries env n).2.sent = n.sent ++ new ∧
      others used = fates.flatMap (·.before) ∧ new.filter isPost = sent.filter isPost ∧ HReach env m (p.onTries env n).2.service ∧
      ∀ fs s, p.onNet env ⟨n.service, fates ++ fs, s⟩ = ((p.onTries env n).1, ⟨(p.onTries env n).2.service, fs, s ++ sent⟩) := by
  induction p generalizing n with
  | done a =>
    refine ⟨[], [], [], [], ?_, ?_, rfl, rfl, hr, fun fs s => ?_⟩ <;> simp [Ask.onTries, Ask.onNet]
  | ask r k ih =>
    obtain ⟨f, u1, n1, s1, a1, a2, a3, a4, a5, a6⟩ := request_mild n hr hp.1
    obtain ⟨fates, u2, n2, s2, b1, b2, b3, b4, b5, b6⟩ := ih _ (hp.2 _) (TNet.request env r n).2 a5
    refine ⟨f :: fates, u1 ++ u2, n1 ++ n2, s1 ++ s2, ?_, ?_, ?_, ?_, b5, fun fs s => ?_⟩
    · rw [← List.append_assoc, ← a1]; exact b1
    · rw [← List.append_assoc, ← a2]; exact b2
    · rw [List.flatMap_cons, ← a3, ← b3]; simp [others]
    · rw [List.filter_append, List.filter_append, a4, b4]
    · rw [List.cons_append, Ask.onNet, a6, ← List.append_assoc]
      exact b6 fs (s ++ s1)

end SyncStream
