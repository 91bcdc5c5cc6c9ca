import Verif.Lemmas.HostSystem
import Verif.Lemmas.Retries
import Verif.Spec.HostRetries
/-!
# Lemmas for the host mode with attempts
-/

namespace SyncStream
open Spec Conc

variable {env : HEnv} {α : Type} {r : Req}

theorem Spec.Attempted.append {i : Nat} {ts ts' : List Try} {l l' : List (Nat × HOp × HRet)} (h : Attempted i ts l) (h' : Attempted i ts' l') :
    Attempted i (ts ++ ts') (l ++ l') := by
  induction h with
  | nil => exact h'
  | arrives others q a w ts l h1 h2 _ ih => rw [List.append_assoc]; exact .arrives _ _ _ _ _ _ h1 h2 ih
  | fails w ts l h1 _ ih => exact .fails _ _ _ h1 ih

/-- What the others did is what was not done for the process. -/
theorem Spec.Attempted.others {i : Nat} {ts : List Try} {l : List (Nat × HOp × HRet)} (h : Attempted i ts l) :
    Spec.others ts = asked (notMine i l) := by
  have all : ∀ o : List (Nat × HOp × HRet), mine i o = [] → notMine i o = o := by
    intro o ho
    refine List.filter_eq_self.2 fun x hx => ?_
    have : ¬ x.1 = i := fun e => by
      have : x.2 ∈ mine i o := List.mem_filterMap.2 ⟨x, hx, by simp [e]⟩
      rw [ho] at this; cases this
    simpa using this
  induction h with
  | nil => rfl
  | arrives o q a w ts l h1 _ _ ih =>
    have e : notMine i (o ++ (i, q, a) :: l) = notMine i o ++ notMine i l := by
      unfold notMine; rw [List.filter_append, List.filter_cons_of_neg (by simp)]
    rw [e, all o h1]
    show asked o ++ Spec.others ts = _
    rw [ih]
    simp [asked]
  | fails w ts l _ _ ih => exact ih

/-! ## The attempts for one request -/

/-- The attempts for one request, among the operations that are performed: what comes back, what is left of the attempts, and the same by
`TNet.urlopen`. -/
def Opened (env : HEnv) (i : Nat) (r : Req) (k : Except Exc Resp → List Attempt → Ask HOp HRet α) (ts : List Attempt) (c : Retry)
    (l : List (HOp × HRet)) (a : α) (L : List (Nat × HOp × HRet)) (s t : HostBuf) (l' : List (HOp × HRet)) : Prop :=
  ∃ l1 l2 tries ts' x L1 L2 s' j, l = l1 ++ l2 ∧ Asks (k x ts') l2 (.done a) ∧ (∀ w ∈ ts', w ∈ ts) ∧ L = L1 ++ L2 ∧ mine i L1 = l1 ∧
        mine i L2 = l2 ++ l' ∧ Serves (HostBuf.AtOnce env) s' L2 t ∧ Attempted i tries L1 ∧
        l1.map (·.1) = (List.replicate j r).map (fun r => .req r.wire) ∧ (∀ u ∈ tries, u.what = .answered ∨ u.what ∈ ts) ∧
        ∀ T us old md, TNet.urlopen env r (tries ++ us) c { service := s, tries := T, sent := old, made := md } =
          (x, { service := s', tries := us, sent := old ++ List.replicate j r, made := md ++ tries })

theorem urlopen_onTries {i : Nat} (k : Except Exc Resp → List Attempt → Ask HOp HRet α) (ts : List Attempt) :
    ∀ {c : Retry} {l : List (HOp × HRet)} {a : α}, Asks (Ask.urlopen r k ts c) l (.done a) →
    ∀ {L : List (Nat × HOp × HRet)} {s t : HostBuf} {l' : List (HOp × HRet)}, Serves (HostBuf.AtOnce env) s L t → mine i L = l ++ l' →
    Opened env i r k ts c l a L s t l' := by
  have arrive : ∀ {c : Retry} {ts : List Attempt} {a : α} {w : Attempt} {ts0 : List Attempt} {k' : HRet → Ask HOp HRet α} {l : List (HOp × HRet)},
      Asks (.ask (.req r.wire) k') l (.done a) → reached ⟨[], w⟩ = true → (w = .answered ∨ w ∈ ts) → (∀ w ∈ ts0, w ∈ ts) →
      (∃ z : HRet → Except Exc Resp, (∀ x, k' x = k (z x) ts0) ∧
        ∀ T us (n : TNet) b, TNet.urlopen env r (⟨b, w⟩ :: us) c { n with tries := T } =
          (z (HThr.result env (.req r.wire) (HostBuf.run env b n.service)),
            { service := HostBuf.step env (.req r.wire) (HostBuf.run env b n.service), tries := us, sent := n.sent ++ [r], made := n.made ++ [⟨b, w⟩] })) →
      ∀ {L : List (Nat × HOp × HRet)} {s t : HostBuf} {l' : List (HOp × HRet)}, Serves (HostBuf.AtOnce env) s L t → mine i L = l ++ l' →
      Opened env i r k ts c l a L s t l' := by
    intro c ts a w ts0 k' l h hw hmem hsub hz L s t l' hs hl
    obtain ⟨z, hz1, hz2⟩ := hz
    cases h with
    | cons _ x _ l _ h1 =>
    obtain ⟨others, L', rfl, g1, g2⟩ := mine_split hl
    obtain ⟨s1, k1, k2⟩ := hs.split
    cases k2 with
    | cons _ s2 _ _ _ _ _ k2 k3 =>
    obtain ⟨rfl, rfl⟩ := k2
    rw [hz1] at h1
    refine ⟨[_], l, [⟨asked others, w⟩], ts0, z _, others ++ [(i, .req r.wire, HThr.result env (.req r.wire) s1)], L', _, 1, rfl, h1, hsub, by simp, ?_, g2, k3, ?_, rfl, ?_, fun T us old md => ?_⟩
    · rw [mine_app, g1]; simp [mine]
    · exact .arrives _ _ _ _ _ _ g1 hw .nil
    · intro u hu
      cases List.mem_singleton.1 hu
      exact hmem
    · have := hz2 T us { service := s, sent := old, made := md } (asked others)
      rw [serves_run k1] at this
      exact this
  have stay : ∀ {c : Retry} {ts : List Attempt} {a : α} {w : Attempt} {ts0 : List Attempt} {e : Exc} {l : List (HOp × HRet)},
      Asks (k (.error e) ts0) l (.done a) → reached ⟨[], w⟩ = false → w ∈ ts → (∀ w ∈ ts0, w ∈ ts) →
      (∀ T us (n : TNet), TNet.urlopen env r (⟨[], w⟩ :: us) c { n with tries := T } = (.error e, { n with tries := us, made := n.made ++ [⟨[], w⟩] })) →
      ∀ {L : List (Nat × HOp × HRet)} {s t : HostBuf} {l' : List (HOp × HRet)}, Serves (HostBuf.AtOnce env) s L t → mine i L = l ++ l' →
      Opened env i r k ts c l a L s t l' := by
    intro c ts a w ts0 e l h hw hmem hsub hz L s t l' hs hl
    refine ⟨[], l, [⟨[], w⟩], ts0, .error e, [], L, s, 0, rfl, h, hsub, rfl, rfl, hl, hs, .fails _ _ _ hw .nil, rfl, ?_, fun T us old md => ?_⟩
    · intro u hu
      cases List.mem_singleton.1 hu
      exact .inr hmem
    · rw [show List.replicate 0 r = [] from rfl, List.append_nil]
      exact hz T us { service := s, sent := old, made := md }
  have next : ∀ {c c' : Retry} {ts : List Attempt} {a : α} {w : Attempt} {ts0 : List Attempt} {l : List (HOp × HRet)} {L : List (Nat × HOp × HRet)}
      {s t : HostBuf} {l' : List (HOp × HRet)}, reached ⟨[], w⟩ = false → w ∈ ts → (∀ w ∈ ts0, w ∈ ts) →
      (∀ T us (n : TNet), TNet.urlopen env r (⟨[], w⟩ :: us) c { n with tries := T } = TNet.urlopen env r us c' { n with tries := us, made := n.made ++ [⟨[], w⟩] }) →
      (Opened env i r k ts0 c' l a L s t l') →
      Opened env i r k ts c l a L s t l' := by
    rintro c c' ts a w ts0 l L s t l' hw hmem hsub hz ⟨l1, l2, tries, ts', x, L1, L2, s', j, rfl, h1, h2, rfl, h3, h4, h5, h6, h7, h8, h9⟩
    refine ⟨l1, l2, ⟨[], w⟩ :: tries, ts', x, L1, L2, s', j, rfl, h1, fun w hw => hsub w (h2 w hw), rfl, h3, h4, h5, .fails _ _ _ hw h6, h7, ?_,
      fun T us old md => ?_⟩
    · intro u hu
      rcases List.mem_cons.1 hu with rfl | hu
      · exact .inr hmem
      · exact (h8 u hu).imp_right (hsub _)
    · refine (hz T (tries ++ us) { service := s, sent := old, made := md }).trans ?_
      refine (h9 (tries ++ us) us old (md ++ [⟨[], w⟩])).trans ?_
      rw [List.append_assoc]; rfl
  induction ts with
  | nil =>
    intro c l a h
    unfold Ask.urlopen at h
    exact arrive (ts0 := []) h rfl (.inl rfl) (fun _ h => absurd h List.not_mem_nil) ⟨HRet.received, fun _ => rfl, fun _ _ _ _ => rfl⟩
  | cons w ts ih =>
    intro c l a h L s t l' hs hl
    have hsub : ∀ v ∈ ts, v ∈ w :: ts := fun _ => List.mem_cons_of_mem _
    unfold Ask.urlopen at h
    cases w with
    | answered =>
      exact arrive h rfl (.inl rfl) hsub ⟨HRet.received, fun _ => rfl, fun _ _ _ _ => rfl⟩ hs hl
    | refused counted e =>
      dsimp only at h
      cases hc : c.noConnection counted with
      | none =>
        rw [hc] at h
        exact stay h rfl List.mem_cons_self hsub (fun T us n => by simp only [TNet.urlopen, hc]; rfl) hs hl
      | some c' =>
        rw [hc] at h
        exact next rfl List.mem_cons_self hsub (fun T us n => by simp only [TNet.urlopen, hc]; rfl) (ih h hs hl)
    | lost e =>
      dsimp only at h
      cases hc : c.readError r with
      | none =>
        rw [hc] at h
        exact stay h rfl List.mem_cons_self hsub (fun T us n => by simp only [TNet.urlopen, hc]; rfl) hs hl
      | some c' =>
        rw [hc] at h
        exact next rfl List.mem_cons_self hsub (fun T us n => by simp only [TNet.urlopen, hc]; rfl) (ih h hs hl)
    | noReply e =>
      dsimp only at h
      cases hc : c.readError r with
      | none =>
        simp only [hc] at h
        exact arrive h rfl (.inr List.mem_cons_self) hsub ⟨fun _ => .error e, fun _ => rfl, fun T us n b => by simp only [TNet.urlopen, hc]; rfl⟩ hs hl
      | some c' =>
        simp only [hc] at h
        cases h with
        | cons _ y _ l _ h1 =>
        obtain ⟨others, L', rfl, g1, g2⟩ := mine_split hl
        obtain ⟨s1, k1, k2⟩ := hs.split
        cases k2 with
        | cons _ s2 _ _ _ _ _ k2 k3 =>
        obtain ⟨rfl, rfl⟩ := k2
        obtain ⟨l1, l2, tries, ts', x, L1, L2, s', j, rfl, h1, h2, rfl, h3, h4, h5, h6, h7, h8, h9⟩ := ih h1 k3 g2
        refine ⟨_ :: l1, l2, ⟨asked others, .noReply e⟩ :: tries, ts', x, others ++ (i, .req r.wire, HThr.result env (.req r.wire) s1) :: L1, L2, s', j + 1, rfl, h1,
          fun w hw => hsub w (h2 w hw), by simp, ?_, h4, h5, .arrives _ _ _ _ _ _ g1 rfl h6, ?_, ?_, fun T us old md => ?_⟩
        · rw [mine_app, g1, List.nil_append, ← h3]; simp [mine]
        · rw [List.map_cons, h7]; rfl
        · intro u hu
          rcases List.mem_cons.1 hu with rfl | hu
          · exact .inr List.mem_cons_self
          · exact (h8 u hu).imp_right (hsub _)
        · have e1 : TNet.urlopen env r (⟨asked others, .noReply e⟩ :: (tries ++ us)) c { service := s, tries := T, sent := old, made := md } =
              TNet.urlopen env r (tries ++ us) c'
                ⟨HostBuf.step env (.req r.wire) s1, tries ++ us, old ++ [r], md ++ [⟨asked others, .noReply e⟩]⟩ := by
            simp only [TNet.urlopen, hc, serves_run k1]; rfl
          refine e1.trans ((h9 (tries ++ us) us (old ++ [r]) (md ++ [⟨asked others, .noReply e⟩])).trans ?_)
          rw [List.append_assoc, List.append_assoc, List.replicate_succ]; rfl

/-- What process `i` does in one call, as it looks to one client with attempts. -/
theorem tried_onTries {i : Nat} (p : Ask Req (Except Exc Resp) α) : ∀ {ts : List Attempt} {l : List (HOp × HRet)} {a : α}, Asks (p.tried ts) l (.done a) →
    ∀ {L : List (Nat × HOp × HRet)} {s t : HostBuf} {l' : List (HOp × HRet)}, Serves (HostBuf.AtOnce env) s L t → mine i L = l ++ l' →
    ∃ tries L1 L2 s' new, L = L1 ++ L2 ∧ mine i L1 = l ∧ mine i L2 = l' ∧ Serves (HostBuf.AtOnce env) s' L2 t ∧ Attempted i tries L1 ∧
      l.map (·.1) = new.map (fun r => .req r.wire) ∧ (∀ u ∈ tries, u.what = .answered ∨ u.what ∈ ts) ∧
      ∀ us old md, p.onTries env { service := s, tries := tries ++ us, sent := old, made := md } =
        (a, { service := s', tries := us, sent := old ++ new, made := md ++ tries }) := by
  induction p with
  | done a =>
    intro ts l a' h L s t l' hs hl
    cases h
    exact ⟨[], [], L, s, [], rfl, rfl, hl, hs, .nil, rfl, nofun, fun us old md => by rw [List.append_nil, List.append_nil]; rfl⟩
  | ask r k ih =>
    intro ts l a h L s t l' hs hl
    obtain ⟨l1, l2, tries, ts', x, L1, L2, s', j, rfl, h1, h2, rfl, h3, h4, h5, h6, h7, h8, h9⟩ := urlopen_onTries (env := env) _ ts h hs hl
    obtain ⟨tries', L1', L2', s'', new, rfl, j1, j2, j3, j4, j5, j6, j7⟩ := ih x h1 h5 h4
    refine ⟨tries ++ tries', L1 ++ L1', L2', s'', List.replicate j r ++ new, by rw [List.append_assoc], by rw [mine_app, h3, j1], j2, j3, h6.append j4,
      by rw [List.map_append, List.map_append, h7, j5], ?_, fun us old md => ?_⟩
    · intro u hu
      rcases List.mem_append.1 hu with hu | hu
      · exact h8 u hu
      · exact (j6 u hu).imp_right (h2 _)
    · have e1 : TNet.request env r { service := s, tries := tries ++ tries' ++ us, sent := old, made := md } =
          (x, { service := s', tries := tries' ++ us, sent := old ++ List.replicate j r, made := md ++ tries }) := by
        rw [List.append_assoc]
        exact h9 _ _ _ _
      show (k _).onTries env _ = _
      rw [e1]
      refine (j7 us (old ++ List.replicate j r) (md ++ tries)).trans ?_
      rw [List.append_assoc, List.append_assoc]

/-! ## The history of one process -/

section view
variable {C' : Type} {i : Nat}

/-- The calls, results and operations of a call and what follows. -/
theorem call_view (c : C') (l : List (HOp × HRet)) (r : HSRet) (h : List (HEvent C' HSRet HOp HRet)) :
    callsBy i (seen (.inv i c :: (asOps i l ++ .ret i r :: h) : List (HEvent C' HSRet HOp HRet))) = c :: callsBy i (seen h) ∧
    retsBy i (seen (.inv i c :: (asOps i l ++ .ret i r :: h) : List (HEvent C' HSRet HOp HRet))) = r :: retsBy i (seen h) ∧
    mine i (opsOf (.inv i c :: (asOps i l ++ .ret i r :: h) : List (HEvent C' HSRet HOp HRet))) = l ++ mine i (opsOf h) := by
  refine ⟨?_, ?_, ?_⟩
  · show callsBy i (.inv i c :: seen (asOps i l ++ .ret i r :: h)) = _
    rw [seen_append, (asOps_view l).1]
    simp [callsBy, seen]
  · show retsBy i (.inv i c :: seen (asOps i l ++ .ret i r :: h)) = _
    rw [seen_append, (asOps_view l).1]
    simp [retsBy, seen]
  · show mine i (opsOf (asOps i l ++ .ret i r :: h)) = _
    rw [opsOf_append, mine_app, (asOps_view l).2]; rfl

end view

/-- Calls of the process `i`, as they look to one client with attempts. -/
theorem run_onTries {i : Nat} {m m' : HMirror} {hist : List (HEvent HTCall HSRet HOp HRet)} {rest : Option (HTCall × Ask HOp HRet (HSRet × HMirror))}
    (h : ClientRun retryClient i m hist m' rest) : rest = none → ∀ {cs : List (HMCall × List Attempt)}, callsBy i (seen hist) = cs.map (fun x => .mirror x.1 x.2) →
    ∀ {L : List (Nat × HOp × HRet)} {s t : HostBuf}, Serves (HostBuf.AtOnce env) s L t → mine i L = mine i (opsOf hist) →
    ∃ tries L1 L2 s' new rs, L = L1 ++ L2 ∧ mine i L2 = [] ∧ Serves (HostBuf.AtOnce env) s' L2 t ∧ Attempted i tries L1 ∧
      (mine i L1).map (·.1) = new.map (fun r => .req r.wire) ∧ (∀ u ∈ tries, u.what = .answered ∨ ∃ x ∈ cs, u.what ∈ x.2) ∧
      retsBy i (seen hist) = rs.map .mirror ∧
      ∀ us old md, TNet.mirrorRun env (cs.map (·.1)) m { service := s, tries := tries ++ us, sent := old, made := md } =
        (rs, m', { service := s', tries := us, sent := old ++ new, made := md ++ tries }) := by
  induction h with
  | nil o =>
    intro _ cs hc L s t hs hl
    cases cs with
    | nil => exact ⟨[], [], L, s, [], [], rfl, hl, hs, .nil, rfl, nofun, rfl, fun us old md => by rw [List.append_nil, List.append_nil]; rfl⟩
    | cons => cases hc
  | within => intro h; cases h
  | call o o1 o' c l r h rest h1 h2 ih =>
    intro e cs hc L s t hs hl
    obtain ⟨v1, v2, v3⟩ := call_view (i := i) c l r h
    rw [v1] at hc
    rw [v3] at hl
    rw [v2]
    cases cs with
    | nil => cases hc
    | cons x cs =>
      obtain ⟨x, os⟩ := x
      rw [List.map_cons] at hc
      obtain ⟨rfl, hc'⟩ := List.cons_eq_cons.1 hc
      obtain ⟨⟨r', o''⟩, g1, g2⟩ := asks_bind_done _ _ h1
      cases g2
      obtain ⟨tries, L1, L2, s', new, rfl, j1, j2, j3, j4, j5, j6, j7⟩ := tried_onTries (env := env) _ g1 hs hl
      obtain ⟨tries', L1', L2', s'', new', rs, rfl, k1, k2, k3, k4, k5, k6, k7⟩ := ih e hc' j3 j2
      refine ⟨tries ++ tries', L1 ++ L1', L2', s'', new ++ new', r' :: rs, by rw [List.append_assoc], k1, k2, j4.append k3, ?_, ?_, by rw [k6]; rfl,
        fun us old md => ?_⟩
      · rw [mine_app, List.map_append, List.map_append, j1, j5, k4]
      · intro f hf
        rcases List.mem_append.1 hf with hf | hf
        · exact (j6 f hf).imp_right fun h => ⟨_, List.mem_cons_self, h⟩
        · exact (k5 f hf).imp_right fun ⟨x, h1, h2⟩ => ⟨x, List.mem_cons_of_mem _ h1, h2⟩
      · have e1 := j7 (tries' ++ us) old md
        simp only [List.map_cons, TNet.mirrorRun, List.append_assoc, e1, k7]

/-! ## Mirrors and readers alone with the service -/

/-- What comes of a request in a service that only gets messages and questions: the same as alone, if it ends in the same way. -/
theorem urlopen_calm (k : Except Exc Resp → List Attempt → Ask HOp HRet α) (hr : r.Polite) (ts : List Attempt) :
    ∀ {c : Retry} {l : List (HOp × HRet)} {a : α}, Asks (Ask.urlopen r k ts c) l (.done a) → (∀ x ∈ l, HRet.Calm x.1 x.2) →
    ∃ l1 l2 ts' x o, l = l1 ++ l2 ∧ Asks (k x ts') l2 (.done a) ∧ (∀ w ∈ ts', w ∈ ts) ∧
      (o = .ok ∨ ∃ e, x = .error e ∧ ∃ w ∈ ts, error? w = some e) ∧
      ∃ new ms, Posts new ms ∧ l1.filterMap (fun x => x.1.msg?) = ms.map HMsg.wire ∧
        ∀ {lg : Log} {s : HostBuf} (fs : List Fate) (old : List Req), HRep ⟨lg, false⟩ s →
        ∃ lg' s', HNet.request env r { service := s, fates := ⟨[], o⟩ :: fs, sent := old } = (x, { service := s', fates := fs, sent := old ++ new }) ∧
          HRep ⟨lg', false⟩ s' := by
  have hw : ∃ ms, Posts [r] ms ∧ (HOp.req r.wire).msg?.toList = ms.map HMsg.wire := by
    rcases hr with rfl | ⟨m, rfl⟩
    · exact ⟨[], .check _ _ .nil, by rw [msg?_none (by nofun)]; rfl⟩
    · refine ⟨[m], .msg _ _ _ .nil, ?_⟩
      have ew : (Req.post (.json m.post)).wire = .post (.json m.wire.post) := by
        show Req.post (.json (Json.wire m.post)) = _
        rw [wire_post]
      rw [ew, msg?_post]; rfl
  have hstep : ∀ {lg : Log} {s : HostBuf}, HRep ⟨lg, false⟩ s → (∀ x, HRet.Calm (.req r.wire) x → HThr.result env (.req r.wire) s = x) ∧
      ∃ lg', HRep ⟨lg', false⟩ (HostBuf.step env (.req r.wire) s) := by
    intro lg s hs
    rcases hr with rfl | ⟨m, rfl⟩
    · obtain ⟨g1, l1, -, g3, -⟩ := calm_step (env := env) (i := 0) (q := .req (.stateGet (some (lit "closed")))) trivial hs ⟨rfl, rfl⟩
      exact ⟨fun x hx => (g1.1 rfl).trans (hx.1 rfl).symm, l1, g3⟩
    · have ew : (Req.post (.json m.post)).wire = .post (.json m.wire.post) := by
        show Req.post (.json (Json.wire m.post)) = _
        rw [wire_post]
      rw [ew]
      obtain ⟨g1, l1, -, g3, -⟩ := calm_step (env := env) (i := 0) (q := .req (.post (.json m.wire.post))) ⟨_, rfl⟩ hs ⟨rfl, rfl⟩
      exact ⟨fun x hx => (g1.2 _ rfl).trans (hx.2 _ rfl).symm, l1, g3⟩
  obtain ⟨ms, hp, hms⟩ := hw
  have hone : ∀ x : HRet, [((HOp.req r.wire, x) : HOp × HRet)].filterMap (fun x => x.1.msg?) = ms.map HMsg.wire := by
    intro x
    rw [← hms]
    cases hq : (HOp.req r.wire).msg? <;> simp [hq]
  have okay : ∀ {ts0 ts : List Attempt} {l : List (HOp × HRet)} {a : α}, Asks (.ask (.req r.wire) fun x => k x.received ts0) l (.done a) →
      (∀ x ∈ l, HRet.Calm x.1 x.2) → (∀ w ∈ ts0, w ∈ ts) →
      ∃ l1 l2 ts' x o, l = l1 ++ l2 ∧ Asks (k x ts') l2 (.done a) ∧ (∀ w ∈ ts', w ∈ ts) ∧
        (o = .ok ∨ ∃ e, x = .error e ∧ ∃ w ∈ ts, error? w = some e) ∧
        ∃ new ms, Posts new ms ∧ l1.filterMap (fun x => x.1.msg?) = ms.map HMsg.wire ∧
          ∀ {lg : Log} {s : HostBuf} (fs : List Fate) (old : List Req), HRep ⟨lg, false⟩ s →
          ∃ lg' s', HNet.request env r { service := s, fates := ⟨[], o⟩ :: fs, sent := old } = (x, { service := s', fates := fs, sent := old ++ new }) ∧
            HRep ⟨lg', false⟩ s' := by
    intro ts0 ts l a h hl hsub
    cases h with
    | cons _ x _ l _ h1 =>
    refine ⟨[_], l, ts0, x.received, .ok, rfl, h1, hsub, .inl rfl, [r], ms, hp, hone x, fun {lg s} fs old hs => ?_⟩
    obtain ⟨g1, lg', g2⟩ := hstep hs
    refine ⟨lg', _, ?_, g2⟩
    have e : HNet.request env r { service := s, fates := ⟨[], .ok⟩ :: fs, sent := old } =
      (HRet.received (HThr.result env (.req r.wire) s), { service := HostBuf.step env (.req r.wire) s, fates := fs, sent := old ++ [r] }) := rfl
    rw [e, g1 x (hl _ List.mem_cons_self)]
  have gone : ∀ {w : Attempt} {e : Exc} {ts : List Attempt} {l : List (HOp × HRet)} {a : α}, error? w = some e → Asks (k (.error e) ts) l (.done a) →
      ∃ l1 l2 ts' x o, l = l1 ++ l2 ∧ Asks (k x ts') l2 (.done a) ∧ (∀ v ∈ ts', v ∈ w :: ts) ∧
        (o = .ok ∨ ∃ e, x = .error e ∧ ∃ v ∈ w :: ts, error? v = some e) ∧
        ∃ new ms, Posts new ms ∧ l1.filterMap (fun x => x.1.msg?) = ms.map HMsg.wire ∧
          ∀ {lg : Log} {s : HostBuf} (fs : List Fate) (old : List Req), HRep ⟨lg, false⟩ s →
          ∃ lg' s', HNet.request env r { service := s, fates := ⟨[], o⟩ :: fs, sent := old } = (x, { service := s', fates := fs, sent := old ++ new }) ∧
            HRep ⟨lg', false⟩ s' := fun {w e ts l a} hw h =>
    ⟨[], l, ts, .error e, .lost e, rfl, h, fun _ => List.mem_cons_of_mem _, .inr ⟨e, rfl, w, List.mem_cons_self, hw⟩, [], [], .nil, rfl,
      fun {lg s} fs old hs => ⟨lg, s, by rw [List.append_nil]; rfl, hs⟩⟩
  induction ts with
  | nil =>
    intro c l a h hl
    unfold Ask.urlopen at h
    exact okay h hl (fun _ h => h)
  | cons w ts ih =>
    intro c l a h hl
    have hsub : ∀ v ∈ ts, v ∈ w :: ts := fun _ => List.mem_cons_of_mem _
    have further : ∀ {c : Retry} {l : List (HOp × HRet)}, Asks (Ask.urlopen r k ts c) l (.done a) → (∀ x ∈ l, HRet.Calm x.1 x.2) →
        ∃ l1 l2 ts' x o, l = l1 ++ l2 ∧ Asks (k x ts') l2 (.done a) ∧ (∀ v ∈ ts', v ∈ w :: ts) ∧
          (o = .ok ∨ ∃ e, x = .error e ∧ ∃ v ∈ w :: ts, error? v = some e) ∧
          ∃ new ms, Posts new ms ∧ l1.filterMap (fun x => x.1.msg?) = ms.map HMsg.wire ∧
            ∀ {lg : Log} {s : HostBuf} (fs : List Fate) (old : List Req), HRep ⟨lg, false⟩ s →
            ∃ lg' s', HNet.request env r { service := s, fates := ⟨[], o⟩ :: fs, sent := old } = (x, { service := s', fates := fs, sent := old ++ new }) ∧
              HRep ⟨lg', false⟩ s' := by
      intro c l h hl
      obtain ⟨l1, l2, ts', x, o, h1, h2, h3, h4, h5⟩ := ih h hl
      exact ⟨l1, l2, ts', x, o, h1, h2, fun v hv => hsub v (h3 v hv), h4.imp_right fun ⟨e, g1, v, g2, g3⟩ => ⟨e, g1, v, hsub v g2, g3⟩, h5⟩
    unfold Ask.urlopen at h
    cases w with
    | answered => exact okay h hl hsub
    | refused counted e =>
      dsimp only at h
      cases hc : c.noConnection counted with
      | none => rw [hc] at h; exact gone rfl h
      | some c' => rw [hc] at h; exact further h hl
    | lost e =>
      dsimp only at h
      cases hc : c.readError r with
      | none => rw [hc] at h; exact gone rfl h
      | some c' => rw [hc] at h; exact further h hl
    | noReply e =>
      dsimp only at h
      cases hc : c.readError r with
      | none =>
        simp only [hc] at h
        cases h with
        | cons _ x _ l _ h1 =>
        refine ⟨[_], l, ts, .error e, .noReply e, rfl, h1, hsub, .inr ⟨e, rfl, _, List.mem_cons_self, rfl⟩, [r], ms, hp, hone x, fun {lg s} fs old hs => ?_⟩
        obtain ⟨g1, lg', g2⟩ := hstep hs
        exact ⟨lg', _, rfl, g2⟩
      | some c' =>
        simp only [hc] at h
        have hg : r = .stateGet (some (lit "closed")) := by
          rcases hr with rfl | ⟨m, rfl⟩
          · rfl
          · cases hc
        cases h with
        | cons _ y _ l _ h1 =>
        obtain ⟨l1, l2, ts', x, o, rfl, h2, h3, h4, new, ms', h5, h6, h7⟩ := further h1 fun x hx => hl x (List.mem_cons_of_mem _ hx)
        refine ⟨(_, y) :: l1, l2, ts', x, o, rfl, h2, h3, h4, new, ms', h5, ?_, h7⟩
        rw [List.filterMap_cons_none (by subst hg; exact msg?_none (by nofun))]
        exact h6

/-- An exception of a request ends the method, which raises it. -/
def StrictAsk {γ : Type} (exc : Exc → γ → Prop) : Ask Req (Except Exc Resp) γ → Prop
  | .done _ => True
  | .ask _ k => (∀ e, ∃ b, k (.error e) = .done b ∧ exc e b) ∧ ∀ x, StrictAsk exc (k x)

/-- A method of a mirror that gets such answers does what it does alone with such a service, if its requests end in the same way. -/
theorem tried_calm (p : Ask Req (Except Exc Resp) α) (hp : p.Within Req.Polite) {exc : Exc → α → Prop} (hx : StrictAsk exc p) :
    ∀ {ts : List Attempt} {l : List (HOp × HRet)} {a : α}, Asks (p.tried ts) l (.done a) → (∀ x ∈ l, HRet.Calm x.1 x.2) →
    ∃ (os : List Outcome) (new : List Req) (ms : List HMsg), ((∀ o ∈ os, o = .ok) ∨ ∃ e, exc e a ∧ ∃ w ∈ ts, error? w = some e) ∧ Posts new ms ∧
      l.filterMap (fun x => x.1.msg?) = ms.map HMsg.wire ∧
      ∀ {lg : Log} {s : HostBuf} (fs : List Fate) (old : List Req), HRep ⟨lg, false⟩ s →
      ∃ lg' s', p.onNet env { service := s, fates := os.map (Fate.mk []) ++ fs, sent := old } = (a, { service := s', fates := fs, sent := old ++ new }) ∧
        HRep ⟨lg', false⟩ s' := by
  induction p with
  | done a =>
    intro ts l a' h hl
    cases h
    exact ⟨[], [], [], .inl nofun, .nil, rfl, fun {lg s} fs old hs => ⟨lg, s, by rw [List.append_nil]; rfl, hs⟩⟩
  | ask r k ih =>
    intro ts l a h hl
    obtain ⟨l1, l2, ts', x, o, rfl, h1, h2, h3, new, ms, h4, h5, h6⟩ := urlopen_calm (env := env) _ hp.1 ts h hl
    obtain ⟨os, new', ms', g1, g2, g3, g4⟩ := ih x (hp.2 x) (hx.2 x) h1 fun y hy => hl y (List.mem_append_right _ hy)
    refine ⟨o :: os, new ++ new', ms ++ ms', ?_, posts_append h4 g2, by rw [List.filterMap_append, h5, g3, List.map_append], fun {lg s} fs old hs => ?_⟩
    · rcases h3 with rfl | ⟨e, rfl, w, h7, h8⟩
      · rcases g1 with g1 | ⟨e, g5, w, g6, g7⟩
        · left
          intro o' ho'
          rcases List.mem_cons.1 ho' with rfl | ho'
          · rfl
          · exact g1 o' ho'
        · exact .inr ⟨e, g5, w, h2 w g6, g7⟩
      · obtain ⟨b, e1, e2⟩ := hx.1 e
        rw [e1] at h1
        cases h1
        exact .inr ⟨e, e2, w, h7, h8⟩
    · obtain ⟨lg1, s1, k1, k2⟩ := h6 (os.map (Fate.mk []) ++ fs) old hs
      obtain ⟨lg2, s2, k3, k4⟩ := g4 fs (old ++ new) k2
      refine ⟨lg2, s2, ?_, k4⟩
      show (k _).onNet env _ = _
      rw [List.map_cons, List.cons_append, k1]
      refine k3.trans ?_
      rw [List.append_assoc]

namespace HMAsk

/-- The methods of mirrors. -/
def Strict (p : HMAsk α) : Prop := ∀ m, StrictAsk (fun e b => b.1 = .error e) (p m)

theorem Strict.pure (a : α) : Strict (pure a) := fun _ => trivial
theorem Strict.raise (e : Exc) : Strict (raise e : HMAsk α) := fun _ => trivial
theorem Strict.gets (f : HMirror → α) : Strict (gets f) := fun _ => trivial
theorem Strict.onBuf (p : Py StringIO α) : Strict (onBuf p) := fun _ => trivial
theorem Strict.request (r : Req) : Strict (request r) := fun m => ⟨fun e => ⟨(.error e, m), rfl, rfl⟩, fun _ => trivial⟩

theorem Strict.bind {β : Type} {p : HMAsk α} {g : α → HMAsk β} (h : Strict p) (hg : ∀ a, Strict (g a)) : Strict (p >>= g) := fun m => by
  have key : ∀ q : Ask Req (Except Exc Resp) (Except Exc α × HMirror), StrictAsk (fun e b => b.1 = .error e) q →
      StrictAsk (fun e (b : Except Exc β × HMirror) => b.1 = .error e) (q.bind fun x => match x.1 with | .ok a => g a x.2 | .error e => .done (.error e, x.2)) := by
    intro q
    induction q with
    | done x =>
      intro _
      obtain ⟨x, m'⟩ := x
      cases x with
      | ok a => exact hg a m'
      | error e => exact trivial
    | ask r k ih =>
      intro hq
      refine ⟨fun e => ?_, fun x => ih x (hq.2 x)⟩
      obtain ⟨⟨b, m'⟩, e1, e2⟩ := hq.1 e
      dsimp only at e2
      subst e2
      refine ⟨(.error e, m'), ?_, rfl⟩
      show (k (.error e)).bind _ = _
      rw [e1]; rfl
  exact key _ (h m)

theorem Strict.ite {c : Prop} [Decidable c] {p q : HMAsk α} (h1 : Strict p) (h2 : Strict q) : Strict (if c then p else q) := by
  split
  · exact h1
  · exact h2

theorem strict_fail (r : Resp) : Strict (fail r : HMAsk α) := by
  unfold fail; split
  · exact .raise _
  · exact .raise _

theorem strict_expectOk (r : Req) : Strict (expectOk r) := .bind (.request _) fun _ => .ite (.pure _) (strict_fail _)
theorem strict_clear : Strict clear := .bind (.onBuf _) fun _ => .onBuf _
theorem strict_setAggressive (b : Bool) : Strict (setAggressive b) := fun _ => trivial
theorem strict_sendData (d : PyStr) : Strict (sendData d) := .bind (.gets _) fun _ => .ite (.pure _) (strict_expectOk _)

theorem strict_checkStates : Strict checkStates := by
  refine .bind (.gets _) fun _ => .ite (.pure _) (.bind (.request _) fun x => ?_)
  unfold checkAnswer
  refine .ite ?_ (strict_fail _)
  split
  · exact .raise _
  · split
    · exact .raise _
    · exact .pure _

theorem strict_writeCore (d : PyStr) (check : Bool) : Strict (writeCore d check) :=
  .bind (.ite strict_checkStates (.pure _)) fun _ => .bind (.gets _) fun _ => .ite (.bind (strict_sendData _) fun _ => .pure _)
    (.ite (.bind (.onBuf _) fun _ => .bind (.onBuf _) fun _ => .bind (strict_sendData _) fun _ => .bind (.onBuf _) fun _ => .bind (.onBuf _) fun _ => .pure _)
      (.ite (.onBuf _) (.pure _)))

theorem strict_newLine (check : Bool) : Strict (newLine check) :=
  .bind (.onBuf _) fun _ => .ite (.bind (strict_writeCore _ _) fun _ => .pure _) (.pure _)

theorem strict_sendEnd (check : Bool) (j : Json) : Strict (sendEnd check j) :=
  .bind (.gets _) fun _ => .ite (.pure _) (.bind (strict_newLine _) fun _ => strict_expectOk _)

theorem strict_close (exc : Option ExcObj) : Strict (close exc) := by
  refine .bind (.gets _) fun _ => .ite (.pure _) ?_
  cases exc with
  | none => exact .bind (strict_sendEnd _ _) fun _ => .bind strict_clear fun _ => .onBuf _
  | some e => exact .bind (strict_sendEnd _ _) fun _ => .bind strict_clear fun _ => .onBuf _

theorem Strict.result {p : HMAsk α} (h : Strict p) (f : α → HMRet) (m : HMirror) : StrictAsk (fun e b => b.1 = .exc e) (result f p m) := by
  have key : ∀ q : Ask Req (Except Exc Resp) (Except Exc α × HMirror), StrictAsk (fun e b => b.1 = .error e) q →
      StrictAsk (fun e (b : HMRet × HMirror) => b.1 = .exc e) (q.bind fun x => .done (HMRet.of f x.1, x.2)) := by
    intro q
    induction q with
    | done x => exact fun _ => trivial
    | ask r k ih =>
      intro hq
      refine ⟨fun e => ?_, fun x => ih x (hq.2 x)⟩
      obtain ⟨⟨b, m'⟩, e1, e2⟩ := hq.1 e
      dsimp only at e2
      subst e2
      refine ⟨(.exc e, m'), ?_, rfl⟩
      show (k (.error e)).bind _ = _
      rw [e1]; rfl
  exact key _ (h m)

/-- If a request fails, so does the call. -/
theorem exec_strict (c : HMCall) (m : HMirror) : StrictAsk (fun e b => b.1 = .exc e) (exec c m) := by
  cases c with
  | write d => exact (Strict.bind (.gets _) fun _ => .ite (.raise _) (strict_writeCore _ _)).result _ _
  | newLine k => exact (strict_newLine _).result _ _
  | read => exact (Strict.bind (.gets _) fun _ => .ite (.raise _) (.onBuf _)).result _ _
  | clear => exact strict_clear.result _ _
  | flush => exact (Strict.onBuf _).result _ _
  | sendData d => exact (strict_sendData _).result _ _
  | sendEof => exact (strict_sendEnd _ _).result _ _
  | sendError e => exact (strict_sendEnd _ _).result _ _
  | sendWarning e => exact (strict_sendEnd _ _).result _ _
  | checkStates => exact strict_checkStates.result _ _
  | close e => exact (strict_close _).result _ _
  | closed => exact (Strict.gets _).result _ _
  | readable => exact (Strict.gets _).result _ _
  | writable => exact (Strict.gets _).result _ _
  | setAggressive a => exact (strict_setAggressive _).result _ _

end HMAsk

/-! ## The requests of the calls -/

theorem urlopen_within {P : HOp → Prop} (hr : P (.req r.wire)) {k : Except Exc Resp → List Attempt → Ask HOp HRet α} (hk : ∀ x ts, (k x ts).Within P)
    (ts : List Attempt) : ∀ c, (Ask.urlopen r k ts c).Within P := by
  induction ts with
  | nil => exact fun c => ⟨hr, fun x => hk _ _⟩
  | cons w ts ih =>
    intro c
    have part : ∀ (o : Option Retry) (e : Exc), (match o with | none => k (.error e) ts | some c => Ask.urlopen r k ts c).Within P := by
      intro o e
      cases o with
      | none => exact hk _ _
      | some c => exact ih c
    unfold Ask.urlopen
    cases w with
    | answered => exact ⟨hr, fun x => hk _ _⟩
    | refused counted e => exact part _ e
    | lost e => exact part _ e
    | noReply e => exact ⟨hr, fun x => part _ e⟩

theorem tried_within {P : HOp → Prop} {Q : Req → Prop} (hP : ∀ r, Q r → P (.req r.wire)) (p : Ask Req (Except Exc Resp) α) (hp : p.Within Q) :
    ∀ ts, (p.tried ts).Within P := by
  induction p with
  | done a => exact fun _ => trivial
  | ask r k ih => exact fun ts => urlopen_within (hP _ hp.1) (fun x ts => ih x (hp.2 x) ts) ts _

/-- The requests of a calm call. -/
theorem calm_within (m : HMirror) (c : HTCall) (hc : HTCall.Calm c) : (retryClient m c).Within HOp.Calm := by
  cases c with
  | mirror c ts =>
    refine HMAsk.within_bind' (tried_within (Q := Req.Polite) (fun r hr => ?_) _ (HMAsk.exec_polite c m) _) fun _ => trivial
    rcases hr with rfl | ⟨x, rfl⟩
    · exact trivial
    · exact ⟨x.wire, congrArg Body.json (wire_post x)⟩
  | reader c ts =>
    refine HMAsk.within_bind' (tried_within (Q := fun r => (HOp.req r.wire).Calm) (fun r hr => hr) (RdCall.exec c) ⟨?_, fun _ => trivial⟩ _) fun _ => trivial
    cases c <;> first | exact trivial | exact hc.elim
  | late r =>
    refine ⟨?_, fun _ => trivial⟩
    cases r with
    | post b =>
      obtain ⟨x, rfl⟩ := hc
      exact ⟨x.wire, congrArg Body.json (wire_post x)⟩
    | _ => first | exact trivial | exact hc.elim
  | stopAll => exact hc.elim
  | reset => exact hc.elim

/-- The operations of a reader's question and of a question that is answered too late bring no message. -/
theorem calm_no_msg {m m' : HMirror} {c : HTCall} (hc : HTCall.Calm c) (hm : ∀ x ts, c ≠ .mirror x ts) (hb : ∀ b, c ≠ .late (.post b))
    {l : List (HOp × HRet)} {r : HSRet}
    (h : Asks (retryClient m c) l (.done (r, m'))) : l.filterMap (fun x => x.1.msg?) = [] ∧ m' = m ∧ ∀ x, r ≠ .mirror x := by
  have none : ∀ {P : HOp → Prop}, (∀ q, P q → ∀ b, q ≠ .req (.post b)) → (retryClient m c).Within P → l.filterMap (fun x => x.1.msg?) = [] :=
    fun hP hw => List.filterMap_eq_nil_iff.2 fun x hx => msg?_none (hP _ (asks_within h hw x hx))
  cases c with
  | mirror c ts => exact absurd rfl (hm c ts)
  | stopAll => exact hc.elim
  | reset => exact hc.elim
  | late r =>
    refine ⟨none (P := fun q => ∀ b, q ≠ .req (.post b)) (fun _ h => h) ⟨?_, fun _ => trivial⟩, ?_⟩
    · cases r with
      | post b => exact absurd rfl (hb b)
      | _ => first | exact hc.elim | exact nofun
    · cases h with
      | cons _ _ _ _ _ h => cases h; exact ⟨rfl, nofun⟩
  | reader c ts =>
    refine ⟨none (P := fun q => ∀ b, q ≠ .req (.post b)) (fun _ h => h) ?_, ?_⟩
    · refine HMAsk.within_bind' (tried_within (Q := fun r => ∀ b, HOp.req r.wire ≠ .req (.post b)) (fun r hr => hr) (RdCall.exec c) ⟨?_, fun _ => trivial⟩ _)
        fun _ => trivial
      cases c <;> first | exact hc.elim | exact nofun
    · obtain ⟨x, h1, h2⟩ := asks_bind_done _ _ h
      cases h2
      exact ⟨rfl, nofun⟩

/-- More of the first stream. -/
theorem merge_first {b out : List α} (x : List α) {a : List α} (h : Merge [a, b] out) : Merge [x ++ a, b] (x ++ out) := by
  induction x with
  | nil => exact h
  | cons y x ih => exact .take _ 0 y (x ++ a) _ rfl ih

/-- More of the second stream. -/
theorem merge_second {a b out : List α} (x : α) (h : Merge [a, b] out) : Merge [a, x :: b] (x :: out) := .take _ 1 x b _ rfl h

/-- Nothing in the second stream. -/
theorem merge_alone {a out : List α} (h : Merge [a, []] out) : out = a := by
  generalize hs : [a, []] = ss at h
  induction h generalizing a with
  | done _ h1 => subst hs; exact (h1 a List.mem_cons_self).symm
  | take _ i x rest out h1 _ ih =>
    subst hs
    match i with
    | 0 =>
      cases h1
      rw [ih rfl]
    | 1 => cases h1
    | i + 2 => cases h1

/-- Calm calls of the process `i` among others, and the calls on its mirror alone. -/
theorem run_calm {i : Nat} {m m' : HMirror} {hist : List (HEvent HTCall HSRet HOp HRet)} {rest : Option (HTCall × Ask HOp HRet (HSRet × HMirror))}
    (h : ClientRun retryClient i m hist m' rest) : rest = none → (∀ c ∈ callsBy i (seen hist), HTCall.Calm c) →
    (∀ x ∈ mine i (opsOf hist), HRet.Calm x.1 x.2) →
    ∃ (os : List Outcome) (new : List Req) (ms lates : List HMsg), ((∀ o ∈ os, o = .ok) ∨ GaveUp i (seen hist)) ∧
      Posts new ms ∧ Lates (callsBy i (seen hist)) lates ∧
      Merge [ms.map HMsg.wire, lates.map HMsg.wire] ((mine i (opsOf hist)).filterMap (fun x => x.1.msg?)) ∧
      ∀ {lg : Log} {s : HostBuf} (old : List Req), HRep ⟨lg, false⟩ s →
      ∃ s', HMirror.run env (mirrorAsks i (seen hist)) (m, { service := s, fates := os.map (Fate.mk []), sent := old }) =
        (mirrorRets i (seen hist), (m', { service := s', sent := old ++ new })) := by
  induction h with
  | nil o =>
    exact fun _ _ _ => ⟨[], [], [], [], .inl nofun, .nil, .nil, .done _ (by simp), fun {lg s} old hr => ⟨s, by rw [List.append_nil]; rfl⟩⟩
  | within => intro h; cases h
  | call o o1 o' c l r h rest h1 h2 ih =>
    intro e hc hl
    obtain ⟨v1, v2, v3⟩ := call_view (i := i) c l r h
    rw [v1] at hc
    rw [v3] at hl ⊢
    have hl1 : ∀ x ∈ l, HRet.Calm x.1 x.2 := fun x hx => hl x (List.mem_append_left _ hx)
    have hl2 := fun x hx => hl x (List.mem_append_right _ hx)
    have hc0 := hc c List.mem_cons_self
    have hc1 := fun c hx => hc c (List.mem_cons_of_mem _ hx)
    obtain ⟨os', new', ms', lates, k1, k2, k0, k3, k4⟩ := ih e hc1 hl2
    have hgave : ∀ {rs : List HMRet}, mirrorRets i (seen (.inv i c :: (asOps i l ++ .ret i r :: h) : List (HEvent HTCall HSRet HOp HRet))) = rs →
        (∀ x ∈ mirrorRets i (seen h), x ∈ rs) → GaveUp i (seen h) →
        GaveUp i (seen (.inv i c :: (asOps i l ++ .ret i r :: h) : List (HEvent HTCall HSRet HOp HRet))) := by
      rintro rs e1 e2 ⟨c', ts, w, x, g1, g2, g3, g4⟩
      exact ⟨c', ts, w, x, by rw [v1]; exact List.mem_cons_of_mem _ g1, g2, g3, by rw [e1]; exact e2 _ g4⟩
    by_cases hm : ∃ x ts, c = .mirror x ts
    · obtain ⟨c, ts, rfl⟩ := hm
      obtain ⟨⟨r', o''⟩, g1, g2⟩ := asks_bind_done _ _ h1
      cases g2
      have w1 : mirrorAsks i (seen (.inv i (.mirror c ts) :: (asOps i l ++ .ret i (.mirror r') :: h) : List (HEvent HTCall HSRet HOp HRet))) =
          c :: mirrorAsks i (seen h) := by unfold mirrorAsks; rw [v1]; rfl
      have w2 : mirrorRets i (seen (.inv i (.mirror c ts) :: (asOps i l ++ .ret i (.mirror r') :: h) : List (HEvent HTCall HSRet HOp HRet))) =
          r' :: mirrorRets i (seen h) := by unfold mirrorRets; rw [v2]; rfl
      obtain ⟨os, new, ms, j1, j2, j3, j4⟩ := tried_calm (env := env) _ (HMAsk.exec_polite c o) (HMAsk.exec_strict c o) g1 hl1
      refine ⟨os ++ os', new ++ new', ms ++ ms', lates, ?_, posts_append j2 k2, by rw [v1]; exact .other _ _ _ nofun k0,
        by rw [List.filterMap_append, j3, List.map_append]; exact merge_first _ k3, fun {lg s} old hr => ?_⟩
      · rcases j1 with j1 | ⟨x, j5, w, j6, j7⟩
        · rcases k1 with k1 | k1
          · left
            intro o ho
            rcases List.mem_append.1 ho with ho | ho
            · exact j1 o ho
            · exact k1 o ho
          · exact .inr (hgave w2 (fun x hx => List.mem_cons_of_mem _ hx) k1)
        · refine .inr ⟨c, ts, w, x, by rw [v1]; exact List.mem_cons_self, j6, j7, ?_⟩
          dsimp only at j5
          subst j5
          have := List.mem_cons_self (a := HMRet.exc x) (l := mirrorRets i (seen h))
          rw [← w2] at this
          exact this
      · obtain ⟨lg', s', j5, j6⟩ := j4 (os'.map (Fate.mk [])) old hr
        obtain ⟨s'', k5⟩ := k4 (old ++ new) j6
        refine ⟨s'', ?_⟩
        have e1 : HMirror.exec env c (o, { service := s, fates := os.map (Fate.mk []) ++ os'.map (Fate.mk []), sent := old }) =
            (r', (o'', { service := s', fates := os'.map (Fate.mk []), sent := old ++ new })) := by
          rw [HMAsk.exec_onNet, j5]
        dsimp only at w2 k5 ⊢
        rw [w1, w2, List.map_append]
        simp only [HMirror.run, e1, k5, List.append_assoc]
    · have w1 : mirrorAsks i (seen (.inv i c :: (asOps i l ++ .ret i r :: h) : List (HEvent HTCall HSRet HOp HRet))) = mirrorAsks i (seen h) := by
        unfold mirrorAsks; rw [v1]
        cases c with
        | mirror x ts => exact absurd ⟨x, ts, rfl⟩ hm
        | _ => rfl
      have w2 : (∀ x, r ≠ .mirror x) →
          mirrorRets i (seen (.inv i c :: (asOps i l ++ .ret i r :: h) : List (HEvent HTCall HSRet HOp HRet))) = mirrorRets i (seen h) := by
        intro hr
        unfold mirrorRets; rw [v2]
        cases r with
        | mirror x => exact absurd rfl (hr x)
        | _ => rfl
      by_cases hb : ∃ b, c = .late (.post b)
      · obtain ⟨b, rfl⟩ := hb
        obtain ⟨x, rfl⟩ := hc0
        cases h1 with
        | cons _ y _ _ _ h1 =>
        cases h1
        have w2 := w2 nofun
        refine ⟨os', new', ms', x :: lates, k1.imp_right (hgave w2 fun _ h => h), k2, by rw [v1]; exact .msg _ _ _ k0, ?_, fun {lg s} old hr => ?_⟩
        · have e1 : (HOp.req (Req.wire (.post (.json x.post)))).msg? = some x.wire :=
            (congrArg (fun j => (HOp.req (.post (.json j))).msg?) (wire_post x)).trans (msg?_post _)
          rw [List.filterMap_append, List.filterMap_cons, e1]
          exact merge_second _ k3
        · rw [w1, w2]
          exact k4 old hr
      · obtain ⟨g1, rfl, g2⟩ := calm_no_msg hc0 (fun x ts hh => hm ⟨x, ts, hh⟩) (fun b hh => hb ⟨b, hh⟩) h1
        have w2 := w2 g2
        refine ⟨os', new', ms', lates, k1.imp_right (hgave w2 fun _ h => h), k2, by rw [v1]; exact .other _ _ _ (fun b hh => hb ⟨b, hh⟩) k0,
          by rw [List.filterMap_append, g1]; exact k3, fun {lg s} old hr => ?_⟩
        rw [w1, w2]
        exact k4 old hr

/-- What comes of a request: the exception of an attempt, or an answer. -/
theorem urlopen_result {k : Except Exc Resp → List Attempt → Ask HOp HRet α} (ts : List Attempt) :
    ∀ {c : Retry} {l : List (HOp × HRet)} {a : α}, Asks (Ask.urlopen r k ts c) l (.done a) →
    ∃ l1 l2 ts', l = l1 ++ l2 ∧ (∀ y ∈ l1, y.1 = .req r.wire) ∧ (∀ w ∈ ts', w ∈ ts) ∧
      ((∃ w ∈ ts, ∃ e, error? w = some e ∧ Asks (k (.error e) ts') l2 (.done a)) ∨
        ∃ l0 y, l1 = l0 ++ [(.req r.wire, y)] ∧ Asks (k y.received ts') l2 (.done a)) := by
  have ends : ∀ {k' : HRet → Ask HOp HRet α} {ts ts' : List Attempt}, (∀ x, k' x = k x.received ts') → (∀ w ∈ ts', w ∈ ts) →
      ∀ {l : List (HOp × HRet)} {a : α}, Asks (.ask (.req r.wire) k') l (.done a) →
      ∃ l1 l2 ts', l = l1 ++ l2 ∧ (∀ y ∈ l1, y.1 = .req r.wire) ∧ (∀ w ∈ ts', w ∈ ts) ∧
        ((∃ w ∈ ts, ∃ e, error? w = some e ∧ Asks (k (.error e) ts') l2 (.done a)) ∨
          ∃ l0 y, l1 = l0 ++ [(.req r.wire, y)] ∧ Asks (k y.received ts') l2 (.done a)) := by
    intro k' ts ts' e hts l a h
    cases h with
    | cons _ y _ l _ h =>
    rw [e] at h
    exact ⟨[(.req r.wire, y)], l, ts', rfl, by simp, hts, .inr ⟨[], y, rfl, h⟩⟩
  induction ts with
  | nil => exact fun h => ends (ts' := []) (fun _ => rfl) (fun _ h => h) h
  | cons w ts ih =>
    intro c l a h
    have part : ∀ {o : Option Retry} {e : Exc} {l : List (HOp × HRet)}, error? w = some e →
        Asks (match o with | none => k (.error e) ts | some c => Ask.urlopen r k ts c) l (.done a) →
        ∃ l1 l2 ts', l = l1 ++ l2 ∧ (∀ y ∈ l1, y.1 = .req r.wire) ∧ (∀ x ∈ ts', x ∈ w :: ts) ∧
          ((∃ x ∈ w :: ts, ∃ e, error? x = some e ∧ Asks (k (.error e) ts') l2 (.done a)) ∨
            ∃ l0 y, l1 = l0 ++ [(.req r.wire, y)] ∧ Asks (k y.received ts') l2 (.done a)) := by
      intro o e l he h
      cases o with
      | none => exact ⟨[], l, ts, rfl, nofun, fun _ h => List.mem_cons_of_mem _ h, .inl ⟨w, List.mem_cons_self, e, he, h⟩⟩
      | some c =>
        obtain ⟨l1, l2, ts', e1, g1, g2, g3⟩ := ih h
        refine ⟨l1, l2, ts', e1, g1, fun x hx => List.mem_cons_of_mem _ (g2 x hx), g3.imp_left ?_⟩
        rintro ⟨x, hx, rest⟩
        exact ⟨x, List.mem_cons_of_mem _ hx, rest⟩
    unfold Ask.urlopen at h
    cases w with
    | answered => exact ends (ts' := ts) (fun _ => rfl) (fun _ h => List.mem_cons_of_mem _ h) h
    | refused counted e => exact part rfl h
    | lost e => exact part rfl h
    | noReply e =>
      cases h with
      | cons _ y _ _ _ h =>
      obtain ⟨l1, l2, ts', rfl, g1, g2, g3⟩ := part rfl h
      refine ⟨(.req r.wire, y) :: l1, l2, ts', rfl, ?_, g2, g3.imp_right ?_⟩
      · intro x hx
        rcases List.mem_cons.1 hx with rfl | hx
        · rfl
        · exact g1 x hx
      · rintro ⟨l0, z, rfl, g⟩
        exact ⟨_ :: l0, z, rfl, g⟩

/-- A method with one request. -/
theorem urlopen_ends {f : Except Exc Resp → α} {k : Except Exc Resp → List Attempt → Ask HOp HRet α} (hk : ∀ x ts, k x ts = .done (f x))
    (ts : List Attempt) {c : Retry} {l : List (HOp × HRet)} {a : α} (h : Asks (Ask.urlopen r k ts c) l (.done a)) :
    (∃ w ∈ ts, ∃ e, error? w = some e ∧ a = f (.error e)) ∨ ∃ l1 y, l = l1 ++ [(.req r.wire, y)] ∧ a = f y.received := by
  obtain ⟨l1, l2, ts', rfl, -, -, ⟨w, hw, e, g1, g2⟩ | ⟨l0, y, rfl, g2⟩⟩ := urlopen_result ts h
  · rw [hk] at g2
    cases g2
    exact .inl ⟨w, hw, e, g1, rfl⟩
  · rw [hk] at g2
    cases g2
    exact .inr ⟨l0, y, List.append_nil _, rfl⟩

theorem urlopen_bind {β : Type} {k : Except Exc Resp → List Attempt → Ask HOp HRet α} (g : α → Ask HOp HRet β) (ts : List Attempt) :
    ∀ c, (Ask.urlopen r k ts c).bind g = Ask.urlopen r (fun x ts => (k x ts).bind g) ts c := by
  induction ts with
  | nil => exact fun c => rfl
  | cons w ts ih =>
    intro c
    have part : ∀ (o : Option Retry) (e : Exc), (match o with | none => k (.error e) ts | some c => Ask.urlopen r k ts c).bind g =
        match o with | none => (k (.error e) ts).bind g | some c => Ask.urlopen r (fun x ts => (k x ts).bind g) ts c := by
      intro o e
      cases o with
      | none => rfl
      | some c => exact ih c
    unfold Ask.urlopen
    cases w with
    | answered => rfl
    | refused counted e => exact part _ e
    | lost e => exact part _ e
    | noReply e => exact congrArg _ (funext fun _ => part _ e)

/-- What a method makes of the result of another. -/
theorem tried_done {β : Type} (p : Ask Req (Except Exc Resp) α) (g : α → β) : ∀ ts, (p.bind fun a => .done (g a)).tried ts = (p.tried ts).bind fun a => .done (g a) := by
  induction p with
  | done a => exact fun _ => rfl
  | ask r k ih =>
    intro ts
    show Ask.urlopen r _ ts {} = (Ask.urlopen r _ ts {}).bind _
    rw [urlopen_bind]
    exact congrArg (fun k => Ask.urlopen r k ts {}) (funext fun x => funext fun ts => ih x ts)

/-- Requests that are all answered are as good as no oracle. -/
theorem onNet_ok (p : Ask Req (Except Exc Resp) α) : ∀ {fs : List Outcome} (_ : ∀ o ∈ fs, o = .ok) (s : HostBuf) (old : List Req),
    ∃ fs' : List Outcome, (∀ o ∈ fs', o = .ok) ∧ p.onNet env { service := s, fates := fs.map (Fate.mk []), sent := old } =
      ((p.onNet env { service := s, sent := old }).1, { (p.onNet env { service := s, sent := old }).2 with fates := fs'.map (Fate.mk []) }) ∧
      (p.onNet env { service := s, sent := old }).2.fates = [] := by
  induction p with
  | done a => exact fun {fs} h s old => ⟨fs, h, rfl, rfl⟩
  | ask r k ih =>
    intro fs h s old
    cases fs with
    | nil =>
      refine ⟨[], nofun, ?_, ?_⟩
      · obtain ⟨fs', -, -, h3⟩ := ih (HRet.received (HThr.result env (.req r.wire) s)) (fs := []) nofun (HostBuf.step env (.req r.wire) s) (old ++ [r])
        have : ((Ask.ask r k).onNet env { service := s, sent := old }).2.fates = [] := h3
        show (Ask.ask r k).onNet env { service := s, sent := old } = _
        generalize (Ask.ask r k).onNet env { service := s, sent := old } = y at this
        obtain ⟨y, n⟩ := y
        obtain ⟨n1, n2, n3⟩ := n
        cases (this : n2 = [])
        rfl
      · obtain ⟨fs', -, -, h3⟩ := ih (HRet.received (HThr.result env (.req r.wire) s)) (fs := []) nofun (HostBuf.step env (.req r.wire) s) (old ++ [r])
        exact h3
    | cons o fs =>
      cases h o List.mem_cons_self
      exact ih (HRet.received (HThr.result env (.req r.wire) s)) (fun o ho => h o (List.mem_cons_of_mem _ ho)) (HostBuf.step env (.req r.wire) s) (old ++ [r])

theorem run_ok (cs : List HMCall) : ∀ {fs : List Outcome} (_ : ∀ o ∈ fs, o = .ok) (m : HMirror) (s : HostBuf) (old : List Req),
    ∃ fs' : List Outcome, HMirror.run env cs (m, { service := s, fates := fs.map (Fate.mk []), sent := old }) =
      ((HMirror.run env cs (m, { service := s, sent := old })).1, ((HMirror.run env cs (m, { service := s, sent := old })).2.1,
        { (HMirror.run env cs (m, { service := s, sent := old })).2.2 with fates := fs'.map (Fate.mk []) })) ∧
      (HMirror.run env cs (m, { service := s, sent := old })).2.2.fates = [] := by
  induction cs with
  | nil => exact fun {fs} h m s old => ⟨fs, rfl, rfl⟩
  | cons c cs ih =>
    intro fs h m s old
    obtain ⟨fs1, h1, h2, h3⟩ := onNet_ok (env := env) (HMAsk.exec c m) h s old
    have e0 : HMirror.exec env c (m, { service := s, sent := old }) = (((HMAsk.exec c m).onNet env { service := s, sent := old }).1.1,
        (((HMAsk.exec c m).onNet env { service := s, sent := old }).1.2, ((HMAsk.exec c m).onNet env { service := s, sent := old }).2)) := by
      rw [HMAsk.exec_onNet]
    have e1 : HMirror.exec env c (m, { service := s, fates := fs.map (Fate.mk []), sent := old }) =
        (((HMAsk.exec c m).onNet env { service := s, sent := old }).1.1, (((HMAsk.exec c m).onNet env { service := s, sent := old }).1.2,
          { ((HMAsk.exec c m).onNet env { service := s, sent := old }).2 with fates := fs1.map (Fate.mk []) })) := by
      rw [HMAsk.exec_onNet, h2]
    generalize (HMAsk.exec c m).onNet env { service := s, sent := old } = y at e0 e1 h3
    obtain ⟨⟨y1, y2⟩, n1, n2, n3⟩ := y
    cases (h3 : n2 = [])
    obtain ⟨fs2, g1, g2⟩ := ih h1 y2 n1 n3
    refine ⟨fs2, ?_, ?_⟩
    · simp only [HMirror.run, e0, e1, g1]
    · simp only [HMirror.run, e0, g2]

end SyncStream
