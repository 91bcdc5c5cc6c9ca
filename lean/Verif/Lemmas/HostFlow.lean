import Verif.Lemmas.HostSections
import Verif.Lemmas.ProcFlow
import Verif.Props.HostMirror
/-!
# What the moments of the calls on a host mirror post and keep
-/

namespace SyncStream
open Spec LineBuf Conc PFlow

namespace HFlow

/-- Moments that take nothing away. -/
def SecOk : HSec → Prop
  | .clear => False
  | .shut => False
  | _ => True

/-- The answers an open mirror gives. -/
def AnsOk : HSec × HAns → Prop
  | (.isClosed, a) => a.1 = .bool false
  | (.ask, a) => a.1 = .unit ∨ ∃ e, a.1 = .exc e
  | (.check, a) => a.1 = .unit ∨ ∃ e, a.1 = .exc e
  | (.due _, a) => (∃ b, a.1 = .bool b) ∨ ∃ e, a.1 = .exc e
  | (.rest _, a) => (∃ n, a.1 = .nat n) ∨ ∃ e, a.1 = .exc e
  | (.post _, a) => a.1 = .unit ∨ ∃ e, a.1 = .exc e
  | (.read, a) => ∃ t, a.1 = .text t
  | (.flush, a) => a.1 = .unit
  | _ => True

/-- What a moment adds to the buffer. -/
def piece (ag : Bool) : HSec × HAns → List PyStr
  | (.rest d, a) => if ag && hostFailed a.1 then [] else [d]
  | _ => []

/-- What a moment posts directly. -/
def putOf : HSec × HAns → List (Bool × Json)
  | (.post m, (.exc _, b)) => if b then [(false, m)] else []
  | (.post m, _) => [(true, m)]
  | _ => []

/-- The moment leaves the buffer empty. -/
def Flushes (y : HSec × HAns) : Prop := (∃ c b, y = (.due c, (.bool false, b))) ∨ ∃ n b, y = (.rest (lit "\n"), (.nat n, b))

theorem postRest_open (env : HEnv) (m : HMirror) (p d : PyStr) (n : HNet) :
    postRest env d (m.withBuf p, n) =
      if m.aggressive then
        ((HMirror.netText env d n).1.map fun _ => d.length, (m.withBuf p, (HMirror.netText env d n).2))
      else if NoBreak d then (.ok d.length, (m.withBuf (p ++ d), n))
      else
        match HMirror.netText env (p ++ d) n with
        | (.ok _, n') => (.ok d.length, (m.withBuf [], n'))
        | (.error e, n') => (.error e, (m.withBuf (p ++ d), n')) :=
  HMirror.writeCore_open env false m p d n

theorem askState_open (env : HEnv) (m : HMirror) (p : PyStr) (n : HNet) :
    askState env (m.withBuf p, n) = ((HNet.check env n).1, (m.withBuf p, (HNet.check env n).2)) := by
  have := HMirror.checkStates_open env m p n
  unfold HMirror.checkStates at this
  rwa [Py.bind_ok (HMirror.closed_open m p n)] at this

theorem lineDue_open (env : HEnv) (c : Bool) (m : HMirror) (p : PyStr) (n : HNet) :
    lineDue env c (m.withBuf p, n) = if p = [] then (.ok false, (m.withBuf p, n)) else
      ((HMirror.netCheck env c n).1.map fun _ => true, (m.withBuf p, (HMirror.netCheck env c n).2)) := by
  unfold lineDue
  rw [Py.bind_ok (HMirror.onBuf_tell m p n)]
  by_cases h : p = []
  · subst h; rfl
  · have hp : p.length > 0 := List.length_pos_iff.2 h
    rw [if_pos hp, if_neg h]
    cases c with
    | false => rfl
    | true =>
      show (HMirror.checkStates env >>= fun _ => pure true) (m.withBuf p, n) = _
      have e := HMirror.checkStates_open env m p n
      show _ = ((HNet.check env n).1.map _, (m.withBuf p, (HNet.check env n).2))
      cases h1 : (HNet.check env n).1 with
      | ok u => rw [h1] at e; rw [Py.bind_ok e]; rfl
      | error er => rw [h1] at e; rw [Py.bind_error e]; rfl

theorem bodies_append (a b : List Req) : postBodies (a ++ b) = postBodies a ++ postBodies b := List.filterMap_append

theorem bodies_check (env : HEnv) (n : HNet) : postBodies (HNet.check env n).2.sent = postBodies n.sent := by
  rcases HNet.check_sent env n with h | h
  · rw [h]
  · rw [h, bodies_append]
    exact List.append_nil _

theorem bodies_netCheck (env : HEnv) (c : Bool) (n : HNet) : postBodies (HMirror.netCheck env c n).2.sent = postBodies n.sent := by
  cases c
  · rfl
  · exact bodies_check env n

variable (ag : Bool)

/-- What the moments have added to the buffer. -/
def piecesIn (l : List (Nat × HSec × HAns)) : List PyStr := l.flatMap fun y => piece ag y.2

/-- What thread `i` has added. -/
def piecesBy (i : Nat) (l : List (Nat × HSec × HAns)) : List PyStr := l.flatMap fun y => if y.1 = i then piece ag y.2 else []

/-- What thread `i` has posted directly. -/
def putsBy (i : Nat) (l : List (Nat × HSec × HAns)) : List (Bool × Json) := l.flatMap fun y => if y.1 = i then putOf y.2 else []

/-- The mirror is open. -/
structure Good (s : HMNet) : Prop where
  mirror : s.1 = s.1.withBuf s.1.buf.buf
  aggr : s.1.aggressive = ag
  empty : ag = true → s.1.buf.buf = []

/-- What the moments `l` post and keep. -/
structure Flow (s : HMNet) (l : List (Nat × HSec × HAns)) (t : HMNet) (ps : List HPost) : Prop where
  good : Good ag t
  posts : postBodies t.2.sent = postBodies s.2.sent ++ ps.map HPost.msg
  text : ackedText ps ++ t.1.buf.buf = s.1.buf.buf ++ (piecesIn ag l).flatten
  again : ag = false → ∀ pre j d post, ps = pre ++ .text j false d :: post → d <+: ackedText post ++ t.1.buf.buf
  direct : ∀ i, postedBy i ps = putsBy i l
  ans : ∀ y ∈ l, AnsOk y.2
  lost : ∀ j d, HPost.text j false d ∈ ps → ∃ y ∈ l, y.1 = j ∧ hostFailed y.2.2.1 = true

variable {ag}

theorem piecesIn_append (l l' : List (Nat × HSec × HAns)) : piecesIn ag (l ++ l') = piecesIn ag l ++ piecesIn ag l' := List.flatMap_append
theorem piecesBy_append (i : Nat) (l l' : List (Nat × HSec × HAns)) : piecesBy ag i (l ++ l') = piecesBy ag i l ++ piecesBy ag i l' :=
  List.flatMap_append
theorem putsBy_append (i : Nat) (l l' : List (Nat × HSec × HAns)) : putsBy i (l ++ l') = putsBy i l ++ putsBy i l' := List.flatMap_append
theorem ackedText_append (a b : List HPost) : ackedText (a ++ b) = ackedText a ++ ackedText b := List.flatMap_append
theorem postedBy_append (i : Nat) (a b : List HPost) : postedBy i (a ++ b) = postedBy i a ++ postedBy i b := List.filterMap_append

theorem Flow.nil {s : HMNet} (h : Good ag s) : Flow ag s [] s [] :=
  ⟨h, by simp, by simp [ackedText, piecesIn], fun _ pre j d post h => absurd h (by simp), fun _ => rfl, nofun, nofun⟩

theorem Flow.append {s t u : HMNet} {l l' : List (Nat × HSec × HAns)} {ps ps' : List HPost} (h : Flow ag s l t ps) (h' : Flow ag t l' u ps') :
    Flow ag s (l ++ l') u (ps ++ ps') where
  good := h'.good
  posts := by rw [h'.posts, h.posts]; simp
  text := by
    rw [ackedText_append, List.append_assoc, h'.text, ← List.append_assoc, h.text, piecesIn_append]
    simp
  again ha pre j d post e := by
    rcases List.append_eq_append_iff.1 e with ⟨a, e1, e2⟩ | ⟨a, e1, e2⟩
    · exact h'.again ha a j d post e2
    · cases a with
      | nil => exact h'.again ha [] j d post e2.symm
      | cons x a =>
        obtain ⟨rfl, rfl⟩ := List.cons.inj e2
        obtain ⟨w, hw⟩ := h.again ha pre j d a e1
        show d <+: ackedText (a ++ ps') ++ u.1.buf.buf
        rw [ackedText_append, List.append_assoc, h'.text, ← List.append_assoc, ← hw, List.append_assoc]
        exact List.prefix_append _ _
  direct i := by rw [postedBy_append, h.direct, h'.direct, putsBy_append]
  ans y hy := (List.mem_append.1 hy).elim (h.ans y) (h'.ans y)
  lost j d hd := by
    rcases List.mem_append.1 hd with hd | hd
    · obtain ⟨y, hy, g⟩ := h.lost j d hd
      exact ⟨y, List.mem_append_left _ hy, g⟩
    · obtain ⟨y, hy, g⟩ := h'.lost j d hd
      exact ⟨y, List.mem_append_right _ hy, g⟩

/-- A moment. -/
theorem Good.step {env : HEnv} {s : HMNet} (h : Good ag s) (i : Nat) (x : HSec) (hx : SecOk x) :
    ∃ ps, Flow ag s [(i, x, (x.exec env s).1)] (x.exec env s).2 ps ∧
      (Flushes (x, (x.exec env s).1) → (x.exec env s).2.1.buf.buf = []) ∧
      ∀ m, x = .post m → (x.exec env s).1.1 = .unit → ps = [.direct i true m] := by
  obtain ⟨m, n⟩ := s
  obtain ⟨h1, rfl, h3⟩ := h
  dsimp only at h1 h3
  generalize m.buf.buf = t at h1 h3
  have quiet : ∀ (x : HSec) (a : HAns) (n' : HNet), x.exec env (m, n) = (a, (m, n')) → AnsOk (x, a) → putOf (x, a) = [] →
      (∀ g, piece g (x, a) = []) → postBodies n'.sent = postBodies n.sent → (Flushes (x, a) → m.buf.buf = []) → (∀ j, x ≠ .post j) →
      ∃ ps, Flow m.aggressive (m, n) [(i, x, (x.exec env (m, n)).1)] (x.exec env (m, n)).2 ps ∧
      (Flushes (x, (x.exec env (m, n)).1) → (x.exec env (m, n)).2.1.buf.buf = []) ∧
      ∀ m', x = .post m' → (x.exec env (m, n)).1.1 = .unit → ps = [.direct i true m'] := by
    intro x a n' e g1 g2 g3 g4 g5 g6
    rw [e]
    refine ⟨[], ⟨⟨?_, rfl, ?_⟩, by simpa using g4, by simp [ackedText, piecesIn, g3], fun _ pre j d post h => absurd h (by simp), fun j => ?_, fun y hy => ?_, nofun⟩, g5,
      fun m' hm => absurd hm (g6 m')⟩
    · show m = m.withBuf m.buf.buf
      rw [h1]; rfl
    · show m.aggressive = true → m.buf.buf = []
      rw [h1]; exact h3
    · by_cases hj : i = j <;> simp [postedBy, putsBy, g2, hj]
    · cases List.mem_singleton.1 hy; exact g1
  have hb : m.buf.buf = t := by rw [h1]; rfl
  cases x with
  | clear => exact hx.elim
  | shut => exact hx.elim
  | isClosed =>
    refine quiet .isClosed (.bool false, false) n ?_ rfl rfl (fun _ => rfl) rfl ?_ nofun
    · show ((HMRet.bool m.buf.closed, decide (n.sent.length < n.sent.length)), (m, n)) = _
      rw [show m.buf.closed = false by rw [h1]; rfl]
      simp
    · rintro (⟨_, _, h⟩ | ⟨_, _, h⟩) <;> cases h
  | ask =>
    have e := askState_open env m t n
    rw [← h1] at e
    refine quiet .ask (HMRet.of (fun _ => .unit) (HNet.check env n).1, decide (n.sent.length < (HNet.check env n).2.sent.length)) (HNet.check env n).2
      ?_ ?_ rfl (fun _ => rfl) (bodies_check env n) ?_ nofun
    · show (let (r, s') := (let (r, s') := askState env (m, n); (HMRet.of (fun _ => HMRet.unit) r, s'));
        ((r, decide (n.sent.length < s'.2.sent.length)), s')) = _
      rw [e]
    · cases (HNet.check env n).1 with
      | ok _ => exact .inl rfl
      | error er => exact .inr ⟨er, rfl⟩
    · rintro (⟨_, _, h⟩ | ⟨_, _, h⟩) <;> cases h
  | check =>
    have e := HMirror.checkStates_open env m t n
    rw [← h1] at e
    refine quiet .check (HMRet.of (fun _ => .unit) (HNet.check env n).1, decide (n.sent.length < (HNet.check env n).2.sent.length)) (HNet.check env n).2
      ?_ ?_ rfl (fun _ => rfl) (bodies_check env n) ?_ nofun
    · show (let (r, s') := (let (r, s') := HMirror.checkStates env (m, n); (HMRet.of (fun _ => HMRet.unit) r, s'));
        ((r, decide (n.sent.length < s'.2.sent.length)), s')) = _
      rw [e]
    · cases (HNet.check env n).1 with
      | ok _ => exact .inl rfl
      | error er => exact .inr ⟨er, rfl⟩
    · rintro (⟨_, _, h⟩ | ⟨_, _, h⟩) <;> cases h
  | due c =>
    have e := lineDue_open env c m t n
    rw [← h1] at e
    have e' : (HSec.due c).exec env (m, n) = ((HMRet.of .bool (lineDue env c (m, n)).1,
        decide (n.sent.length < (lineDue env c (m, n)).2.2.sent.length)), (lineDue env c (m, n)).2) := rfl
    by_cases ht : t = []
    · rw [if_pos ht] at e
      rw [e] at e'
      exact quiet (.due c) _ n e' (.inl ⟨false, rfl⟩) rfl (fun _ => rfl) rfl (fun _ => hb.trans ht) nofun
    · rw [if_neg ht] at e
      rw [e] at e'
      refine quiet (.due c) _ _ e' ?_ rfl (fun _ => rfl) (bodies_netCheck env c n) ?_ nofun
      · cases (HMirror.netCheck env c n).1 with
        | ok _ => exact .inl ⟨true, rfl⟩
        | error er => exact .inr ⟨er, rfl⟩
      · cases (HMirror.netCheck env c n).1 <;> rintro (⟨_, _, h⟩ | ⟨_, _, h⟩) <;> cases h
  | read =>
    have e := HMirror.onBuf_getvalue m t n
    rw [← h1] at e
    refine quiet .read (.text t, false) n ?_ ⟨t, rfl⟩ rfl (fun _ => rfl) rfl ?_ nofun
    · show (let (r, s') := (let (r, s') := HMirror.onBuf StringIO.getvalue (m, n); (HMRet.of HMRet.text r, s'));
        ((r, decide (n.sent.length < s'.2.sent.length)), s')) = _
      rw [e]
      simp [HMRet.of]
    · rintro (⟨_, _, h⟩ | ⟨_, _, h⟩) <;> cases h
  | flush =>
    refine quiet .flush (.unit, false) n ?_ rfl rfl (fun _ => rfl) rfl ?_ nofun
    · have e : HMirror.flush (m, n) = (.ok (), (m, n)) := by
        rw [h1]; simp [HMirror.flush, HMirror.onBuf, HMirror.withBuf, StringIO.flush, StringIO.check]
      show (let (r, s') := (let (r, s') := HMirror.flush (m, n); (HMRet.of (fun _ => HMRet.unit) r, s'));
        ((r, decide (n.sent.length < s'.2.sent.length)), s')) = _
      rw [e]
      simp [HMRet.of]
    · rintro (⟨_, _, h⟩ | ⟨_, _, h⟩) <;> cases h
  | post j =>
    have e := HMirror.expectOk_apply env (.post (.json j)) m n
    have e' : (HSec.post j).exec env (m, n) = ((HMRet.of (fun _ => .unit) (HMirror.expectOk env (.post (.json j)) (m, n)).1,
        decide (n.sent.length < (HMirror.expectOk env (.post (.json j)) (m, n)).2.2.sent.length)),
        (HMirror.expectOk env (.post (.json j)) (m, n)).2) := rfl
    rw [e] at e'
    dsimp only at e'
    have g := HNet.expectOk_spec env (.post (.json j)) n
    rw [e']
    generalize HNet.expectOk env (.post (.json j)) n = q at g
    obtain ⟨r, n'⟩ := q
    dsimp only at g ⊢
    have good : Good m.aggressive (m, n') := ⟨by show m = m.withBuf m.buf.buf; rw [h1]; rfl, rfl, fun h => hb.trans (h3 h)⟩
    have nofl : ∀ a, ¬ Flushes (.post j, a) := by rintro a (⟨_, _, h⟩ | ⟨_, _, h⟩) <;> cases h
    have noag : ∀ b (pre : List HPost) k d post, [HPost.direct i b j] = pre ++ .text k false d :: post → False := by
      intro b pre k d post h
      have : HPost.text k false d ∈ [HPost.direct i b j] := by rw [h]; simp
      simp at this
    rcases g with g | ⟨g, er, rfl⟩
    · have hl : decide (n.sent.length < n'.sent.length) = true := by rw [g]; simp
      rw [hl]
      have hp : ∀ b, postBodies n'.sent = postBodies n.sent ++ [HPost.direct i b j].map HPost.msg := by
        intro b; rw [g, bodies_append]; rfl
      cases r with
      | ok u =>
        refine ⟨[.direct i true j], ⟨good, hp true, by simp [ackedText, piecesIn, piece], fun _ pre k d post h => (noag _ _ _ _ _ h).elim,
          fun k => ?_, fun y hy => ?_, fun _ _ h => by simp at h⟩, fun h => (nofl _ h).elim, fun m' hm _ => by cases hm; rfl⟩
        · by_cases hk : i = k <;> simp [postedBy, putsBy, putOf, HMRet.of, hk]
        · cases List.mem_singleton.1 hy; exact .inl rfl
      | error er =>
        refine ⟨[.direct i false j], ⟨good, hp false, by simp [ackedText, piecesIn, piece], fun _ pre k d post h => (noag _ _ _ _ _ h).elim,
          fun k => ?_, fun y hy => ?_, fun _ _ h => by simp at h⟩, fun h => (nofl _ h).elim, fun m' _ h => by cases h⟩
        · by_cases hk : i = k <;> simp [postedBy, putsBy, putOf, HMRet.of, hk]
        · cases List.mem_singleton.1 hy; exact .inr ⟨er, rfl⟩
    · have hl : decide (n.sent.length < n'.sent.length) = false := by rw [g]; simp
      rw [hl]
      refine ⟨[], ⟨good, by simp [g], by simp [ackedText, piecesIn, piece], fun _ pre k d post h => absurd h (by simp),
        fun k => ?_, fun y hy => ?_, nofun⟩, fun h => (nofl _ h).elim, fun m' _ h => by cases h⟩
      · by_cases hk : i = k <;> simp [postedBy, putsBy, putOf, HMRet.of, hk]
      · cases List.mem_singleton.1 hy; exact .inr ⟨er, rfl⟩
  | rest d =>
    have e := postRest_open env m t d n
    rw [← h1] at e
    have e' : (HSec.rest d).exec env (m, n) = ((HMRet.of .nat (postRest env d (m, n)).1,
        decide (n.sent.length < (postRest env d (m, n)).2.2.sent.length)), (postRest env d (m, n)).2) := rfl
    have nop : ∀ (q : HAns) (ps : List HPost), ∀ m', HSec.rest d = .post m' → q.1 = .unit → ps = [.direct i true m'] := nofun
    have dir : ∀ (a : HAns) (b : Bool) (w : PyStr) k, postedBy k [.text i b w] = putsBy k [(i, HSec.rest d, a)] := by
      intro a b w k; simp [postedBy, putsBy, putOf]
    have dir0 : ∀ (a : HAns) k, postedBy k [] = putsBy k [(i, HSec.rest d, a)] := by
      intro a k; simp [postedBy, putsBy, putOf]
    have sent : ∀ w, (∃ b, (HMirror.netText env w n).2.sent = n.sent ++ [.post (.json (HMirror.strMsg w))] ∧
        (b = true ↔ ∃ u, (HMirror.netText env w n).1 = .ok u) ∧
        postBodies (HMirror.netText env w n).2.sent = postBodies n.sent ++ [HPost.text i b w].map HPost.msg) ∨
        ((HMirror.netText env w n).2.sent = n.sent ∧ ∃ e, (HMirror.netText env w n).1 = .error e) := by
      intro w
      rcases HNet.expectOk_spec env (.post (.json (HMirror.strMsg w))) n with g | g
      · refine .inl ?_
        have gb : ∀ b, postBodies (HMirror.netText env w n).2.sent = postBodies n.sent ++ [HPost.text i b w].map HPost.msg := by
          intro b
          rw [show (HMirror.netText env w n).2.sent = _ from g, bodies_append]; rfl
        cases h : (HMirror.netText env w n).1 with
        | ok u => exact ⟨true, g, by simp, gb _⟩
        | error er => exact ⟨false, g, by simp, gb _⟩
      · exact .inr g
    have one : ∀ (b : Bool) (w : PyStr) (pre : List HPost) k d' post, [HPost.text i b w] = pre ++ .text k false d' :: post →
        b = false ∧ d' = w ∧ post = [] := by
      intro b w pre k d' post h
      cases pre with
      | nil => cases h; exact ⟨rfl, rfl, rfl⟩
      | cons x pre => have := congrArg List.length h; simp at this
    have good' : ∀ w n', (m.aggressive = true → w = []) → Good m.aggressive (m.withBuf w, n') := fun w n' h => ⟨rfl, rfl, h⟩
    by_cases hag : m.aggressive = true
    · rw [if_pos hag] at e
      have ht := h3 hag
      subst ht
      rw [e] at e'
      dsimp only at e'
      rw [e']
      have hm : m.withBuf [] = m := h1.symm
      rcases sent d with ⟨b, g1, g2, g3⟩ | ⟨g1, er, g2⟩
      · cases hr : (HMirror.netText env d n).1 with
        | ok u =>
          obtain rfl : b = true := g2.2 ⟨u, hr⟩
          refine ⟨[.text i true d], ⟨?_, g3, ?_, fun h => ?_, dir _ _ _, fun y hy => ?_, fun _ _ h => by simp at h⟩, fun _ => hb, nop _ _⟩
          · simpa [hm] using good' [] (HMirror.netText env d n).2 fun _ => rfl
          · simp [ackedText, piecesIn, piece, hostFailed, HMRet.of, Except.map, hb]
          · simp [hag] at h
          · cases List.mem_singleton.1 hy; exact .inl ⟨_, rfl⟩
        | error er =>
          obtain rfl : b = false := by
            cases b with
            | false => rfl
            | true => obtain ⟨u, h⟩ := g2.1 rfl; rw [hr] at h; cases h
          refine ⟨[.text i false d], ⟨?_, g3, ?_, fun h => ?_, dir _ _ _, fun y hy => ?_, fun _ _ h => ⟨_, List.mem_singleton_self _, by simp at h; exact h.1.symm, rfl⟩⟩, fun _ => hb, nop _ _⟩
          · simpa [hm] using good' [] (HMirror.netText env d n).2 fun _ => rfl
          · simp [ackedText, piecesIn, piece, hostFailed, HMRet.of, Except.map, hb, hag]
          · simp [hag] at h
          · cases List.mem_singleton.1 hy; exact .inr ⟨_, rfl⟩
      · rw [g2]
        refine ⟨[], ⟨?_, by simp [g1], ?_, fun h => ?_, dir0 _, fun y hy => ?_, nofun⟩, fun _ => hb, nop _ _⟩
        · simpa [hm] using good' [] (HMirror.netText env d n).2 fun _ => rfl
        · simp [ackedText, piecesIn, piece, hostFailed, HMRet.of, Except.map, hb, hag]
        · simp [hag] at h
        · cases List.mem_singleton.1 hy; exact .inr ⟨_, rfl⟩
    · have hag' : m.aggressive = false := by simpa using hag
      have gd : ∀ w n', Good m.aggressive (m.withBuf w, n') := fun w n' => good' w n' fun h => absurd h hag
      rw [if_neg hag] at e
      by_cases hbr : NoBreak d
      · rw [if_pos hbr] at e
        rw [e] at e'
        dsimp only at e'
        rw [e']
        refine ⟨[], ⟨gd _ _, by simp, ?_, fun _ pre k d' post h => absurd h (by simp), dir0 _, fun y hy => ?_, nofun⟩, ?_, nop _ _⟩
        · simp [ackedText, piecesIn, piece, hag', HMirror.withBuf, hb]
        · cases List.mem_singleton.1 hy; exact .inl ⟨_, rfl⟩
        · rintro (⟨_, _, h⟩ | ⟨_, _, h⟩)
          · cases h
          · cases h
            exact absurd hbr (by decide)
      · rw [if_neg hbr] at e
        rcases sent (t ++ d) with ⟨b, g1, g2, g3⟩ | ⟨g1, er, g2⟩
        · generalize HMirror.netText env (t ++ d) n = q at e g1 g2 g3
          obtain ⟨r, n'⟩ := q
          cases r with
          | ok u =>
            obtain rfl : b = true := g2.2 ⟨u, rfl⟩
            rw [e] at e'
            dsimp only at e'
            rw [e']
            refine ⟨[.text i true (t ++ d)], ⟨gd _ _, g3, ?_, fun _ pre k d' post h => ?_, dir _ _ _, fun y hy => ?_, fun _ _ h => by simp at h⟩, fun _ => rfl, nop _ _⟩
            · simp [ackedText, piecesIn, piece, hag', HMirror.withBuf, hb]
            · cases (one _ _ _ _ _ _ h).1
            · cases List.mem_singleton.1 hy; exact .inl ⟨_, rfl⟩
          | error er =>
            obtain rfl : b = false := by
              cases b with
              | false => rfl
              | true => obtain ⟨u, h⟩ := g2.1 rfl; cases h
            rw [e] at e'
            dsimp only at e'
            rw [e']
            refine ⟨[.text i false (t ++ d)], ⟨gd _ _, g3, ?_, fun _ pre k d' post h => ?_, dir _ _ _, fun y hy => ?_, fun _ _ h => ⟨_, List.mem_singleton_self _, by simp at h; exact h.1.symm, rfl⟩⟩, ?_, nop _ _⟩
            · simp [ackedText, piecesIn, piece, hag', HMirror.withBuf, hb]
            · obtain ⟨_, rfl, rfl⟩ := one _ _ _ _ _ _ h
              simp [ackedText, HMirror.withBuf]
            · cases List.mem_singleton.1 hy; exact .inr ⟨_, rfl⟩
            · rintro (⟨_, _, h⟩ | ⟨_, _, h⟩) <;> cases h
        · generalize HMirror.netText env (t ++ d) n = q at e g1 g2
          obtain ⟨r, n'⟩ := q
          dsimp only at g2
          subst g2
          rw [e] at e'
          dsimp only at e'
          rw [e']
          refine ⟨[], ⟨gd _ _, by simpa using congrArg postBodies g1, ?_, fun _ pre k d' post h => absurd h (by simp), dir0 _, fun y hy => ?_, nofun⟩, ?_, nop _ _⟩
          · simp [ackedText, piecesIn, piece, hag', HMirror.withBuf, hb]
          · cases List.mem_singleton.1 hy; exact .inr ⟨_, rfl⟩
          · rintro (⟨_, _, h⟩ | ⟨_, _, h⟩) <;> cases h

/-- The service as in the history. -/
def Acts (env : HEnv) (s : HMNet) (_ : Nat) (x : HSec) (a : HAns) (t : HMNet) : Prop := x.exec env s = (a, t)

theorem Good.serves {env : HEnv} {s t : HMNet} {l : List (Nat × HSec × HAns)} (hs : Serves (Acts env) s l t) (h : Good ag s)
    (hl : ∀ y ∈ l, SecOk y.2.1) : ∃ ps, Flow ag s l t ps := by
  induction hs with
  | nil => exact ⟨[], .nil h⟩
  | cons s t u i x a l h1 _ ih =>
    obtain ⟨ps, hf, _⟩ := h.step (env := env) i x (hl _ List.mem_cons_self)
    have h1 : x.exec env s = (a, t) := h1
    rw [h1] at hf
    obtain ⟨ps', hf'⟩ := ih hf.good fun y hy => hl y (List.mem_cons_of_mem _ hy)
    exact ⟨_, hf.append hf'⟩

/-- The pieces of the threads, interleaved. -/
theorem merge_pieces {N : Nat} (l : List (Nat × HSec × HAns)) (hl : ∀ y ∈ l, y.1 < N) :
    Merge ((List.range N).map fun i => piecesBy ag i l) (piecesIn ag l) := by
  have w : ∀ f : Nat → List PyStr, writtenIn (fun _ => 0) 0 N f = (List.range N).map f := by
    intro f; simp [writtenIn]
  rw [← w]
  induction l using List.reverseRecOn with
  | nil =>
    refine .done _ fun x hx => ?_
    obtain ⟨i, _, rfl⟩ := List.mem_map.1 hx
    exact ite_self _
  | append_singleton l y ih =>
    have ih := ih fun z hz => hl z (List.mem_append_left _ hz)
    have e : (fun i => piecesBy ag i (l ++ [y])) = upd (fun i => piecesBy ag i l) y.1 (piecesBy ag y.1 l ++ piece ag y.2) := by
      funext i
      rw [piecesBy_append]
      by_cases hi : y.1 = i
      · subst hi
        rw [upd_same]
        simp [piecesBy]
      · rw [upd_other _ _ (Ne.symm hi)]
        simp [piecesBy, hi]
    rw [e, piecesIn_append, writtenIn_upd (proc := fun _ => 0) rfl]
    have := merge_append ih y.1 _ (piece ag y.2) (writtenIn_get (hl y (by simp)) rfl)
    simpa [piecesIn] using this

/-! ## The calls -/

/-- The result, if the call is over. -/
def result : Ask HSec HAns HMRet → Option HMRet
  | .done r => some r
  | .ask _ _ => none

/-- Whatever is answered, the moments so far and the result, if the call is over, are as `Q` says. -/
def Out (c : Ask HSec HAns HMRet) (Q : List (HSec × HAns) → Option HMRet → Prop) : Prop :=
  ∀ l c', Asks c l c' → (∀ y ∈ l, AnsOk y) → Q l (result c')

variable {Q : List (HSec × HAns) → Option HMRet → Prop} {K : HMRet → Ask HSec HAns HMRet}

theorem Out.done {r : HMRet} (h : Q [] (some r)) : Out (.done r) Q := by
  intro l c' hl _
  cases hl
  exact h

theorem Out.andThen {x : HSec} (h0 : Q [] none)
    (he : ∀ e b, AnsOk (x, (.exc e, b)) → Q [(x, (.exc e, b))] (some (.exc e)))
    (hk : ∀ a b, AnsOk (x, (a, b)) → (∀ e, a ≠ .exc e) → Out (K a) fun l r => Q ((x, (a, b)) :: l) r) : Out (HSec.andThen x K) Q := by
  intro l c' hl ha
  cases hl with
  | nil => exact h0
  | cons _ a _ l _ hl =>
    have h1 := ha _ List.mem_cons_self
    have h2 : ∀ y ∈ l, AnsOk y := fun y hy => ha y (List.mem_cons_of_mem _ hy)
    obtain ⟨a, b⟩ := a
    cases a with
    | exc e =>
      cases hl
      exact he e b h1
    | _ => exact hk _ b h1 nofun l c' hl h2

theorem Out.isClosed (h0 : Q [] none)
    (hk : ∀ b, Out (K (.bool false)) fun l r => Q ((.isClosed, (.bool false, b)) :: l) r) : Out (HSec.andThen .isClosed K) Q :=
  .andThen h0 (fun _ _ h => nomatch h) fun a b h _ => by cases (show a = _ from h); exact hk b

/-- A moment that has no result. -/
theorem Out.plain {x : HSec} (hx : ∀ a, AnsOk (x, a) → a.1 = .unit ∨ ∃ e, a.1 = .exc e) (h0 : Q [] none)
    (he : ∀ e b, Q [(x, (.exc e, b))] (some (.exc e)))
    (hk : ∀ b, Out (K .unit) fun l r => Q ((x, (.unit, b)) :: l) r) : Out (HSec.andThen x K) Q :=
  .andThen h0 (fun e b _ => he e b) fun a b h hn => by
    rcases hx _ h with h | ⟨e, h⟩
    · cases (show a = _ from h); exact hk b
    · exact absurd h (hn e)

theorem Out.rest {d : PyStr} (h0 : Q [] none)
    (he : ∀ e b, Q [(.rest d, (.exc e, b))] (some (.exc e)))
    (hk : ∀ n b, Out (K (.nat n)) fun l r => Q ((.rest d, (.nat n, b)) :: l) r) : Out (HSec.andThen (.rest d) K) Q :=
  .andThen h0 (fun e b _ => he e b) fun a b h hn => by
    rcases (show (∃ n, a = .nat n) ∨ ∃ e, a = .exc e from h) with ⟨n, rfl⟩ | ⟨e, rfl⟩
    · exact hk n b
    · exact absurd rfl (hn e)

theorem Out.newLine {c : Bool} {k : Ask HSec HAns HMRet} (h0 : Q [] none)
    (h1 : ∀ e b, Q [(.due c, (.exc e, b))] (some (.exc e))) (h2 : ∀ b, Q [(.due c, (.bool true, b))] none)
    (he : ∀ e b b', Q [(.due c, (.bool true, b)), (.rest (lit "\n"), (.exc e, b'))] (some (.exc e)))
    (hk : ∀ b, Out k fun l r => Q ((.due c, (.bool false, b)) :: l) r)
    (hk' : ∀ n b b', Out k fun l r => Q ((.due c, (.bool true, b)) :: (.rest (lit "\n"), (.nat n, b')) :: l) r) : Out (HSec.newLine c k) Q :=
  .andThen h0 (fun e b _ => h1 e b) fun a b h hn => by
    rcases (show (∃ b, a = .bool b) ∨ ∃ e, a = .exc e from h) with ⟨g, rfl⟩ | ⟨e, rfl⟩
    · cases g with
      | true => exact .rest (h2 b) (fun e b' => he e b b') fun n b' => hk' n b b'
      | false => exact hk b
    · exact absurd rfl (hn e)

/-- What a call contributes. -/
def Tells (ag : Bool) (c : HMCall) (l : List (HSec × HAns)) (r : Option HMRet) : Prop :=
  ∃ r', (∀ x, r = some x → r' = x) ∧ HostAdds c r' (l.flatMap (piece ag)) ∧ HostPosts c r' (l.flatMap putOf)

theorem tells_some {c : HMCall} {l : List (HSec × HAns)} {r : HMRet} (h1 : HostAdds c r (l.flatMap (piece ag)))
    (h2 : HostPosts c r (l.flatMap putOf)) : Tells ag c l (some r) := ⟨r, by rintro x ⟨⟩; rfl, h1, h2⟩

theorem adds_nil (c : HMCall) (e : Exc) : HostAdds c (.exc e) [] := by
  cases c <;> first | exact .inl rfl | rfl

theorem tells_begun {c : HMCall} {l : List (HSec × HAns)} (h1 : l.flatMap (piece ag) = []) (h2 : l.flatMap putOf = []) : Tells ag c l none :=
  ⟨.exc .blocked, nofun, by rw [h1]; exact adds_nil _ _, by rw [h2]; exact .inl rfl⟩

theorem tells_failed {c : HMCall} {l : List (HSec × HAns)} (e : Exc) (h1 : l.flatMap (piece ag) = []) (h2 : l.flatMap putOf = []) :
    Tells ag c l (some (.exc e)) :=
  tells_some (by rw [h1]; exact adds_nil _ _) (by rw [h2]; exact .inl rfl)

theorem put_failed {c : HMCall} {m : Json} (hm : hostMessage c = some m) (e : Exc) (b : Bool) : HostPosts c (.exc e) (putOf (.post m, (.exc e, b))) := by
  cases b
  · exact .inl rfl
  · exact .inr ⟨m, hm, rfl⟩

theorem end_tells (ag : Bool) (c : HMCall) (g : Bool) (m : Json) (hA : ∀ r l, HostAdds c r l ↔ (l = [] ∨ l = [lit "\n"])) (hm : hostMessage c = some m) :
    Out (HSec.sendEnd g m (.done .unit)) (Tells ag c) := by
  have none' : ∀ l : List (HSec × HAns), (l.flatMap (piece ag) = [] ∨ l.flatMap (piece ag) = [lit "\n"]) → l.flatMap putOf = [] → Tells ag c l none :=
    fun l h1 h2 => ⟨.exc .blocked, nofun, (hA _ _).2 h1, by rw [h2]; exact .inl rfl⟩
  have some' : ∀ (l : List (HSec × HAns)) e, (l.flatMap (piece ag) = [] ∨ l.flatMap (piece ag) = [lit "\n"]) →
      HostPosts c (.exc e) (l.flatMap putOf) → Tells ag c l (some (.exc e)) :=
    fun l e h1 h2 => tells_some ((hA _ _).2 h1) h2
  have last : ∀ l : List (HSec × HAns), (l.flatMap (piece ag) = [] ∨ l.flatMap (piece ag) = [lit "\n"]) → l.flatMap putOf = [(true, m)] →
      Tells ag c l (some .unit) :=
    fun l h1 h2 => tells_some ((hA _ _).2 h1) (by rw [h2]; unfold HostPosts; rw [hm]; rfl)
  refine .isClosed (none' _ (.inl rfl) rfl) fun b0 => (.newLine (none' _ (.inl rfl) rfl) (fun e b => some' _ _ (.inl rfl) (.inl rfl))
    (fun b => none' _ (.inl rfl) rfl) (fun e b b' => ?_) (fun b => ?_) fun n b b' => ?_)
  · refine some' _ _ ?_ (.inl rfl)
    cases ag
    · exact .inr rfl
    · exact .inl rfl
  · refine .plain (fun _ h => h) (none' _ (.inl rfl) rfl) (fun e b => some' _ _ (.inl rfl) ?_) fun b => .done (last _ (.inl rfl) rfl)
    have := put_failed hm e b
    simpa [putOf] using this
  · have hp : piece ag (.rest (lit "\n"), (.nat n, b')) = [lit "\n"] := by cases ag <;> rfl
    have e : ∀ l, List.flatMap (piece ag) ((.isClosed, (.bool false, b0)) :: (.due g, (.bool true, b)) :: (.rest (lit "\n"), (.nat n, b')) :: l) =
        lit "\n" :: l.flatMap (piece ag) := by
      intro l
      simp only [List.flatMap_cons, hp]
      rfl
    refine .plain (fun _ h => h) (none' _ (.inr (e _)) rfl) (fun er b => some' _ _ (.inr (e _)) ?_) fun b => .done (last _ (.inr (e _)) rfl)
    have := put_failed hm er b
    simpa [putOf] using this

theorem call_tells (ag : Bool) (c : HMCall) (hc : HostKeeps c) : Out (hostMoments c) (Tells ag c) := by
  cases c with
  | write d =>
    refine .isClosed (tells_begun rfl rfl) fun _ => .plain (fun _ h => h) (tells_begun rfl rfl) (fun e _ => tells_failed e rfl rfl) fun _ =>
      .rest (tells_begun rfl rfl) (fun e _ => ?_) fun n _ => .done ?_
    · refine tells_some ?_ (.inl rfl)
      cases ag
      · exact .inr rfl
      · exact .inl rfl
    · refine tells_some ?_ rfl
      cases ag <;> rfl
  | newLine g =>
    refine .newLine (tells_begun rfl rfl) (fun e _ => tells_failed e rfl rfl) (fun _ => tells_begun rfl rfl) (fun e _ _ => ?_)
      (fun _ => .done (tells_some (.inl rfl) rfl)) fun n _ _ => .done ?_
    · refine tells_some ?_ (.inl rfl)
      cases ag
      · exact .inr rfl
      · exact .inl rfl
    · refine tells_some (.inr ?_) rfl
      cases ag <;> rfl
  | read =>
    refine .isClosed (tells_begun rfl rfl) fun _ => .andThen (tells_begun rfl rfl) (fun e _ _ => tells_failed e rfl rfl) fun a _ h _ => .done ?_
    obtain ⟨t, rfl⟩ : ∃ t, a = .text t := h
    exact tells_some rfl rfl
  | clear => exact hc.elim
  | flush =>
    refine .andThen (tells_begun rfl rfl) (fun e _ _ => tells_failed e rfl rfl) fun a _ h _ => .done ?_
    obtain rfl : a = .unit := h
    exact tells_some rfl rfl
  | sendData d =>
    refine .isClosed (tells_begun rfl rfl) fun _ => .plain (fun _ h => h) (tells_begun rfl rfl) (fun e b => tells_some rfl ?_)
      fun _ => .done (tells_some rfl rfl)
    have := put_failed (c := .sendData d) rfl e b
    simpa [putOf] using this
  | sendEof => exact end_tells ag _ _ _ (fun _ _ => Iff.rfl) rfl
  | sendError e => exact end_tells ag _ _ _ (fun _ _ => Iff.rfl) rfl
  | sendWarning e => exact end_tells ag _ _ _ (fun _ _ => Iff.rfl) rfl
  | checkStates =>
    exact .isClosed (tells_begun rfl rfl) fun _ => .plain (fun _ h => h) (tells_begun rfl rfl) (fun e _ => tells_failed e rfl rfl)
      fun _ => .done (tells_some rfl rfl)
  | close e => exact hc.elim
  | closed => exact .isClosed (tells_begun rfl rfl) fun _ => .done (tells_some rfl rfl)
  | readable => exact .isClosed (tells_begun rfl rfl) fun _ => .done (tells_some rfl rfl)
  | writable => exact .isClosed (tells_begun rfl rfl) fun _ => .done (tells_some rfl rfl)
  | setAggressive b => exact hc.elim

/-- An announcement that succeeds: at some moment the buffer is empty, and later the message is posted. -/
def Ordered (m : Json) (l : List (HSec × HAns)) (r : Option HMRet) : Prop :=
  ∀ x, r = some x → hostFailed x = false → ∃ l1 y l2 b l3, l = l1 ++ y :: (l2 ++ (.post m, (.unit, b)) :: l3) ∧ Flushes y

theorem end_ordered (g : Bool) (m : Json) : Out (HSec.sendEnd g m (.done .unit)) (Ordered m) := by
  have bad : ∀ (l : List (HSec × HAns)) (e : Exc), Ordered m l (some (.exc e)) := fun l e x h1 h2 => by cases h1; cases h2
  have none' : ∀ l : List (HSec × HAns), Ordered m l none := fun l => nofun
  refine .isClosed (none' _) fun _ => (.newLine (none' _) (fun e _ => bad _ e) (fun _ => none' _) (fun e _ _ => bad _ e) (fun b1 => ?_) fun n _ b1 => ?_)
  · exact .plain (fun _ h => h) (none' _) (fun e _ => bad _ e) fun b => .done fun _ _ _ => ⟨[_], _, [], b, [], rfl, .inl ⟨g, b1, rfl⟩⟩
  · exact .plain (fun _ h => h) (none' _) (fun e _ => bad _ e) fun b => .done fun _ _ _ => ⟨[_, _], _, [], b, [], rfl, .inr ⟨n, b1, rfl⟩⟩

theorem call_ordered (c : HMCall) (hc : HostAnnounces c) (m : Json) (hm : hostMessage c = some m) : Out (hostMoments c) (Ordered m) := by
  cases c with
  | sendEof => cases hm; exact end_ordered _ _
  | sendError e => cases hm; exact end_ordered _ _
  | sendWarning e => cases hm; exact end_ordered _ _
  | _ => exact hc.elim

theorem asClient_asks {q : Ask HSec HAns HMRet} {l : List (HSec × HAns)} {q' : Ask HSec HAns (HMRet × Unit)} (h : Asks (asClient q) l q') :
    ∃ qm, q' = asClient qm ∧ Asks q l qm := by
  induction q generalizing l with
  | done r =>
    cases h
    exact ⟨_, rfl, .nil _⟩
  | ask x k ih =>
    rw [asClient] at h
    cases h with
    | nil => exact ⟨.ask x k, by rw [asClient], .nil _⟩
    | cons _ a _ l _ h =>
      obtain ⟨qm, h1, h2⟩ := ih a h
      exact ⟨qm, h1, .cons _ _ _ _ _ h2⟩

/-- What a call contributes, to the text and to the posts. -/
theorem hcall_tells (ag : Bool) {c : HMCall} (hc : HostKeeps c) {l : List (HSec × HAns)} {q : Ask HSec HAns (HMRet × Unit)}
    (h : Asks (asClient (hostMoments c)) l q) (ha : ∀ y ∈ l, AnsOk y) :
    ∃ r', (∀ r, q = .done (r, ()) → r' = r) ∧ HostAdds c r' (l.flatMap (piece ag)) ∧ HostPosts c r' (l.flatMap putOf) := by
  obtain ⟨qm, rfl, h1⟩ := asClient_asks h
  obtain ⟨r', h3, h4, h5⟩ := call_tells ag c hc l qm h1 ha
  refine ⟨r', fun r hr => ?_, h4, h5⟩
  cases qm with
  | done r1 => cases hr; exact h3 _ rfl
  | ask x k => rw [asClient] at hr; cases hr

/-- The moments of the calls that take nothing away. -/
theorem within_ok {c : HMCall} (hc : HostKeeps c) : (asClient (hostMoments c)).Within SecOk := by
  have lift : ∀ q : Ask HSec HAns HMRet, q.Within SecOk → (asClient q).Within SecOk := by
    intro q
    induction q with
    | done r => exact fun _ => trivial
    | ask x k ih =>
      intro h
      rw [asClient]
      exact ⟨h.1, fun r => ih r (h.2 r)⟩
  have andThen : ∀ (x : HSec) (K : HMRet → Ask HSec HAns HMRet), SecOk x → (∀ a, (K a).Within SecOk) → (HSec.andThen x K).Within SecOk := by
    intro x K h1 h2
    refine ⟨h1, fun r => ?_⟩
    obtain ⟨r, b⟩ := r
    cases r <;> first | trivial | exact h2 _
  have newLine : ∀ g (k : Ask HSec HAns HMRet), k.Within SecOk → (HSec.newLine g k).Within SecOk := by
    intro g k hk
    refine andThen _ _ trivial fun a => ?_
    split
    · exact andThen _ _ trivial fun _ => hk
    · exact hk
  have sendEnd : ∀ g m, (HSec.sendEnd g m (.done .unit)).Within SecOk := by
    intro g m
    refine andThen _ _ trivial fun a => ?_
    split
    · trivial
    · exact newLine _ _ (andThen _ _ trivial fun _ => trivial)
  have closedOr : ∀ (r : HMRet) (q : Ask HSec HAns HMRet), q.Within SecOk →
      (HSec.andThen .isClosed fun | .bool true => .done r | _ => q).Within SecOk := by
    intro r q hq
    refine andThen _ _ trivial fun a => ?_
    split
    · trivial
    · exact hq
  refine lift _ ?_
  cases c with
  | write d => exact closedOr _ _ (andThen _ _ trivial fun _ => andThen _ _ trivial fun _ => trivial)
  | newLine g => exact newLine _ _ trivial
  | read => exact closedOr _ _ (andThen _ _ trivial fun _ => trivial)
  | clear => exact hc.elim
  | flush => exact andThen _ _ trivial fun _ => trivial
  | sendData d => exact closedOr _ _ (andThen _ _ trivial fun _ => trivial)
  | sendEof => exact sendEnd _ _
  | sendError e => exact sendEnd _ _
  | sendWarning e => exact sendEnd _ _
  | checkStates => exact closedOr _ _ (andThen _ _ trivial fun _ => trivial)
  | close e => exact hc.elim
  | closed => exact andThen _ _ trivial fun _ => trivial
  | readable => exact andThen _ _ trivial fun a => by split <;> trivial
  | writable => exact andThen _ _ trivial fun a => by split <;> trivial
  | setAggressive b => exact hc.elim

/-! ## Histories -/

/-- What the calls of a thread contribute. -/
theorem contrib {i : Nat} {h : List (HEvent HMCall HMRet HSec HAns)} {o o' : Unit} {rest : Option (HMCall × Ask HSec HAns (HMRet × Unit))}
    (hr : ClientRun (fun _ c => asClient (hostMoments c)) i o h o' rest) (hc : ∀ c, HEvent.inv i c ∈ h → HostKeeps c) (ha : ∀ y ∈ opsOf h, AnsOk y.2)
    (ag : Bool) :
    Contrib HostAdds i (seen h) ((opsOf h).flatMap fun y => piece ag y.2) ∧ Contrib HostPosts i (seen h) ((opsOf h).flatMap fun y => putOf y.2) := by
  induction hr with
  | nil => exact ⟨.nil, .nil⟩
  | call o o1 o' c l r h rest h1 h2 ih =>
    have e : opsOf (.inv i c :: (asOps i l ++ .ret i r :: h)) = (l.map fun y => (i, y.1, y.2)) ++ opsOf h := by
      show opsOf (asOps i l ++ .ret i r :: h) = _
      rw [opsOf_append, opsOf_asOps]; rfl
    have e' : seen (.inv i c :: (asOps i l ++ .ret i r :: h)) = .inv i c :: .ret i r :: seen h := by
      show _ :: seen (asOps i l ++ .ret i r :: h) = _
      rw [seen_append, seen_asOps]; rfl
    rw [e] at ha
    obtain ⟨g1, g2⟩ := ih (fun c hc' => hc c (by simp [hc'])) fun y hy => ha y (List.mem_append_right _ hy)
    obtain ⟨r', k1, k2, k3⟩ := hcall_tells ag (hc c (by simp)) h1 fun y hy => ha (i, y.1, y.2) (List.mem_append_left _ (List.mem_map.2 ⟨y, hy, rfl⟩))
    obtain rfl := k1 r rfl
    rw [e, e', List.flatMap_append, List.flatMap_append, List.flatMap_map, List.flatMap_map]
    exact ⟨.call _ _ _ _ _ k2 g1, .call _ _ _ _ _ k3 g2⟩
  | within o c l q h1 =>
    have e : opsOf (.inv i c :: asOps i l : List (HEvent HMCall HMRet HSec HAns)) = l.map fun y => (i, y.1, y.2) := opsOf_asOps i l
    have e' : seen (.inv i c :: asOps i l : List (HEvent HMCall HMRet HSec HAns)) = [.inv i c] := congrArg (_ :: ·) (seen_asOps i l)
    rw [e] at ha
    obtain ⟨r', _, k2, k3⟩ := hcall_tells ag (hc c (by simp)) h1 fun y hy => ha (i, y.1, y.2) (List.mem_map.2 ⟨y, hy, rfl⟩)
    rw [e, e', List.flatMap_map, List.flatMap_map]
    exact ⟨.within _ r' _ k2, .within _ r' _ k3⟩

/-! ## Failures -/

/-- A call fails iff one of its moments does, and this is the end of the call. -/
def Fails (l : List (HSec × HAns)) (r : Option HMRet) : Prop :=
  ((∃ y ∈ l, hostFailed y.2.1 = true) → ∃ r', r = some r' ∧ hostFailed r' = true) ∧
    ∀ r', r = some r' → hostFailed r' = true → ∃ y ∈ l, hostFailed y.2.1 = true

theorem fails_none : Fails [] none := ⟨fun ⟨_, h, _⟩ => (nomatch h), nofun⟩

theorem fails_done {r : HMRet} (h : hostFailed r = false) : Out (.done r) Fails :=
  .done ⟨fun ⟨_, h, _⟩ => (nomatch h), fun r' e h' => by cases e; rw [h] at h'; cases h'⟩

theorem fails_andThen {x : HSec} (hk : ∀ a b, AnsOk (x, (a, b)) → hostFailed a = false → Out (K a) Fails) : Out (HSec.andThen x K) Fails := by
  refine .andThen fails_none (fun e b _ => ⟨fun _ => ⟨_, rfl, rfl⟩, fun _ _ _ => ⟨_, List.mem_cons_self, rfl⟩⟩) fun a b ha hn => ?_
  have hf : hostFailed a = false := by cases a <;> first | rfl | exact absurd rfl (hn _)
  intro l c' hl hy
  obtain ⟨h1, h2⟩ := hk a b ha hf l c' hl hy
  refine ⟨fun ⟨y, hy, hfy⟩ => ?_, fun r' hr hfr => ?_⟩
  · rcases List.mem_cons.1 hy with rfl | hy
    · rw [hf] at hfy; cases hfy
    · exact h1 ⟨y, hy, hfy⟩
  · obtain ⟨y, hy, hfy⟩ := h2 r' hr hfr
    exact ⟨y, List.mem_cons_of_mem _ hy, hfy⟩

theorem fails_newLine {c : Bool} {k : Ask HSec HAns HMRet} (hk : Out k Fails) : Out (HSec.newLine c k) Fails := by
  refine fails_andThen fun a b _ _ => ?_
  split
  · exact fails_andThen fun _ _ _ _ => hk
  · exact hk

theorem fails_isClosed (hk : Out (K (.bool false)) Fails) : Out (HSec.andThen .isClosed K) Fails :=
  fails_andThen fun a b ha _ => by cases (show a = _ from ha); exact hk

theorem fails_end (g : Bool) (m : Json) : Out (HSec.sendEnd g m (.done .unit)) Fails :=
  fails_isClosed (fails_newLine (fails_andThen fun _ _ _ _ => fails_done rfl))

theorem call_fails (c : HMCall) (hc : HostKeeps c) : Out (hostMoments c) Fails := by
  cases c with
  | write d => exact fails_isClosed (fails_andThen fun _ _ _ _ => fails_andThen fun _ _ _ h => fails_done h)
  | newLine g => exact fails_newLine (fails_done rfl)
  | read => exact fails_isClosed (fails_andThen fun _ _ _ h => fails_done h)
  | clear => exact hc.elim
  | flush => exact fails_andThen fun _ _ _ h => fails_done h
  | sendData d => exact fails_isClosed (fails_andThen fun _ _ _ h => fails_done h)
  | sendEof => exact fails_end _ _
  | sendError e => exact fails_end _ _
  | sendWarning e => exact fails_end _ _
  | checkStates => exact fails_isClosed (fails_andThen fun _ _ _ h => fails_done h)
  | close e => exact hc.elim
  | closed => exact fails_isClosed (fails_done rfl)
  | readable => exact fails_isClosed (fails_done rfl)
  | writable => exact fails_isClosed (fails_done rfl)
  | setAggressive b => exact hc.elim

/-- Failures in the history of a thread. -/
theorem failures {i : Nat} {h : List (HEvent HMCall HMRet HSec HAns)} {o o' : Unit} {rest : Option (HMCall × Ask HSec HAns (HMRet × Unit))}
    (hr : ClientRun (fun _ c => asClient (hostMoments c)) i o h o' rest) (hc : ∀ c, HEvent.inv i c ∈ h → HostKeeps c) (ha : ∀ y ∈ opsOf h, AnsOk y.2) :
    (∀ y ∈ opsOf h, hostFailed y.2.2.1 = true → rest ≠ none ∨ ∃ r, Ev.ret i r ∈ seen h ∧ hostFailed r = true) ∧
      ∀ r, Ev.ret i r ∈ seen h → hostFailed r = true → ∃ y ∈ opsOf h, hostFailed y.2.2.1 = true := by
  induction hr with
  | nil => exact ⟨nofun, nofun⟩
  | call o o1 o' c l r h rest h1 h2 ih =>
    have e : opsOf (.inv i c :: (asOps i l ++ .ret i r :: h)) = (l.map fun y => (i, y.1, y.2)) ++ opsOf h := by
      show opsOf (asOps i l ++ .ret i r :: h) = _
      rw [opsOf_append, opsOf_asOps]; rfl
    have e' : seen (.inv i c :: (asOps i l ++ .ret i r :: h)) = .inv i c :: .ret i r :: seen h := by
      show _ :: seen (asOps i l ++ .ret i r :: h) = _
      rw [seen_append, seen_asOps]; rfl
    rw [e] at ha
    obtain ⟨g1, g2⟩ := ih (fun c hc' => hc c (by simp [hc'])) fun y hy => ha y (List.mem_append_right _ hy)
    obtain ⟨qm, hq, h1⟩ := asClient_asks h1
    obtain ⟨k1, k2⟩ := call_fails c (hc c (by simp)) l qm h1 fun y hy => ha (i, y.1, y.2) (List.mem_append_left _ (List.mem_map.2 ⟨y, hy, rfl⟩))
    have hres : result qm = some r := by
      cases qm with
      | done r1 => cases hq; rfl
      | ask x k => rw [asClient] at hq; cases hq
    rw [hres] at k1 k2
    rw [e, e']
    refine ⟨fun y hy hf => ?_, fun r' hr' hf => ?_⟩
    · rcases List.mem_append.1 hy with hy | hy
      · obtain ⟨z, hz, rfl⟩ := List.mem_map.1 hy
        obtain ⟨r', e1, e2⟩ := k1 ⟨z, hz, hf⟩
        cases e1
        exact .inr ⟨r, by simp, e2⟩
      · rcases g1 y hy hf with g | ⟨r', g3, g4⟩
        · exact .inl g
        · exact .inr ⟨r', by simp [g3], g4⟩
    · rcases List.mem_cons.1 hr' with h | hr'
      · cases h
      · rcases List.mem_cons.1 hr' with h | hr'
        · cases h
          obtain ⟨z, hz, hfz⟩ := k2 _ rfl hf
          exact ⟨_, List.mem_append_left _ (List.mem_map.2 ⟨z, hz, rfl⟩), hfz⟩
        · obtain ⟨z, hz, hfz⟩ := g2 _ hr' hf
          exact ⟨z, List.mem_append_right _ hz, hfz⟩
  | within o c l q h1 =>
    have e' : seen (.inv i c :: asOps i l : List (HEvent HMCall HMRet HSec HAns)) = [.inv i c] := congrArg (_ :: ·) (seen_asOps i l)
    rw [e']
    exact ⟨fun _ _ _ => .inl nofun, fun r hr => by simp at hr⟩

theorem failures_own {i : Nat} {h : List (HEvent HMCall HMRet HSec HAns)} {o o' : Unit} {rest : Option (HMCall × Ask HSec HAns (HMRet × Unit))}
    (hr : ClientRun (fun _ c => asClient (hostMoments c)) i o (own i h) o' rest) (hc : ∀ c, HEvent.inv i c ∈ h → HostKeeps c)
    (ha : ∀ y ∈ opsOf h, AnsOk y.2) :
    (∀ y ∈ opsOf h, y.1 = i → hostFailed y.2.2.1 = true → rest ≠ none ∨ ∃ r, Ev.ret i r ∈ seen h ∧ hostFailed r = true) ∧
      ∀ r, Ev.ret i r ∈ seen h → hostFailed r = true → ∃ y ∈ opsOf h, hostFailed y.2.2.1 = true := by
  obtain ⟨h1, h2⟩ := failures hr (fun c hc' => hc c (List.mem_of_mem_filter hc')) (fun y hy => ha y (by
    rw [opsOf_own] at hy; exact List.mem_of_mem_filter hy))
  rw [seen_own, opsOf_own] at h1 h2
  refine ⟨fun y hy hi hf => ?_, fun r hm hf => ?_⟩
  · rcases h1 y (List.mem_filter.2 ⟨hy, by simpa using hi⟩) hf with g | ⟨r, g1, g2⟩
    · exact .inl g
    · exact .inr ⟨r, List.mem_of_mem_filter g1, g2⟩
  · obtain ⟨y, hy, g⟩ := h2 r (List.mem_filter.2 ⟨hm, by simp⟩) hf
    exact ⟨y, List.mem_of_mem_filter hy, g⟩

theorem contrib_own {i : Nat} {h : List (HEvent HMCall HMRet HSec HAns)} {o o' : Unit} {rest : Option (HMCall × Ask HSec HAns (HMRet × Unit))}
    (hr : ClientRun (fun _ c => asClient (hostMoments c)) i o (own i h) o' rest) (hc : ∀ c, HEvent.inv i c ∈ h → HostKeeps c)
    (ha : ∀ y ∈ opsOf h, AnsOk y.2) (ag : Bool) :
    Contrib HostAdds i (eventsBy i (seen h)) (piecesBy ag i (opsOf h)) ∧ Contrib HostPosts i (eventsBy i (seen h)) (putsBy i (opsOf h)) := by
  obtain ⟨h1, h2⟩ := contrib hr (fun c hc' => hc c (List.mem_of_mem_filter hc')) (fun y hy => ha y (by
    rw [opsOf_own] at hy; exact List.mem_of_mem_filter hy)) ag
  rw [seen_own, opsOf_own] at h1 h2
  have e : ∀ {β : Type} (f : HSec × HAns → List β) (l : List (Nat × HSec × HAns)),
      ((l.filter (·.1 = i)).flatMap fun y => f y.2) = l.flatMap fun y => if y.1 = i then f y.2 else [] := by
    intro β f l
    induction l with
    | nil => rfl
    | cons y l ih =>
      by_cases hy : y.1 = i
      · rw [List.filter_cons_of_pos (by simpa using hy), List.flatMap_cons, ih]
        simp [hy]
      · rw [List.filter_cons_of_neg (by simpa using hy), ih]
        simp [hy]
  rw [e] at h1 h2
  exact ⟨h1, h2⟩

/-- What was written before a moment at which the buffer is empty has been posted before a message that is posted later. -/
theorem announced {env : HEnv} {s t : HMNet} {A B D : List (Nat × HSec × HAns)} {i : Nat} {y : HSec × HAns} {m : Json} {b : Bool} (hy : Flushes y)
    (hs : Serves (Acts env) s (A ++ (i, y.1, y.2) :: (B ++ (i, .post m, (.unit, b)) :: D)) t) (h : Good ag s)
    (hl : ∀ z ∈ A ++ (i, y.1, y.2) :: (B ++ (i, .post m, (.unit, b)) :: D), SecOk z.2.1) :
    ∃ ps1 ps2, Flow ag s (A ++ (i, y.1, y.2) :: (B ++ (i, .post m, (.unit, b)) :: D)) t (ps1 ++ .direct i true m :: ps2) ∧
      s.1.buf.buf ++ (piecesIn ag A).flatten <+: ackedText ps1 := by
  obtain ⟨s1, h1, h2⟩ := serves_split hs
  obtain ⟨sA, fA⟩ := h.serves h1 fun z hz => hl z (List.mem_append_left _ hz)
  cases h2 with
  | cons _ s2 _ _ _ _ _ h2 h3 =>
    have h2 : y.1.exec env s1 = (y.2, s2) := h2
    obtain ⟨sy, fy, ey, _⟩ := fA.good.step (env := env) i y.1 (hl (i, y.1, y.2) (by simp))
    rw [h2] at fy ey
    have ey : s2.1.buf.buf = [] := ey hy
    obtain ⟨s3, h4, h5⟩ := serves_split h3
    obtain ⟨sB, fB⟩ := fy.good.serves h4 fun z hz => hl z (by simp [hz])
    cases h5 with
    | cons _ s4 _ _ _ _ _ h5 h6 =>
      have h5 : HSec.exec env (.post m) s3 = ((.unit, b), s4) := h5
      obtain ⟨sp, fp, _, ep⟩ := fB.good.step (env := env) i (.post m) trivial
      rw [h5] at fp ep
      obtain rfl := ep m rfl rfl
      obtain ⟨sD, fD⟩ := fp.good.serves h6 fun z hz => hl z (by simp [hz])
      have f1 := fA.append fy
      have f2 := f1.append (fB.append (fp.append fD))
      refine ⟨sA ++ sy ++ sB, sD, by simpa using f2, ?_⟩
      have := f1.text
      rw [ey, List.append_nil] at this
      rw [ackedText_append, this, piecesIn_append, List.flatten_append, ← List.append_assoc, List.append_assoc]
      exact List.prefix_append _ _

end HFlow
end SyncStream
