import Verif.Lemmas.HostNet
/-!
# Properties C41, C42, C44, and C17, C18, C19, C22 for `LineHostMirror`
-/

namespace SyncStream
open Spec LineBuf HostBuf

/-- An environment for the examples: `int` of a text of digits is its decimal value. -/
def sampleEnv : HEnv where
  ext _ := []
  int s := some (s.foldl (fun a c => 10 * a + (c - 48)) 0 : Nat)

theorem sampleEnv_int (k : Nat) : sampleEnv.int (Json.natStr k) = some (k : Int) := by
  have h := Nat.ofDigitChars_toDigits (b := 10) (n := k) (by decide) (by decide)
  rw [Nat.ofDigitChars_eq_foldl] at h
  simp only [sampleEnv, Json.natStr, List.foldl_map]
  exact congrArg (fun x : Nat => some (x : Int)) h

/-- The host mirrors that can occur: created in either mode, then used by any calls, while anything
happens to the service and the network (an arbitrary `HNet` before every call). -/
inductive HMReach (env : HEnv) : HMirror → Prop
  | new (aggressive : Bool) : HMReach env { aggressive := aggressive }
  | call (c : HMCall) (m : HMirror) (n : HNet) : HMReach env m → HMReach env (HMirror.exec env c (m, n)).2.1

theorem hmreach_norm {env : HEnv} {m : HMirror} (h : HMReach env m) : m.Norm := by
  induction h with
  | new a => exact .inl ⟨[], rfl⟩
  | call c m n _ ih => exact HMirror.exec_norm env c m n ih

theorem hmreach_open {env : HEnv} {m : HMirror} (h : HMReach env m) (ho : m.buf.closed = false) :
    m = m.withBuf m.buf.buf := by
  rcases hmreach_norm h with ⟨p, hp⟩ | hc
  · rw [hp]; rfl
  · rw [hc] at ho; simp [HMirror.closedM] at ho

theorem hmreach_closed {env : HEnv} {m : HMirror} (h : HMReach env m) (ho : m.buf.closed = true) :
    m = m.closedM := by
  rcases hmreach_norm h with ⟨p, hp⟩ | hc
  · rw [hp] at ho; cases ho
  · exact hc

/-- The text of a request that posts text. -/
def Req.text? : Req → Option PyStr
  | .post (.json j) =>
    if (j.get (lit "type") .null).eqStr (lit "str") then
      match (j.get (lit "data") .null).get (lit "value") .null with
      | .str d => some d
      | _ => none
    else none
  | _ => none

/-- The texts among the requests that the service has processed. -/
def textsOf (rs : List Req) : List PyStr := rs.filterMap Req.text?

@[simp] theorem textsOf_append (a b : List Req) : textsOf (a ++ b) = textsOf a ++ textsOf b := by
  simp [textsOf]

theorem text?_strMsg (d : PyStr) : Req.text? (.post (.json (HMirror.strMsg d))) = some d := rfl

theorem textsOf_strMsg (d : PyStr) : textsOf [.post (.json (HMirror.strMsg d))] = [d] := rfl

theorem textsOf_check (env : HEnv) (check : Bool) (n : HNet) :
    textsOf (HMirror.netCheck env check n).2.sent = textsOf n.sent := by
  unfold HMirror.netCheck
  split
  · rcases HNet.check_sent env n with h | h
    · rw [h]
    · rw [h, textsOf_append, show textsOf [Req.stateGet (some (lit "closed"))] = [] from rfl,
        List.append_nil]
  · rfl

/-! ## C17 (host mode) -/

theorem check_ok_sent {env : HEnv} {n n' : HNet} (h : HNet.check env n = (.ok (), n')) :
    n'.sent = n.sent ++ [.stateGet (some (lit "closed"))] := by
  have hs := HNet.request_spec env (.stateGet (some (lit "closed"))) n
  unfold HNet.check at h
  rw [Py.bind_apply] at h
  cases hx : HNet.request env (.stateGet (some (lit "closed"))) n with
  | mk x n1 =>
    rw [hx] at h hs
    cases x with
    | error e => cases h
    | ok resp =>
      dsimp only at h
      rw [Resp.verdict_apply] at h
      have : n1 = n' := congrArg Prod.snd h
      subst this
      rcases hs with hs | ⟨_, e, hs⟩
      · exact hs
      · cases hs

theorem expectOk_ok_sent {env : HEnv} {r : Req} {n n' : HNet} (h : HNet.expectOk env r n = (.ok (), n')) :
    n'.sent = n.sent ++ [r] := by
  have hs := HNet.expectOk_spec env r n
  rw [h] at hs
  rcases hs with hs | ⟨_, e, hs⟩
  · exact hs
  · cases hs

theorem open_of_write {env : HEnv} {m : HMirror} (h : HMReach env m) {d : PyStr} {n : HNet} {k : Nat} {s : HMNet}
    (hw : HMirror.write env d (m, n) = (.ok k, s)) : m.buf.closed = false := by
  cases hc : m.buf.closed with
  | false => rfl
  | true =>
    rw [hmreach_closed h hc, HMirror.write_closed] at hw
    cases hw

/-- **C17** (host mode) Non-aggressive mode: a successful `write(d)` asks for the state; then it sends exactly one
text with all that is pending if `d` contains a line terminator, and sends nothing otherwise. -/
theorem C17_host_write_sends (env : HEnv) (m : HMirror) (h : HMReach env m) (n : HNet) (d : PyStr)
    (ha : m.aggressive = false) (k : Nat) (m' : HMirror) (n' : HNet)
    (hw : HMirror.write env d (m, n) = (.ok k, (m', n'))) :
    k = d.length ∧
    (NoBreak d → n'.sent = n.sent ++ [.stateGet (some (lit "closed"))] ∧ m'.buf.buf = m.buf.buf ++ d) ∧
    (¬ NoBreak d → n'.sent = n.sent ++ [.stateGet (some (lit "closed")),
      .post (.json (HMirror.strMsg (m.buf.buf ++ d)))] ∧ m'.buf.buf = []) := by
  have hm := hmreach_open h (open_of_write h hw)
  rw [hm, HMirror.write_open, HMirror.writeCore_open] at hw
  generalize m.buf.buf = p at *
  have hnc : HMirror.netCheck env true n = HNet.check env n := rfl
  rw [hnc] at hw
  cases hx : HNet.check env n with
  | mk x n1 =>
    rw [hx] at hw
    cases x with
    | error e => cases hw
    | ok u =>
      have hs := check_ok_sent hx
      rw [ha] at hw
      simp only [Bool.false_eq_true, if_false] at hw
      split at hw
      · rename_i hb
        cases hw
        exact ⟨rfl, fun _ => ⟨hs, rfl⟩, fun h => absurd hb h⟩
      · rename_i hb
        cases hy : HMirror.netText env (p ++ d) n1 with
        | mk r n2 =>
          rw [hy] at hw
          cases r with
          | error e => cases hw
          | ok u =>
            cases hw
            refine ⟨rfl, fun h => absurd h hb, fun _ => ⟨?_, rfl⟩⟩
            rw [expectOk_ok_sent hy, hs]; simp

/-- **C17** (host mode) Aggressive mode: a successful `write(d)` sends exactly `d` and does not change the
mirror. -/
theorem C17_host_aggressive_sends (env : HEnv) (m : HMirror) (h : HMReach env m) (n : HNet) (d : PyStr)
    (ha : m.aggressive = true) (k : Nat) (m' : HMirror) (n' : HNet)
    (hw : HMirror.write env d (m, n) = (.ok k, (m', n'))) :
    m' = m ∧ n'.sent = n.sent ++ [.stateGet (some (lit "closed")), .post (.json (HMirror.strMsg d))] := by
  have hm := hmreach_open h (open_of_write h hw)
  rw [hm, HMirror.write_open, HMirror.writeCore_open] at hw
  generalize m.buf.buf = p at *
  have hnc : HMirror.netCheck env true n = HNet.check env n := rfl
  rw [hnc] at hw
  cases hx : HNet.check env n with
  | mk x n1 =>
    rw [hx] at hw
    cases x with
    | error e => cases hw
    | ok u =>
      have hs := check_ok_sent hx
      rw [ha] at hw
      simp only [if_true] at hw
      cases hy : HMirror.netText env d n1 with
      | mk r n2 =>
        rw [hy] at hw
        cases r with
        | error e => cases hw
        | ok u =>
          cases hw
          refine ⟨hm.symm, ?_⟩
          rw [expectOk_ok_sent hy, hs]; simp

example : ∃ h0, HostBuf.new 3 = .ok h0 ∧
    (HMirror.run sampleEnv [.write (lit "a"), .write (lit "b\nc")] ({}, { service := h0 })).2.1.buf.buf = [] ∧
    textsOf (HMirror.run sampleEnv [.write (lit "a"), .write (lit "b\nc")] ({}, { service := h0 })).2.2.sent =
      [lit "ab\nc"] :=
  ⟨_, rfl, by decide +kernel, by decide +kernel⟩

/-! ## C18 (host mode) -/

/-- **C18** (host mode) A `write(d)` in non-aggressive mode that raises has either done nothing (the request for the
state failed or said `closed`: no text has been sent and the mirror is unchanged), or `d` has been
buffered behind the pending text; then the pending text has been processed once or not at all. -/
theorem C18_host_failed_write_keeps (env : HEnv) (m : HMirror) (h : HMReach env m)
    (hcl : m.buf.closed = false) (n : HNet) (d : PyStr) (ha : m.aggressive = false) (e : Exc)
    (m' : HMirror) (n' : HNet) (hw : HMirror.write env d (m, n) = (.error e, (m', n'))) :
    (m' = m ∧ textsOf n'.sent = textsOf n.sent) ∨
    (m'.buf.buf = m.buf.buf ++ d ∧ m'.buf.closed = false ∧
      (textsOf n'.sent = textsOf n.sent ∨ textsOf n'.sent = textsOf n.sent ++ [m.buf.buf ++ d])) := by
  have hm := hmreach_open h hcl
  rw [hm, HMirror.write_open, HMirror.writeCore_open] at hw
  rw [show (m' = m) = (m' = m.withBuf m.buf.buf) by rw [← hm]]
  generalize m.buf.buf = p at *
  have ht := textsOf_check env true n
  cases hx : HMirror.netCheck env true n with
  | mk x n1 =>
    rw [hx] at hw ht
    cases x with
    | error e => cases hw; exact .inl ⟨rfl, ht⟩
    | ok u =>
      right
      rw [ha] at hw
      simp only [Bool.false_eq_true, if_false] at hw
      split at hw
      · cases hw
      · cases hy : HMirror.netText env (p ++ d) n1 with
        | mk r n2 =>
          rw [hy] at hw
          cases r with
          | ok u => cases hw
          | error e =>
            cases hw
            refine ⟨rfl, rfl, ?_⟩
            have hs := HNet.expectOk_spec env (.post (.json (HMirror.strMsg (p ++ d)))) n1
            rw [show HNet.expectOk env (.post (.json (HMirror.strMsg (p ++ d)))) n1 = _ from hy] at hs
            rcases hs with hs | hs
            · right
              dsimp only at hs ht
              rw [hs, textsOf_append, ht, textsOf_strMsg]
            · left
              dsimp only at hs ht
              rw [hs.1, ht]

/-- `write(...)` and `new_line(...)` calls. -/
def HMCall.isText : HMCall → Bool
  | .write _ => true
  | .newLine _ => true
  | _ => false

/-- The text a call adds to what the mirror has to deliver.  Nothing, if the call raised and what is
buffered did not change. -/
def hcontribution (c : HMCall) (r : HMRet) (held held' : PyStr) : PyStr :=
  match r with
  | .exc _ => if held' = held then [] else text
  | _ => text
where
  /-- what the call was to add -/
  text : PyStr :=
    match c with
    | .write d => d
    | .newLine _ => if held = [] then [] else lit "\n"
    | _ => []

/-- The text added by a history of calls. -/
def haccepted (env : HEnv) : List HMCall → HMNet → PyStr
  | [], _ => []
  | c :: cs, s =>
    hcontribution c (HMirror.exec env c s).1 s.1.buf.buf (HMirror.exec env c s).2.1.buf.buf ++
      haccepted env cs (HMirror.exec env c s).2

/-- The texts that were acknowledged. -/
def acked (ts : List (PyStr × Bool)) : PyStr := (ts.filterMap fun t => if t.2 then some t.1 else none).flatten

theorem acked_append (a b : List (PyStr × Bool)) : acked (a ++ b) = acked a ++ acked b := by
  simp [acked, List.filterMap_append]

theorem host_text_step (env : HEnv) (c : HMCall) (hc : c.isText = true) (m : HMirror)
    (ha : m.aggressive = false) (p : PyStr) (n : HNet) :
    ∃ (p' : PyStr) (n' : HNet) (ts : List (PyStr × Bool)),
      (HMirror.exec env c (m.withBuf p, n)).2 = (m.withBuf p', n') ∧
      textsOf n'.sent = textsOf n.sent ++ ts.map Prod.fst ∧
      acked ts ++ p' = p ++ hcontribution c (HMirror.exec env c (m.withBuf p, n)).1 p p' ∧
      (∀ t, (t, false) ∈ ts → ts = [(t, false)] ∧ t = p') := by
  have hw : ∀ (check : Bool) (d : PyStr), ∃ (p' : PyStr) (n' : HNet) (ts : List (PyStr × Bool)),
      (HMirror.writeCore env d check (m.withBuf p, n)).2 = (m.withBuf p', n') ∧
      textsOf n'.sent = textsOf n.sent ++ ts.map Prod.fst ∧
      (((∃ k, (HMirror.writeCore env d check (m.withBuf p, n)).1 = .ok k) ∧ acked ts ++ p' = p ++ d) ∨
       (∃ e, (HMirror.writeCore env d check (m.withBuf p, n)).1 = .error e) ∧
         ((p' = p ∧ acked ts = []) ∨ (p' ≠ p ∧ acked ts ++ p' = p ++ d))) ∧
      (∀ t, (t, false) ∈ ts → ts = [(t, false)] ∧ t = p') := by
    intro check d
    rw [HMirror.writeCore_open]
    have ht := textsOf_check env check n
    cases hx : HMirror.netCheck env check n with
    | mk x n1 =>
      rw [hx] at ht
      cases x with
      | error e =>
        exact ⟨p, n1, [], rfl, by simpa using ht, .inr ⟨⟨e, rfl⟩, .inl ⟨rfl, rfl⟩⟩, fun t h => by cases h⟩
      | ok u =>
        simp only [ha, Bool.false_eq_true, if_false]
        by_cases hb : NoBreak d
        · simp only [hb, if_true]
          exact ⟨p ++ d, n1, [], rfl, by simpa using ht, .inl ⟨⟨_, rfl⟩, rfl⟩, fun t h => by cases h⟩
        · simp only [hb, if_false]
          cases hy : HMirror.netText env (p ++ d) n1 with
          | mk r n2 =>
            cases r with
            | ok u =>
              refine ⟨[], n2, [(p ++ d, true)], rfl, ?_, .inl ⟨⟨_, rfl⟩, by simp [acked]⟩, ?_⟩
              · rw [expectOk_ok_sent hy, textsOf_append, textsOf_strMsg]
                dsimp only at ht
                rw [ht]; rfl
              · intro t h; simp at h
            | error e =>
              have hne : p ++ d ≠ p := by
                intro h
                have : d = [] := by simpa using h
                subst this; exact hb noBreak_nil
              have hs := HNet.expectOk_spec env (.post (.json (HMirror.strMsg (p ++ d)))) n1
              rw [show HNet.expectOk env (.post (.json (HMirror.strMsg (p ++ d)))) n1 = _ from hy] at hs
              dsimp only at hs ht
              rcases hs with hs | hs
              · refine ⟨p ++ d, n2, [(p ++ d, false)], rfl, ?_, .inr ⟨⟨_, rfl⟩, .inr ⟨hne, by simp [acked]⟩⟩, ?_⟩
                · rw [hs, textsOf_append, ht, textsOf_strMsg]; rfl
                · intro t h
                  simp only [List.mem_singleton, Prod.mk.injEq, and_true] at h
                  subst h; exact ⟨rfl, rfl⟩
              · refine ⟨p ++ d, n2, [], rfl, ?_, .inr ⟨⟨_, rfl⟩, .inr ⟨hne, by simp [acked]⟩⟩, ?_⟩
                · rw [hs.1, ht]; simp
                · intro t h; cases h
  cases c with
  | write d =>
    obtain ⟨p', n', ts, h1, h2, h3, h4⟩ := hw true d
    refine ⟨p', n', ts, ?_, h2, ?_, h4⟩
    · simp only [HMirror.exec, HMirror.write_open, h1]
    · simp only [HMirror.exec, HMirror.write_open]
      rcases h3 with ⟨⟨k, hk⟩, h3⟩ | ⟨⟨e, he⟩, ⟨h5, h6⟩ | ⟨h5, h6⟩⟩
      · rw [hk]; exact h3
      · rw [he, h6, h5]; simp [hcontribution, HMRet.of]
      · rw [he]; simp only [HMRet.of, hcontribution, h5, if_false]; exact h6
  | newLine k =>
    by_cases hp : p = []
    · subst hp
      refine ⟨[], n, [], ?_, by simp, ?_, fun t h => by cases h⟩
      · simp only [HMirror.exec, HMirror.newLine_open, if_true]
      · simp only [HMirror.exec, HMirror.newLine_open, if_true]
        rfl
    · obtain ⟨p', n', ts, h1, h2, h3, h4⟩ := hw k (lit "\n")
      refine ⟨p', n', ts, ?_, h2, ?_, h4⟩
      · simp only [HMirror.exec, HMirror.newLine_open, hp, if_false, h1]
      · simp only [HMirror.exec, HMirror.newLine_open, hp, if_false]
        rcases h3 with ⟨⟨k, hk⟩, h3⟩ | ⟨⟨e, he⟩, ⟨h5, h6⟩ | ⟨h5, h6⟩⟩
        · rw [hk]; simp only [Except.map, HMRet.of, hcontribution, hcontribution.text, hp, if_false]; exact h3
        · rw [he, h6, h5]; simp [hcontribution, HMRet.of, Except.map]
        · rw [he]
          simp only [HMRet.of, hcontribution, hcontribution.text, h5, if_false, Except.map, hp]; exact h6
  | _ => cases hc

/-- **C18** (host mode) For a non-aggressive mirror, any `write` and `new_line` calls, any failures of the requests and
any use of the service by others: the texts that were acknowledged, followed by what is still
buffered, are exactly the text accepted, in order.  Every other text that the service processed (its
answer got lost) is delivered again, or is still buffered: it is a beginning of what follows. -/
theorem C18_host_no_loss (env : HEnv) (n : HNet) (cs : List HMCall) (hc : ∀ c ∈ cs, c.isText = true) :
    ∃ ts : List (PyStr × Bool),
      textsOf (HMirror.run env cs ({}, n)).2.2.sent = textsOf n.sent ++ ts.map Prod.fst ∧
      acked ts ++ (HMirror.run env cs ({}, n)).2.1.buf.buf = haccepted env cs ({}, n) ∧
      ∀ pre t post, ts = pre ++ (t, false) :: post →
        t <+: acked post ++ (HMirror.run env cs ({}, n)).2.1.buf.buf := by
  have key : ∀ (cs : List HMCall), (∀ c ∈ cs, c.isText = true) → ∀ (m : HMirror), m.aggressive = false →
      ∀ (p : PyStr) (n : HNet), ∃ (p' : PyStr) (n' : HNet) (ts : List (PyStr × Bool)),
      (HMirror.run env cs (m.withBuf p, n)).2 = (m.withBuf p', n') ∧
      textsOf n'.sent = textsOf n.sent ++ ts.map Prod.fst ∧
      acked ts ++ p' = p ++ haccepted env cs (m.withBuf p, n) ∧
      ∀ pre t post, ts = pre ++ (t, false) :: post → t <+: acked post ++ p' := by
    intro cs
    induction cs with
    | nil =>
      intro _ m ha p n
      exact ⟨p, n, [], rfl, by simp, by simp [acked, haccepted], fun pre t post h => by simp at h⟩
    | cons c cs ih =>
      intro hc m ha p n
      obtain ⟨p1, n1, t1, h1, h2, h3, h4⟩ := host_text_step env c (hc c List.mem_cons_self) m ha p n
      obtain ⟨p2, n2, t2, g1, g2, g3, g4⟩ := ih (fun c h => hc c (List.mem_cons_of_mem _ h)) m ha p1 n1
      refine ⟨p2, n2, t1 ++ t2, ?_, ?_, ?_, ?_⟩
      · simp only [HMirror.run, h1, g1]
      · rw [g2, h2]; simp
      · rw [acked_append, List.append_assoc, g3, ← List.append_assoc, h3]
        simp only [haccepted, h1, HMirror.withBuf_buf, List.append_assoc]
      · intro pre t post h
        rcases List.append_eq_append_iff.1 h with ⟨as, h5, h6⟩ | ⟨bs, h5, h6⟩
        · -- pre = t1 ++ as
          exact g4 as t post h6
        · cases bs with
          | nil => exact g4 [] t post (by simpa using h6.symm)
          | cons b bs =>
            have hb : b = (t, false) := by
              have := (List.cons.inj h6).1; exact this.symm
            subst hb
            have hpost : post = bs ++ t2 := (List.cons.inj h6).2
            obtain ⟨h7, h8⟩ := h4 t (by rw [h5]; simp)
            rw [h7] at h5
            have hbs : pre = [] ∧ bs = [] := by
              have hl := congrArg List.length h5
              simp only [List.length_append, List.length_cons, List.length_nil] at hl
              constructor <;> apply List.eq_nil_of_length_eq_zero <;> omega
            rw [hpost, hbs.2, List.nil_append, g3, h8]
            exact List.prefix_append _ _
  obtain ⟨p', n', ts, h1, h2, h3, h4⟩ := key cs hc { aggressive := false } rfl [] n
  have e : ({ aggressive := false } : HMirror) = ({ aggressive := false } : HMirror).withBuf [] := rfl
  rw [← e] at h1 h3
  refine ⟨ts, ?_, ?_, ?_⟩
  · rw [h1]; exact h2
  · rw [h1]; simpa using h3
  · rw [h1]; exact h4

/-- The answer to the first POST gets lost, the second one succeeds: the text is delivered twice. -/
example : ∃ h0, HostBuf.new 9 = .ok h0 ∧
    haccepted sampleEnv [.write (lit "a\n"), .write (lit "b\n")]
      ({}, { service := h0, fates := [{}, { outcome := .noReply .connectionError }] }) = lit "a\nb\n" ∧
    textsOf (HMirror.run sampleEnv [.write (lit "a\n"), .write (lit "b\n")]
      ({}, { service := h0, fates := [{}, { outcome := .noReply .connectionError }] })).2.2.sent =
      [lit "a\n", lit "a\nb\n"] :=
  ⟨_, rfl, by decide +kernel, by decide +kernel⟩

/-! ## C19 (host mode) -/

/-- What the methods of a closed host mirror return. -/
def closedHMRet : HMCall → HMRet
  | .write _ => .exc .osError
  | .read => .exc .osError
  | .newLine _ => .exc .valueError
  | .clear => .exc .valueError
  | .flush => .exc .valueError
  | .closed => .bool true
  | .readable => .bool false
  | .writable => .bool false
  | _ => .unit

/-- **C19** (host mode) A closed host mirror sends no request at all, whatever is called; `read` and `write` raise
`OSError`. -/
theorem C19_host_after_close (env : HEnv) (m : HMirror) (h : HMReach env m) (hcl : m.buf.closed = true)
    (n : HNet) (cs : List HMCall) :
    (HMirror.run env cs (m, n)).1 = cs.map closedHMRet ∧
    (HMirror.run env cs (m, n)).2.2 = n ∧
    (HMirror.run env cs (m, n)).2.1.buf = m.buf := by
  have hm := hmreach_closed h hcl
  have step : ∀ (c : HMCall) (m : HMirror), ∃ m', HMirror.exec env c (m.closedM, n) =
      (closedHMRet c, (HMirror.closedM m', n)) := by
    intro c m
    cases c with
    | write d => exact ⟨m, by simp only [HMirror.exec, HMirror.write_closed]; rfl⟩
    | newLine k =>
      exact ⟨m, by
        have : HMirror.newLine env k (m.closedM, n) = (.error .valueError, (m.closedM, n)) := by
          simp [HMirror.newLine, HMirror.onBuf, StringIO.tell, StringIO.check, HMirror.closedM, Py.bind_apply]
        simp only [HMirror.exec, this]; rfl⟩
    | read | clear | flush | closed | readable | writable | checkStates => exact ⟨m, rfl⟩
    | sendData d => exact ⟨m, rfl⟩
    | sendEof => exact ⟨m, by simp only [HMirror.exec, HMirror.sendEof_eq, HMirror.sendAfter_closed]; rfl⟩
    | sendError e => exact ⟨m, by simp only [HMirror.exec, HMirror.sendError_eq, HMirror.sendAfter_closed]; rfl⟩
    | sendWarning e => exact ⟨m, by simp only [HMirror.exec, HMirror.sendWarning_eq, HMirror.sendAfter_closed]; rfl⟩
    | close exc => exact ⟨m, by simp only [HMirror.exec, HMirror.close_closed]; rfl⟩
    | setAggressive a => exact ⟨{ m with aggressive := a }, rfl⟩
  have key : ∀ (cs : List HMCall) (m : HMirror), ∃ m',
      HMirror.run env cs (m.closedM, n) = (cs.map closedHMRet, (HMirror.closedM m', n)) := by
    intro cs
    induction cs with
    | nil => intro m; exact ⟨m, rfl⟩
    | cons c cs ih =>
      intro m
      obtain ⟨m1, h1⟩ := step c m
      obtain ⟨m2, h2⟩ := ih m1
      exact ⟨m2, by simp only [HMirror.run, h1, h2, List.map_cons]⟩
  obtain ⟨m', h'⟩ := key cs m
  rw [hm, h']
  exact ⟨rfl, rfl, rfl⟩

/-- **C19** (host mode) `close(exc)` that returns has closed the mirror, and the last request processed is the only end
signal: before it come at most a request for the state and the pending text, completed. -/
theorem C19_host_close_sends (env : HEnv) (m : HMirror) (h : HMReach env m) (hcl : m.buf.closed = false)
    (ha : m.aggressive = true → m.buf.buf = []) (n : HNet) (exc : Option ExcObj) (m' : HMirror) (n' : HNet)
    (hc : HMirror.close env exc (m, n) = (.ok (), (m', n'))) :
    m'.buf.closed = true ∧
    n'.sent = n.sent ++ HMirror.lineReqs (HMirror.endCheck exc) m.buf.buf ++
      [.post (.json (HMirror.endBody exc))] := by
  have hm := hmreach_open h hcl
  rw [hm, HMirror.close_open, HMirror.sendAfter_open] at hc
  rw [HMirror.newLine_open' env _ m _ n ha] at hc
  generalize m.buf.buf = p at *
  have fin : ∀ (n1 : HNet), n1.sent = n.sent ++ HMirror.lineReqs (HMirror.endCheck exc) p →
      (match ((HNet.expectOk env (.post (.json (HMirror.endBody exc))) n1).1,
          (m.withBuf [], (HNet.expectOk env (.post (.json (HMirror.endBody exc))) n1).2)) with
        | (.error e, s) => (.error e, s)
        | (.ok _, s) => (HMirror.clear >>= fun _ => HMirror.onBuf StringIO.close) s : Except Exc Unit × HMNet) =
        (.ok (), (m', n')) →
      m'.buf.closed = true ∧ n'.sent = n.sent ++ HMirror.lineReqs (HMirror.endCheck exc) p ++
        [.post (.json (HMirror.endBody exc))] := by
    intro n1 hn h1
    cases hx : HNet.expectOk env (.post (.json (HMirror.endBody exc))) n1 with
    | mk r n2 =>
      rw [hx] at h1
      cases r with
      | error e => cases h1
      | ok u =>
        dsimp only at h1
        rw [HMirror.clear_close] at h1
        cases h1
        exact ⟨rfl, by rw [expectOk_ok_sent hx, hn]⟩
  by_cases hp : p = []
  · simp only [hp, if_true] at hc
    exact fin n (by simp [HMirror.lineReqs, hp]) hc
  · simp only [hp, if_false] at hc
    cases hx : HMirror.netCheck env (HMirror.endCheck exc) n with
    | mk x n1 =>
      rw [hx] at hc
      cases x with
      | error e => cases hc
      | ok u =>
        have h1 : n1.sent = n.sent ++
            (if HMirror.endCheck exc then [.stateGet (some (lit "closed"))] else []) := by
          unfold HMirror.netCheck at hx
          split at hx
          · rename_i he; rw [check_ok_sent hx, if_pos he]
          · rename_i he
            cases hx
            rw [if_neg he, List.append_nil]
        dsimp only at hc
        cases hy : HMirror.netText env (p ++ lit "\n") n1 with
        | mk r n2 =>
          rw [hy] at hc
          cases r with
          | error e => cases hc
          | ok u =>
            dsimp only at hc
            refine fin n2 ?_ hc
            rw [expectOk_ok_sent hy, h1]
            simp [HMirror.lineReqs, hp]

/-! ## C41 -/

theorem hreach_new {env : HEnv} {maxlen : Int} {h : HostBuf} (hn : HostBuf.new maxlen = .ok h) :
    HReach env maxlen h := ⟨h, [], hn, rfl⟩

theorem notStopped_fresh (m : Int) : NotStopped [(lit "closed", .bool false), (lit "maxlen", .int m)] := by
  intro h
  cases h

/-- A mirror's writes followed by `close(exc)`, on a service with log `l` and without failures. -/
theorem writes_close_srv (env : HEnv) (exc : Option ExcObj) (hx : HMsg.Clean (HMirror.endHMsg exc)) (st : PyDict)
    (hns : NotStopped st) (aggressive : Bool) (ds : List PyStr) (hd : ∀ d ∈ ds, NoSurrogate d) (l : Log)
    (ok : Ok l) (ho : l.closed = false) :
    ∃ sent, HMirror.run env (ds.map .write ++ [.close exc]) ({ aggressive := aggressive }, { service := hb l st }) =
      ((ds.map fun d => .nat d.length) ++ [.unit], (({ aggressive := aggressive } : HMirror).closedM,
        srv (kindLog (ds.foldl feed l) (HMsg.kind (HMirror.endHMsg exc))).2 st sent)) := by
  obtain ⟨p', l', sent', h1, h2, h3, h4, h5, h6, h7⟩ := HMirror.writes_srv env st hns ds
    { aggressive := aggressive } [] l [] (fun _ => rfl) noBreak_nil noSurrogate_nil ok ho hd
  rw [feed_nil] at h7
  have hrun := HMirror.run_append env (ds.map .write) [.close exc]
    (({ aggressive := aggressive } : HMirror), { service := hb l st })
  have h1' : HMirror.run env (ds.map .write) (({ aggressive := aggressive } : HMirror), { service := hb l st }) =
    _ := h1
  rw [h1'] at hrun
  have hcl := HMirror.close_srv env exc hx st (fun _ => hns)
    { aggressive := aggressive } p' h4 h2 l' h5 h6 sent'
  simp only [HMirror.run, HMirror.exec, hcl] at hrun
  rw [hrun]
  have hfin : (if p' = [] then l' else feed l' (p' ++ lit "\n")).finish = (ds.foldl feed l).finish := by
    rw [← h7]
    split
    · rename_i hp; rw [hp, feed_nil]
    · rename_i hp; rw [finish_newline l' h3 hp]
  have hl : (kindLog (if p' = [] then l' else feed l' (p' ++ lit "\n"))
      (HMsg.kind (HMirror.endHMsg exc))).2 = (kindLog (ds.foldl feed l) (HMsg.kind (HMirror.endHMsg exc))).2 := by
    generalize (if p' = [] then l' else feed l' (p' ++ lit "\n")) = a at hfin
    generalize ds.foldl feed l = b at hfin
    cases exc with
    | none => exact hfin
    | some e => exact congrArg (fun x : Log => { x with done := x.done ++ [Item.msg (GMsg.new (.exc e))] }) hfin
  rw [hl]
  exact ⟨_, rfl⟩

/-- **C41** What a mirror (in either mode) writes to an open service that does not stop its mirrors, followed by
`close()`, has exactly the effect of writing it to the service's buffer locally, followed by
`new_line()`. -/
theorem C41_as_local (env : HEnv) (maxlen : Int) (h : HostBuf) (hr : HReach env maxlen h)
    (hopen : h.base.lastLine.closed = false)
    (hns : Json.lookup (lit "closed") h.state ≠ some (.bool true))
    (aggressive : Bool) (ds : List PyStr) (hd : ∀ d ∈ ds, NoSurrogate d) :
    (HMirror.run env (ds.map .write ++ [.close none]) ({ aggressive := aggressive }, { service := h })).1 =
      (ds.map fun d => .nat d.length) ++ [.unit] ∧
    (HMirror.run env (ds.map .write ++ [.close none])
      ({ aggressive := aggressive }, { service := h })).2.2.service =
      { h with base := (LineBuf.run (ds.map .write ++ [.newLine]) h.base).2 } := by
  obtain ⟨l, st, rfl, ok, _, _⟩ := hreach_hb hr
  have ho : l.closed = false := by
    cases hc : l.closed with
    | false => rfl
    | true => rw [show (hb l st).base = rep l from rfl, rep_closed hc] at hopen; cases hopen
  obtain ⟨sent, hrun⟩ := writes_close_srv env none HMsg.clean_close st hns aggressive ds hd l ok ho
  rw [hrun]
  refine ⟨rfl, ?_⟩
  obtain ⟨ok2, ho2, _⟩ := feeds_ok ds ok ho
  show hb (ds.foldl feed l).finish st = HostBuf.mk (LineBuf.run _ (rep l)).2 st
  rw [LineBuf.run_append, run_writes_rep ds l ok ho]
  simp only [LineBuf.run, LineBuf.exec, newLine_rep _ ok2 ho2]
  rfl

theorem lines_chars {t : PyStr} {ls : List PyStr} {r : PyStr} (h : Lines t ls r) :
    (∀ x ∈ ls, ∀ c ∈ x, c ∈ t) ∧ ∀ c ∈ r, c ∈ t := by
  induction h with
  | unfinished r _ => exact ⟨(fun x hx => by cases hx), fun c hc => hc⟩
  | crlf line text lines rest _ _ ih =>
    refine ⟨fun x hx c hc => ?_, fun c hc => List.mem_append_right _ (ih.2 c hc)⟩
    rcases List.mem_cons.1 hx with rfl | hx
    · exact List.mem_append_left _ (List.mem_append_left _ hc)
    · exact List.mem_append_right _ (ih.1 x hx c hc)
  | single line c0 text lines rest _ _ _ _ ih =>
    refine ⟨fun x hx c hc => ?_, fun c hc => List.mem_append_right _ (ih.2 c hc)⟩
    rcases List.mem_cons.1 hx with rfl | hx
    · exact List.mem_append_left _ (List.mem_append_left _ hc)
    · exact List.mem_append_right _ (ih.1 x hx c hc)

theorem feeds_chars {part : PyStr} {ds ls : List PyStr} {rest : PyStr} (h : Feeds part ds ls rest)
    (hp : NoSurrogate part) (hd : ∀ d ∈ ds, NoSurrogate d) :
    (∀ x ∈ ls, NoSurrogate x) ∧ NoSurrogate rest := by
  induction h with
  | nil part => exact ⟨(fun x hx => by cases hx), hp⟩
  | cons part piece pieces ls ls' mid rest hl _ ih =>
    have hpp := noSurrogate_append hp (hd piece List.mem_cons_self)
    obtain ⟨h1, h2⟩ := lines_chars hl
    obtain ⟨h3, h4⟩ := ih (fun c hc => hpp c (h2 c hc)) fun d h => hd d (List.mem_cons_of_mem _ h)
    refine ⟨fun x hx => ?_, h4⟩
    rcases List.mem_append.1 hx with hx | hx
    · exact fun c hc => hpp c (h1 x hx c hc)
    · exact h3 x hx

theorem foldl_feed_feeds (ds : List PyStr) (l : Log) (hl : NoBreak l.part) {ls : List PyStr} {rest : PyStr}
    (h : Feeds l.part ds ls rest) :
    ds.foldl feed l = { l with done := l.done ++ ls.map .str, part := rest } := by
  induction ds generalizing l ls with
  | nil => cases h; simp
  | cons d ds ih =>
    cases h with
    | cons _ _ _ ls1 ls2 mid _ h1 h2 =>
      have hs := lines_unique h1 (lines_segFrom l.part d hl)
      have hp : (feed l d).part = mid := hs.2.symm
      have hn : NoBreak (feed l d).part := segFrom_cur_noBreak _ _ hl
      rw [← hp] at h2
      rw [List.foldl_cons, ih (feed l d) hn h2]
      simp [feed, hs.1]

/-- A reader's `read(size)` after a mirror of a new service has written `ds` and has been closed, without
failures. -/
def hostRead (env : HEnv) (h0 : HostBuf) (aggressive : Bool) (ds : List PyStr) (size : Option Int) (rn : Reader) :
    Except Exc (List Item) :=
  let n := (HMirror.run env (ds.map .write ++ [.close none])
    ({ aggressive := aggressive }, { service := h0 })).2.2
  (Reader.read env size { reader := rn, net := n }).1

/-- **C41** A reader reads the last `maxlen` lines of what a mirror wrote, of those the last `size`, and nothing for
`size ≤ 0`; a last unfinished line is completed by `close()`. -/
theorem C41_reader_reads (env : HEnv) (hint : ∀ k : Nat, env.int (Json.natStr k) = some (k : Int))
    (maxlen : Int) (h0 : HostBuf) (hn : HostBuf.new maxlen = .ok h0) (aggressive : Bool)
    (ds : List PyStr) (hd : ∀ d ∈ ds, NoSurrogate d) (ls : List PyStr) (rest : PyStr)
    (hf : Feeds [] ds ls rest) (size : Option Int) (rn : Reader) :
    hostRead env h0 aggressive ds size rn =
      .ok (sized size (lastN maxlen.toNat ((ls ++ if rest = [] then [] else [rest]).map .str))) := by
  obtain ⟨hm, rfl, ok⟩ := new_hb hn
  obtain ⟨ok2, ho2, _⟩ := feeds_ok ds ok rfl
  have hfold := foldl_feed_feeds ds { cap := maxlen.toNat } noBreak_nil hf
  have hview : (ds.foldl feed { cap := maxlen.toNat }).finish.view =
      lastN maxlen.toNat ((ls ++ if rest = [] then [] else [rest]).map .str) := by
    rw [finish_view, hfold]
    simp only [Log.view, Log.all, List.nil_append]
    split <;> simp [*]
  have hclean : ∀ i ∈ (ds.foldl feed { cap := maxlen.toNat }).finish.view, i.Clean := by
    intro i hi
    rw [hview] at hi
    obtain ⟨x, hx, rfl⟩ := List.mem_map.1 (mem_of_mem_lastN hi)
    obtain ⟨h1, h2⟩ := feeds_chars hf noSurrogate_nil hd
    rcases List.mem_append.1 hx with h | h
    · exact h1 x h
    · split at h
      · cases h
      · rw [List.mem_singleton] at h; rw [h]; exact h2
  obtain ⟨sent, hrun⟩ := writes_close_srv env none HMsg.clean_close _ (notStopped_fresh maxlen) aggressive ds hd
    _ ok rfl
  unfold hostRead
  rw [hrun, ← hview]
  exact reader_read env hint size _ (finish_ok ok2 ho2) ho2 _ _ hclean _ rfl

/-- Three lines in a service of two. -/
example : ∃ h0 : HostBuf, HostBuf.new 2 = .ok h0 ∧
    hostRead sampleEnv h0 false [lit "a\nb", lit "c\nd"] none {} = .ok [.str (lit "bc"), .str (lit "d")] ∧
    hostRead sampleEnv h0 true [lit "a\nb", lit "c\nd"] (some 1) {} = .ok [.str (lit "d")] := by
  have hf : Feeds [] [lit "a\nb", lit "c\nd"] [lit "a", lit "bc"] (lit "d") :=
    (feeds_iff [] noBreak_nil _ _ _).2 (by decide +kernel)
  refine ⟨_, rfl, ?_, ?_⟩
  · exact C41_reader_reads sampleEnv sampleEnv_int 2 _ rfl false _ (by decide +kernel) _ _ hf none {}
  · exact C41_reader_reads sampleEnv sampleEnv_int 2 _ rfl true _ (by decide +kernel) _ _ hf (some 1) {}

/-- **C41** is false for texts with surrogates: `json` joins a surrogate pair, a local buffer does not. -/
theorem C41_violated : ¬ ∀ (env : HEnv) (maxlen : Int) (h0 : HostBuf) (aggressive : Bool) (ds ls : List PyStr)
    (rest : PyStr), HostBuf.new maxlen = .ok h0 → Feeds [] ds ls rest →
    hostRead env h0 aggressive ds none {} =
      .ok (lastN maxlen.toNat ((ls ++ if rest = [] then [] else [rest]).map .str)) := by
  intro h
  have hf : Feeds [] [[0xD83D, 0xDE00, 10]] [[0xD83D, 0xDE00]] [] :=
    (feeds_iff [] noBreak_nil _ _ _).2 (by decide +kernel)
  have h1 := h sampleEnv 2 _ false _ _ _ rfl hf
  have h2 := congrArg (fun x : Except Exc (List Item) => match x with
    | .ok [.str x] => x.length
    | _ => 0) h1
  revert h2
  decide +kernel

/-! ## C42 -/

theorem noSurrogate_join {l : List PyStr} (h : ∀ s ∈ l, NoSurrogate s) : NoSurrogate (join [] l) := by
  induction l with
  | nil => exact noSurrogate_nil
  | cons a l ih =>
    cases l with
    | nil => exact h a List.mem_cons_self
    | cons b l =>
      exact noSurrogate_append (noSurrogate_append (h a List.mem_cons_self) noSurrogate_nil)
        (ih fun s hs => h s (List.mem_cons_of_mem _ hs))

theorem wireList_strs {xs : List PyStr} (hs : ∀ x ∈ xs, NoSurrogate x) :
    Json.wireList (xs.map .str) = xs.map .str := by
  induction xs with
  | nil => rfl
  | cons x xs ih =>
    simp only [List.map_cons, Json.wireList, Json.wire, wireStr_id (hs x List.mem_cons_self)]
    rw [ih fun y hy => hs y (List.mem_cons_of_mem _ hy)]

theorem cleanMsg_exc {e : ExcObj} (h : ∀ s ∈ e.formatted, NoSurrogate s) : CleanMsg (GMsg.new (.exc e)) := by
  have hall := noSurrogate_join h
  constructor
  · show Json.wire (if e.isWarning then _ else _) = (if e.isWarning then _ else _)
    split
    · simp only [Json.wire]; rw [wireStr_id (by decide +kernel)]
    · simp only [Json.wire]; rw [wireStr_id (by decide +kernel)]
  · have hs : ∀ x ∈ splitlines (join [] e.formatted), NoSurrogate x := by
      rw [splitlines_eq]
      obtain ⟨h1, h2⟩ := lines_chars (lines_segFrom [] (join [] e.formatted) noBreak_nil)
      intro x hx
      rcases List.mem_append.1 hx with hx | hx
      · exact fun c hc => hall c (h1 x hx c hc)
      · split at hx
        · cases hx
        · rw [List.mem_singleton] at hx; rw [hx]; exact fun c hc => hall c (h2 c hc)
    exact wireList_strs hs

/-- The ways to send an exception or a warning. -/
inductive SendsExc (e : ExcObj) : HMCall → Prop
  | error : SendsExc e (.sendError e)
  | warning : SendsExc e (.sendWarning e)
  | close : SendsExc e (.close (some e))

theorem lastN_snoc {α : Type} {k : Nat} (hk : 1 ≤ k) (l : List α) (x : α) :
    ∃ ys, lastN k (l ++ [x]) = ys ++ [x] := by
  refine ⟨lastN (k - 1) l, ?_⟩
  simp only [lastN, List.length_append, List.length_cons, List.length_nil]
  rw [show l.length + (0 + 1) - k = l.length - (k - 1) by omega, List.drop_append,
    show l.length - (k - 1) - l.length = 0 by omega, List.drop_zero]

theorem mem_lastN_append {α : Type} {k : Nat} {a b : List α} {x : α} (h : x ∈ lastN k (a ++ b)) :
    x ∈ lastN (k - b.length) a ∨ x ∈ b := by
  simp only [lastN, List.length_append, List.drop_append, List.mem_append] at h
  rcases h with h | h
  · left
    simp only [lastN]
    by_cases hk : b.length ≤ k
    · rw [show a.length - (k - b.length) = a.length + b.length - k by omega]; exact h
    · rw [List.drop_eq_nil_of_le (by omega)] at h; cases h
  · exact .inr (List.mem_of_mem_drop h)

theorem lastN_mono {α : Type} {j k : Nat} (h : j ≤ k) {a : List α} {x : α} (hx : x ∈ lastN j a) : x ∈ lastN k a := by
  simp only [lastN] at hx ⊢
  have : a.drop (a.length - j) = (a.drop (a.length - k)).drop (a.length - j - (a.length - k)) := by
    rw [List.drop_drop]; congr 1; omega
  rw [this] at hx
  exact List.mem_of_mem_drop hx

theorem mem_lastN_of_append {α : Type} {k : Nat} {a b : List α} {x : α} (hx : x ∈ lastN (k - b.length) a) :
    x ∈ lastN k (a ++ b) := by
  simp only [lastN, List.length_append, List.drop_append, List.mem_append] at hx ⊢
  left
  by_cases hk : b.length ≤ k
  · rw [show a.length + b.length - k = a.length - (k - b.length) by omega]; exact hx
  · rw [List.drop_eq_nil_of_le (by omega)] at hx; cases hx

theorem mem_lastN_snoc {α : Type} {k : Nat} (hk : 1 ≤ k) (a : List α) (x : α) : x ∈ lastN k (a ++ [x]) := by
  obtain ⟨ys, h⟩ := lastN_snoc hk a x
  rw [h]; simp

/-- What is shown after the pending text and a message have been stored contains no surrogates. -/
theorem clean_after (l : Log) (ok : Ok l) (hv : ∀ i ∈ l.view, i.Clean) (p : PyStr) (hp : NoSurrogate p)
    (g : GMsg) (hg : CleanMsg g) :
    ∀ i ∈ lastN l.cap ((if p = [] then l else feed l (p ++ lit "\n")).all ++ [.msg g]), i.Clean := by
  have hpart : NoSurrogate l.part := by
    by_cases h0 : l.part = []
    · rw [h0]; exact noSurrogate_nil
    · have : Item.str l.part ∈ l.view := by
        simp only [Log.view, Log.all, h0, if_false]
        exact mem_lastN_snoc ok.cap _ _
      exact hv _ this
  -- what has been added
  have hnew : ∃ new : List Item, (if p = [] then l else feed l (p ++ lit "\n")).all = l.done ++ new ∧
      (l.part ≠ [] → new ≠ []) ∧ ∀ i ∈ new, i.Clean := by
    by_cases h0 : p = []
    · refine ⟨if l.part = [] then [] else [.str l.part], by simp only [h0, if_true]; rfl, ?_, ?_⟩
      · intro h; simp [h]
      · intro i hi
        split at hi
        · cases hi
        · rw [List.mem_singleton] at hi; rw [hi]; exact hpart
    · have hl := lines_segFrom l.part (p ++ lit "\n") ok.part
      have hns : NoSurrogate (l.part ++ (p ++ lit "\n")) :=
        noSurrogate_append hpart (noSurrogate_append hp (by decide +kernel))
      obtain ⟨h1, h2⟩ := lines_chars hl
      refine ⟨(segFrom l.part (p ++ lit "\n")).1.map .str ++
        (if (segFrom l.part (p ++ lit "\n")).2 = [] then [] else [.str (segFrom l.part (p ++ lit "\n")).2]), ?_, ?_, ?_⟩
      · simp only [h0, if_false, Log.all, feed, List.append_assoc]
      · intro _ hnil
        obtain ⟨hn1, hn2⟩ := List.append_eq_nil_iff.1 hnil
        have hn1 : (segFrom l.part (p ++ lit "\n")).1 = [] := List.map_eq_nil_iff.1 hn1
        have hn2 : (segFrom l.part (p ++ lit "\n")).2 = [] := by
          split at hn2
          · assumption
          · cases hn2
        rw [hn1, hn2] at hl
        generalize ht : l.part ++ (p ++ lit "\n") = t at hl
        cases hl
        have := congrArg List.length ht
        simp [lit] at this
      · intro i hi
        rcases List.mem_append.1 hi with hi | hi
        · obtain ⟨x, hx, rfl⟩ := List.mem_map.1 hi
          exact fun c hc => hns c (h1 x hx c hc)
        · split at hi
          · cases hi
          · rw [List.mem_singleton] at hi; rw [hi]; exact fun c hc => hns c (h2 c hc)
  obtain ⟨new, h1, h2, h3⟩ := hnew
  rw [h1, List.append_assoc]
  intro i hi
  rcases mem_lastN_append hi with hi | hi
  · refine hv i ?_
    have hle : l.cap - (new ++ [Item.msg g]).length ≤
        l.cap - (if l.part = [] then ([] : List Item) else [.str l.part]).length := by
      by_cases h0 : l.part = []
      · simp [h0]
      · simp [h0]; omega
    exact mem_lastN_of_append (lastN_mono hle hi)
  · rcases List.mem_append.1 hi with hi | hi
    · exact h3 i hi
    · rw [List.mem_singleton] at hi; rw [hi]; exact hg

/-- **C42** The newest item that a reader gets after a mirror has sent an exception or a warning, or has been
closed with an exception, is the `GroupedMessage` of that exception, equal in type and all lines.  (`hold`:
what was stored before, and what the mirror holds, contains no surrogates either.) -/
theorem C42_survives (env : HEnv) (hint : ∀ k : Nat, env.int (Json.natStr k) = some (k : Int))
    (maxlen : Int) (h : HostBuf) (hr : HReach env maxlen h)
    (hopen : h.base.lastLine.closed = false)
    (hns : Json.lookup (lit "closed") h.state ≠ some (.bool true))
    (hold : ∀ s items, LineBuf.read none h.base = (.ok items, s) → ∀ i ∈ items, i.Clean)
    (m : HMirror) (hm : HMReach env m) (hmo : m.buf.closed = false) (hagg : m.aggressive = false)
    (hpend : NoSurrogate m.buf.buf)
    (e : ExcObj) (he : ∀ s ∈ e.formatted, NoSurrogate s) (c : HMCall) (hc : SendsExc e c)
    (size : Option Int) (hsize : ∀ k, size = some k → 1 ≤ k) (rn : Reader) :
    let s := HMirror.exec env c (m, { service := h })
    s.1 = .unit ∧
    ∃ older, (Reader.read env size { reader := rn, net := s.2.2 }).1 =
      .ok (older ++ [.msg (GMsg.new (.exc e))]) := by
  obtain ⟨l, st, rfl, ok, _, _⟩ := hreach_hb hr
  have ho : l.closed = false := by
    cases hc : l.closed with
    | false => rfl
    | true => rw [show (hb l st).base = rep l from rfl, rep_closed hc] at hopen; cases hopen
  have hm' := hmreach_open hm hmo
  rw [hm']
  generalize m.buf.buf = p at *
  have hce := cleanMsg_exc he
  -- the state after the call
  have key : ∃ m' sent', HMirror.exec env c (m.withBuf p, { service := hb l st }) =
      (.unit, (m', srv (kindLog (if p = [] then l else feed l (p ++ lit "\n"))
        (.item (GMsg.new (.exc e)).serialize)).2 st sent')) := by
    cases hc with
    | error =>
      refine ⟨m.withBuf [], [] ++ HMirror.lineReqs (!e.isStop) p ++ [.post (.json (HMsg.body (.error (GMsg.new (.exc e)))))], ?_⟩
      simp only [HMirror.exec, HMirror.sendError_eq]
      rw [show HMirror.objMsg (lit "error") (GMsg.new (.exc e)) = HMsg.body (.error (GMsg.new (.exc e))) from rfl,
        show ({ service := hb l st } : HNet) = srv l st [] from rfl,
        HMirror.sendAfter_srv env _ _ (HMsg.clean_error hce) st (fun _ => hns) m p hpend
          (by rw [hagg]; intro h; cases h) l ok ho]
      rfl
    | warning =>
      refine ⟨m.withBuf [], [] ++ HMirror.lineReqs true p ++ [.post (.json (HMsg.body (.warning (GMsg.new (.exc e)))))], ?_⟩
      simp only [HMirror.exec, HMirror.sendWarning_eq]
      rw [show HMirror.objMsg (lit "warning") (GMsg.new (.exc e)) = HMsg.body (.warning (GMsg.new (.exc e))) from rfl,
        show ({ service := hb l st } : HNet) = srv l st [] from rfl,
        HMirror.sendAfter_srv env _ _ (HMsg.clean_warning hce) st (fun _ => hns) m p hpend
          (by rw [hagg]; intro h; cases h) l ok ho]
      rfl
    | close =>
      refine ⟨m.closedM, [] ++ HMirror.lineReqs (HMirror.endCheck (some e)) p ++
        [.post (.json (HMsg.body (.error (GMsg.new (.exc e)))))], ?_⟩
      simp only [HMirror.exec]
      rw [show ({ service := hb l st } : HNet) = srv l st [] from rfl,
        HMirror.close_srv env (some e) (HMsg.clean_error hce) st (fun _ => hns) m p hpend
          (by rw [hagg]; intro h; cases h) l ok ho]
      rfl
  obtain ⟨m', sent', hk⟩ := key
  dsimp only
  rw [hk]
  refine ⟨rfl, ?_⟩
  have hclean := clean_after l ok (fun i hi => hold _ _ (by
    rw [show (hb l st).base = rep l from rfl]; exact read_rep none l ok ho) i hi) p hpend _ hce
  have hl1 : Ok (if p = [] then l else feed l (p ++ lit "\n")) ∧
      (if p = [] then l else feed l (p ++ lit "\n")).closed = false ∧
      (if p = [] then l else feed l (p ++ lit "\n")).cap = l.cap := by
    split
    · exact ⟨ok, ho, rfl⟩
    · exact ⟨feed_ok _ ok ho, ho, rfl⟩
  generalize (if p = [] then l else feed l (p ++ lit "\n")) = l1 at hl1 hclean ⊢
  obtain ⟨ok1, ho1, hcap⟩ := hl1
  obtain ⟨ok2, ho2, _⟩ := kindLog_ok (.item (GMsg.new (.exc e)).serialize) l1 ok1 ho1
  have hall : (kindLog l1 (.item (GMsg.new (.exc e)).serialize)).2.view =
      lastN l.cap (l1.all ++ [.msg (GMsg.new (.exc e))]) := by
    rw [← hcap]
    show lastN l1.cap (l1.all ++ [.msg (GMsg.new (.exc e))] ++ []) = _
    rw [List.append_nil]
  rw [reader_read env hint size _ ok2 ho2 st _ (by rw [hall]; exact hclean) _ rfl, hall]
  obtain ⟨ys, hys⟩ := lastN_snoc ok.cap l1.all (.msg (GMsg.new (.exc e)))
  rw [hys]
  cases size with
  | none => exact ⟨ys, rfl⟩
  | some k =>
    have hk := hsize k rfl
    obtain ⟨zs, hzs⟩ := lastN_snoc (show 1 ≤ k.toNat by omega) ys (.msg (GMsg.new (.exc e)))
    refine ⟨zs, ?_⟩
    simp only [sized, show (0 : Int) < k by omega, if_true, hzs]

/-- A `ValueError` whose traceback has two lines. -/
example : ∃ h0 : HostBuf, HostBuf.new 2 = .ok h0 ∧ ∃ older,
    (Reader.read sampleEnv none { net := (HMirror.exec sampleEnv
      (.close (some { formatted := [lit "Traceback\n", lit "ValueError: x\n"] }))
      ({}, { service := h0 })).2.2 }).1 =
      .ok (older ++ [.msg { type := .str (lit "error"), data := [.str (lit "Traceback"), .str (lit "ValueError: x")] }]) := by
  refine ⟨_, rfl, ?_⟩
  have h := (C42_survives sampleEnv sampleEnv_int 2 _ (hreach_new rfl) rfl (notStopped_fresh 2)
    (fun s items h i hi => by cases h; cases hi) {} (.new false) rfl rfl noSurrogate_nil
    { formatted := [lit "Traceback\n", lit "ValueError: x\n"] } (by decide +kernel) _ .close none
    (fun k h => by cases h) {}).2
  have hg : splitlines (join [] [lit "Traceback\n", lit "ValueError: x\n"]) =
      [lit "Traceback", lit "ValueError: x"] := by decide +kernel
  simp only [GMsg.new, hg] at h
  exact h

/-- **C42** is false for a traceback with a surrogate pair. -/
theorem C42_violated : ¬ ∀ (env : HEnv) (maxlen : Int) (h0 : HostBuf) (e : ExcObj), HostBuf.new maxlen = .ok h0 →
    (Reader.read env none { net := (HMirror.exec env (.sendError e) ({}, { service := h0 })).2.2 }).1 =
      .ok [.msg (GMsg.new (.exc e))] := by
  intro h
  have h1 := h sampleEnv 2 _ { formatted := [[0xD83D, 0xDE00]] } rfl
  have h2 := congrArg (fun x : Except Exc (List Item) => match x with
    | .ok [.msg { data := [.str x], .. }] => x.length
    | _ => 0) h1
  revert h2
  decide +kernel

end SyncStream
