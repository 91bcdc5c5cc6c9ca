import Verif.Lemmas.ProcSteps
import Verif.Lemmas.Sched
/-!
# Property C66: processes at work while the main process receives

`N` processes with one thread each use their mirrors, the main process receives and uses its buffer, and their steps are
interleaved in every possible way, the lazily made locks included.
-/

namespace SyncStream
open Spec Conc PThr

/-- The calls and results of a process are those of its mirror alone (`Mirror.run` is the sequential model of Model/Proc.lean), and
what it has put into the queue is what the calls put there: all messages of the calls that have returned, and no others but those
of the call that has not. -/
def Alone (calls : List PCall) (rets : List PRet) (sent : List QMsg) : Prop :=
  ∃ cs : List MCall, calls = cs.map .mirror ∧ rets <+: (Mirror.run cs (Mirror.new 0, {})).1.map .mirror ∧
    sentBy (cs.take rets.length) <+: sent ∧ sent <+: sentBy cs

theorem mrun_length (cs : List MCall) (s : MNet) : (Mirror.run cs s).1.length = cs.length := by
  induction cs generalizing s with
  | nil => rfl
  | cons c cs ih => simp only [Mirror.run, List.length_cons, ih]

theorem sentBy_run {cs : List MCall} {m : Mirror} {sent : List QMsg} (h : (Mirror.run cs (Mirror.new 0, {})).2 = (m, ({} : Net).sendAll 0 sent)) :
    sentBy cs = sent := by
  unfold sentBy
  rw [h, Net.sendAll_queues]
  rfl

theorem procAt_alone {N i : Nat} {cur : Option (PCall × PProg (PRet × Unit))} {m : MProc} {sent : List QMsg} {calls : List PCall}
    {rets : List PRet} (h : ProcAt N i cur m sent calls rets) :
    Alone calls rets sent ∧ (cur = none → rets.length = calls.length) := by
  obtain ⟨h1, h2, cs, h3, h4⟩ := h
  have hl : rets.length = cs.length := by rw [h3, List.length_map, mrun_length]
  cases cur with
  | none =>
    obtain ⟨h4, h5⟩ := h4
    refine ⟨⟨cs, h4, by rw [h3], ?_, ?_⟩, fun _ => by rw [hl, h4, List.length_map]⟩
    · rw [hl, List.take_length, sentBy_run h5]
    · rw [sentBy_run h5]
  | some x =>
    obtain ⟨_, _, c, q, h4, h5, h6, h7, h8, h9⟩ := h4
    refine ⟨⟨cs ++ [c], h4, ?_, ?_, ?_⟩, nofun⟩
    · rw [mrun_append_fst, h3, List.map_append]
      exact List.prefix_append _ _
    · rw [hl, List.take_left']
      · exact h9
      · rfl
    · obtain ⟨new, _, hn⟩ := h6.prefix m (({} : Net).sendAll 0 sent) rfl
      have e : (Mirror.run (cs ++ [c]) (Mirror.new 0, {})).2 = (Mirror.exec c (Mirror.run cs (Mirror.new 0, {})).2).2 := by
        rw [mrun_append]; rfl
      unfold sentBy
      rw [e, ← h8]
      show sent <+: (q.seq (m, ({} : Net).sendAll 0 sent)).2.2.queues 0
      rw [hn, h2, Net.sendAll_queues, Net.sendAll_queues]
      exact List.prefix_append _ _

/-- **C66** At every moment of every execution: the messages received so far and those in the queue are an interleaving of
what the processes have sent; every process has sent what its calls send when it is alone, and they returned what they return alone;
the calls of the main process are those of the specification, one after the other, fed with the received messages
in the order of the queue; and between its calls the buffer holds the records. -/
theorem C66_streams (maxlen : Int) (N : Nat) (w : PWorld) (hw : Begun maxlen N w) (tr : List (Ev PCall PRet))
    (κ : Conf PWorld PLock Unit PCall PRet)
    (he : Exec (procThreads MThr.lazyLock id (Works N)) (init w fun _ => ()) tr κ) :
    ∃ (S : Nat → List QMsg) (got pend : List QMsg) (l : Log) (k : Int),
      Merge (streamsOf N S) (got ++ pend ++ κ.st.net.queues 0) ∧
      (∀ i, i ≠ 0 → Alone (callsBy i tr) (retsBy i tr) (S i) ∧ (κ.cur i = none → (retsBy i tr).length = (callsBy i tr).length)) ∧
      MainSteps ({ cap := maxlen.toNat }, N) (returned 0 tr) got (l, k) ∧ pend.length ≤ 1 ∧
      (κ.cur 0 = none → pend = [] ∧ Holds κ.st.main.base l ∧ κ.st.main.nMirrors = k) := by
  obtain ⟨_, _, S, got, h3, h4, h0, l, k, done, pend, cs, h5, h6, h7, h8, h9, h10⟩ := stepsInv hw he
  have hz : ∀ a : List PCall, (cs.map Prod.fst ++ a).zip (cs.map Prod.snd) = cs := fun a => by
    clear h7 h6 h10
    induction cs with
    | nil => simp
    | cons c cs ih => simp [ih]
  have hr : returned 0 tr = cs := by
    unfold returned
    rw [h6]
    cases hc : κ.cur 0 with
    | none =>
      rw [hc] at h10
      rw [h10.1]
      simpa using hz []
    | some x =>
      rw [hc] at h10
      rw [h10.1]
      exact hz _
  refine ⟨S, done, pend, l, k, by rw [← h5]; exact h3, fun i hi => procAt_alone (h4 i hi), by rw [hr]; exact h7, ?_, fun hc => ?_⟩
  · cases hc : κ.cur 0 with
    | none => rw [hc] at h10; rw [h10.2.1]; simp
    | some x =>
      obtain ⟨c, p⟩ := x
      rw [hc] at h10
      rcases h10.2 with ⟨_, hp, _⟩ | ⟨_, r, b', l', k', _, _, _, hs, _⟩
      · rw [hp]; simp
      · cases hs <;> simp
  · rw [hc] at h10
    obtain ⟨_, hp, hb, hk⟩ := h10
    exact ⟨hp, by rw [hb]; exact holds_rep h8, hk⟩

/-! ## Waiting for the end -/

theorem sentBy_prefix {cs ds : List MCall} (h : cs <+: ds) : sentBy cs <+: sentBy ds := by
  obtain ⟨es, rfl⟩ := h
  have loc : ∀ cs : List MCall, ∀ c ∈ cs, Mirror.LocCall (fun _ => True) c := fun _ c _ =>
    Mirror.exec_loc (fun _ => True) (fun _ => trivial) (fun _ => trivial) c (.inr ⟨trivial, fun _ => trivial⟩)
  obtain ⟨rs, m', sent, hq, _, hr⟩ := Mirror.run_loc _ cs (loc cs) (Mirror.new 0) (some false)
  have hr := hr {} rfl rfl
  obtain ⟨rs', m'', sent', hq', _, hr'⟩ := Mirror.run_loc _ es (loc es) m' (some false)
  have hr' := hr' (({} : Net).sendAll 0 sent) rfl rfl
  have hq : m'.queue = 0 := hq
  unfold sentBy
  rw [mrun_append, hr]
  show (({} : Net).sendAll 0 sent).queues 0 <+: (Mirror.run es (m', ({} : Net).sendAll 0 sent)).2.2.queues 0
  rw [hr', hq]
  simp only [Net.sendAll_queues]
  exact List.prefix_append _ _

/-- The part of a proper stream that has an end signal is the whole. -/
theorem proper_prefix {s t : List QMsg} (hs : ProperStream s) (ht : t <+: s) :
    t.countP isEnd ≤ 1 ∧ (1 ≤ t.countP isEnd → t = s) := by
  refine ⟨?_, fun h => ?_⟩
  · rw [← proper_count hs]
    exact List.Sublist.countP_le ht.sublist
  · obtain ⟨body, e, rfl, hb, he⟩ := hs
    rcases List.prefix_concat_iff.1 ht with h' | h'
    · exact h'
    · exfalso
      have : t.countP isEnd ≤ body.countP isEnd := List.Sublist.countP_le h'.sublist
      have h0 : body.countP isEnd = 0 := List.countP_eq_zero.2 fun m hm => by simp [not_isEnd_of_body (hb m hm)]
      omega

theorem sum_le {α : Type} (ss : List α) (f : α → Nat) (h : ∀ s ∈ ss, f s ≤ 1) : (ss.map f).sum ≤ ss.length ∧
    (ss.length ≤ (ss.map f).sum → ∀ s ∈ ss, 1 ≤ f s) := by
  induction ss with
  | nil => exact ⟨Nat.le_refl _, fun _ _ => nofun⟩
  | cons s ss ih =>
    obtain ⟨h1, h2⟩ := ih fun t ht => h t (List.mem_cons_of_mem _ ht)
    have h3 := h s List.mem_cons_self
    simp only [List.map_cons, List.sum_cons, List.length_cons]
    refine ⟨by omega, fun hl t ht => ?_⟩
    rcases List.mem_cons.1 ht with rfl | ht
    · omega
    · exact h2 (by omega) t ht

/-- The counter of the main process. -/
theorem mainSteps_count {s0 s : Log × Int} {cs : List (PCall × PRet)} {got : List QMsg} (h : MainSteps s0 cs got s) :
    s.2 = s0.2 - got.countP isEnd ∧ ((.receive, .main (.bool false)) ∈ cs → s.2 ≤ 0) ∧
    (1 ≤ s0.2 → (.receive, .main (.bool false)) ∉ cs → 1 ≤ s.2) := by
  induction h with
  | nil => exact ⟨by simp, nofun, fun h _ => h⟩
  | snoc s' s'' cs got ms c r h1 h2 ih =>
    obtain ⟨i1, i2, i3⟩ := ih
    rw [List.countP_append]
    have hn : ∀ {x : PCall × PRet}, x ∉ cs ++ [(c, r)] → x ∉ cs := fun h h' => h (List.mem_append_left _ h')
    have hm : ∀ {x : PCall × PRet}, x ∈ cs ++ [(c, r)] → x ∈ cs ∨ x = (c, r) := fun h => by
      rcases List.mem_append.1 h with h | h
      · exact .inl h
      · exact .inr (List.mem_singleton.1 h)
    cases h2 with
    | body l l' k m ha hb =>
      have : [m].countP isEnd = 0 := by simp [not_isEnd_of_body hb]
      refine ⟨by rw [this]; simpa using i1, fun h => ?_, fun h1 h => i3 h1 (hn h)⟩
      rcases hm h with h | h
      · exact i2 h
      · cases h
    | ends l l' k m ha hb =>
      have : [m].countP isEnd = 1 := by simp [(isEnd_iff m).2 hb]
      dsimp only at i1 i2 i3 ⊢
      refine ⟨by rw [this, i1]; push_cast; omega, fun h => ?_, fun h1 h => ?_⟩
      · rcases hm h with h | h
        · have := i2 h; omega
        · by_cases hk : 1 < k
          · rw [decide_eq_true hk] at h; cases h
          · omega
      · by_cases hk : 1 < k
        · omega
        · rw [decide_eq_false hk] at h
          exact absurd (List.mem_append_right _ (List.mem_singleton.2 rfl)) h
    | waits l k =>
      refine ⟨by simpa using i1, fun h => ?_, fun h1 h => i3 h1 (hn h)⟩
      rcases hm h with h | h
      · exact i2 h
      · cases h
    | write l k d =>
      refine ⟨by simpa using i1, fun h => ?_, fun h1 h => i3 h1 (hn h)⟩
      rcases hm h with h | h
      · exact i2 h
      · cases h
    | call l l' k d r hd hs =>
      refine ⟨by simpa using i1, fun h => ?_, fun h1 h => i3 h1 (hn h)⟩
      rcases hm h with h | h
      · exact i2 h
      · cases h

theorem mainSteps_replays {s0 s : Log × Int} {cs : List (PCall × PRet)} {got : List QMsg} (h : MainSteps s0 cs got s)
    (hc : ∀ x ∈ cs, x.1 = .receive) : Replays s0.1 got s.1 := by
  have app : ∀ {l l' l'' : Log} {ms : List QMsg} {m : QMsg}, Replays l ms l' → Arrives l' m l'' → Replays l (ms ++ [m]) l'' := by
    intro l l' l'' ms m h ha
    induction h with
    | nil => exact .cons _ _ _ _ _ ha (.nil _)
    | cons _ _ _ _ _ h1 _ ih => exact .cons _ _ _ _ _ h1 (ih ha)
  induction h with
  | nil => exact .nil _
  | snoc s' s'' cs got ms c r h1 h2 ih =>
    have ih := ih fun x hx => hc x (List.mem_append_left _ hx)
    have hcr : c = .receive := hc (c, r) (List.mem_append_right _ (List.mem_singleton.2 rfl))
    cases h2 with
    | body l l' k m ha hb => exact app ih ha
    | ends l l' k m ha hb => exact app ih ha
    | waits l k => simpa using ih
    | write l k d => cases hcr
    | call l l' k d r hd hs => cases hcr

theorem body_sends {cs : List MCall} (h : ∀ c ∈ cs, Mirror.isBodyCall c = true) : (sentBy cs).countP isEnd = 0 := by
  have hl : ∀ c ∈ cs, Mirror.LocCall IsBody c := fun c hc =>
    Mirror.exec_loc IsBody (fun _ => trivial) (fun _ => trivial) c (.inl (h c hc))
  obtain ⟨rs, m', sent, hq, hs, hr⟩ := Mirror.run_loc IsBody cs hl (Mirror.new 0) (some false)
  have hr := hr {} rfl rfl
  have e : sentBy cs = sent := by
    unfold sentBy
    rw [hr]
    show (({} : Net).sendAll 0 sent).queues 0 = _
    rw [Net.sendAll_queues]
    rfl
  rw [e]
  exact List.countP_eq_zero.2 fun m hm => by simp [not_isEnd_of_body (hs m hm)]

/-- A process has sent a part of what its program sends, and an end signal only if it is at the last call. -/
theorem alone_proper {calls : List PCall} {rets : List PRet} {sent : List QMsg} {cs : List MCall} (h : Alone calls rets sent)
    (hp : ProperProgram cs) (hc : calls <+: cs.map .mirror) :
    sent <+: sentBy cs ∧ (1 ≤ sent.countP isEnd → calls = cs.map .mirror) ∧ (rets.length = cs.length → sent = sentBy cs) := by
  obtain ⟨ds, h1, h2, h3, h4⟩ := h
  have hd : ds <+: cs := by
    rw [h1] at hc
    obtain ⟨xs, hx⟩ := hc
    obtain ⟨es, fs, rfl, he, rfl⟩ := List.map_eq_append_iff.1 hx.symm
    have : es = ds := (List.map_inj_right (fun a b h => by cases h; rfl)).1 he
    subst this
    exact List.prefix_append _ _
  refine ⟨h4.trans (sentBy_prefix hd), fun hl => ?_, fun hl => ?_⟩
  · obtain ⟨body, exc, rfl, hb⟩ := hp
    rcases List.prefix_concat_iff.1 hd with h' | h'
    · rw [h1, h']
    · exfalso
      have : sent.countP isEnd ≤ (sentBy ds).countP isEnd := List.Sublist.countP_le h4.sublist
      rw [body_sends fun c hc => hb c (h'.subset hc)] at this
      omega
  · have h5 : rets.length ≤ ds.length := by
      have := h2.length_le
      rw [List.length_map, mrun_length] at this
      exact this
    have h6 : ds = cs := hd.eq_of_length (by have := hd.length_le; omega)
    subst h6
    rw [hl, List.take_length] at h3
    exact h4.eq_of_length (Nat.le_antisymm h4.length_le h3.length_le)

theorem mem_streamsOf {N : Nat} {S : Nat → List QMsg} {s : List QMsg} (h : s ∈ streamsOf N S) : ∃ i, 1 ≤ i ∧ i ≤ N ∧ s = S i := by
  obtain ⟨i, hi, rfl⟩ := List.mem_map.1 h
  exact ⟨i + 1, by omega, List.mem_range.1 hi, rfl⟩

theorem streamsOf_mem {N i : Nat} (S : Nat → List QMsg) (h1 : 1 ≤ i) (h2 : i ≤ N) : S i ∈ streamsOf N S :=
  List.mem_map.2 ⟨i - 1, List.mem_range.2 (by omega), by congr; omega⟩

theorem streamsOf_congr {N : Nat} {S T : Nat → List QMsg} (h : ∀ i, 1 ≤ i → i ≤ N → S i = T i) : streamsOf N S = streamsOf N T :=
  List.map_congr_left fun i hi => h (i + 1) (by omega) (List.mem_range.1 hi)

theorem streamsOf_length (N : Nat) (S : Nat → List QMsg) : (streamsOf N S).length = N := by simp [streamsOf]

/-- **C66** Every process runs a program that ends with `close()`.  If `receive()` has returned `False`, then everything that the
programs send has been sent and received, and the queue is empty: `False` does not come too early. -/
theorem C66_false_is_the_end (maxlen : Int) (N : Nat) (hN : 1 ≤ N) (w : PWorld) (hw : Begun maxlen N w) (progs : Nat → List MCall)
    (hp : ∀ i, 1 ≤ i → i ≤ N → ProperProgram (progs i)) (tr : List (Ev PCall PRet)) (κ : Conf PWorld PLock Unit PCall PRet)
    (he : Exec (procThreads MThr.lazyLock id (Works N)) (init w fun _ => ()) tr κ)
    (hc : ∀ i, 1 ≤ i → i ≤ N → callsBy i tr <+: (progs i).map .mirror) (hf : (.receive, .main (.bool false)) ∈ returned 0 tr) :
    κ.st.net.queues 0 = [] ∧ (∀ i, 1 ≤ i → i ≤ N → callsBy i tr = (progs i).map .mirror) ∧
    ∃ (got : List QMsg) (l : Log), Merge (streamsOf N fun i => sentBy (progs i)) got ∧
      MainSteps ({ cap := maxlen.toNat }, N) (returned 0 tr) got (l, 0) ∧
      (κ.cur 0 = none → Holds κ.st.main.base l ∧ κ.st.main.nMirrors = 0) := by
  obtain ⟨S, got, pend, l, k, h1, h2, h3, h4, h5⟩ := C66_streams maxlen N w hw tr κ he
  obtain ⟨c1, c2, _⟩ := mainSteps_count h3
  have hk := c2 hf
  dsimp only at c1 hk
  have ha : ∀ i, 1 ≤ i → i ≤ N → _ := fun i hi hi' => alone_proper (h2 i (by omega)).1 (hp i hi hi') (hc i hi hi')
  have hcount := merge_perm_count h1 isEnd
  rw [List.append_assoc, List.countP_append] at hcount
  have hone : ∀ s ∈ streamsOf N S, s.countP isEnd ≤ 1 := fun s hs => by
    obtain ⟨i, hi, hi', rfl⟩ := mem_streamsOf hs
    exact (proper_prefix (program_proper (hp i hi hi')) (ha i hi hi').1).1
  obtain ⟨s1, s2⟩ := sum_le (streamsOf N S) (List.countP isEnd) hone
  rw [streamsOf_length] at s1 s2
  have hall := s2 (by omega)
  have hS : streamsOf N S = streamsOf N fun i => sentBy (progs i) := streamsOf_congr fun i hi hi' =>
    (proper_prefix (program_proper (hp i hi hi')) (ha i hi hi').1).2 (hall _ (streamsOf_mem S hi hi'))
  rw [hS] at h1
  obtain ⟨pre, e, e1, e2, _, _⟩ := merge_proper h1 (fun s hs => by
    obtain ⟨i, hi, hi', rfl⟩ := mem_streamsOf hs
    exact program_proper (hp i hi hi')) (fun h => by
      have := streamsOf_length N fun i => sentBy (progs i)
      rw [h] at this
      simp at this
      omega)
  have hrest : pend ++ κ.st.net.queues 0 = [] := by
    rcases List.eq_nil_or_concat (pend ++ κ.st.net.queues 0) with h | ⟨xs, x, h⟩
    · exact h
    · exfalso
      have hx : x = e := by
        rw [List.append_assoc, h, List.concat_eq_append, ← List.append_assoc] at e1
        have := (List.append_inj' e1 rfl).2
        simpa using this
      have : 1 ≤ (pend ++ κ.st.net.queues 0).countP isEnd := by
        rw [h, hx, List.concat_eq_append, List.countP_append]
        simp [(isEnd_iff e).2 e2]
      omega
  obtain ⟨r1, r2⟩ := List.append_eq_nil_iff.1 hrest
  rw [List.append_assoc, hrest, List.append_nil] at h1
  have hk0 : k = 0 := by
    have : (streamsOf N S).map (List.countP isEnd) = List.replicate N 1 := by
      apply List.ext_getElem
      · simp [streamsOf_length]
      · intro j hj _
        have hj' : j < (streamsOf N S).length := by simpa using hj
        simp only [List.getElem_map, List.getElem_replicate]
        have a1 := hone _ (List.getElem_mem hj')
        have a2 := hall _ (List.getElem_mem hj')
        omega
    rw [this, hrest] at hcount
    simp at hcount
    omega
  subst hk0
  refine ⟨r2, fun i hi hi' => (ha i hi hi').2.1 (hall _ (streamsOf_mem S hi hi')), got, l, h1, h3, fun h => (h5 h).2⟩

/-- **C66** If all processes have finished and `receive()` has not returned `False` yet, then there is a message in the queue: the next
`receive()` does not wait, and `wait()` comes to its end. -/
theorem C66_goes_on (maxlen : Int) (N : Nat) (hN : 1 ≤ N) (w : PWorld) (hw : Begun maxlen N w) (progs : Nat → List MCall)
    (hp : ∀ i, 1 ≤ i → i ≤ N → ProperProgram (progs i)) (tr : List (Ev PCall PRet)) (κ : Conf PWorld PLock Unit PCall PRet)
    (he : Exec (procThreads MThr.lazyLock id (Works N)) (init w fun _ => ()) tr κ)
    (hc : ∀ i, 1 ≤ i → i ≤ N → callsBy i tr = (progs i).map .mirror) (hi : ∀ i, κ.cur i = none)
    (hf : (.receive, .main (.bool false)) ∉ returned 0 tr) : κ.st.net.queues 0 ≠ [] := by
  intro hq
  obtain ⟨S, got, pend, l, k, h1, h2, h3, h4, h5⟩ := C66_streams maxlen N w hw tr κ he
  obtain ⟨c1, _, c3⟩ := mainSteps_count h3
  have hk := c3 (by show (1 : Int) ≤ N; omega) hf
  dsimp only at c1 hk
  rw [(h5 (hi 0)).1, hq, List.append_nil, List.append_nil] at h1
  have hS : streamsOf N S = streamsOf N fun i => sentBy (progs i) := streamsOf_congr fun i hi1 hi2 => by
    refine (alone_proper (h2 i (by omega)).1 (hp i hi1 hi2) (by rw [hc i hi1 hi2])).2.2 ?_
    rw [(h2 i (by omega)).2 (hi i), hc i hi1 hi2, List.length_map]
  rw [hS] at h1
  obtain ⟨pre, e, e1, e2, _, e3⟩ := merge_proper h1 (fun s hs => by
    obtain ⟨i, hi, hi', rfl⟩ := mem_streamsOf hs
    exact program_proper (hp i hi hi')) (fun h => by
      have := streamsOf_length N fun i => sentBy (progs i)
      rw [h] at this
      simp at this
      omega)
  rw [streamsOf_length] at e3
  have : got.countP isEnd = N := by
    rw [e1, List.countP_append, ← e3]
    simp [(isEnd_iff e).2 e2]
  omega

/-- **C66** The whole of `wait()`: the main process only receives, and a `receive()` has returned `False`.  Then the buffer holds what the messages of
the programs amount to, in an order in which the messages of each process keep their order. -/
theorem C66_wait (maxlen : Int) (N : Nat) (hN : 1 ≤ N) (w : PWorld) (hw : Begun maxlen N w) (progs : Nat → List MCall)
    (hp : ∀ i, 1 ≤ i → i ≤ N → ProperProgram (progs i)) (tr : List (Ev PCall PRet)) (κ : Conf PWorld PLock Unit PCall PRet)
    (he : Exec (procThreads MThr.lazyLock id (Works N)) (init w fun _ => ()) tr κ)
    (hc : ∀ i, 1 ≤ i → i ≤ N → callsBy i tr <+: (progs i).map .mirror) (hr : ∀ c ∈ callsBy 0 tr, c = .receive)
    (hf : (.receive, .main (.bool false)) ∈ returned 0 tr) (hi : κ.cur 0 = none) :
    ∃ (got : List QMsg) (l : Log), Merge (streamsOf N fun i => sentBy (progs i)) got ∧
      Replays { cap := maxlen.toNat } got l ∧ Holds κ.st.main.base l ∧ κ.st.net.queues 0 = [] ∧ κ.st.main.nMirrors = 0 := by
  obtain ⟨h1, _, got, l, h2, h3, h4⟩ := C66_false_is_the_end maxlen N hN w hw progs hp tr κ he hc hf
  obtain ⟨h5, h6⟩ := h4 hi
  refine ⟨got, l, h2, mainSteps_replays h3 fun x hx => ?_, h5, h1, h6⟩
  exact hr _ (List.of_mem_zip (show (x.1, x.2) ∈ _ from hx)).1

/-! ## An execution -/

/-- The threads 0, 1 and 2 take turns; one that cannot move is left out, and the main process does not start to receive while the queue
is empty. -/
def turns : Nat → Nat → (Nat → List PCall) → Conf PWorld PLock Unit PCall PRet → List (Move PCall)
  | 0, _, _, _ => []
  | n + 1, i, ps, κ =>
    let i := i % 3
    let m : Option (Move PCall) := match κ.cur i, ps i with
      | none, [] => none
      | none, c :: _ => if i == 0 && (κ.st.net.queues 0).isEmpty then none else some (.start i c)
      | some _, _ => some (.go i)
    match m with
    | none => turns n (i + 1) ps κ
    | some m =>
      match move (procThreads MThr.lazyLock id (Works 2)) 3 κ (fun | .buf _ _ => true | _ => false) m with
      | none => turns n (i + 1) ps κ
      | some (_, κ') => m :: turns n (i + 1) (match m with | .start _ _ => upd ps i (ps i).tail | .go _ => ps) κ'

/-- A new buffer from which two mirrors have been taken. -/
def pair : PWorld := ⟨{ base := { storage := { maxlen := 9 } }, nMirrors := 2 }, fun _ => { mirror := .new 0 }, {}⟩

theorem pair_begun : Begun 9 2 pair := ⟨⟨_, rfl, rfl⟩, rfl, rfl⟩

/-- The programs: `write("a\n"); close()` and `write("b"); close()`. -/
def pairProgs (i : Nat) : List MCall := if i = 1 then [.write (lit "a\n"), .close none] else [.write (lit "b"), .close none]

theorem pairProgs_proper (i : Nat) : ProperProgram (pairProgs i) := by
  unfold pairProgs
  split
  · exact ⟨[.write (lit "a\n")], none, rfl, fun c hc => by cases hc with | head => rfl | tail _ h => cases h⟩
  · exact ⟨[.write (lit "b")], none, rfl, fun c hc => by cases hc with | head => rfl | tail _ h => cases h⟩

/-- Both programs at the same time, and the main process receives four messages. -/
def pairMoves : List (Move PCall) := turns 300 1
  (fun i => if i = 0 then List.replicate 5 .receive else if i ≤ 2 then (pairProgs i).map .mirror else []) (init pair fun _ => ())

/-- What is to be seen at the end. -/
def pairEnds : Bool :=
  match moves (procThreads MThr.lazyLock id (Works 2)) 3 pairMoves (init pair fun _ => ()) (fun | .buf _ _ => true | _ => false) with
  | none => false
  | some (tr, κ) => (κ.cur 0).isNone && pairMoves.length == 168 &&
    (match callsBy 1 tr with
      | [.mirror (.write a), .mirror (.close none)] => a == lit "a\n"
      | _ => false) &&
    (match callsBy 2 tr with
      | [.mirror (.write a), .mirror (.close none)] => a == lit "b"
      | _ => false) &&
    (match callsBy 0 tr with
      | [.receive, .receive, .receive, .receive] => true
      | _ => false) &&
    (match returned 0 tr with
      | [(.receive, .main (.bool true)), (.receive, .main (.bool true)), (.receive, .main (.bool true)), (.receive, .main (.bool false))] => true
      | _ => false) &&
    (match κ.st.main.base.storage.items with
      | [.str a, .str b] => a == lit "a" && b == lit "b"
      | _ => false)

theorem pair_ends : pairEnds = true := by decide +kernel

theorem turns_ok (n i : Nat) (ps : Nat → List PCall) (κ : Conf PWorld PLock Unit PCall PRet) (ok : Nat → PCall → Prop)
    (hp : ∀ i, ∀ c ∈ ps i, ok i c) : ∀ m ∈ turns n i ps κ, ∀ i c, m = .start i c → ok i c := by
  induction n generalizing i ps κ with
  | zero => intro m hm; cases hm
  | succ n ih =>
    intro m hm j c e
    simp only [turns] at hm
    split at hm
    · exact ih _ _ _ hp m hm j c e
    · rename_i m' he
      split at hm
      · exact ih _ _ _ hp m hm j c e
      · rcases List.mem_cons.1 hm with rfl | hm
        · subst e
          split at he
          · cases he
          · rename_i c' cs _ hps
            split at he
            · cases he
            · cases he
              exact hp _ _ (by rw [hps]; exact List.mem_cons_self)
          · cases he
        · refine ih _ _ _ ?_ m hm j c e
          intro k c' hc'
          split at hc'
          · by_cases hk : k = i % 3
            · subst hk
              rw [upd_same] at hc'
              exact hp _ _ (List.mem_of_mem_tail hc')
            · rw [upd_other _ _ hk] at hc'
              exact hp _ _ hc'
          · exact hp _ _ hc'

/-- An execution of which the assumptions of `C66_wait` hold: the steps of the two processes and of the main process alternate, and the records
at the end are `"a"` and `"b"`. -/
theorem C66_execution : ∃ tr κ, Exec (procThreads MThr.lazyLock id (Works 2)) (init pair fun _ => ()) tr κ ∧ κ.cur 0 = none ∧
    (∀ i, 1 ≤ i → i ≤ 2 → callsBy i tr = (pairProgs i).map .mirror) ∧ (∀ c ∈ callsBy 0 tr, c = .receive) ∧
    (.receive, .main (.bool false)) ∈ returned 0 tr ∧ κ.st.main.base.storage.items = [.str (lit "a"), .str (lit "b")] := by
  have h := pair_ends
  unfold pairEnds at h
  split at h
  · cases h
  · rename_i tr κ e
    simp only [Bool.and_eq_true, Option.isNone_iff_eq_none] at h
    obtain ⟨⟨⟨⟨⟨⟨h0, _⟩, h1⟩, h2⟩, h3⟩, h4⟩, h5⟩ := h
    refine ⟨tr, κ, moves_sound ?_ (fun _ _ _ => rfl) e ?_, h0, fun i hi hi' => ?_, ?_, ?_, ?_⟩
    · refine turns_ok _ _ _ _ (Works 2) fun i c hc => ?_
      split at hc
      · exact .inl ⟨‹_›, .inl (List.eq_of_mem_replicate hc)⟩
      · split at hc
        · obtain ⟨m, _, rfl⟩ := List.mem_map.1 hc
          exact .inr ⟨by omega, by omega, m, rfl⟩
        · cases hc
    · intro l hl
      cases l with
      | buf p k => exact ⟨p, k, rfl⟩
      | _ => cases hl
    · have hi : i = 1 ∨ i = 2 := by omega
      rcases hi with rfl | rfl
      · split at h1
        · rename_i a hc
          rw [hc, beq_iff_eq.1 h1]
          rfl
        · cases h1
      · split at h2
        · rename_i a hc
          rw [hc, beq_iff_eq.1 h2]
          rfl
        · cases h2
    · split at h3
      · rename_i hc
        rw [hc]
        intro c hc
        simpa using hc
      · cases h3
    · split at h4
      · rename_i hc
        rw [hc]
        simp
      · cases h4
    · split at h5
      · rename_i a b hc
        simp only [Bool.and_eq_true, beq_iff_eq] at h5
        rw [hc, h5.1, h5.2]
      · cases h5

end SyncStream
