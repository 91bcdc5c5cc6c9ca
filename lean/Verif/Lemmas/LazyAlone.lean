import Verif.Spec.LazyThreads
import Verif.Lemmas.Prog
/-!
# Loading lazy modules without interruption
-/

namespace SyncStream.LazyThreads
open Spec Prog

section
variable {env : LTEnv} {rank : Nat → Nat}

theorem seq_gets {α : Type} (f : LTWorld → α) (w : LTWorld) : (gets f).seq w = (.ok (f w), w) := seq_atom ..

theorem seq_modify (f : LTWorld → LTWorld) (w : LTWorld) : (modify f).seq w = (.ok (), f w) := seq_atom ..

/-- The modules from rank `r` on are at rest. -/
def ReadyFrom (env : LTEnv) (rank : Nat → Nat) (r : Nat) (w : LTWorld) : Prop :=
  ∀ i, r ≤ rank i → (NotTouched env w i ∨ HasLoaded env w i) ∧ ∀ d ∈ (w.objs i).deps, rank i < rank d

/-- What work on the modules from rank `r` on leaves behind. -/
structure AfterWork (env : LTEnv) (rank : Nat → Nat) (r : Nat) (w w' : LTWorld) : Prop where
  objs : ∀ i, rank i < r → w'.objs i = w.objs i
  started : ∀ i, rank i < r → (i ∈ w'.started ↔ i ∈ w.started)
  finished : ∀ i, rank i < r → (i ∈ w'.finished ↔ i ∈ w.finished)
  keep : ∀ i, HasLoaded env w i → HasLoaded env w' i
  failed : w'.failed = w.failed
  ready : ReadyFrom env rank r w'

theorem ReadyFrom.mono {r r' : Nat} {w : LTWorld} (h : ReadyFrom env rank r w) (hr : r ≤ r') : ReadyFrom env rank r' w :=
  fun i hi => h i (Nat.le_trans hr hi)

theorem AfterWork.refl {r : Nat} {w : LTWorld} (h : ReadyFrom env rank r w) : AfterWork env rank r w w :=
  ⟨fun _ _ => rfl, fun _ _ => .rfl, fun _ _ => .rfl, fun _ h => h, rfl, h⟩

theorem AfterWork.trans {r : Nat} {w w' w'' : LTWorld} (h : AfterWork env rank r w w') (h' : AfterWork env rank r w' w'') :
    AfterWork env rank r w w'' :=
  ⟨fun i hi => (h'.objs i hi).trans (h.objs i hi), fun i hi => (h'.started i hi).trans (h.started i hi),
    fun i hi => (h'.finished i hi).trans (h.finished i hi), fun i hi => h'.keep i (h.keep i hi), h'.failed.trans h.failed, h'.ready⟩

/-- Work on later modules is work. -/
theorem AfterWork.lower {r r' : Nat} {w w' : LTWorld} (hr : r ≤ r') (h0 : ReadyFrom env rank r w) (h : AfterWork env rank r' w w') :
    AfterWork env rank r w w' := by
  refine ⟨fun i hi => h.objs i (Nat.lt_of_lt_of_le hi hr), fun i hi => h.started i (Nat.lt_of_lt_of_le hi hr), fun i hi => h.finished i (Nat.lt_of_lt_of_le hi hr), h.keep,
    h.failed, fun i hi => ?_⟩
  by_cases hi' : r' ≤ rank i
  · exact h.ready i hi'
  have hlt := Nat.lt_of_not_le hi'
  have e := h.objs i hlt
  refine ⟨?_, by rw [e]; exact (h0 i hi).2⟩
  rcases (h0 i hi).1 with ⟨a, b, c, d⟩ | q
  · exact .inl ⟨by rw [e]; exact a, by rw [e]; exact b, fun x => c ((h.started i hlt).mp x), fun x => d ((h.finished i hlt).mp x)⟩
  · exact .inr (h.keep i q)

theorem seq_lookup {i : Nat} {attr : PyStr} {w : LTWorld} (h : CanFind env i attr) (hf : i ∈ w.finished) :
    (lookup env i attr).seq w = (.ok (), w) := by
  have : has env w i attr = true := by
    rcases h.2 with h | h
    · simp [has, h]
    · simp [has, h, hf]
  exact (seq_atom (L := Nat) (m := fun w => if has env w i attr then (.ok (), w) else (.error .attributeError, w)) w).trans (if_pos this)

/-- An attribute of a module that has been loaded. -/
theorem get_loaded {m : Nat} {i : Nat} {attr : PyStr} {w : LTWorld} (h : HasLoaded env w i) (ha : CanFind env i attr) :
    (go env (m + 1) (.get i attr)).seq w = (.ok (), w) := by
  change (getattr env (go env m) i attr).seq w = _
  rw [getattr, seq_bind_ok (seq_gets _ w)]
  rcases h.2 with e | ⟨e1, e2, e3⟩
  · rw [e]; exact seq_lookup ha h.1
  · rw [e2]
    change (impGet env _ i attr).seq w = _
    rw [impGet, if_pos e1]
    have : (Prog.withLock i true (loadBlock env (go env m) i attr)).seq w = (.ok true, w) := by
      rw [seq_withLock, loadBlock, seq_bind_ok (seq_gets _ w), if_pos e2, seq_bind_ok (seq_gets _ w), if_pos e3, seq_bind_ok (seq_lookup ha h.1)]
      rfl
    rw [seq_bind_ok this]
    rfl

/-- Statements, each of which works. -/
theorem seq_acts {r : Nat} {self : Job → LTProg Unit} {l : List (LUse × Bool)}
    (h : ∀ u t, (u, t) ∈ l → ∀ w, ReadyFrom env rank r w → ∃ w', (act self u).seq w = (.ok (), w') ∧ AfterWork env rank r w w')
    (w : LTWorld) (hw : ReadyFrom env rank r w) : ∃ w', (acts self l).seq w = (.ok (), w') ∧ AfterWork env rank r w w' := by
  induction l generalizing w with
  | nil => exact ⟨w, rfl, .refl hw⟩
  | cons x l ih =>
    obtain ⟨u, t⟩ := x
    obtain ⟨w1, e1, a1⟩ := h u t (.head _) w hw
    obtain ⟨w2, e2, a2⟩ := ih (fun u t hm => h u t (.tail _ hm)) w1 a1.ready
    refine ⟨w2, ?_, a1.trans a2⟩
    cases t with
    | false => rw [acts, seq_bind_ok e1]; exact e2
    | true =>
      have : (act self u).outcome.seq w = (.ok (.ok ()), w1) := by rw [seq_outcome, e1]
      rw [acts, seq_bind_ok this]
      exact e2

/-- The statements of the code of a module work. -/
def CodeRuns (env : LTEnv) (rank : Nat → Nat) (self : Job → LTProg Unit) (i : Nat) : Prop :=
  ∀ w, ReadyFrom env rank (rank i + 1) w → ∃ w', (self (.acts (env.code i))).seq w = (.ok (), w') ∧ AfterWork env rank (rank i + 1) w w'

/-- What running the code of a module leaves behind. -/
structure AfterExec (env : LTEnv) (rank : Nat → Nat) (i : Nat) (w w' : LTWorld) : Prop where
  objs : ∀ j, rank j ≤ rank i → w'.objs j = w.objs j
  started : ∀ j, rank j ≤ rank i → j ≠ i → (j ∈ w'.started ↔ j ∈ w.started)
  finished : ∀ j, rank j ≤ rank i → j ≠ i → (j ∈ w'.finished ↔ j ∈ w.finished)
  keep : ∀ j, HasLoaded env w j → HasLoaded env w' j
  failed : w'.failed = w.failed
  ready : ReadyFrom env rank (rank i + 1) w'
  done : i ∈ w'.finished

/-- The code of a module comes to its end. -/
theorem seq_exec {self : Job → LTProg Unit} {i : Nat} (hc : CodeRuns env rank self i) {w : LTWorld} (hw : ReadyFrom env rank (rank i + 1) w) :
    ∃ w', (exec env self i).seq w = (.ok (), w') ∧ AfterExec env rank i w w' := by
  have hw1 : ReadyFrom env rank (rank i + 1) { w with started := w.started ++ [i] } := fun j hj => by
    refine ⟨(hw j hj).1.imp (fun h => ⟨h.1, h.2.1, fun hm => ?_, h.2.2.2⟩) id, (hw j hj).2⟩
    rcases List.mem_append.mp hm with h' | h'
    · exact h.2.2.1 h'
    · rw [List.mem_singleton.mp h'] at hj; exact Nat.not_succ_le_self _ hj
  obtain ⟨w2, e2, a2⟩ := hc _ hw1
  refine ⟨{ w2 with finished := w2.finished ++ [i] }, ?_, fun j hj => a2.objs j (Nat.lt_succ_of_le hj), fun j hj hne => ?_, fun j hj hne => ?_,
    fun j hj => ?_, a2.failed, fun j hj => ⟨?_, (a2.ready j hj).2⟩, List.mem_append.mpr (.inr (.head _))⟩
  · have : (self (.acts (env.code i))).outcome.seq { w with started := w.started ++ [i] } = (.ok (.ok ()), w2) := by rw [seq_outcome, e2]
    rw [exec, seq_bind_ok (seq_modify _ w), seq_bind_ok this]
    exact seq_modify ..
  · refine (a2.started j (Nat.lt_succ_of_le hj)).trans ⟨fun h => ?_, fun h => List.mem_append.mpr (.inl h)⟩
    exact (List.mem_append.mp h).elim id fun h => absurd (List.mem_singleton.mp h) hne
  · refine Iff.trans ⟨fun h => ?_, fun h => List.mem_append.mpr (.inl h)⟩ (a2.finished j (Nat.lt_succ_of_le hj))
    exact (List.mem_append.mp h).elim id fun h => absurd (List.mem_singleton.mp h) hne
  · obtain ⟨b1, b2⟩ := a2.keep j hj
    exact ⟨List.mem_append.mpr (.inl b1), b2⟩
  · refine (a2.ready j hj).1.imp (fun h => ⟨h.1, h.2.1, h.2.2.1, fun hm => ?_⟩) fun h => ⟨List.mem_append.mpr (.inl h.1), h.2⟩
    rcases List.mem_append.mp hm with h' | h'
    · exact h.2.2.2 h'
    · rw [List.mem_singleton.mp h'] at hj; exact Nat.not_succ_le_self _ hj

/-- The world with another module object `i`. -/
def put (i : Nat) (f : LTMod → LTMod) (w : LTWorld) : LTWorld :=
  { w with objs := fun j => if j = i then f (w.objs j) else w.objs j }

theorem put_same (i : Nat) (f : LTMod → LTMod) (w : LTWorld) : (put i f w).objs i = f (w.objs i) := if_pos rfl

theorem put_other {i j : Nat} (h : j ≠ i) (f : LTMod → LTMod) (w : LTWorld) : (put i f w).objs j = w.objs j := if_neg h

theorem seq_setObj (i : Nat) (f : LTMod → LTMod) (w : LTWorld) : (setObj i f).seq w = (.ok (), put i f w) := seq_modify ..

theorem put_ready {i : Nat} {f : LTMod → LTMod} {w : LTWorld} (h : ReadyFrom env rank (rank i + 1) w) : ReadyFrom env rank (rank i + 1) (put i f w) := by
  intro j hj
  have hne : j ≠ i := fun e => by rw [e] at hj; exact Nat.not_succ_le_self _ hj
  have := h j hj
  unfold NotTouched HasLoaded at this ⊢
  rw [put_other hne]
  exact this

theorem put_id (i : Nat) (w : LTWorld) : put i id w = w := by
  have : (fun j => if j = i then id (w.objs j) else w.objs j) = w.objs := by funext j; split <;> rfl
  unfold put
  rw [this]

/-- The loading of a module: the object is changed, the code is run, the object is changed. -/
theorem load_done {i : Nat} {f g : LTMod → LTMod} {w w2 : LTWorld} (h0 : ReadyFrom env rank (rank i) w)
    (h : AfterExec env rank i (put i f w) w2) (hp : (g (f (w.objs i))).cls = .plain) (hd : (g (f (w.objs i))).deps = (w.objs i).deps) :
    AfterWork env rank (rank i) w (put i g w2) ∧ HasLoaded env (put i g w2) i := by
  have ei : (put i g w2).objs i = g (f (w.objs i)) := by rw [put_same, h.objs i (Nat.le_refl _), put_same]
  have ej : ∀ j, j ≠ i → rank j ≤ rank i → (put i g w2).objs j = w.objs j := fun j hne hj => by
    rw [put_other hne, h.objs j hj, put_other hne]
  have hl : HasLoaded env (put i g w2) i := ⟨h.done, .inl (by rw [ei]; exact hp)⟩
  have hk : ∀ j, HasLoaded env w j → HasLoaded env (put i g w2) j := fun j hj => by
    by_cases hne : j = i
    · rw [hne]; exact hl
    have := h.keep j (by unfold HasLoaded at hj ⊢; rw [put_other hne]; exact hj)
    unfold HasLoaded at this ⊢
    rw [put_other hne]
    exact this
  refine ⟨⟨fun j hj => ?_, fun j hj => ?_, fun j hj => ?_, hk, h.failed, fun j hj => ?_⟩, hl⟩
  · exact ej j (fun e => by rw [e] at hj; exact Nat.lt_irrefl _ hj) (Nat.le_of_lt hj)
  · exact h.started j (Nat.le_of_lt hj) (fun e => by rw [e] at hj; exact Nat.lt_irrefl _ hj)
  · exact h.finished j (Nat.le_of_lt hj) (fun e => by rw [e] at hj; exact Nat.lt_irrefl _ hj)
  · by_cases hne : j = i
    · subst hne
      exact ⟨.inr hl, by rw [ei, hd]; exact (h0 j hj).2⟩
    by_cases hlt : rank i + 1 ≤ rank j
    · have := h.ready j hlt
      unfold NotTouched HasLoaded at this ⊢
      rw [put_other hne]
      exact this
    · have hle : rank j ≤ rank i := Nat.le_of_lt_succ (Nat.lt_of_not_le hlt)
      refine ⟨?_, by rw [ej j hne hle]; exact (h0 j hj).2⟩
      rcases (h0 j hj).1 with ⟨a, b, c, d⟩ | q
      · exact .inl ⟨by rw [ej j hne hle]; exact a, by rw [ej j hne hle]; exact b, fun x => c ((h.started j hle hne).mp x),
          fun x => d ((h.finished j hle hne).mp x)⟩
      · exact .inr (hk j q)

/-- `importlib.util._LazyModule.__getattribute__` loads the module. -/
theorem seq_impGet {m i : Nat} {attr : PyStr} (hc : CodeRuns env rank (go env (m + 1)) i) {w : LTWorld} (hw : ReadyFrom env rank (rank i) w)
    (ht : NotTouched env w i) (hi : env.strict = true → (w.objs i).cls = .imp) (ha : CanFind env i attr) :
    ∃ w', (impGet env (go env (m + 1)) i attr).seq w = (.ok (), w') ∧ AfterWork env rank (rank i) w w' ∧ HasLoaded env w' i := by
  have hw' := hw.mono (Nat.le_succ (rank i))
  cases hs : env.strict with
  | true =>
    obtain ⟨w2, e2, a2⟩ := seq_exec hc (put_ready (f := fun m => { m with loading := true }) hw')
    obtain ⟨a3, l3⟩ := load_done (g := fun m => { m with cls := .plain }) hw a2 rfl rfl
    refine ⟨_, ?_, a3, l3⟩
    have : (Prog.withLock i true (loadBlock env (go env (m + 1)) i attr)).seq w = (.ok false, put i (fun m => { m with cls := .plain }) w2) := by
      rw [seq_withLock, loadBlock, seq_bind_ok (seq_gets _ w), if_pos (hi hs), seq_bind_ok (seq_gets _ w),
        if_neg (by rw [ht.2.1 hs]; exact Bool.false_ne_true), seq_bind_ok (seq_setObj ..), seq_bind_ok e2, seq_bind_ok (seq_setObj ..)]
      rfl
    rw [impGet, if_pos hs, seq_bind_ok this]
    exact get_loaded l3 ha
  | false =>
    obtain ⟨w2, e2, a2⟩ := seq_exec hc (put_ready (f := fun m => { m with cls := .plain }) hw')
    obtain ⟨a3, l3⟩ := load_done (g := id) hw a2 rfl rfl
    rw [put_id] at a3 l3
    refine ⟨_, ?_, a3, l3⟩
    rw [impGet, if_neg (by rw [hs]; exact Bool.false_ne_true), seq_bind_ok (seq_setObj ..), seq_bind_ok e2]
    exact get_loaded l3 ha

/-- Changing the class of a module that has not been touched to that of `importlib.util`. -/
theorem put_imp {i : Nat} {w : LTWorld} {f : LTMod → LTMod} (hw : ReadyFrom env rank (rank i) w) (ht : NotTouched env w i)
    (hf : (f (w.objs i)).cls = .lazy ∨ (f (w.objs i)).cls = .imp) (hl : (f (w.objs i)).loading = (w.objs i).loading)
    (hd : ∀ d ∈ (f (w.objs i)).deps, d ∈ (w.objs i).deps) :
    AfterWork env rank (rank i) w (put i f w) ∧ NotTouched env (put i f w) i := by
  have hn : NotTouched env (put i f w) i := ⟨by rw [put_same]; exact hf, by rw [put_same, hl]; exact ht.2.1, ht.2.2⟩
  refine ⟨⟨fun j hj => put_other (fun e => by rw [e] at hj; exact Nat.lt_irrefl _ hj) .., fun _ _ => .rfl, fun _ _ => .rfl, fun j hj => ?_, rfl,
    fun j hj => ?_⟩, hn⟩
  · have hne : j ≠ i := fun e => ht.2.2.2 (by rw [← e]; exact hj.1)
    unfold HasLoaded at hj ⊢
    rw [put_other hne]
    exact hj
  · by_cases hne : j = i
    · subst hne
      exact ⟨.inl hn, fun d h => (hw j hj).2 d (hd d (by rw [put_same] at h; exact h))⟩
    have := hw j hj
    unfold NotTouched HasLoaded at this ⊢
    rw [put_other hne]
    exact this

/-- Accesses to the module work. -/
def GetWorks (env : LTEnv) (rank : Nat → Nat) (self : Job → LTProg Unit) (i : Nat) : Prop :=
  ∀ attr, CanFind env i attr → ∀ w, ReadyFrom env rank (rank i) w → ∃ w', (self (.get i attr)).seq w = (.ok (), w') ∧ AfterWork env rank (rank i) w w' ∧
    (((w.objs i).cls = .lazy ∧ (Lazy.protectedKw.contains attr && env.bare attr) = true) ∨ HasLoaded env w' i)

/-- `force_load` of a lazy module works.  (With newer versions of Python it does not load the module, see C50.) -/
def ForceWorks (env : LTEnv) (rank : Nat → Nat) (self : Job → LTProg Unit) (i : Nat) : Prop :=
  ∀ w, ReadyFrom env rank (rank i) w → (w.objs i).cls = .lazy → ∃ w', (self (.force i)).seq w = (.ok (), w') ∧ AfterWork env rank (rank i) w w' ∧
    (env.strict = false → HasLoaded env w' i)

/-- The class is always there. -/
theorem find_class (hb : env.bare (lit "__class__") = true) (i : Nat) : CanFind env i (lit "__class__") := ⟨by decide, .inl hb⟩

/-- `isinstance` on a module that can be used. -/
theorem seq_classOf {self : Job → LTProg Unit} {i : Nat} (hb : env.bare (lit "__class__") = true) (hg : GetWorks env rank self i) {w : LTWorld}
    (hw : ReadyFrom env rank (rank i) w) :
    ∃ w', (classOf self i).seq w = (.ok (w'.objs i).cls, w') ∧ AfterWork env rank (rank i) w w' := by
  by_cases hc : (w.objs i).cls = .imp
  · obtain ⟨w', e, a, -⟩ := hg _ (find_class hb i) w hw
    refine ⟨w', ?_, a⟩
    rw [classOf, seq_bind_ok (seq_gets _ w), if_pos hc, seq_bind_ok e]
    exact seq_gets ..
  · refine ⟨w, ?_, .refl hw⟩
    rw [classOf, seq_bind_ok (seq_gets _ w), if_neg hc]
    rfl

/-- The loop of `load_deps`. -/
theorem seq_loadEach {self : Job → LTProg Unit} {r : Nat} (hb : env.bare (lit "__class__") = true) {ds : List Nat}
    (h : ∀ d ∈ ds, r ≤ rank d ∧ GetWorks env rank self d ∧ ForceWorks env rank self d) (w : LTWorld) (hw : ReadyFrom env rank r w) :
    ∃ w', (loadEach self ds).seq w = (.ok (), w') ∧ AfterWork env rank r w w' := by
  induction ds generalizing w with
  | nil => exact ⟨w, rfl, .refl hw⟩
  | cons d ds ih =>
    obtain ⟨hr, hg, hf⟩ := h d (.head _)
    obtain ⟨w1, e1, a1⟩ := seq_classOf hb hg (hw.mono hr)
    have a1 := a1.lower hr hw
    by_cases hc : (w1.objs d).cls = .lazy
    · obtain ⟨w2, e2, a2, -⟩ := hf w1 (a1.ready.mono hr) hc
      have a2 := a2.lower hr a1.ready
      obtain ⟨w3, e3, a3⟩ := ih (fun d hd => h d (.tail _ hd)) w2 a2.ready
      refine ⟨w3, ?_, (a1.trans a2).trans a3⟩
      rw [loadEach, seq_bind_ok e1, if_pos hc, seq_bind_ok e2]
      exact e3
    · obtain ⟨w3, e3, a3⟩ := ih (fun d hd => h d (.tail _ hd)) w1 a1.ready
      refine ⟨w3, ?_, a1.trans a3⟩
      rw [loadEach, seq_bind_ok e1, if_neg hc]
      exact e3

/-- `load_deps` of a lazy module that has not been touched. -/
theorem seq_loadDeps {self : Job → LTProg Unit} {i : Nat} (hb : env.bare (lit "__class__") = true)
    (h : ∀ d, rank i < rank d → GetWorks env rank self d ∧ ForceWorks env rank self d) {w : LTWorld} (hw : ReadyFrom env rank (rank i) w)
    (ht : NotTouched env w i) :
    ∃ w', (loadDeps self i).seq w = (.ok (), w') ∧ AfterWork env rank (rank i) w w' ∧ NotTouched env w' i ∧ (w'.objs i).cls = (w.objs i).cls := by
  obtain ⟨w1, e1, a1⟩ := seq_loadEach (self := self) (r := rank i + 1) hb (ds := (w.objs i).deps)
    (fun d hd => ⟨(hw i (Nat.le_refl _)).2 d hd, h d ((hw i (Nat.le_refl _)).2 d hd)⟩) w (hw.mono (Nat.le_succ _))
  have eo := a1.objs i (Nat.lt_succ_self _)
  have ht1 : NotTouched env w1 i := ⟨by rw [eo]; exact ht.1, by rw [eo]; exact ht.2.1, fun x => ht.2.2.1 ((a1.started i (Nat.lt_succ_self _)).mp x),
    fun x => ht.2.2.2 ((a1.finished i (Nat.lt_succ_self _)).mp x)⟩
  have a1 := a1.lower (Nat.le_succ _) hw
  obtain ⟨a2, ht2⟩ := put_imp (f := fun m => { m with deps := [] }) a1.ready ht1 ht1.1 rfl (fun d h => nomatch h)
  refine ⟨_, ?_, a1.trans a2, ht2, by rw [put_same, eo]⟩
  rw [loadDeps, seq_bind_ok (seq_gets _ w), seq_bind_ok e1]
  exact seq_setObj ..

theorem seq_findLoadDeps {i : Nat} {w : LTWorld} (h : (w.objs i).cls = .lazy) : (findLoadDeps i).seq w = (.ok (), w) :=
  (seq_atom (L := Nat) (m := fun w : LTWorld => if (w.objs i).cls = .lazy then (.ok (), w) else (.error .attributeError, w)) w).trans (if_pos h)

/-- A module works if the later ones do. -/
theorem works_step {i m : Nat} (hb : env.bare (lit "__class__") = true) (hn : env.bare (lit "__name__") = true)
    (hco : CodeOrdered rank env) (h1 : ∀ d, rank i < rank d → GetWorks env rank (go env (m + 1)) d ∧ ForceWorks env rank (go env (m + 1)) d)
    (h0 : ∀ d, rank i < rank d → GetWorks env rank (go env m) d) :
    GetWorks env rank (go env (m + 2)) i ∧ ForceWorks env rank (go env (m + 2)) i := by
  have hc : CodeRuns env rank (go env (m + 1)) i := fun w hw => by
    refine seq_acts (self := go env m) (fun u t hm w hw => ?_) w hw
    obtain ⟨j, attr, rfl, hj, hf⟩ := hco i u t hm
    obtain ⟨w', e, a, -⟩ := h0 j hj attr hf w (hw.mono hj)
    exact ⟨w', e, a.lower hj hw⟩
  refine ⟨fun attr ha w hw => ?_, fun w hw hl => ?_⟩
  · rcases (hw i (Nat.le_refl _)).1 with ht | ht
    · rcases ht.1 with hl | hl
      · have eg : (go env (m + 2) (.get i attr)).seq w = (lazyGet env (go env (m + 1)) i attr).seq w := by
          change (getattr env (go env (m + 1)) i attr).seq w = _
          rw [getattr, seq_bind_ok (seq_gets _ w), hl]
        have hrm : Lazy.removedKw.contains attr = false := by
          simp only [Lazy.removedKw, List.contains_cons, List.contains_nil, Bool.or_false, beq_eq_false_iff_ne]
          exact ha.1
        by_cases hp : (Lazy.protectedKw.contains attr && env.bare attr) = true
        · refine ⟨w, ?_, .refl hw, .inl ⟨hl, hp⟩⟩
          rw [eg, lazyGet, hrm, if_neg Bool.false_ne_true, if_pos hp]
          rfl
        · obtain ⟨w1, e1, a1, t1, l1⟩ := seq_loadDeps hb h1 hw ht
          have l1 := l1.trans hl
          have ec : (classOf (go env (m + 1)) i).seq w1 = (.ok .lazy, w1) := by
            rw [classOf, seq_bind_ok (seq_gets _ w1), l1, if_neg nofun]
            rfl
          obtain ⟨a2, t2⟩ := put_imp (f := fun m => { m with cls := .imp }) a1.ready t1 (.inr rfl) rfl (fun d h => h)
          obtain ⟨w3, e3, a3, l3⟩ := seq_impGet hc a2.ready t2 (fun _ => by rw [put_same]) ha
          refine ⟨w3, ?_, (a1.trans a2).trans a3, .inr l3⟩
          rw [eg, lazyGet, hrm, if_neg Bool.false_ne_true, if_neg hp, seq_bind_ok (seq_findLoadDeps hl), seq_bind_ok e1, seq_bind_ok ec, if_neg nofun,
            seq_bind_ok (seq_setObj ..)]
          exact e3
      · obtain ⟨w1, e1, a1, l1⟩ := seq_impGet hc hw ht (fun _ => hl) ha
        refine ⟨w1, ?_, a1, .inr l1⟩
        change (getattr env (go env (m + 1)) i attr).seq w = _
        rw [getattr, seq_bind_ok (seq_gets _ w), hl]
        exact e1
    · exact ⟨w, get_loaded ht ha, .refl hw, .inr ht⟩
  · have ht : NotTouched env w i := by
      rcases (hw i (Nat.le_refl _)).1 with ht | ht
      · exact ht
      · rcases ht.2 with e | ⟨-, e, -⟩ <;> rw [hl] at e <;> cases e
    obtain ⟨w1, e1, a1, t1, l1⟩ := seq_loadDeps hb h1 hw ht
    have l1 := l1.trans hl
    have hnm : CanFind env i (lit "__name__") := ⟨by decide, .inl hn⟩
    have eg : (go env (m + 2) (.force i)).seq w = (impGet env (go env (m + 1)) i (lit "__name__")).seq w1 := by
      change (callForce env (go env (m + 1)) i).seq w = _
      rw [callForce, seq_bind_ok (seq_gets _ w), hl]
      change (forceLoad env _ i).seq w = _
      rw [forceLoad, seq_bind_ok (seq_findLoadDeps hl), seq_bind_ok e1]
    cases hs : env.strict with
    | false =>
      obtain ⟨w3, e3, a3, l3⟩ := seq_impGet hc a1.ready t1 (fun h => by rw [hs] at h; cases h) hnm
      exact ⟨w3, eg.trans e3, a1.trans a3, fun _ => l3⟩
    | true =>
      refine ⟨w1, ?_, a1, fun h => nomatch h⟩
      have eb : (Prog.withLock i true (loadBlock env (go env (m + 1)) i (lit "__name__"))).seq w1 = (.ok false, w1) := by
        rw [seq_withLock, loadBlock, seq_bind_ok (seq_gets _ w1), l1, if_neg nofun]
        rfl
      rw [eg, impGet, if_pos hs, seq_bind_ok eb]
      change (getattr env (go env m) i _).seq w1 = _
      rw [getattr, seq_bind_ok (seq_gets _ w1), l1]
      change (lazyGet env _ i _).seq w1 = _
      rw [lazyGet, if_neg (by decide), if_pos (by rw [hn]; decide)]
      rfl

/-- All modules work if the recursion can be deep enough. -/
theorem works {top : Nat} (hr : ∀ i, rank i ≤ top) (hb : env.bare (lit "__class__") = true) (hn : env.bare (lit "__name__") = true)
    (hco : CodeOrdered rank env) (k : Nat) :
    ∀ i, top - rank i ≤ k → ∀ m, 2 * k + 2 ≤ m → GetWorks env rank (go env m) i ∧ ForceWorks env rank (go env m) i := by
  induction k with
  | zero =>
    intro i hi m hm
    obtain ⟨m, rfl⟩ : ∃ m', m = m' + 2 := ⟨m - 2, by omega⟩
    have no : ∀ d, ¬rank i < rank d := fun d hd => by have := hr d; omega
    exact works_step hb hn hco (fun d hd => absurd hd (no d)) fun d hd => absurd hd (no d)
  | succ k ih =>
    intro i hi m hm
    obtain ⟨m, rfl⟩ : ∃ m', m = m' + 2 := ⟨m - 2, by omega⟩
    exact works_step hb hn hco (fun d hd => ih d (by have := hr d; omega) _ (by omega)) fun d hd => (ih d (by have := hr d; omega) _ (by omega)).1

end

end SyncStream.LazyThreads
