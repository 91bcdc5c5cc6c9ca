import Verif.Model.HostParsed
import Verif.Spec.HostParsed
import Verif.Props.ModeOverride
import Verif.Props.NoneItems
import Verif.Props.HostConc
/-!
# Property C93: serving what a user's `parse_lines` stores
-/

namespace SyncStream
open Spec LineBuf

variable {U : Type}

theorem onlyRecords_noRaw {is : List Item} (h : OnlyRecords is) : NoRaw is := fun j hj => h _ hj

theorem serializeAll_foreign {is : List Item} {j : Item} (hj : j ∈ is) (h : ¬ IsRecord j) :
    HostBuf.serializeAll is = .error .attributeError := by
  induction is with
  | nil => cases hj
  | cons i rest ih =>
    cases i with
    | raw v => rfl
    | str s =>
      rcases List.mem_cons.1 hj with rfl | hj
      · exact absurd trivial h
      · simp [HostBuf.serializeAll, ih hj, Functor.map, Except.map]
    | msg m =>
      rcases List.mem_cons.1 hj with rfl | hj
      · exact absurd trivial h
      · simp [HostBuf.serializeAll, ih hj, Functor.map, Except.map]

/-- What `read` does, as C92 says. -/
theorem readAny_none {p : Override U} (hp : KeepsDeque fun ls => (p ls).seq) {l : OvLog U} (hl : Ovr.Sound l) (k : Option Int) :
    ∃ r l', LineBuf.readAny k (Ovr.rep l).base = (r, (Ovr.rep l').base) ∧ l'.own = l.own ∧ Ovr.Sound l' ∧
      NoneStep (fun ls => (p ls).seq) l (.read k) (Ret.of .items r) l' := by
  obtain ⟨r, l', h1, h2, h3⟩ := Ovr.callAny_rep hp hl (c := .read k) trivial
  simp only [Ovr.callAny] at h1
  have e := OvBuf.mk.inj (congrArg Prod.snd h1)
  refine ⟨(LineBuf.readAny k (Ovr.rep l).base).1, l', Prod.ext rfl e.1, e.2.symm, h3, ?_⟩
  have e1 : Ret.of .items (LineBuf.readAny k (Ovr.rep l).base).1 = r := congrArg Prod.fst h1
  rw [e1]
  exact h2

theorem handleAny_ask {p : Override U} (hp : KeepsDeque fun ls => (p ls).seq) (env : HEnv) (x : WebAsk) (h : OvHost U)
    {l : OvLog U} (hl : Ovr.Sound l) (hs : h.lines = Ovr.rep l) :
    ∃ l', AskStep (fun ls => (p ls).seq) env.int l x (OvHost.handleAny p env x.req h).1 l' ∧
      (OvHost.handleAny p env x.req h).2.lines = Ovr.rep l' ∧
      (OvHost.handleAny p env x.req h).2.host.state = h.host.state ∧ Ovr.Sound l' := by
  cases x with
  | post x =>
    obtain ⟨l', h1, h2, h3, h4⟩ := OvHost.handle_lines hp env x h hl hs
    exact ⟨l', .post _ _ _ _ h1, h2, h3, h4⟩
  | delete =>
    obtain ⟨⟨b, st⟩, u⟩ := h
    obtain ⟨hb, hu⟩ := OvBuf.mk.inj (show (⟨b, u⟩ : OvBuf U) = Ovr.rep l from hs)
    have hu : u = l.own := hu
    have hc : HostBuf.onBase LineBuf.clear ⟨b, st⟩ = (.ok (), ⟨opened l.store.maxlen [] [], st⟩) := by
      simp only [HostBuf.onBase, Py.onPart_apply]
      rw [show b = opened l.store.maxlen l.store.items l.part from hb, clear_opened]
    have hh : OvHost.handleAny p env WebAsk.delete.req ⟨⟨b, st⟩, u⟩ = (answerDeleted, ⟨⟨opened l.store.maxlen [] [], st⟩, u⟩) := by
      simp only [WebAsk.req, OvHost.handleAny, OvHost.handle, HostBuf.handle, hc]
      rfl
    rw [hh]
    exact ⟨l.cleared, .delete _, by rw [hu]; rfl, rfl, noBreak_nil, hl.2.1, Nat.zero_le _⟩
  | get n =>
    obtain ⟨⟨b, st⟩, u⟩ := h
    obtain ⟨hb, hu⟩ := OvBuf.mk.inj (show (⟨b, u⟩ : OvBuf U) = Ovr.rep l from hs)
    have main : ∀ k, AsksFor env.int n k → HostBuf.getAny env n ⟨b, st⟩ = HostBuf.readSerializedAny k ⟨b, st⟩ →
        ∃ l', AskStep (fun ls => (p ls).seq) env.int l (.get n) (OvHost.handleAny p env (.get n) ⟨⟨b, st⟩, u⟩).1 l' ∧
          (OvHost.handleAny p env (.get n) ⟨⟨b, st⟩, u⟩).2.lines = Ovr.rep l' ∧
          (OvHost.handleAny p env (.get n) ⟨⟨b, st⟩, u⟩).2.host.state = st ∧ Ovr.Sound l' := by
      intro k hk hg
      obtain ⟨r, l', h1, h2, h3, h4⟩ := readAny_none hp hl k
      refine ⟨l', ?_⟩
      simp only [OvHost.handleAny, hg, HostBuf.readSerializedAny]
      have h1 : LineBuf.readAny k b = (r, (Ovr.rep l').base) := hb ▸ h1
      have hlines : (⟨(Ovr.rep l').base, u⟩ : OvBuf U) = Ovr.rep l' := by
        have hu : u = l.own := hu
        rw [hu, ← h2]
        rfl
      cases r with
      | error e =>
        rw [Py.bind_error (e := e) (s' := ⟨(Ovr.rep l').base, st⟩) (by simp only [HostBuf.onBase, Py.onPart_apply, h1])]
        exact ⟨.fails _ _ _ _ _ hk h4, hlines, rfl, h3⟩
      | ok is =>
        rw [Py.bind_ok (a := is) (s' := ⟨(Ovr.rep l').base, st⟩) (by simp only [HostBuf.onBase, Py.onPart_apply, h1])]
        by_cases hr : OnlyRecords is
        · simp only [HostBuf.lift, serializeAll_shown (onlyRecords_noRaw hr)]
          exact ⟨.shows _ _ _ _ _ hk h4 hr, hlines, trivial, h3⟩
        · unfold OnlyRecords at hr
          simp only [not_forall] at hr
          obtain ⟨j, hj, hn⟩ := hr
          simp only [HostBuf.lift, serializeAll_foreign hj hn]
          exact ⟨.foreign _ _ _ _ _ _ hk h4 hj hn, hlines, trivial, h3⟩
    cases n with
    | none => exact main none (.inl ⟨rfl, rfl⟩) rfl
    | some s =>
      cases hi : env.int s with
      | none =>
        refine ⟨l, ?_⟩
        have hg : HostBuf.getAny env (some s) ⟨b, st⟩ = (.error .valueError, ⟨b, st⟩) := by
          simp only [HostBuf.getAny, hi]
          rfl
        have hh : OvHost.handleAny p env (WebAsk.get (some s)).req ⟨⟨b, st⟩, u⟩ = (answerRefused, ⟨⟨b, st⟩, u⟩) := by
          simp only [WebAsk.req, OvHost.handleAny, hg]
          rfl
        rw [hh]
        exact ⟨.noNumber _ _ hi, hs, rfl, hl⟩
      | some i =>
        exact main (some i) (.inr ⟨s, i, rfl, hi, rfl⟩) (by
          simp only [HostBuf.getAny, hi]
          rfl)

theorem serveAny_ask {p : Override U} (hp : KeepsDeque fun ls => (p ls).seq) (env : HEnv) (xs : List WebAsk) (h : OvHost U)
    {l : OvLog U} (hl : Ovr.Sound l) (hs : h.lines = Ovr.rep l) :
    ∃ l', AskSteps (AskStep (fun ls => (p ls).seq) env.int) l xs (OvHost.serveAny p env (xs.map WebAsk.req) h).1 l' ∧
      (OvHost.serveAny p env (xs.map WebAsk.req) h).2.lines = Ovr.rep l' ∧
      (OvHost.serveAny p env (xs.map WebAsk.req) h).2.host.state = h.host.state := by
  induction xs generalizing h l with
  | nil => exact ⟨l, .nil _, hs, rfl⟩
  | cons x xs ih =>
    obtain ⟨l1, g1, g2, g3, g4⟩ := handleAny_ask hp env x h hl hs
    obtain ⟨l2, i1, i2, i3⟩ := ih _ g4 g2
    exact ⟨l2, .cons _ _ _ _ _ _ _ g1 i1, i2, i3.trans g3⟩

/-- **C93** Whatever a user's `parse_lines` stores, posts, GET requests for records and requests to delete them, one after the other, do and answer exactly this: posts as
in C91; a GET request reads as in C92 and answers with the items, serialized, if all of them are texts and messages; if one of them is not, or
the reading fails, or `n` is not a number, the request is refused.  The states do not change. -/
theorem C93_exact (p : Override U) (hp : KeepsDeque fun ls => (p ls).seq) (env : HEnv) (xs : List WebAsk) (h : OvHost U)
    (st : Deque Item) (part : PyStr) (u : U) (hst : IsDeque st) (hpart : NoBreak part)
    (hs : (⟨h.host.base, h.own⟩ : OvBuf U) = ovOpen st part u) :
    ∃ l, AskSteps (AskStep (fun ls => (p ls).seq) env.int) ⟨part, st, u⟩ xs (OvHost.serveAny p env (xs.map WebAsk.req) h).1 l ∧
      (⟨(OvHost.serveAny p env (xs.map WebAsk.req) h).2.host.base, (OvHost.serveAny p env (xs.map WebAsk.req) h).2.own⟩ : OvBuf U) =
        ovOpen l.store l.part l.own ∧
      (OvHost.serveAny p env (xs.map WebAsk.req) h).2.host.state = h.host.state :=
  serveAny_ask hp env xs h (l := ⟨part, st, u⟩) ⟨hpart, hst⟩ hs

/-! ## Overrides that store texts and messages only -/

theorem ovStep_records {par : List Item → Py (Deque Item × U) Unit} (hr : StoresRecords par) {l l' : OvLog U} {c : Call} {r : Ret}
    (h : OvStep par l 0 c r l') (hl : OnlyRecords l.store.items) : OnlyRecords l'.store.items := by
  have strs : ∀ ls : List PyStr, OnlyRecords (ls.map .str) := by
    intro ls i hi
    obtain ⟨s, _, rfl⟩ := List.mem_map.1 hi
    trivial
  cases h with
  | write d r ls n st' u' _ _ g => exact (show st' = _ from (congrArg (·.2.1) g).symm) ▸ hr _ _ (strs ls) hl
  | writeRaise d r ls e st' u' _ _ g => exact (show st' = _ from (congrArg (·.2.1) g).symm) ▸ hr _ _ (strs ls) hl
  | newLine st' u' _ g => exact (show st' = _ from (congrArg (·.2.1) g).symm) ▸ hr _ _ (strs [l.part]) hl
  | newLineRaise e st' u' _ g => exact (show st' = _ from (congrArg (·.2.1) g).symm) ▸ hr _ _ (strs [l.part]) hl
  | _ => exact hl

theorem append_records {d : Deque Item} (h : OnlyRecords d.items) {i : Item} (hi : IsRecord i) : OnlyRecords (d.append i).items := by
  have h1 : OnlyRecords (d.items ++ [i]) := by
    intro x hx
    rcases List.mem_append.1 hx with hx | hx
    · exact h x hx
    · rw [List.mem_singleton.1 hx]; exact hi
  intro x hx
  unfold Deque.append at hx
  dsimp only at hx
  split at hx
  · exact h1 x (List.mem_of_mem_tail hx)
  · exact h1 x hx

theorem postStep_records {par : List Item → Py (Deque Item × U) Unit} (hr : StoresRecords par) {l l' : OvLog U} {x : Posted} {n : Nat}
    (h : PostStep par l x n l') (hl : OnlyRecords l.store.items) : OnlyRecords l'.store.items := by
  cases h with
  | text _ _ _ g => exact ovStep_records hr g hl
  | textRaise _ _ _ g => exact ovStep_records hr g hl
  | item _ _ _ _ g => exact append_records (ovStep_records hr g hl) trivial
  | fin _ _ _ g => exact ovStep_records hr g hl
  | raised _ _ _ _ _ g => exact ovStep_records hr g hl

theorem view_records {l : OvLog U} (hl : OnlyRecords l.store.items) : OnlyRecords l.view := by
  intro i hi
  rcases List.mem_append.1 (mem_of_mem_lastN hi) with h | h
  · exact hl i h
  · split at h
    · cases h
    · rw [List.mem_singleton.1 h]; trivial

/-- What a reading that is as documented returns. -/
theorem ovStep_read {par : List Item → Py (Deque Item × U) Unit} {l l' : OvLog U} {k : Option Int} {r : Ret}
    (h : OvStep par l 0 (.read k) r l') : l' = l ∧ r = .items (match (generalizing := false) k with
      | none => l.view
      | some n => if 0 < n then lastN n.toNat l.view else []) := by
  cases h with
  | readAll => exact ⟨rfl, rfl⟩
  | readSize n h => exact ⟨rfl, by simp [h]⟩
  | readNonPos n h => exact ⟨rfl, by simp [Int.not_lt.2 h]⟩

/-- **C93, only texts and messages** If the override stores texts and messages only, everything is as documented: every GET request shows
what `read` shows, and changes nothing.  (Missing: other values, see `C93_violated`.) -/
theorem C93_records_partial (p : Override U) (hp : KeepsDeque fun ls => (p ls).seq) (hr : StoresRecords fun ls => (p ls).seq)
    (env : HEnv) (xs : List WebAsk) (h : OvHost U) (st : Deque Item) (part : PyStr) (u : U) (hst : IsDeque st) (hrec : OnlyRecords st.items)
    (hpart : NoBreak part) (hs : (⟨h.host.base, h.own⟩ : OvBuf U) = ovOpen st part u) :
    ∃ l, AskSteps (AskRight (fun ls => (p ls).seq) env.int) ⟨part, st, u⟩ xs (OvHost.serveAny p env (xs.map WebAsk.req) h).1 l ∧
      (⟨(OvHost.serveAny p env (xs.map WebAsk.req) h).2.host.base, (OvHost.serveAny p env (xs.map WebAsk.req) h).2.own⟩ : OvBuf U) =
        ovOpen l.store l.part l.own := by
  obtain ⟨l, h1, h2, h3⟩ := C93_exact p hp env xs h st part u hst hpart hs
  refine ⟨l, ?_, h2⟩
  clear h2 h3
  generalize (OvHost.serveAny p env (xs.map WebAsk.req) h).1 = rs at h1
  have hrec : OnlyRecords (⟨part, st, u⟩ : OvLog U).store.items := hrec
  clear hs hst hpart
  generalize (⟨part, st, u⟩ : OvLog U) = l0 at h1 hrec
  have free : ∀ {l : OvLog U} {a}, OnlyRecords l.store.items → ¬ Blocked l a := fun h hb =>
    h (.raw .null) (hb.2.1 ▸ List.mem_cons_self ..)
  have right : ∀ {l l' : OvLog U} {k r}, OnlyRecords l.store.items → NoneStep (fun ls => (p ls).seq) l (.read k) r l' →
      OvStep (fun ls => (p ls).seq) l 0 (.read k) r l' := by
    intro l l' k r hl hstep
    cases hstep with
    | right _ _ _ _ g => exact g
    | lost n a hb => exact absurd hb (free hl)
    | again n a x hb => exact absurd hb (free hl)
    | fails n hb => exact absurd hb (free hl)
  induction h1 with
  | nil => exact .nil _
  | cons l l1 l2 x xs r rs g _ ih =>
    cases g with
    | post x _ _ g => exact .cons _ _ _ _ _ _ _ (.post _ _ _ _ g) (ih (postStep_records hr g hrec))
    | shows n k is _ hk g _ =>
      have g := right hrec g
      exact .cons _ _ _ _ _ _ _ (.shows _ _ _ _ _ hk g) (ih (ovStep_records hr g hrec))
    | foreign n k is j _ hk g hj hn =>
      obtain ⟨_, e⟩ := ovStep_read (right hrec g)
      refine absurd ?_ hn
      have hv := view_records hrec
      injection e with e
      subst e
      cases k with
      | none => exact hv j hj
      | some n =>
        dsimp only at hj
        split at hj
        · exact hv j (mem_of_mem_lastN hj)
        · cases hj
    | fails n k e _ hk g => cases (ovStep_read (right hrec g)).2
    | noNumber s hs => exact .cons _ _ _ _ _ _ _ (.noNumber _ _ hs) (ih hrec)
    | delete => exact .cons _ _ _ _ _ _ _ (.delete _) (ih nofun)

/-- **C93** As long as only texts and messages are stored, the service is that of C91. -/
theorem C93_same (p : Override U) (env : HEnv) (r : Req) (h : OvHost U) (st : Deque Item) (part : PyStr) (u : U)
    (hrec : OnlyRecords st.items) (hs : (⟨h.host.base, h.own⟩ : OvBuf U) = ovOpen st part u) :
    OvHost.handleAny p env r h = OvHost.handle p env r h := by
  obtain ⟨⟨b, s⟩, v⟩ := h
  have hb : b = opened st.maxlen st.items part := (OvBuf.mk.inj hs).1
  have hread : ∀ k, HostBuf.readSerializedAny k ⟨b, s⟩ = HostBuf.readSerialized k ⟨b, s⟩ := by
    intro k
    have e : LineBuf.readAny k b = LineBuf.read k b := by
      rw [hb]
      refine readAny_eq _ _ _ _ fun n _ _ hc => ?_
      have := hc.2.2
      cases hi : st.items with
      | nil => rw [hi] at this; cases this
      | cons x l =>
        rw [hi] at this
        cases this
        exact hrec (.raw .null) (hi ▸ List.mem_cons_self)
    simp only [HostBuf.readSerializedAny, HostBuf.readSerialized, Py.bind_apply, HostBuf.onBase, Py.onPart_apply, e]
  cases r with
  | get n =>
    have e : HostBuf.getAny env n ⟨b, s⟩ = HostBuf.get env n ⟨b, s⟩ := by
      cases n with
      | none => exact hread none
      | some x =>
        simp only [HostBuf.getAny, HostBuf.get]
        cases env.int x with
        | none => rfl
        | some k => exact hread (some k)
    simp only [OvHost.handleAny, OvHost.handle, HostBuf.handle, e]
  | _ => rfl

/-! ## The violation -/

/-- **C93 is violated** As long as one value that is neither a text nor a message is among the items that `read()` shows, no GET request for the
records is answered, although `read()` of the service itself shows them all. -/
theorem C93_violated (p : Override U) (hp : KeepsDeque fun ls => (p ls).seq) (env : HEnv) (h : OvHost U) (st : Deque Item) (part : PyStr)
    (u : U) (hst : IsDeque st) (hpart : NoBreak part) (hs : (⟨h.host.base, h.own⟩ : OvBuf U) = ovOpen st part u)
    (j : Item) (hj : j ∈ (⟨part, st, u⟩ : OvLog U).view) (hn : ¬ IsRecord j) :
    (OvHost.handleAny p env (.get none) h).1 = ⟨500, none⟩ ∧
      (⟨(OvHost.handleAny p env (.get none) h).2.host.base, (OvHost.handleAny p env (.get none) h).2.own⟩ : OvBuf U) = ovOpen st part u ∧
      (Ovr.callAny p (.read none) (ovOpen st part u)).1 = .items (⟨part, st, u⟩ : OvLog U).view := by
  obtain ⟨l', h1, h2, _⟩ := handleAny_ask hp env (.get none) h (l := ⟨part, st, u⟩) ⟨hpart, hst⟩ hs
  have key : ∀ {k r} {l' : OvLog U}, AsksFor env.int none k → NoneStep (fun ls => (p ls).seq) ⟨part, st, u⟩ (.read k) r l' →
      l' = ⟨part, st, u⟩ ∧ r = .items (⟨part, st, u⟩ : OvLog U).view := by
    rintro k r l' (⟨_, rfl⟩ | ⟨s, i, h, _⟩) g
    · cases g with
      | right _ _ _ _ g => exact ovStep_read g
    · cases h
  have h1 : AskStep _ _ _ (.get none) (OvHost.handleAny p env (.get none) h).1 l' := h1
  have h2 : (OvHost.handleAny p env (.get none) h).2.lines = Ovr.rep l' := h2
  have last : (Ovr.callAny p (.read none) (ovOpen st part u)).1 = .items (⟨part, st, u⟩ : OvLog U).view := by
    obtain ⟨r, l1, g1, g2, _⟩ := Ovr.callAny_rep hp (l := ⟨part, st, u⟩) ⟨hpart, hst⟩ (c := .read none) trivial
    have g1 : Ovr.callAny p (.read none) (ovOpen st part u) = _ := g1
    rw [g1]
    exact (key (.inl ⟨rfl, rfl⟩) g2).2
  generalize (OvHost.handleAny p env (.get none) h).1 = r at h1
  refine ⟨?_, ?_, last⟩
  · cases h1 with
    | shows n k is _ hk g hr =>
      cases (key hk g).2
      exact absurd (hr j hj) hn
    | foreign => rfl
    | fails => rfl
  · have : l' = ⟨part, st, u⟩ := by
      cases h1 with
      | shows n k is _ hk g hr => exact (key hk g).1
      | foreign n k is _ _ hk g => exact (key hk g).1
      | fails n k e _ hk g => exact (key hk g).1
    rw [this] at h2
    exact h2

/-- **C93 is violated** In the same case `read_serialized()` raises `AttributeError`, and so does `read_serialized(n)` for every `n` that shows such a
value. -/
theorem C93_serialized_violated (p : Override U) (hp : KeepsDeque fun ls => (p ls).seq) (h : HostBuf) (st : Deque Item) (part : PyStr)
    (u : U) (hst : IsDeque st) (hpart : NoBreak part) (hs : h.base = (ovOpen st part u).base) (k : Option Int) (is : List Item)
    (hread : (Ovr.callAny p (.read k) (ovOpen st part u)).1 = .items is) (j : Item) (hj : j ∈ is) (hn : ¬ IsRecord j) :
    (HostBuf.readSerializedAny k h).1 = .error .attributeError := by
  obtain ⟨b, s⟩ := h
  obtain ⟨r, l', h1, _⟩ := readAny_none hp (l := ⟨part, st, u⟩) ⟨hpart, hst⟩ k
  have hs : b = (Ovr.rep ⟨part, st, u⟩).base := hs
  have h1' : LineBuf.readAny k (ovOpen st part u).base = (r, (Ovr.rep l').base) := h1
  simp only [Ovr.callAny, h1'] at hread
  simp only [HostBuf.readSerializedAny]
  cases r with
  | error e => cases hread
  | ok is' =>
    cases hread
    rw [Py.bind_ok (a := is) (s' := ⟨(Ovr.rep l').base, s⟩) (by simp only [HostBuf.onBase, Py.onPart_apply, hs, h1])]
    exact serializeAll_foreign hj hn

/-- **C93, the newest items** A GET request for no more items than the storage can hold shows them if all of these are texts and messages,
whatever is stored before them. -/
theorem C93_newest (p : Override U) (hp : KeepsDeque fun ls => (p ls).seq) (env : HEnv) (h : OvHost U) (st : Deque Item) (part : PyStr)
    (u : U) (hst : IsDeque st) (hpart : NoBreak part) (hs : (⟨h.host.base, h.own⟩ : OvBuf U) = ovOpen st part u)
    (s : PyStr) (n : Int) (hi : env.int s = some n) (h0 : 0 < n) (h1 : n ≤ st.maxlen)
    (hr : OnlyRecords (lastN n.toNat (⟨part, st, u⟩ : OvLog U).view)) :
    (OvHost.handleAny p env (.get (some s)) h).1 = answerShowing (lastN n.toNat (⟨part, st, u⟩ : OvLog U).view) := by
  obtain ⟨l', g1, _⟩ := handleAny_ask hp env (.get (some s)) h (l := ⟨part, st, u⟩) ⟨hpart, hst⟩ hs
  have key : ∀ {k r} {l' : OvLog U}, AsksFor env.int (some s) k → NoneStep (fun ls => (p ls).seq) ⟨part, st, u⟩ (.read k) r l' →
      r = .items (lastN n.toNat (⟨part, st, u⟩ : OvLog U).view) := by
    rintro k r l' (⟨h, _⟩ | ⟨s', i, h, hi', rfl⟩) g
    · cases h
    · cases h
      cases hi.symm.trans hi'
      cases g with
      | right _ _ _ _ g => rw [(ovStep_read g).2]; simp [h0]
      | lost => rfl
      | again _ _ _ _ h => exact absurd h1 (Int.not_le.2 h)
      | fails _ _ h => exact absurd h1 (Int.not_le.2 h)
  have g1 : AskStep _ _ _ (.get (some s)) (OvHost.handleAny p env (.get (some s)) h).1 l' := g1
  generalize (OvHost.handleAny p env (.get (some s)) h).1 = r at g1
  cases g1 with
  | shows n k is _ hk g hr => cases key hk g; rfl
  | foreign n k is j _ hk g hj hn => cases key hk g; exact absurd (hr j hj) hn
  | fails n k e _ hk g => cases key hk g
  | noNumber _ hs => rw [hi] at hs; cases hs

/-! ## Concrete cases -/

/-- The statuses, and the numbers of items that are shown. -/
def respSeen (r : Resp) : Nat × Option Nat :=
  (r.status, match r.body with
    | some (.obj [_, (_, .arr l)]) => some l.length
    | _ => none)

/-- An override that stores the lines that contain an `E`, and `None` for the others. -/
def searchE : Override Unit := Override.searching fun i => match i with
  | .str s => if s.contains 69 then some i else none
  | i => some i

/-- A service whose storage has room for three items. -/
def hostOfThree : OvHost Unit := ⟨⟨opened 3 [] [], []⟩, ()⟩

/-- `int` for the numbers 1 to 9. -/
def digitEnv : HEnv := ⟨fun _ => [], fun s => match s with
  | [c] => if 49 ≤ c ∧ c ≤ 57 then some ((c : Int) - 48) else none
  | _ => none⟩

/-- A line without an `E` arrives, then an error: no reader sees the error, unless it asks for one item only, until the `None` has been pushed
out of the storage or the records are deleted.  `n=x` is refused. -/
theorem C93_hidden_violated :
    (OvHost.serveAny searchE digitEnv (([.post (.text (lit "E1\n")), .get none, .post (.text (lit "ok\n")), .post (.error (GMsg.new (.exc {}))),
      .get none, .get (some (lit "1")), .get (some (lit "2")), .get (some (lit "x")), .post (.text (lit "E2\nE3\n")), .get none,
      .post (.text (lit "ok\n")), .get none, .delete, .get none] : List WebAsk).map
      WebAsk.req) hostOfThree).1.map respSeen =
      [(201, none), (200, some 1), (201, none), (201, none), (500, none), (200, some 1), (500, none), (500, none), (201, none), (200, some 3),
        (201, none), (500, none), (200, none), (200, some 0)] := by
  decide +kernel

/-- The hypotheses of `C93_exact` hold for it. -/
theorem searchE_keeps : KeepsDeque fun ls => (searchE ls).seq := by
  rintro ls ⟨d, x⟩ ⟨h1, h2⟩
  show IsDeque (d.extend _)
  rw [Deque.extend_eq _ _ h2 h1]
  exact ⟨h1, length_lastN_le _ _⟩

example (env : HEnv) (xs : List WebAsk) := C93_exact searchE searchE_keeps env xs hostOfThree ⟨3, []⟩ [] () ⟨by decide, by decide⟩ noBreak_nil rfl

/-- Those of `C93_records_partial` hold for the default `parse_lines`. -/
theorem default_records : StoresRecords fun ls => ((Override.default : Override U) ls).seq := by
  rintro ls ⟨st, u⟩ h1 h2
  show OnlyRecords (st.extend ls).items
  have : ∀ (ls : List Item) (st : Deque Item), OnlyRecords ls → OnlyRecords st.items → OnlyRecords (st.extend ls).items := by
    intro ls
    induction ls with
    | nil => exact fun _ _ h => h
    | cons x ls ih =>
      exact fun st h1 h2 => ih (st.append x) (fun i hi => h1 i (List.mem_cons_of_mem _ hi)) (append_records h2 (h1 x List.mem_cons_self))
  exact this ls st h1 h2

/-- Those of `C93_violated` and of `C93_newest`. -/
example (env : HEnv) : (OvHost.handleAny searchE env (.get none) ⟨⟨opened 3 [.raw .null, .str (lit "E1")] (lit "x"), []⟩, ()⟩).1 = ⟨500, none⟩ :=
  (C93_violated searchE searchE_keeps env _ ⟨3, [.raw .null, .str (lit "E1")]⟩ (lit "x") () ⟨by decide, by decide⟩
    (by decide +kernel) rfl (.raw .null) (by
      show Item.raw .null ∈ [.raw .null, .str (lit "E1"), .str (lit "x")]
      exact List.mem_cons_self) (fun h => h)).1

end SyncStream
