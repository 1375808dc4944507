import Verif.Lemmas.Forward
/-! One step of a forwarding coordinator, seen from one node `g` it depends on and one node `c` it tells. -/
namespace Verif
open Causal Deps Causality

/-- the part a node plays between `g` and `c`: `c` is its parent, `g` is its parent, or it has no parent -/
inductive Role | up | down | root
  deriving DecidableEq, Repr

namespace Fwd

/-- the entries of `g` and `c` -/
structure Tb (k : Role) (g c : FedId) (ds : Deps) : Prop where
  src : Has g (fun d => if k = .down then d.connection = .parent else d.connection ≠ .parent) ds
  dst : Each (fun d => d.fedID = c → if k = .up then d.connection ≠ .child else d.connection = .child) ds
  actual : Each (fun d => d.minFedActual = invalidFed) ds
  top : k = .root → Each (fun d => d.connection ≠ .parent) ds

/-- the node is wired to hear from `g` and to tell `c` -/
structure Wired (k : Role) (g c : FedId) (w : Fwd) : Prop where
  self : g ≠ w.self
  gv : FedId.isValid g = true
  cv : FedId.isValid c = true
  turn : k ≠ .root → g ≠ c
  tb : Tb k g c w.deps
  parent : (k = .down → w.noParent = false) ∧ (k = .root → w.noParent = true)

/-- an aggregate that lies within `X` -/
def Low (F : Prop) (X : Time) (t : TimeData) : Prop := t.next ≤ X ∧ (F → t.Te ≤ X)

/-- nothing that the node has stored about `g` lies after `X` -/
structure Told (F : Prop) (X : Time) (k : Role) (g : FedId) (w : Fwd) : Prop where
  pos : 0 ≤ X
  table : Each (Q F g X X) w.deps
  stored : if k = .up then Low F X w.upstream else Low F X w.downstream

theorem Told.mono {F : Prop} {X Y : Time} {k : Role} {g : FedId} {w : Fwd} (h : Told F X k g w) (hxy : X ≤ Y) : Told F Y k g w := by
  refine ⟨Int.le_trans h.pos hxy, fun d hd => (h.table d hd).mono hxy hxy, ?_⟩
  have := h.stored
  split <;> simp_all [Low] <;> exact ⟨by omega, fun hf => by have := this.2 hf; omega⟩

theorem process_actual (cmd : Msg) (d : DepInfo) : (d.process cmd).1.minFedActual = d.minFedActual := by
  unfold DepInfo.process; repeat' split
  all_goals rfl

theorem each_updateTime {ds : Deps} {P : DepInfo → Prop} (h : Each P ds) (cmd : Msg)
    (hp : ∀ d, P d → P (d.process cmd).1) : Each P (ds.updateTime cmd).1 := h.updateTime cmd (fun d _ => hp d)

theorem each_removeDependent {ds : Deps} {P : DepInfo → Prop} (h : Each P ds) (g : FedId)
    (hp : ∀ d, P d → P { d with dependent := false }) : Each P (ds.removeDependent g) := by
  unfold Deps.removeDependent
  split
  · exact h
  · rename_i e rest he
    obtain ⟨a, b, c⟩ := each_split h he
    split
    · split
      · exact each_join a c
      · exact each_join a (each_cons (hp e b) c)
    · exact h

theorem Tb.updateTime {k : Role} {g c : FedId} {ds : Deps} (h : Tb k g c ds) (cmd : Msg) : Tb k g c (ds.updateTime cmd).1 := by
  refine ⟨h.src.updateTime cmd (fun _ d hd => ?_), each_updateTime h.dst cmd (fun d hd => ?_), each_updateTime h.actual cmd (fun d hd => ?_),
    fun e => each_updateTime (h.top e) cmd (fun d hd => ?_)⟩
  · rw [process_conn]; exact hd
  · rw [process_conn, process_fedID]; exact hd
  · rw [process_actual]; exact hd
  · rw [process_conn]; exact hd

theorem Tb.removeDependent {k : Role} {g c : FedId} {ds : Deps} (h : Tb k g c ds) (x : FedId) : Tb k g c (ds.removeDependent x) :=
  ⟨h.src.removeDependent x (fun _ hd => hd), each_removeDependent h.dst x (fun _ hd => hd), each_removeDependent h.actual x (fun _ hd => hd),
    fun e => each_removeDependent (h.top e) x (fun _ hd => hd)⟩

/-! ### the aggregates -/

theorem isValid_ne {g : FedId} (h : FedId.isValid g = true) : g ≠ invalidFed := by
  intro e; rw [e] at h; revert h; decide

theorem actual_ok {self : FedId} {d : DepInfo} (h : d.minFedActual = invalidFed) : (!(FedId.isValid self && d.minFedActual == self)) = true := by
  rw [h]
  by_cases hs : FedId.isValid self = true
  · have := isValid_ne hs
    simp [hs, Ne.symm this]
  · simp [hs]

theorem low_up {F : Prop} {X : Time} {k : Role} {g c : FedId} {w : Fwd} (hk : k ≠ .down) (hw : Wired k g c w) (ht : Told F X k g w)
    (hr : w.restrictive = true ∨ F) (ig : FedId) (hg : g ≠ ig) (code : Int) :
    Low F X (w.deps.minTimeUpstream w.restrictive w.self ig code) := by
  obtain ⟨d, hd, h1, h2, h3⟩ := hw.tb.src
  rw [if_neg hk] at h3
  obtain ⟨s, hs⟩ := minTimeUpstream_eq w.deps w.restrictive w.self ig code
  rw [hs]
  have hm : d ∈ upParts w.deps w.self := by
    unfold upParts
    rw [List.mem_filter]
    exact ⟨hd, by rw [actual_ok (hw.tb.actual d hd)]; simp [h2, h3]⟩
  obtain ⟨a, b⟩ := parts_bound (F := F) ig code ht.pos hm (by rw [h1]; exact hg) (fun e => ht.table d hd h1 e)
  exact finish_bound ht.pos hr a b

theorem low_down {F : Prop} {X : Time} {g c : FedId} {w : Fwd} (hw : Wired .down g c w) (ht : Told F X .down g w)
    (hr : w.restrictive = true ∨ F) (code : Int) :
    Low F X (w.deps.minTimeDownstream w.restrictive w.self invalidFed code) := by
  obtain ⟨d, hd, h1, h2, h3⟩ := hw.tb.src
  rw [if_pos rfl] at h3
  obtain ⟨s, hs⟩ := minTimeDownstream_eq w.deps w.restrictive w.self invalidFed code
  rw [hs]
  have hm : d ∈ downParts w.deps w.self := by
    unfold downParts
    rw [List.mem_filter]
    exact ⟨hd, by rw [actual_ok (hw.tb.actual d hd)]; simp [h2, h3]⟩
  obtain ⟨a, b⟩ := parts_bound (F := F) invalidFed code ht.pos hm (by rw [h1]; exact isValid_ne hw.gv) (fun e => ht.table d hd h1 e)
  exact finish_bound ht.pos hr a b

theorem low_aggUp {F : Prop} {X : Time} {k : Role} {g c : FedId} {w : Fwd} (hk : k ≠ .down) (hw : Wired k g c w) (ht : Told F X k g w)
    (hr : w.restrictive = true ∨ F) : Low F X w.aggUp := low_up hk hw ht hr _ (isValid_ne hw.gv) _

theorem low_aggDown {F : Prop} {X : Time} {k : Role} {g c : FedId} {w : Fwd} (hk : k ≠ .up) (hw : Wired k g c w) (ht : Told F X k g w)
    (hr : w.restrictive = true ∨ F) : Low F X w.aggDown := by
  unfold aggDown
  cases k with
  | up => exact absurd rfl hk
  | down => rw [hw.parent.1 rfl]; exact low_down hw ht hr _
  | root => rw [hw.parent.2 rfl]; exact low_aggUp (by decide) hw ht hr

theorem excluding_low {F : Prop} {X : Time} {k : Role} {g c : FedId} {w : Fwd} (hk : k ≠ .down) (hw : Wired k g c w) (ht : Told F X k g w)
    (hr : w.restrictive = true ∨ F) (fed : FedId) (hg : g ≠ fed) : Low F X (w.excluding fed) := by
  have hl := low_up hk hw ht hr fed hg 0
  unfold excluding
  dsimp only
  split
  · rename_i hp
    obtain ⟨he, hpend⟩ := hp
    have hne : ∀ d ∈ upParts w.deps w.self, d.fedID ≠ fed → d.state ≠ .error := by
      intro d hd hf hse
      obtain ⟨h1, h2⟩ := List.mem_filter.mp hd
      simp only [Bool.and_eq_true] at h2
      rw [List.any_eq_false] at hpend
      apply hpend d h1
      have h3 : (!FedId.isValid w.self || d.minFedActual != w.self) = true := by
        have := h2.2
        revert this
        cases FedId.isValid w.self <;> simp
      simp only [h2.1.1, h2.1.2, h3, hse]
      simp [hf]
    obtain ⟨d, hd, h1, h2, h3⟩ := hw.tb.src
    rw [if_neg hk] at h3
    have hm : d ∈ upParts w.deps w.self := by
      unfold upParts
      rw [List.mem_filter]
      exact ⟨hd, by rw [actual_ok (hw.tb.actual d hd)]; simp [h2, h3]⟩
    obtain ⟨s, hs⟩ := minTimeUpstream_eq w.deps w.restrictive w.self fed 0
    rw [hs] at he
    have he' : ((upParts w.deps w.self).foldl (minTimeImpl fed 0) (TimeData.ofStart maxVal .error)).state = .error := by
      have e1 : (minTimeInit (minTimeFinish ((upParts w.deps w.self).foldl (minTimeImpl fed 0) (TimeData.ofStart maxVal .error)) w.restrictive)).state = .error := he
      rw [← (minTimeFinish_fields ((upParts w.deps w.self).foldl (minTimeImpl fed 0) (TimeData.ofStart maxVal .error)) w.restrictive).2.1]
      unfold minTimeInit at e1
      split at e1 <;> exact e1
    obtain ⟨_, k2⟩ := foldImpl_error fed 0 _ _ hne he'
    obtain ⟨k3, k4⟩ := k2 d hm (by rw [h1]; exact hg)
    have k4 : maxVal ≤ d.next := k4
    have := (ht.table d hd h1 k3).1
    exact ⟨by show maxVal ≤ X; omega, fun _ => by show maxVal ≤ X; omega⟩
  · exact hl

theorem aggDown_minFed {g c : FedId} {w : Fwd} (hw : Wired .down g c w) : w.aggDown.minFed ≠ c := by
  unfold aggDown
  rw [hw.parent.1 rfl]
  simp only [Bool.false_eq_true, if_false]
  rcases downstream_minFed w.deps w.restrictive w.self invalidFed w.seq with h | ⟨d, hd, h1, h2⟩
  · rw [h]; exact Ne.symm (isValid_ne hw.cv)
  · intro e
    have := hw.tb.dst d hd (h1.trans e)
    rw [if_neg (by decide)] at this
    exact h2 this

/-- a request made from an aggregate within `X` says nothing after `X` -/
theorem within_request' {F : Prop} {X : Time} (w : Fwd) (t : TimeData) (fed : FedId) (code : Int) (h : Low F X t) :
    Within F X (w.request t fed code) := by
  unfold request TC.generateTimeRequest
  dsimp only
  cases hs : t.state
  case granted => exact within_grant rfl h.1
  case timeReq => exact within_request rfl h.1 h.2
  case timeReqIter => exact within_request rfl h.1 h.2
  case timeReqRequireIter => exact within_request rfl h.1 h.2
  case error => exact within_other (.inl rfl)
  case initialized =>
    dsimp only
    split
    · exact within_other (.inl rfl)
    · exact within_other (.inr rfl)
  all_goals exact within_other (.inr rfl)

/-- a request that is not about times says nothing at all after 0 -/
theorem within_exec {F : Prop} {X : Time} (h0 : 0 ≤ X) (m : Msg) (h : m.action = .execGrant ∨ m.action = .execRequest ∨ m.action = .ignore) :
    Within F X m := by
  rcases h with h | h | h
  · exact within_execGrant h h0
  · exact within_other (.inr (by unfold word; rw [h]))
  · exact within_other (.inl (by unfold word; rw [h]))

theorem request_kind (w : Fwd) (t : TimeData) (fed : FedId) (code : Int) :
    (w.request t fed code).action = .timeRequest ∨ (w.request t fed code).action = .timeGrant ∨
    (w.request t fed code).action = .execGrant ∨ (w.request t fed code).action = .execRequest ∨ (w.request t fed code).action = .ignore := by
  unfold request TC.generateTimeRequest
  dsimp only
  cases t.state <;> dsimp only <;> (try split) <;> simp [TC.setIterationFlags_action]

theorem fit_request (w : Fwd) (t : TimeData) (fed : FedId) (code : Int) : Fit w.self (w.request t fed code) :=
  TC.fit_response { self := w.self, seq := w.seq } t fed code


/-! ### one action -/

/-- what is assumed of the node before and after an action -/
structure Pre (F : Prop) (X : Time) (k : Role) (g c : FedId) (a b : Fwd) : Prop where
  wired : Wired k g c a
  told : Told F X k g a
  policy : a.restrictive = true ∨ F
  delayed : k = .root → g = c → b.hasDelayed = false

/-- an action of the coordinator that keeps what is known about `g` and tells `c` nothing after `X` -/
structure Act (F : Prop) (X : Time) (k : Role) (g c : FedId) (a b : Fwd) : Prop where
  self : b.self = a.self
  policy : b.restrictive = a.restrictive
  delayed : b.hasDelayed = false → a.hasDelayed = false
  good : Pre F X k g c a b → Wired k g c b ∧ Told F X k g b
  out : ∃ l, b.out = a.out ++ l ∧ (∀ p ∈ l, ∀ m ∈ p.msgs, Fit a.self m) ∧
    (Pre F X k g c a b → ∀ p ∈ l, ∀ m ∈ p.msgs, m.dest = c → Within F X m)

variable {F : Prop} {X : Time} {k : Role} {g c : FedId}

theorem Act.refl (a : Fwd) : Act F X k g c a a := ⟨rfl, rfl, id, fun h => ⟨h.wired, h.told⟩, [], by simp, by simp, by simp⟩

theorem Act.trans {a b d : Fwd} (h : Act F X k g c a b) (h' : Act F X k g c b d) : Act F X k g c a d := by
  have hp : Pre F X k g c a d → Pre F X k g c a b := fun p => ⟨p.wired, p.told, p.policy, fun x y => h'.delayed (p.delayed x y)⟩
  have hq : Pre F X k g c a d → Pre F X k g c b d := fun p =>
    ⟨(h.good (hp p)).1, (h.good (hp p)).2, by rw [h.policy]; exact p.policy, p.delayed⟩
  obtain ⟨l, h1, h2, h3⟩ := h.out
  obtain ⟨l', k1, k2, k3⟩ := h'.out
  refine ⟨h'.self.trans h.self, h'.policy.trans h.policy, fun x => h.delayed (h'.delayed x), fun p => h'.good (hq p),
    l ++ l', by rw [k1, h1, List.append_assoc], ?_, ?_⟩
  · intro p hp m hm
    rcases List.mem_append.mp hp with hp | hp
    · exact h2 p hp m hm
    · have := k2 p hp m hm; rw [h.self] at this; exact this
  · intro pr p hpm m hm hc
    rcases List.mem_append.mp hpm with hpm | hpm
    · exact h3 (hp pr) p hpm m hm hc
    · exact k3 (hq pr) p hpm m hm hc

/-- fields that do not matter -/
theorem Act.of {a b : Fwd} (h1 : b.self = a.self) (h2 : b.restrictive = a.restrictive) (h3 : b.hasDelayed = false → a.hasDelayed = false)
    (h4 : b.deps = a.deps) (h5 : b.noParent = a.noParent) (h6 : b.upstream = a.upstream) (h7 : b.downstream = a.downstream)
    (h8 : b.out = a.out) : Act F X k g c a b :=
  ⟨h1, h2, h3, fun p => ⟨⟨by rw [h1]; exact p.wired.self, p.wired.gv, p.wired.cv, p.wired.turn, by rw [h4]; exact p.wired.tb, by rw [h5]; exact p.wired.parent⟩,
    ⟨p.told.pos, by rw [h4]; exact p.told.table, by rw [h6, h7]; exact p.told.stored⟩⟩, [], by simp [h8], by simp, by simp⟩

/-- something is sent -/
theorem Act.app (a : Fwd) (l : List Packet) (h1 : ∀ p ∈ l, ∀ m ∈ p.msgs, Fit a.self m)
    (h2 : Pre F X k g c a a → ∀ p ∈ l, ∀ m ∈ p.msgs, m.dest = c → Within F X m) : Act F X k g c a { a with out := a.out ++ l } :=
  ⟨rfl, rfl, id, fun p => ⟨⟨p.wired.self, p.wired.gv, p.wired.cv, p.wired.turn, p.wired.tb, p.wired.parent⟩, ⟨p.told.pos, p.told.table, p.told.stored⟩⟩,
    l, rfl, h1, fun p => h2 ⟨p.wired, p.told, p.policy, p.delayed⟩⟩

theorem act_send (a : Fwd) (m : Msg) (h1 : Fit a.self m) (h2 : Pre F X k g c a a → m.dest = c → Within F X m) :
    Act F X k g c a (a.send m) :=
  .app a [.single m] (by simp [Packet.msgs]; exact h1) (by
    intro p q hq x hx
    simp only [List.mem_singleton] at hq; subst hq
    simp only [Packet.msgs, List.mem_singleton] at hx; subst hx
    exact h2 p)

theorem upCopies_mem {ds : Deps} {m x : Msg} {p : Packet} (hp : p ∈ upCopies ds m) (hx : x ∈ p.msgs) :
    (∃ d ∈ ds, d.connection ≠ .child ∧ x.dest = d.fedID) ∧ ∃ e i, x = { m with dest := e, extraDestData := i } := by
  obtain ⟨d, hd, h⟩ := List.mem_filterMap.mp hp
  split at h
  · rename_i hc
    cases h
    simp only [Packet.msgs, List.mem_singleton] at hx
    subst hx
    refine ⟨⟨d, hd, hc.1, by split <;> rfl⟩, ?_⟩
    split
    · exact ⟨_, _, rfl⟩
    · exact ⟨_, m.extraDestData, rfl⟩
  · cases h

theorem downCopies_mem {ds : Deps} {m x : Msg} {s : FedId} {p : Packet} (hp : p ∈ downCopies ds m s) (hx : x ∈ p.msgs) :
    (m.action = .timeRequest ∨ m.action = .timeGrant → ∃ d ∈ ds, d.connection = .child ∧ x.dest = d.fedID) ∧
    ∃ e i, x = { m with dest := e, extraDestData := i } := by
  obtain ⟨d, hd, h⟩ := List.mem_filterMap.mp hp
  split at h
  · split at h
    · rename_i hc
      cases h
      simp only [Packet.msgs, List.mem_singleton] at hx
      subst hx
      refine ⟨fun _ => ⟨d, hd, hc.1, by split <;> rfl⟩, ?_⟩
      split
      · exact ⟨_, _, rfl⟩
      · exact ⟨_, m.extraDestData, rfl⟩
    · cases h
  · rename_i hn
    split at h
    · cases h
      simp only [Packet.msgs, List.mem_singleton] at hx
      subst hx
      refine ⟨fun e => absurd e hn, ?_⟩
      split
      · exact ⟨_, _, rfl⟩
      · exact ⟨_, m.extraDestData, rfl⟩
    · cases h

theorem within_copy' {m x : Msg} (h : Within F X m) (e : ∃ e i, x = { m with dest := e, extraDestData := i }) : Within F X x := by
  obtain ⟨e, i, rfl⟩ := e; exact h

theorem fit_copy {me : FedId} {m x : Msg} (h : Fit me m) (hg : m.action ≠ .globalError)
    (e : ∃ e i, x = { m with dest := e, extraDestData := i }) : Fit me x := by
  obtain ⟨e, i, rfl⟩ := e; exact TC.fit_dest h hg _ _

theorem act_transmitUp (a : Fwd) (m : Msg) (hf : Fit a.self m) (hg : m.action ≠ .globalError)
    (hw : Pre F X k g c a a → (k = .up ∨ m.action = .execGrant) → Within F X m) : Act F X k g c a (a.transmitUp m) := by
  refine .app a _ (fun p hp x hx => fit_copy hf hg (upCopies_mem hp hx).2) ?_
  intro pr p hp x hx hd
  obtain ⟨⟨d, hm, h1, h2⟩, h3⟩ := upCopies_mem hp hx
  have := pr.wired.tb.dst d hm (h2.symm.trans hd)
  by_cases hk : k = .up
  · exact within_copy' (hw pr (.inl hk)) h3
  · rw [if_neg hk] at this; exact absurd this h1

theorem act_transmitDown (a : Fwd) (m : Msg) (s : FedId) (hf : Fit a.self m) (hg : m.action ≠ .globalError)
    (hkind : m.action = .timeRequest ∨ m.action = .timeGrant ∨ m.action = .execGrant ∨ m.action = .execRequest ∨ m.action = .ignore)
    (hw : Pre F X k g c a a → k ≠ .up → Within F X m) : Act F X k g c a (a.transmitDown m s) := by
  refine .app a _ (fun p hp x hx => fit_copy hf hg (downCopies_mem hp hx).2) ?_
  intro pr p hp x hx hd
  obtain ⟨h1, h3⟩ := downCopies_mem hp hx
  by_cases hk : k = .up
  · have he : m.action = .execGrant ∨ m.action = .execRequest ∨ m.action = .ignore := by
      rcases hkind with h | h | h
      · obtain ⟨d, hm, a1, a2⟩ := h1 (.inl h)
        have := pr.wired.tb.dst d hm (a2.symm.trans hd)
        rw [if_pos hk] at this; exact absurd a1 this
      · obtain ⟨d, hm, a1, a2⟩ := h1 (.inr h)
        have := pr.wired.tb.dst d hm (a2.symm.trans hd)
        rw [if_pos hk] at this; exact absurd a1 this
      · exact h
    exact within_copy' (within_exec pr.told.pos m he) h3
  · exact within_copy' (hw pr hk) h3

theorem request_dest (w : Fwd) (t : TimeData) (fed : FedId) (code : Int) : (w.request t fed code).dest = fed := by
  unfold request TC.generateTimeRequest
  dsimp only
  cases t.state <;> dsimp only <;> (try split) <;> rfl

theorem request_ne (w : Fwd) (t : TimeData) (fed : FedId) (code : Int) : (w.request t fed code).action ≠ .globalError := by
  intro e
  rcases request_kind w t fed code with h | h | h | h | h <;> rw [e] at h <;> cases h

theorem act_sendExcluding (a : Fwd) (fed : FedId) (h : Pre F X k g c a a → fed = c → k ≠ .down ∧ (k = .root → g ≠ c)) :
    Act F X k g c a (a.sendExcluding fed) := by
  refine act_send a _ (fit_request _ _ _ _) ?_
  intro pr hd
  rw [request_dest] at hd
  obtain ⟨h1, h2⟩ := h pr hd
  refine within_request' _ _ _ _ (excluding_low h1 pr.wired pr.told pr.policy fed ?_)
  rw [hd]
  intro e
  by_cases hk : k = .root
  · exact h2 hk e
  · exact pr.wired.turn hk e

theorem low_update {t u : TimeData} (h : Low F X u) : Low F X (t.update u).1 := h

theorem refresh_act (a : Fwd) : Act F X k g c a a.refresh.1 := by
  refine ⟨rfl, rfl, id, fun p => ⟨⟨p.wired.self, p.wired.gv, p.wired.cv, p.wired.turn, p.wired.tb, p.wired.parent⟩, ⟨p.told.pos, p.told.table, ?_⟩⟩,
    [], by simp [refresh], by simp, by simp⟩
  have hs := p.told.stored
  by_cases hk : k = .up
  · rw [if_pos hk] at hs ⊢
    unfold refresh
    dsimp only
    split
    · exact low_aggUp (by rw [hk]; decide) p.wired p.told p.policy
    · exact hs
  · rw [if_neg hk] at hs ⊢
    have hl := low_aggDown hk p.wired p.told p.policy
    have hd : Low F X (if a.aggDown.state.rank > TimeState.execReq.rank ∨ a.executionMode = false then a.downstream.update a.aggDown else (a.downstream, false)).1 := by
      split
      · exact hl
      · exact hs
    unfold refresh
    dsimp only
    generalize (if a.aggUp.state.rank > TimeState.execReq.rank ∨ a.executionMode = false then a.upstream.update a.aggUp else (a.upstream, false)) = y
    split
    · exact ⟨hd.1, fun hf => Int.le_trans (Int.min_le_left _ _) (hd.2 hf)⟩
    · exact hd

theorem refresh_minFed (a : Fwd) (h : a.refresh.2.2 = true) : a.refresh.1.downstream.minFed = a.aggDown.minFed := by
  unfold refresh at h ⊢
  dsimp only at h ⊢
  generalize hx : (if a.aggDown.state.rank > TimeState.execReq.rank ∨ a.executionMode = false then a.downstream.update a.aggDown else (a.downstream, false)) = x at h ⊢
  have : x.1.minFed = a.aggDown.minFed := by
    split at hx
    · rw [← hx]; rfl
    · rw [← hx] at h; cases h
  generalize (if a.aggUp.state.rank > TimeState.execReq.rank ∨ a.executionMode = false then a.upstream.update a.aggUp else (a.upstream, false)) = y
  split
  · exact this
  · exact this

theorem act_tellUp (a : Fwd) : Act F X k g c a a.tellUp := by
  unfold tellUp
  dsimp only
  split
  · refine act_transmitUp a _ (fit_request _ _ _ _) (request_ne _ _ _ _) ?_
    intro pr hk
    rcases hk with hk | hk
    · have := pr.told.stored
      rw [if_pos hk] at this
      exact within_request' _ _ _ _ this
    · exact within_exec pr.told.pos _ (.inl hk)
  · exact .refl _

theorem act_tellDown (a : Fwd) (h : Pre F X k g c a a → k = .down → a.downstream.minFed ≠ c) : Act F X k g c a a.tellDown := by
  have ht : ∀ s, Act F X k g c a (a.transmitDown (a.request a.downstream invalidFed 0) s) := by
    intro s
    refine act_transmitDown a _ s (fit_request _ _ _ _) (request_ne _ _ _ _) (request_kind _ _ _ _) ?_
    intro pr hk
    have := pr.told.stored
    rw [if_neg hk] at this
    exact within_request' _ _ _ _ this
  unfold tellDown
  dsimp only
  split
  · rename_i hd
    have h1 : Act F X k g c a (if (a.request a.downstream invalidFed 0).action ≠ .ignore then a.transmitDown (a.request a.downstream invalidFed 0) a.downstream.minFed else a) := by
      split
      · exact ht _
      · exact .refl _
    generalize hb : (if (a.request a.downstream invalidFed 0).action ≠ .ignore then a.transmitDown (a.request a.downstream invalidFed 0) a.downstream.minFed else a) = b at h1
    have e2 : b.hasDelayed = a.hasDelayed := by rw [← hb]; split <;> rfl
    have hm : b = { a with out := b.out } := by rw [← hb]; split <;> rfl
    refine h1.trans (act_sendExcluding b _ ?_)
    intro pr hc
    refine ⟨fun hk => ?_, fun hk e => ?_⟩
    · have hw : Wired k g c a := by
        have := pr.wired; rw [hm] at this; exact ⟨this.self, this.gv, this.cv, this.turn, this.tb, this.parent⟩
      have htl : Told F X k g a := by
        have := pr.told; rw [hm] at this; exact ⟨this.pos, this.table, this.stored⟩
      exact h ⟨hw, htl, by have := pr.policy; rw [hm] at this; exact this, fun x => absurd (hk.symm.trans x) (by decide)⟩ hk hc
    · have := pr.delayed hk e
      rw [e2, hd.1] at this
      cases this
  · split
    · exact ht _
    · exact .refl _

theorem act_updateTimeFactors (a : Fwd) : Act F X k g c a a.updateTimeFactors := by
  unfold updateTimeFactors
  dsimp only
  have h0 : Act F X k g c a a.refresh.1 := refresh_act a
  generalize hr : a.refresh = r at h0
  obtain ⟨w, u, d⟩ := r
  dsimp only at h0 ⊢
  have hw : w = a.refresh.1 := by rw [hr]
  have h1 : Act F X k g c w (if (u || d) = true then w.tellUp else w) := by
    split
    · exact act_tellUp w
    · exact .refl w
  have hsame : ∃ o, (if (u || d) = true then w.tellUp else w) = { w with out := o } := by
    split
    · unfold tellUp
      dsimp only
      split
      · exact ⟨_, rfl⟩
      · exact ⟨w.out, rfl⟩
    · exact ⟨w.out, rfl⟩
  obtain ⟨o, ho⟩ := hsame
  generalize (if (u || d) = true then w.tellUp else w) = v at h1 ho
  have hdown : ∀ pr : Wired k g c v, k = .down → a.aggDown.minFed ≠ c := by
    intro pr hk
    subst hk
    have : Wired .down g c a := by
      rw [ho, hw] at pr
      exact ⟨pr.self, pr.gv, pr.cv, pr.turn, pr.tb, pr.parent⟩
    exact aggDown_minFed this
  refine (h0.trans h1).trans ?_
  split
  · rename_i hd
    refine act_tellDown v (fun pr hk => ?_)
    have : v.downstream.minFed = a.aggDown.minFed := by
      rw [ho, hw]
      exact refresh_minFed a (by rw [hr]; exact hd)
    rw [this]
    exact hdown pr.wired hk
  · split
    · rename_i hd
      refine act_sendExcluding v _ (fun pr hc => ⟨fun hk => hdown pr.wired hk hc, fun hk e => ?_⟩)
      have := pr.delayed hk e
      simp only [Bool.and_eq_true] at hd
      rw [hd.1.1] at this
      cases this
    · exact .refl _

theorem fit_report (a : FedId) : Fit a { action := .globalError, dest := parentBroker, source := a } :=
  ⟨.inl rfl, by simp, by simp, fun _ => rfl, fun _ => rfl⟩

theorem act_checkIssues (a : Fwd) : Act F X k g c a a.checkIssues := by
  have h1 : Act F X k g c a { a with hasDelayed := a.hasDelayed || a.deps.any Deps.delayedMutual } :=
    .of rfl rfl (fun h => by simp at h; exact h.1) rfl rfl rfl rfl rfl
  unfold checkIssues
  dsimp only
  split
  · exact h1.trans (act_send _ _ (fit_report _) (fun _ _ hn => absurd rfl hn))
  · exact h1

/-- the table after a command that says nothing of `g` after `X` -/
theorem act_table (a : Fwd) (cmd : Msg) (hs : Speaks F g X cmd) : Act F X k g c a { a with deps := (a.deps.updateTime cmd).1 } :=
  ⟨rfl, rfl, id, fun p => ⟨⟨p.wired.self, p.wired.gv, p.wired.cv, p.wired.turn, p.wired.tb.updateTime cmd, p.wired.parent⟩,
    ⟨p.told.pos, p.told.table.updateTime cmd (fun d hd hq => (kept_Q p.wired.self (Int.le_refl X)).process cmd d hs hd hq), p.told.stored⟩⟩,
    [], by simp, by simp, by simp⟩

theorem act_removeDependent (a : Fwd) (x : FedId) : Act F X k g c a { a with deps := a.deps.removeDependent x } :=
  ⟨rfl, rfl, id, fun p => ⟨⟨p.wired.self, p.wired.gv, p.wired.cv, p.wired.turn, p.wired.tb.removeDependent x, p.wired.parent⟩,
    ⟨p.told.pos, each_removeDependent p.told.table x (fun _ h => h), p.told.stored⟩⟩,
    [], by simp, by simp, by simp⟩

theorem act_processBase (a : Fwd) (cmd : Msg) (hs : Speaks F g X cmd) : Act F X k g c a (a.processBase cmd).1 := by
  unfold processBase
  dsimp only
  have tail : ∀ w : Fwd, Act F X k g c w (if (w.deps.updateTime cmd).2 = .processedAndCheck then
      ({ w with deps := (w.deps.updateTime cmd).1 } : Fwd).checkIssues else { w with deps := (w.deps.updateTime cmd).1 }) := by
    intro w
    split
    · exact (act_table w cmd hs).trans (act_checkIssues _)
    · exact act_table w cmd hs
  split <;> first
    | exact tail a
    | exact (act_removeDependent a cmd.source).trans (tail _)

theorem act_processTimeMessage (a : Fwd) (cmd : Msg) (hs : Speaks F g X cmd) : Act F X k g c a (a.processTimeMessage cmd).1 := by
  unfold processTimeMessage
  dsimp only
  split
  · exact (act_processBase a cmd hs).trans (.of rfl rfl id rfl rfl rfl rfl rfl)
  · exact act_processBase a cmd hs

theorem fit_execGrant (me : FedId) : Fit me { action := .execGrant, source := me } :=
  fit_plain rfl rfl (by simp) (by simp) (by simp)

theorem act_checkExecEntry (a : Fwd) : Act F X k g c a a.checkExecEntry.1 := by
  unfold checkExecEntry
  split
  · dsimp only
    have h1 : Act F X k g c a { a with executionMode := true, downstream := { a.downstream with next := 0, state := .granted, minDe := 0 } } := by
      refine ⟨rfl, rfl, id, fun p => ⟨⟨p.wired.self, p.wired.gv, p.wired.cv, p.wired.turn, p.wired.tb, p.wired.parent⟩,
        ⟨p.told.pos, p.told.table, ?_⟩⟩, [], by simp, by simp, by simp⟩
      have := p.told.stored
      split
      · rename_i hk; rw [if_pos hk] at this; exact this
      · rename_i hk; rw [if_neg hk] at this; exact ⟨p.told.pos, this.2⟩
    refine (h1.trans (act_transmitDown _ _ _ (fit_execGrant _) (by simp) (by simp) ?_)).trans (act_transmitUp _ _ (fit_execGrant _) (by simp) ?_)
    · exact fun pr _ => within_exec pr.told.pos _ (.inl rfl)
    · exact fun pr _ => within_exec pr.told.pos _ (.inl rfl)
  · exact .refl _

theorem act_tryEnter (a : Fwd) (o : Bool) : Act F X k g c a (a.tryEnter o) := by
  unfold tryEnter
  dsimp only
  split
  · exact (act_checkExecEntry a).trans (.of rfl rfl id rfl rfl rfl rfl rfl)
  · split
    · exact (act_checkExecEntry a).trans (act_updateTimeFactors _)
    · exact act_checkExecEntry a

theorem act_sendTimingInfo (a : Fwd) : Act F X k g c a a.sendTimingInfo := by
  have key : ∀ p ∈ a.deps.filterMap (fun d => if d.dependent then
      some (Packet.single { action := .timingInfo, source := a.self, dest := d.fedID, extraData := 1 }) else none), ∀ m ∈ p.msgs,
      m.action = .timingInfo ∧ m.source = a.self ∧ m.indicator = false := by
    intro p hp m hm
    obtain ⟨d, _, h⟩ := List.mem_filterMap.mp hp
    split at h
    · cases h
      simp only [Packet.msgs, List.mem_singleton] at hm
      subst hm
      exact ⟨rfl, rfl, rfl⟩
    · cases h
  refine .app a _ (fun p hp m hm => ?_) (fun _ p hp m hm _ => ?_)
  · obtain ⟨h1, h2, h3⟩ := key p hp m hm
    exact fit_plain h2 h3 (by rw [h1]; simp) (by rw [h1]; simp) (by rw [h1]; simp)
  · obtain ⟨h1, _, _⟩ := key p hp m hm
    exact within_other (.inl (by unfold word; rw [h1]))

theorem act_enteringExecMode (a : Fwd) : Act F X k g c a a.enteringExecMode := by
  unfold enteringExecMode
  split
  · exact .refl _
  · dsimp only
    have h0 : Act F X k g c a { a with checkingExec := true } := .of rfl rfl id rfl rfl rfl rfl rfl
    have h1 : Act F X k g c a (if a.deps = [] then { a with checkingExec := true } else ({ a with checkingExec := true } : Fwd).updateTimeFactors.checkIssues) := by
      split
      · exact h0
      · exact (h0.trans (act_updateTimeFactors _)).trans (act_checkIssues _)
    generalize (if a.deps = [] then { a with checkingExec := true } else ({ a with checkingExec := true } : Fwd).updateTimeFactors.checkIssues) = b at h1
    split
    · exact h1
    · refine (h1.trans ?_).trans (act_sendTimingInfo _)
      refine ⟨rfl, rfl, id, fun p => ⟨⟨p.wired.self, p.wired.gv, p.wired.cv, p.wired.turn, p.wired.tb, ?_, ?_⟩,
        ⟨p.told.pos, p.told.table, p.told.stored⟩⟩, [], by simp, by simp, by simp⟩
      · intro hk
        obtain ⟨d, hd, _, _, h3⟩ := p.wired.tb.src
        rw [if_pos hk] at h3
        show (!(b.deps.any fun d => d.connection == Conn.parent)) = false
        have : (b.deps.any fun d => d.connection == Conn.parent) = true := List.any_eq_true.mpr ⟨d, hd, by simp [h3]⟩
        rw [this]; rfl
      · intro hk
        have := p.wired.tb.top hk
        show (!(b.deps.any fun d => d.connection == Conn.parent)) = true
        have : (b.deps.any fun d => d.connection == Conn.parent) = false := by
          rw [List.any_eq_false]; intro d hd; have := this d hd; simpa using this
        rw [this]; rfl

/-- the command changes the dependencies of a core or broker -/
def rewiring (cmd : Msg) : Bool :=
  match cmd.action with
  | .addDependency | .removeDependency | .addDependent | .removeDependent | .addInterdependency | .removeInterdependency => true
  | _ => false

theorem act_dependencyUpdate (a : Fwd) (cmd : Msg) (hs : Speaks F g X cmd) (hr : rewiring cmd = false) :
    Act F X k g c a (a.processDependencyUpdate cmd) := by
  unfold processDependencyUpdate changeDeps
  unfold rewiring at hr
  cases hc : cmd.action <;> rw [hc] at hr <;> first | (cases hr; done) | skip
  all_goals dsimp only
  all_goals first
    | exact act_table a cmd hs
    | exact .refl _

theorem act_handleCore (a : Fwd) (cmd : Msg) (hs : Speaks F g X cmd) (hr : rewiring cmd = false) :
    Act F X k g c a (a.handleCore cmd) := by
  have h1 : Act F X k g c a (a.processTimeMessage cmd).1 := act_processTimeMessage a cmd hs
  unfold rewiring at hr
  unfold handleCore
  dsimp only
  cases hc : cmd.action <;> rw [hc] at hr <;> first | (cases hr; done) | skip
  all_goals dsimp only
  all_goals repeat' split
  all_goals first
    | exact .refl _
    | exact h1
    | exact h1.trans (act_tryEnter _ _)
    | exact h1.trans (act_updateTimeFactors _)

theorem act_handleBroker (a : Fwd) (cmd : Msg) (hs : Speaks F g X cmd) (hr : rewiring cmd = false) :
    Act F X k g c a (a.handleBroker cmd) := by
  have h1 : Act F X k g c a (a.processTimeMessage cmd).1 := act_processTimeMessage a cmd hs
  have h2 : Act F X k g c a (a.processDependencyUpdate cmd) := act_dependencyUpdate a cmd hs hr
  unfold rewiring at hr
  unfold handleBroker
  dsimp only
  cases hc : cmd.action <;> rw [hc] at hr <;> first | (cases hr; done) | skip
  all_goals dsimp only
  all_goals repeat' split
  all_goals first
    | exact .refl _
    | exact h1
    | exact h2
    | exact h1.trans (act_tryEnter _ _)
    | exact h1.trans (act_updateTimeFactors _)

theorem act_handle (a : Fwd) (cmd : Msg) (hs : Speaks F g X cmd) (hr : rewiring cmd = false) : Act F X k g c a (a.handle cmd) := by
  unfold handle
  split
  · exact act_handleCore a cmd hs hr
  · exact act_handleBroker a cmd hs hr

theorem same_tell (a : Fwd) : (a.tellUp.core = a.core ∧ a.tellUp.deps = a.deps) ∧ (a.tellDown.core = a.core ∧ a.tellDown.deps = a.deps) := by
  unfold tellUp tellDown sendExcluding transmitUp transmitDown send
  dsimp only
  refine ⟨?_, ?_⟩
  · split <;> exact ⟨rfl, rfl⟩
  · split
    · split <;> exact ⟨rfl, rfl⟩
    · split <;> exact ⟨rfl, rfl⟩

theorem same_updateTimeFactors (a : Fwd) : a.updateTimeFactors.core = a.core ∧ a.updateTimeFactors.deps = a.deps := by
  unfold updateTimeFactors
  dsimp only
  have h0 : a.refresh.1.core = a.core ∧ a.refresh.1.deps = a.deps := ⟨rfl, rfl⟩
  generalize a.refresh = r at h0
  obtain ⟨w, u, d⟩ := r
  dsimp only at h0 ⊢
  have h1 : (if (u || d) = true then w.tellUp else w).core = a.core ∧ (if (u || d) = true then w.tellUp else w).deps = a.deps := by
    split
    · rw [(same_tell w).1.1, (same_tell w).1.2]; exact h0
    · exact h0
  generalize (if (u || d) = true then w.tellUp else w) = v at h1
  split
  · rw [(same_tell v).2.1, (same_tell v).2.2]; exact h1
  · split <;> exact h1

theorem same_start (a : Fwd) : (({ a with operating := true } : Fwd).enteringExecMode.tryEnter false).core = a.core ∧
    (({ a with operating := true } : Fwd).enteringExecMode.tryEnter false).deps = a.deps := by
  have h1 : ∀ b : Fwd, b.checkIssues.core = b.core ∧ b.checkIssues.deps = b.deps := by
    intro b; unfold checkIssues send; dsimp only; split <;> exact ⟨rfl, rfl⟩
  have h2 : ∀ b : Fwd, (b.tryEnter false).core = b.core ∧ (b.tryEnter false).deps = b.deps := by
    intro b
    have h : b.checkExecEntry.1.core = b.core ∧ b.checkExecEntry.1.deps = b.deps := by
      unfold checkExecEntry transmitDown transmitUp
      split <;> exact ⟨rfl, rfl⟩
    unfold tryEnter
    dsimp only
    rw [if_neg (by simp : ¬ false = true)]
    split <;> exact h
  have h3 : ∀ b : Fwd, b.enteringExecMode.core = b.core ∧ b.enteringExecMode.deps = b.deps := by
    intro b
    unfold enteringExecMode sendTimingInfo
    split
    · exact ⟨rfl, rfl⟩
    · dsimp only
      have h4 : (if b.deps = [] then { b with checkingExec := true } else ({ b with checkingExec := true } : Fwd).updateTimeFactors.checkIssues).core = b.core ∧
          (if b.deps = [] then { b with checkingExec := true } else ({ b with checkingExec := true } : Fwd).updateTimeFactors.checkIssues).deps = b.deps := by
        split
        · exact ⟨rfl, rfl⟩
        · rw [(h1 _).1, (h1 _).2]; exact same_updateTimeFactors _
      generalize (if b.deps = [] then { b with checkingExec := true } else ({ b with checkingExec := true } : Fwd).updateTimeFactors.checkIssues) = v at h4
      split <;> exact h4
  rw [(h2 _).1, (h2 _).2]
  exact h3 _

/-- the start, of a broker or of a core that still waits for somebody -/
theorem act_start (a : Fwd) (h : a.core = true → a.deps.hasActive = true) : Act F X k g c a a.start := by
  have h0 : Act F X k g c a { a with operating := true } := .of rfl rfl id rfl rfl rfl rfl rfl
  have h1 := (h0.trans (act_enteringExecMode _)).trans (act_tryEnter _ false)
  unfold start
  dsimp only
  rw [(same_start a).1, (same_start a).2]
  split
  · rename_i hn
    simp only [Bool.and_eq_true, Bool.not_eq_true'] at hn
    rw [h hn.1] at hn
    exact absurd hn.2 (by simp)
  · exact h1

theorem Act.mix {g' : FedId} {a b : Fwd} (h0 : Act F X k g' c a b) (h : g ≠ a.self → Act F X k g c a b) : Act F X k g c a b := by
  by_cases e : g = a.self
  · obtain ⟨l, h1, h2, _⟩ := h0.out
    exact ⟨h0.self, h0.policy, h0.delayed, fun p => absurd e p.wired.self, l, h1, h2, fun p => absurd e p.wired.self⟩
  · exact h e

/-- an own command says nothing of `g` -/
theorem act_own (a : Fwd) (cmd : Msg) (hs : cmd.source = a.self) : Act F X k g c a (a.processTimeMessage cmd).1 := by
  have key : ∀ x : FedId, x ≠ a.self → Act F X k x c a (a.processTimeMessage cmd).1 :=
    fun x hx => act_processTimeMessage a cmd (fun e => absurd (e.symm.trans hs) hx)
  exact .mix (key (a.self + 1) (by intro e; have e : (a.self : Int) + 1 = a.self := e; omega)) (key g)

/-- the coordinator leaves: allowed at the end of time -/
theorem act_disconnect (a : Fwd) (hend : maxVal ≤ X) : Act F X k g c a a.disconnect := by
  have hw : ∀ m : Msg, m.action = .disconnect → Within F X m := by
    intro m hm _ n e h
    unfold word at h
    rw [hm] at h
    injection h with h1 h2
    subst h1 h2
    exact ⟨hend, fun _ => hend⟩
  have hf : ∀ d : FedId, Fit a.self { action := .disconnect, source := a.self, dest := d } :=
    fun d => fit_plain rfl rfl (by simp) (by simp) (by simp)
  have hend : ∀ b : Fwd, Act F X k g c b { b with disconnected := true } := fun b => .of rfl rfl id rfl rfl rfl rfl rfl
  unfold disconnect
  split
  · exact .refl _
  · dsimp only
    split
    · exact hend a
    · rename_i d _
      refine Act.trans ?_ (hend _)
      split
      · split
        · exact act_own a _ rfl
        · exact act_send a _ (hf _) (fun _ _ => hw _ rfl)
      · exact .refl _
    · have h1 : Act F X k g c a (if (a.deps.any fun d => TC.needsBye d && d.fedID == a.self) = true then
          (a.processTimeMessage { action := .disconnect, source := a.self, dest := a.self }).1 else a) := by
        split
        · exact act_own a _ rfl
        · exact .refl _
      generalize (if (a.deps.any fun d => TC.needsBye d && d.fedID == a.self) = true then
          (a.processTimeMessage { action := .disconnect, source := a.self, dest := a.self }).1 else a) = b at h1 ⊢
      have key : ∀ p ∈ [Packet.multi (TC.appendAll ((a.deps.filter fun d => TC.needsBye d && d.fedID != a.self).map
          fun d => ({ action := .disconnect, source := a.self, dest := d.fedID } : Msg)))], ∀ m ∈ p.msgs,
          ∃ e, m = { action := .disconnect, source := a.self, dest := e } := by
        intro p hp m hm
        simp only [List.mem_singleton] at hp
        subst hp
        obtain ⟨d, _, rfl⟩ := List.mem_map.mp (List.mem_of_mem_take hm)
        exact ⟨_, rfl⟩
      refine (h1.trans (.app b _ (fun p hp m hm => ?_) (fun _ p hp m hm _ => ?_))).trans (hend _)
      · obtain ⟨e, rfl⟩ := key p hp m hm
        rw [h1.self]
        exact hf e
      · obtain ⟨e, rfl⟩ := key p hp m hm
        exact hw _ rfl

end Fwd
end Verif
