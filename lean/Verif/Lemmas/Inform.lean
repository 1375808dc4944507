import Verif.Props.InformSpec
import Verif.Lemmas.ForwardAct
/-! What a core or broker has told its neighbours (C51). -/
namespace Verif
namespace Fwd
open Deps

theorem parts_eq_msgs (p : Packet) : p.parts = p.msgs := by cases p <;> rfl

theorem sent_append (w : Fwd) (l : List Packet) : ({ w with out := w.out ++ l } : Fwd).sent = w.sent ++ l.flatMap Packet.parts := by
  simp [sent]

theorem lastOf_append_none {a l : List Msg} {x : FedId} (h : ∀ m ∈ l, announces m = true → m.dest ≠ x) : lastOf (a ++ l) x = lastOf a x := by
  unfold lastOf
  rw [List.filter_append]
  have : l.filter (fun m => announces m && m.dest == x) = [] := by
    rw [List.filter_eq_nil_iff]
    intro m hm e
    simp only [Bool.and_eq_true, beq_iff_eq] at e
    exact h m hm e.1 e.2
  rw [this, List.append_nil]

theorem lastOf_append_some {a l : List Msg} {x : FedId} {P : Msg → Prop} (h : ∃ m ∈ l, announces m = true ∧ m.dest = x)
    (hP : ∀ m ∈ l, announces m = true → m.dest = x → P m) : ∃ m, lastOf (a ++ l) x = some m ∧ P m := by
  unfold lastOf
  rw [List.filter_append]
  obtain ⟨m0, h1, h2, h3⟩ := h
  have hne : l.filter (fun m => announces m && m.dest == x) ≠ [] := by
    intro e
    rw [List.filter_eq_nil_iff] at e
    exact e m0 h1 (by simp [h2, h3])
  rw [List.getLast?_append, List.getLast?_eq_some_getLast hne, Option.some_or]
  refine ⟨_, rfl, ?_⟩
  have := List.getLast_mem hne
  rw [List.mem_filter] at this
  simp only [Bool.and_eq_true, beq_iff_eq] at this
  exact hP _ this.1 this.2.1 this.2.2

/-- the parts of two views that are compared and announced agree -/
structure Same (t u : TimeData) : Prop where
  state : t.state = u.state
  next : t.next = u.next
  Te : t.Te = u.Te
  minDe : t.minDe = u.minDe
  minFed : t.minFed = u.minFed
  interrupted : t.interrupted = u.interrupted

theorem Same.symm {t u : TimeData} (h : Same t u) : Same u t :=
  ⟨h.state.symm, h.next.symm, h.Te.symm, h.minDe.symm, h.minFed.symm, h.interrupted.symm⟩

theorem SaysTime.congr {m : Msg} {t u : TimeData} (h : SaysTime m t) (h1 : t.state = u.state) (h2 : t.next = u.next) : SaysTime m u := by
  unfold SaysTime at h ⊢
  rw [← h1, ← h2]; exact h

theorem Says.congr {m : Msg} {t u : TimeData} (h : Says m t) (e : Same t u) : Says m u := by
  refine ⟨h.1.congr e.state e.next, ?_⟩
  rw [← e.Te, ← e.minDe, ← e.minFed, ← e.interrupted]; exact h.2

theorem update_same (t u : TimeData) : Same (t.update u).1 u := ⟨rfl, rfl, rfl, rfl, rfl, rfl⟩

theorem update_unchanged {t u : TimeData} (h : (t.update u).2 = false) : Same t u := by
  unfold TimeData.update at h
  simp only [Bool.or_eq_false_iff, bne_eq_false_iff_eq] at h
  exact ⟨h.1.1.1.1.1.1.1.1, h.1.1.1.1.2, h.1.1.1.1.1.1.1.2, h.1.1.1.1.1.1.2, h.1.1.1.2, h.1.1.2⟩

/-- there is something to say about the view -/
def Loud (t : TimeData) : Prop := t.state ≠ .initialized ∧ t.state ≠ .error

theorem InTime.loud {t : TimeData} (h : InTime t) : Loud t := by
  constructor <;> intro e <;> rcases h with h | h | h | h <;> rw [e] at h <;> cases h

theorem request_says (w : Fwd) (t : TimeData) (fed : FedId) (code : Int) (h : Loud t) (e : FedId) (i : Int) :
    Says { w.request t fed code with dest := e, extraDestData := i } t ∧
    announces (w.request t fed code) = true ∧ (w.request t fed code).action ≠ .ignore := by
  obtain ⟨h1, h2⟩ := h
  unfold Says SaysTime request TC.generateTimeRequest
  cases hs : t.state <;> first | exact absurd hs h1 | exact absurd hs h2 | skip
  all_goals simp [setIterationFlags, announces]

theorem request_inTime (w : Fwd) (t : TimeData) (fed : FedId) (code : Int) (h : TimeState.granted.rank ≤ t.state.rank) :
    (w.request t fed code).action = .timeRequest ∨ (w.request t fed code).action = .timeGrant ∨
    (t.state = .error ∧ (w.request t fed code).action = .ignore) := by
  unfold request TC.generateTimeRequest
  cases hs : t.state <;> rw [hs] at h <;> first | (exact absurd h (by decide)) | skip
  all_goals simp [setIterationFlags]

/-- the entries of `b` are entries of `a` with new contents -/
def Fewer (a b : Deps) : Prop :=
  ∀ d ∈ b, ∃ e ∈ a, e.fedID = d.fedID ∧ e.connection = d.connection ∧ (d.dependent = true → e.dependent = true)

theorem Fewer.refl (a : Deps) : Fewer a a := fun d hd => ⟨d, hd, rfl, rfl, id⟩

theorem Fewer.trans {a b c : Deps} (h : Fewer a b) (h' : Fewer b c) : Fewer a c := by
  intro d hd
  obtain ⟨e, he, h1, h2, h3⟩ := h' d hd
  obtain ⟨f, hf, g1, g2, g3⟩ := h e he
  exact ⟨f, hf, g1.trans h1, g2.trans h2, fun x => g3 (h3 x)⟩

theorem process_shape (cmd : Msg) (d : DepInfo) :
    (d.process cmd).1.fedID = d.fedID ∧ (d.process cmd).1.connection = d.connection ∧ (d.process cmd).1.dependent = d.dependent := by
  unfold DepInfo.process
  cases cmd.action <;> dsimp only <;> (try split) <;> exact ⟨rfl, rfl, rfl⟩

theorem fewer_updateTime {ds : Deps} (hs : Sorted ds) (cmd : Msg) : Fewer ds (ds.updateTime cmd).1 := by
  unfold Deps.updateTime
  cases hf : find ds cmd.source with
  | none => exact .refl _
  | some e =>
    dsimp only
    split
    · exact .refl _
    · intro d hd
      rw [modify_eq_upd hs] at hd
      rcases (mem_upd hs).mp hd with ⟨h, _⟩ | h
      · exact ⟨d, h, rfl, rfl, id⟩
      · rw [hf] at h
        obtain rfl : (e.process cmd).1 = d := by simpa using h
        obtain ⟨p1, p2, p3⟩ := process_shape cmd e
        exact ⟨e, ((find_eq_some_iff hs).mp hf).1, p1.symm, p2.symm, fun h => p3 ▸ h⟩

theorem fewer_removeDependent {ds : Deps} (hs : Sorted ds) (g : FedId) : Fewer ds (ds.removeDependent g) := by
  intro d hd
  rw [removeDependent_eq_upd hs] at hd
  rcases (mem_upd hs).mp hd with ⟨h, _⟩ | h
  · exact ⟨d, h, rfl, rfl, id⟩
  · cases hf : find ds g with
    | none => rw [hf] at h; simp at h
    | some e =>
      rw [hf] at h
      have hm := ((find_eq_some_iff hs).mp hf).1
      refine ⟨e, hm, ?_⟩
      revert h
      simp only [Option.bind_some]
      grind

/-- a neighbour that is told the view passed to the parent -/
def UpDep (d : DepInfo) : Prop := d.dependent = true ∧ d.connection ≠ .child
/-- a neighbour that is told the view passed to the children -/
def DownDep (d : DepInfo) : Prop := d.dependent = true ∧ d.connection = .child ∧ d.fedID ≠ invalidFed

/-- the notice that the sender has entered executing mode -/
def Entry (m : Msg) : Prop := m.action = .execGrant ∧ m.iterationRequested = false

/-- `x` was told the view `v`, and at most the notice of entering executing mode after it -/
def Told51 (w : Fwd) (x : FedId) (v : TimeData) : Prop :=
  ∃ m, lastTold w x = some m ∧ (Says m v ∨ (Entry m ∧ ∃ m' ∈ w.sent, m'.dest = x ∧ Says m' v))

structure Kept (W : FedId → Time → Prop) (w : Fwd) : Prop where
  sorted : Sorted w.deps
  granted : w.executionMode = true → TimeState.granted.rank ≤ w.downstream.state.rank
  grants : w.executionMode = true → ∀ d ∈ w.deps, UpDep d ∨ DownDep d → ∃ m ∈ w.sent, m.dest = d.fedID ∧ Entry m
  ever : Loud w.upstream → ∀ d ∈ w.deps, UpDep d → ∃ m ∈ w.sent, m.dest = d.fedID ∧ Says m w.upstream
  last : w.executionMode = true → w.hasDelayed = false → Loud w.upstream → ∀ d ∈ w.deps, UpDep d → Told51 w d.fedID w.upstream
  below : w.executionMode = true → w.hasDelayed = false → w.downstream.state ≠ .error → ∀ d ∈ w.deps, DownDep d →
    (∃ m, lastTold w d.fedID = some m ∧ SaysTime m w.downstream) ∨ W d.fedID w.downstream.next

theorem Kept.mono {W V : FedId → Time → Prop} {w : Fwd} (h : Kept W w) (hw : ∀ x t, W x t → V x t) : Kept V w :=
  ⟨h.sorted, h.granted, h.grants, h.ever, h.last, fun a b c d e f => (h.below a b c d e f).imp id (hw _ _)⟩

/-- nothing announced, table not extended -/
theorem Kept.of {W : FedId → Time → Prop} {a b : Fwd} (h : Kept W a) (hs : Sorted b.deps) (hf : Fewer a.deps b.deps)
    (h1 : b.executionMode = a.executionMode) (h2 : b.upstream = a.upstream) (h3 : b.downstream = a.downstream)
    (h4 : b.hasDelayed = false → a.hasDelayed = false) {l : List Packet} (h5 : b.out = a.out ++ l)
    (h6 : ∀ p ∈ l, ∀ m ∈ p.parts, announces m = false) : Kept W b := by
  have hsent : b.sent = a.sent ++ l.flatMap Packet.parts := by simp [sent, h5]
  have hq : ∀ m ∈ l.flatMap Packet.parts, announces m = false := by
    intro m hm
    obtain ⟨p, hp, hm⟩ := List.mem_flatMap.mp hm
    exact h6 p hp m hm
  have hlast : ∀ x, lastTold b x = lastTold a x := by
    intro x
    unfold lastTold
    rw [hsent]
    exact lastOf_append_none (fun m hm e => by rw [hq m hm] at e; cases e)
  have hsub : ∀ m ∈ a.sent, m ∈ b.sent := fun m hm => by rw [hsent]; exact List.mem_append_left _ hm
  have hup : ∀ d ∈ b.deps, UpDep d → ∃ e ∈ a.deps, e.fedID = d.fedID ∧ UpDep e := by
    intro d hd hu
    obtain ⟨e, he, g1, g2, g3⟩ := hf d hd
    exact ⟨e, he, g1, g3 hu.1, g2 ▸ hu.2⟩
  have hdn : ∀ d ∈ b.deps, DownDep d → ∃ e ∈ a.deps, e.fedID = d.fedID ∧ DownDep e := by
    intro d hd hu
    obtain ⟨e, he, g1, g2, g3⟩ := hf d hd
    exact ⟨e, he, g1, g3 hu.1, g2 ▸ hu.2.1, g1 ▸ hu.2.2⟩
  refine ⟨hs, by rw [h1, h3]; exact h.granted, ?_, ?_, ?_, ?_⟩
  · rw [h1]
    intro he d hd hu
    have : ∃ e ∈ a.deps, e.fedID = d.fedID ∧ (UpDep e ∨ DownDep e) := by
      rcases hu with hu | hu
      · obtain ⟨e, x, y, z⟩ := hup d hd hu; exact ⟨e, x, y, .inl z⟩
      · obtain ⟨e, x, y, z⟩ := hdn d hd hu; exact ⟨e, x, y, .inr z⟩
    obtain ⟨e, x, y, z⟩ := this
    obtain ⟨m, m1, m2, m3⟩ := h.grants he e x z
    exact ⟨m, hsub m m1, m2.trans y, m3⟩
  · rw [h2]
    intro hl d hd hu
    obtain ⟨e, x, y, z⟩ := hup d hd hu
    obtain ⟨m, m1, m2, m3⟩ := h.ever hl e x z
    exact ⟨m, hsub m m1, m2.trans y, m3⟩
  · rw [h1, h2]
    intro he hd' hl d hd hu
    obtain ⟨e, x, y, z⟩ := hup d hd hu
    obtain ⟨m, m1, m2⟩ := h.last he (h4 hd') hl e x z
    rw [y] at m1 m2
    refine ⟨m, (hlast _).trans m1, m2.imp id ?_⟩
    rintro ⟨m3, m', m4, m5⟩
    exact ⟨m3, m', hsub m' m4, m5⟩
  · rw [h1, h3]
    intro he hd' hl d hd hu
    obtain ⟨e, x, y, z⟩ := hdn d hd hu
    rcases h.below he (h4 hd') hl e x z with ⟨m, m1, m2⟩ | hw
    · rw [y] at m1; exact .inl ⟨m, (hlast _).trans m1, m2⟩
    · rw [y] at hw; exact .inr hw

theorem mem_upCopies {ds : Deps} {m : Msg} {d : DepInfo} (hd : d ∈ ds) (hu : UpDep d) :
    ∃ x ∈ (upCopies ds m).flatMap Packet.parts, x.dest = d.fedID ∧ ∃ i, x = { m with dest := d.fedID, extraDestData := i } := by
  refine ⟨if m.action = .execRequest ∨ m.action = .timeRequest
        then { m with dest := d.fedID, extraDestData := d.sequenceCounter } else { m with dest := d.fedID }, ?_, ?_, ?_⟩
  · refine List.mem_flatMap.mpr ⟨_, List.mem_filterMap.mpr ⟨d, hd, if_pos ⟨hu.2, hu.1⟩⟩, ?_⟩
    simp [Packet.parts]
  · split <;> rfl
  · split
    · exact ⟨_, rfl⟩
    · exact ⟨m.extraDestData, rfl⟩

theorem upCopies_inv {ds : Deps} {m x : Msg} (hx : x ∈ (upCopies ds m).flatMap Packet.parts) :
    (∃ d ∈ ds, d.connection ≠ .child ∧ x.dest = d.fedID) ∧ ∃ e i, x = { m with dest := e, extraDestData := i } := by
  obtain ⟨p, hp, h⟩ := List.mem_flatMap.mp hx
  rw [parts_eq_msgs] at h
  exact upCopies_mem hp h

theorem downCopies_inv {ds : Deps} {m x : Msg} {s : FedId} (hx : x ∈ (downCopies ds m s).flatMap Packet.parts) :
    (m.action = .timeRequest ∨ m.action = .timeGrant → ∃ d ∈ ds, d.connection = .child ∧ x.dest = d.fedID) ∧
    ∃ e i, x = { m with dest := e, extraDestData := i } := by
  obtain ⟨p, hp, h⟩ := List.mem_flatMap.mp hx
  rw [parts_eq_msgs] at h
  exact downCopies_mem hp h

/-- who gets a copy of a time message sent down -/
theorem mem_downCopies_time {ds : Deps} {m : Msg} {d : DepInfo} (hd : d ∈ ds) (hu : DownDep d)
    (ha : m.action = .timeRequest ∨ m.action = .timeGrant) (hs : ¬ (d.dependency = true ∧ d.next > m.actionTime ∧ d.next < cTerm)) :
    ∃ x ∈ (downCopies ds m invalidFed).flatMap Packet.parts, x.dest = d.fedID ∧ ∃ i, x = { m with dest := d.fedID, extraDestData := i } := by
  refine ⟨if m.action = .timeRequest
        then { m with dest := d.fedID, extraDestData := d.sequenceCounter } else { m with dest := d.fedID }, ?_, ?_, ?_⟩
  · refine List.mem_flatMap.mpr ⟨_, List.mem_filterMap.mpr ⟨d, hd, (if_pos ha).trans (if_pos ⟨hu.2.1, hu.1, hu.2.2, hs⟩)⟩, ?_⟩
    simp [Packet.parts]
  · split <;> rfl
  · split
    · exact ⟨_, rfl⟩
    · exact ⟨m.extraDestData, rfl⟩

theorem mem_downCopies_other {ds : Deps} {m : Msg} {d : DepInfo} (hd : d ∈ ds) (h1 : d.dependent = true) (h2 : d.fedID ≠ invalidFed)
    (ha : ¬ (m.action = .timeRequest ∨ m.action = .timeGrant)) :
    ∃ x ∈ (downCopies ds m invalidFed).flatMap Packet.parts, x.dest = d.fedID ∧ ∃ i, x = { m with dest := d.fedID, extraDestData := i } := by
  refine ⟨if m.action = .execRequest
        then { m with dest := d.fedID, extraDestData := d.sequenceCounter } else { m with dest := d.fedID }, ?_, ?_, ?_⟩
  · refine List.mem_flatMap.mpr ⟨_, List.mem_filterMap.mpr ⟨d, hd, (if_neg ha).trans (if_pos ⟨h1, h2⟩)⟩, ?_⟩
    simp [Packet.parts]
  · split <;> rfl
  · split
    · exact ⟨_, rfl⟩
    · exact ⟨m.extraDestData, rfl⟩


theorem Sorted.unique {ds : Deps} (hs : Sorted ds) {d e : DepInfo} (hd : d ∈ ds) (he : e ∈ ds) (h : d.fedID = e.fedID) : d = e := by
  have h1 := (find_eq_some_iff hs).mpr ⟨hd, rfl⟩
  have h2 := (find_eq_some_iff hs).mpr ⟨he, rfl⟩
  rw [h, h2] at h1
  exact (Option.some.inj h1).symm

/-- the view passed up after `refresh` -/
theorem refresh_up (w : Fwd) : (w.refresh.1.upstream = (w.upstream.update w.aggUp).1 ∧ w.refresh.2.1 = (w.upstream.update w.aggUp).2 ∧
      (w.aggUp.state.rank > TimeState.execReq.rank ∨ w.executionMode = false)) ∨
    (w.refresh.1.upstream = w.upstream ∧ w.refresh.2.1 = false ∧ w.executionMode = true ∧ ¬ w.aggUp.state.rank > TimeState.execReq.rank) := by
  unfold refresh
  dsimp only
  by_cases h : w.aggUp.state.rank > TimeState.execReq.rank ∨ w.executionMode = false
  · rw [if_pos h]; exact .inl ⟨rfl, rfl, h⟩
  · rw [if_neg h]; exact .inr ⟨rfl, rfl, by simpa using (not_or.mp h).2, (not_or.mp h).1⟩

/-- the view passed down after `refresh` -/
theorem refresh_down (w : Fwd) : (w.refresh.1.downstream.state = w.aggDown.state ∧ w.refresh.1.downstream.next = w.aggDown.next ∧
      w.refresh.2.2 = (w.downstream.update w.aggDown).2 ∧ (w.aggDown.state.rank > TimeState.execReq.rank ∨ w.executionMode = false)) ∨
    (w.refresh.1.downstream.state = w.downstream.state ∧ w.refresh.1.downstream.next = w.downstream.next ∧ w.refresh.2.2 = false ∧
      w.executionMode = true ∧ ¬ w.aggDown.state.rank > TimeState.execReq.rank) := by
  unfold refresh
  dsimp only
  by_cases h : w.aggDown.state.rank > TimeState.execReq.rank ∨ w.executionMode = false
  · rw [if_pos h]
    refine .inl ⟨?_, ?_, rfl, h⟩ <;> (generalize (if w.aggUp.state.rank > TimeState.execReq.rank ∨ w.executionMode = false then w.upstream.update w.aggUp else (w.upstream, false)) = u; split <;> rfl)
  · rw [if_neg h]
    refine .inr ⟨?_, ?_, rfl, by simpa using (not_or.mp h).2, (not_or.mp h).1⟩ <;> (generalize (if w.aggUp.state.rank > TimeState.execReq.rank ∨ w.executionMode = false then w.upstream.update w.aggUp else (w.upstream, false)) = u; split <;> rfl)

/-- the state before the children are told: what may be missing is what concerns the children when `down` is set -/
structure Half (W : FedId → Time → Prop) (down : Bool) (w : Fwd) : Prop where
  sorted : Sorted w.deps
  granted : w.executionMode = true → TimeState.granted.rank ≤ w.downstream.state.rank
  grants : w.executionMode = true → ∀ d ∈ w.deps, UpDep d ∨ DownDep d → ∃ m ∈ w.sent, m.dest = d.fedID ∧ Entry m
  ever : Loud w.upstream → ∀ d ∈ w.deps, UpDep d → ∃ m ∈ w.sent, m.dest = d.fedID ∧ Says m w.upstream
  last : w.executionMode = true → w.hasDelayed = false → Loud w.upstream → ∀ d ∈ w.deps, UpDep d → Told51 w d.fedID w.upstream
  below : down = false → w.executionMode = true → w.hasDelayed = false → w.downstream.state ≠ .error → ∀ d ∈ w.deps, DownDep d →
    (∃ m, lastTold w d.fedID = some m ∧ SaysTime m w.downstream) ∨ W d.fedID w.downstream.next

theorem half_up {W : FedId → Time → Prop} {w : Fwd} (h : Kept W w) :
    Half W w.refresh.2.2 (if w.refresh.2.1 || w.refresh.2.2 then w.refresh.1.tellUp else w.refresh.1) := by
  have hdeps : w.refresh.1.deps = w.deps := rfl
  have hexec : w.refresh.1.executionMode = w.executionMode := rfl
  have hdel : w.refresh.1.hasDelayed = w.hasDelayed := rfl
  have hout : w.refresh.1.out = w.out := rfl
  have hup := refresh_up w
  have hdn := refresh_down w
  generalize w.refresh = r at *
  obtain ⟨v, u, dn⟩ := r
  dsimp only at *
  have hsent : v.sent = w.sent := by unfold sent; rw [hout]
  have hlast : ∀ x, lastTold v x = lastTold w x := by intro x; unfold lastTold; rw [hsent]
  have hg : v.executionMode = true → TimeState.granted.rank ≤ v.downstream.state.rank := by
    rw [hexec]
    intro he
    rcases hdn with ⟨h1, _, _, h4⟩ | ⟨h1, _⟩
    · rw [h1]
      rcases h4 with h4 | h4
      · revert h4; cases w.aggDown.state <;> decide
      · rw [h4] at he; cases he
    · rw [h1]; exact h.granted he
  have hbelow : dn = false → v.executionMode = true → v.hasDelayed = false → v.downstream.state ≠ .error → ∀ d ∈ v.deps, DownDep d →
      (∃ m, lastTold v d.fedID = some m ∧ SaysTime m v.downstream) ∨ W d.fedID v.downstream.next := by
    rw [hexec, hdel, hdeps]
    intro hd he hh herr d hm hu
    have hs : v.downstream.state = w.downstream.state ∧ v.downstream.next = w.downstream.next := by
      rcases hdn with ⟨h1, h2, h3, _⟩ | ⟨h1, h2, _⟩
      · have := update_unchanged (h3 ▸ hd : (w.downstream.update w.aggDown).2 = false)
        exact ⟨h1.trans this.state.symm, h2.trans this.next.symm⟩
      · exact ⟨h1, h2⟩
    rw [hs.1] at herr
    rcases h.below he hh herr d hm hu with ⟨m, m1, m2⟩ | hw
    · exact .inl ⟨m, (hlast _).trans m1, m2.congr hs.1.symm hs.2.symm⟩
    · exact .inr (hs.2 ▸ hw)
  by_cases hb : (u || dn) = true
  · rw [if_pos hb]
    unfold tellUp
    dsimp only
    by_cases hl : Loud v.upstream
    · have hq := request_says v v.upstream invalidFed v.upstream.responseSequenceCounter hl
      generalize hm : v.request v.upstream invalidFed v.upstream.responseSequenceCounter = m at hq
      rw [if_pos (hq 0 0).2.2]
      have hs' : (v.transmitUp m).sent = v.sent ++ (upCopies v.deps m).flatMap Packet.parts := sent_append _ _
      have hever : ∀ d ∈ v.deps, UpDep d → ∃ x ∈ (v.transmitUp m).sent, x.dest = d.fedID ∧ Says x v.upstream := by
        intro d hd hu
        obtain ⟨x, x1, x2, i, x3⟩ := mem_upCopies (m := m) hd hu
        exact ⟨x, by rw [hs']; exact List.mem_append_right _ x1, x2, x3 ▸ (hq _ i).1⟩
      refine ⟨hdeps ▸ h.sorted, hg, ?_, fun _ => hever, ?_, ?_⟩
      · intro he d hd hu
        obtain ⟨x, x1, x2⟩ := h.grants (hexec ▸ he) d (hdeps ▸ hd) hu
        exact ⟨x, by rw [hs', hsent]; exact List.mem_append_left _ x1, x2⟩
      · intro _ _ _ d hd hu
        have := lastOf_append_some (a := v.sent) (l := (upCopies v.deps m).flatMap Packet.parts) (x := d.fedID)
          (P := fun x => Says x v.upstream) ?_ ?_
        · obtain ⟨x, x1, x2⟩ := this
          exact ⟨x, by unfold lastTold; rw [hs']; exact x1, .inl x2⟩
        · obtain ⟨x, x1, x2, i, x3⟩ := mem_upCopies (m := m) hd hu
          exact ⟨x, x1, by rw [x3]; exact (hq 0 0).2.1, x2⟩
        · intro x hx _ _
          obtain ⟨e, i, x3⟩ := (upCopies_inv hx).2
          exact x3 ▸ (hq e i).1
      · intro hd he hh herr d hm' hu
        rcases hbelow hd he hh herr d hm' hu with ⟨y, y1, y2⟩ | hw
        · refine .inl ⟨y, ?_, y2⟩
          rw [← y1]
          unfold lastTold
          rw [hs']
          refine lastOf_append_none ?_
          intro x hx _ hxd
          obtain ⟨e, he', e1, e2⟩ := (upCopies_inv hx).1
          have := Sorted.unique (hdeps ▸ h.sorted) he' hm' (e2.symm.trans hxd)
          rw [this] at e1
          exact e1 hu.2.1
        · exact .inr hw
    · generalize v.request v.upstream invalidFed v.upstream.responseSequenceCounter = m
      have key : Half W dn (v.transmitUp m) := by
        have hs' : (v.transmitUp m).sent = v.sent ++ (upCopies v.deps m).flatMap Packet.parts := sent_append _ _
        refine ⟨hdeps ▸ h.sorted, hg, ?_, fun hl' => absurd hl' hl, fun _ _ hl' => absurd hl' hl, ?_⟩
        · intro he d hd hu
          obtain ⟨x, x1, x2⟩ := h.grants (hexec ▸ he) d (hdeps ▸ hd) hu
          exact ⟨x, by rw [hs', hsent]; exact List.mem_append_left _ x1, x2⟩
        · intro hd he hh herr d hm' hu
          rcases hbelow hd he hh herr d hm' hu with ⟨y, y1, y2⟩ | hw
          · refine .inl ⟨y, ?_, y2⟩
            rw [← y1]
            unfold lastTold
            rw [hs']
            refine lastOf_append_none ?_
            intro x hx _ hxd
            obtain ⟨e, he', e1, e2⟩ := (upCopies_inv hx).1
            have := Sorted.unique (hdeps ▸ h.sorted) he' hm' (e2.symm.trans hxd)
            rw [this] at e1
            exact e1 hu.2.1
          · exact .inr hw
      split
      · exact key
      · refine ⟨hdeps ▸ h.sorted, hg, ?_, fun hl' => absurd hl' hl, fun _ _ hl' => absurd hl' hl, hbelow⟩
        intro he d hd hu
        obtain ⟨x, x1, x2⟩ := h.grants (hexec ▸ he) d (hdeps ▸ hd) hu
        exact ⟨x, by rw [hsent]; exact x1, x2⟩
  · rw [if_neg hb]
    have hb' : u = false ∧ dn = false := by simpa using hb
    have hsame : Same w.upstream v.upstream := by
      rcases hup with ⟨h1, h2, _⟩ | ⟨h1, _⟩
      · have a1 := update_unchanged (h2 ▸ hb'.1 : (w.upstream.update w.aggUp).2 = false)
        have a2 := update_same w.upstream w.aggUp
        rw [← h1] at a2
        exact ⟨a1.state.trans a2.state.symm, a1.next.trans a2.next.symm, a1.Te.trans a2.Te.symm, a1.minDe.trans a2.minDe.symm,
          a1.minFed.trans a2.minFed.symm, a1.interrupted.trans a2.interrupted.symm⟩
      · rw [h1]; exact ⟨rfl, rfl, rfl, rfl, rfl, rfl⟩
    have hl : Loud v.upstream → Loud w.upstream := by unfold Loud; rw [hsame.state]; exact id
    refine ⟨hdeps ▸ h.sorted, hg, ?_, ?_, ?_, hbelow⟩
    · intro he d hd hu
      obtain ⟨x, x1, x2⟩ := h.grants (hexec ▸ he) d (hdeps ▸ hd) hu
      exact ⟨x, by rw [hsent]; exact x1, x2⟩
    · intro hl' d hd hu
      obtain ⟨x, x1, x2, x3⟩ := h.ever (hl hl') d (hdeps ▸ hd) hu
      exact ⟨x, by rw [hsent]; exact x1, x2, x3.congr hsame⟩
    · intro he hh hl' d hd hu
      obtain ⟨x, x1, x2⟩ := h.last (hexec ▸ he) (hdel ▸ hh) (hl hl') d (hdeps ▸ hd) hu
      refine ⟨x, (hlast _).trans x1, ?_⟩
      rcases x2 with x2 | ⟨x2, y, y1, y2, y3⟩
      · exact .inl (x2.congr hsame)
      · exact .inr ⟨x2, y, by rw [hsent]; exact y1, y2, y3.congr hsame⟩


/-- `W`, or waiting for a later time in the table of `w` -/
def Wait (W : FedId → Time → Prop) (w : Fwd) (x : FedId) (t : Time) : Prop := W x t ∨ Later w x t

/-- more messages, the same for the rest -/
theorem Half.app {W : FedId → Time → Prop} {down : Bool} {w : Fwd} (h : Half W down w) (l : List Packet)
    (hu : w.executionMode = true → w.hasDelayed = false → ∀ m ∈ l.flatMap Packet.parts, announces m = true → ∃ d ∈ w.deps, d.connection = .child ∧ m.dest = d.fedID) :
    let b : Fwd := { w with out := w.out ++ l }
    Sorted b.deps ∧ (b.executionMode = true → TimeState.granted.rank ≤ b.downstream.state.rank) ∧
    (b.executionMode = true → ∀ d ∈ b.deps, UpDep d ∨ DownDep d → ∃ m ∈ b.sent, m.dest = d.fedID ∧ Entry m) ∧
    (Loud b.upstream → ∀ d ∈ b.deps, UpDep d → ∃ m ∈ b.sent, m.dest = d.fedID ∧ Says m b.upstream) ∧
    (b.executionMode = true → b.hasDelayed = false → Loud b.upstream → ∀ d ∈ b.deps, UpDep d → Told51 b d.fedID b.upstream) := by
  intro b
  have hs' : b.sent = w.sent ++ l.flatMap Packet.parts := sent_append _ _
  have hsub : ∀ m ∈ w.sent, m ∈ b.sent := fun m hm => by rw [hs']; exact List.mem_append_left _ hm
  refine ⟨h.sorted, h.granted, ?_, ?_, ?_⟩
  · intro he d hd hu'
    obtain ⟨m, m1, m2⟩ := h.grants he d hd hu'
    exact ⟨m, hsub m m1, m2⟩
  · intro hl d hd hu'
    obtain ⟨m, m1, m2⟩ := h.ever hl d hd hu'
    exact ⟨m, hsub m m1, m2⟩
  · intro he hh hl d hd hu'
    obtain ⟨m, m1, m2⟩ := h.last he hh hl d hd hu'
    refine ⟨m, ?_, m2.imp id ?_⟩
    · rw [← m1]
      unfold lastTold
      rw [hs']
      refine lastOf_append_none ?_
      intro x hx ha hxd
      obtain ⟨e, he', e1, e2⟩ := hu he hh x hx ha
      have := Sorted.unique h.sorted he' hd (e2.symm.trans hxd)
      rw [this] at e1
      exact hu'.2 e1
    · rintro ⟨m3, m', m4, m5⟩
      exact ⟨m3, m', hsub m' m4, m5⟩

theorem kept_down {W : FedId → Time → Prop} {w : Fwd} (h : Half W true w) : Kept (Wait W w) w.tellDown := by
  unfold tellDown
  dsimp only
  by_cases hc : w.hasDelayed = true ∧ FedId.isValid w.downstream.minFed = true
  · rw [if_pos hc]
    have key : ∀ l, Kept (Wait W w) ({ w with out := w.out ++ l } : Fwd) := by
      intro l
      obtain ⟨a1, a2, a3, a4, a5⟩ := h.app l (by intro _ hh; rw [hc.1] at hh; cases hh)
      exact ⟨a1, a2, a3, a4, a5, by intro _ hh; exact absurd (hc.1.symm.trans hh) (by decide)⟩
    unfold sendExcluding transmitDown send
    dsimp only
    split
    · simp only [List.append_assoc]; exact key _
    · exact key _
  · rw [if_neg hc]
    generalize hm : w.request w.downstream invalidFed 0 = m
    by_cases hx : w.executionMode = true
    · have hr := request_inTime w w.downstream invalidFed 0 (h.granted hx)
      rw [hm] at hr
      have hr' : (m.action = .timeRequest ∨ m.action = .timeGrant) ∨ (w.downstream.state = .error ∧ m.action = .ignore) := by
        rcases hr with hr | hr | hr
        · exact .inl (.inl hr)
        · exact .inl (.inr hr)
        · exact .inr hr
      rcases hr' with hr | ⟨hr, hi⟩
      · have hni : m.action ≠ .ignore := by rcases hr with hr | hr <;> rw [hr] <;> decide
        rw [if_pos hni]
        unfold transmitDown
        have hcopy : ∀ x ∈ (downCopies w.deps m invalidFed).flatMap Packet.parts, ∃ d ∈ w.deps, d.connection = .child ∧ x.dest = d.fedID :=
          fun x hx => (downCopies_inv hx).1 hr
        obtain ⟨a1, a2, a3, a4, a5⟩ := h.app (downCopies w.deps m invalidFed) (fun _ _ x hx _ => hcopy x hx)
        refine ⟨a1, a2, a3, a4, a5, ?_⟩
        intro _ _ herr d hd hu
        have hloud : Loud w.downstream := by
          refine ⟨?_, herr⟩
          intro e
          have := h.granted hx
          rw [e] at this
          exact absurd this (by decide)
        have hq := request_says w w.downstream invalidFed 0 hloud
        rw [hm] at hq
        have hat : m.actionTime = w.downstream.next := by
          have := h.granted hx
          rw [← hm]
          unfold request TC.generateTimeRequest
          cases hs : w.downstream.state <;> rw [hs] at this <;> first | (exact absurd this (by decide)) | rfl
        by_cases hs : d.dependency = true ∧ d.next > m.actionTime ∧ d.next < cTerm
        · rw [hat] at hs
          exact .inr (.inr ⟨d, hd, rfl, hs.1, hs.2.1, hs.2.2⟩)
        · left
          have := lastOf_append_some (a := w.sent) (l := (downCopies w.deps m invalidFed).flatMap Packet.parts) (x := d.fedID)
            (P := fun x => SaysTime x w.downstream) ?_ ?_
          · obtain ⟨x, x1, x2⟩ := this
            exact ⟨x, by unfold lastTold; rw [sent_append]; exact x1, x2⟩
          · obtain ⟨x, x1, x2, i, x3⟩ := mem_downCopies_time hd hu hr hs
            exact ⟨x, x1, by rw [x3]; exact (hq 0 0).2.1, x2⟩
          · intro x hx _ _
            obtain ⟨e, i, x3⟩ := (downCopies_inv hx).2
            exact x3 ▸ (hq e i).1.1
      · rw [if_neg (by simp [hi])]
        obtain ⟨a1, a2, a3, a4, a5⟩ := h.app [] (by simp)
        simp only [List.append_nil] at a1 a2 a3 a4 a5
        exact ⟨a1, a2, a3, a4, a5, fun _ _ e => absurd hr e⟩
    · have key : ∀ l, Kept (Wait W w) ({ w with out := w.out ++ l } : Fwd) := by
        intro l
        obtain ⟨a1, a2, a3, a4, a5⟩ := h.app l (by intro hh; exact absurd hh hx)
        exact ⟨a1, a2, a3, a4, a5, by intro hh; exact absurd hh hx⟩
      unfold transmitDown
      split
      · exact key _
      · have := key []
        simpa using this

end Fwd
end Verif
