import Verif.Lemmas.InformRun
import Verif.Props.MinTime
/-!
# C51: cores and brokers keep their neighbours up to date

See `Verif.Props.InformSpec` for the terms.
-/
namespace Verif
namespace Fwd
open Deps

/-- `x` was told the view `v`, and since then at most that the teller has entered executing mode. -/
def Informed (w : Fwd) (x : FedId) (v : TimeData) : Prop :=
  ∃ m, lastTold w x = some m ∧
    (Says m v ∨ ((m.action = .execGrant ∧ m.iterationRequested = false) ∧ ∃ m' ∈ w.sent, m'.dest = x ∧ Says m' v))

/-- The commands that are looked at are accepted from dependencies. -/
private theorem accepted {w : Fwd} (hs : Sorted w.deps) {cmd : Msg} {c : Bool} (hd : FromDependency w cmd)
    (ha : attended c cmd = true ∨ aboutEntry cmd = true) : (w.processTimeMessage cmd).2 ≠ .notProcessed := by
  obtain ⟨d, hm, h1, h2⟩ := hd
  have key : ∀ ds : Deps, Sorted ds → (∃ d ∈ ds, d.fedID = cmd.source ∧ d.dependency = true) → (ds.updateTime cmd).2 ≠ .notProcessed := by
    rintro ds hs' ⟨e, he, e1, e2⟩
    unfold Deps.updateTime
    rw [(find_eq_some_iff hs').mpr ⟨he, e1⟩]
    dsimp only
    rw [e2]
    rw [if_neg (by simp)]
    dsimp only
    unfold attended aboutEntry at ha
    unfold DepInfo.process
    cases hc : cmd.action <;> rw [hc] at ha <;> simp at ha <;> dsimp only
    all_goals first
      | (intro e; cases e; done)
      | (split <;> (intro e; cases e))
      | skip
    all_goals (split <;> (try split) <;> (intro e; cases e))
  have hbase : (w.processBase cmd).2 ≠ .notProcessed := by
    unfold processBase
    dsimp only
    have h0 : ∃ d ∈ w.deps, d.fedID = cmd.source ∧ d.dependency = true := ⟨d, hm, h1, h2⟩
    have hr : ∃ d ∈ w.deps.removeDependent cmd.source, d.fedID = cmd.source ∧ d.dependency = true := by
      obtain ⟨e, e1, e2, e3, _⟩ := Has.removeDependent (g := cmd.source) (P := fun _ => True) ⟨d, hm, h1, h2, trivial⟩ cmd.source (fun _ _ => trivial)
      exact ⟨e, e1, e2, e3⟩
    split
    all_goals first
      | exact key _ (Sorted.removeDependent hs _) hr
      | exact key _ hs h0
  unfold processTimeMessage
  dsimp only
  split <;> exact hbase

/-- A coordinator in executing mode looks at its views again. -/
private theorem handle_attended {w : Fwd} (hs : Sorted w.deps) {cmd : Msg} (he : w.entered = true) (hd : FromDependency w cmd)
    (ha : attended w.core cmd = true) : w.handle cmd = (w.processTimeMessage cmd).1.updateTimeFactors := by
  have hp := accepted hs hd (.inl ha)
  unfold handle
  unfold attended at ha
  cases hc : w.core with
  | true =>
    rw [if_pos rfl]
    rw [hc] at ha
    unfold handleCore
    dsimp only
    rw [he]
    cases hx : cmd.action <;> rw [hx] at ha <;> simp at ha <;> simp [hp]
  | false =>
    rw [if_neg (by decide)]
    rw [hc] at ha
    unfold handleBroker
    dsimp only
    rw [he]
    cases hx : cmd.action <;> rw [hx] at ha <;> simp at ha <;> simp [hp]

private theorem not_wires {c : Bool} {cmd : Msg} (h : attended c cmd = true ∨ aboutEntry cmd = true) : wires cmd = false := by
  unfold attended aboutEntry at h
  unfold wires
  cases hc : cmd.action <;> rw [hc] at h <;> simp at h <;> rfl

private theorem updateTimeFactors_up (w : Fwd) :
    w.updateTimeFactors.upstream = w.refresh.1.upstream ∧ w.updateTimeFactors.downstream = w.refresh.1.downstream := by
  have h1 : ∀ a : Fwd, (a.tellUp.upstream = a.upstream ∧ a.tellUp.downstream = a.downstream) ∧
      (a.tellDown.upstream = a.upstream ∧ a.tellDown.downstream = a.downstream) := by
    intro a
    unfold tellUp tellDown sendExcluding transmitUp transmitDown send
    dsimp only
    refine ⟨?_, ?_⟩
    · split <;> exact ⟨rfl, rfl⟩
    · split
      · split <;> exact ⟨rfl, rfl⟩
      · split <;> exact ⟨rfl, rfl⟩
  unfold updateTimeFactors
  dsimp only
  generalize w.refresh = r
  obtain ⟨v, u, d⟩ := r
  dsimp only
  have h2 : (if (u || d) = true then v.tellUp else v).upstream = v.upstream ∧ (if (u || d) = true then v.tellUp else v).downstream = v.downstream := by
    split
    · exact (h1 v).1
    · exact ⟨rfl, rfl⟩
  generalize (if (u || d) = true then v.tellUp else v) = b at h2
  split
  · rw [(h1 b).2.1, (h1 b).2.2]; exact h2
  · split <;> exact h2

private theorem aggUp_eq {w b : Fwd} (h1 : b.deps = w.deps) (h2 : b.restrictive = w.restrictive) (h3 : b.self = w.self) :
    w.aggUp = b.viewUp w.seq := by unfold aggUp viewUp; rw [h1, h2, h3]

/-- **C51 (towards the parent).** A core or broker that is in executing mode and receives a command it attends to from one of
its dependencies: afterwards each neighbour that depends on it and is not its child has been told the combined view of
everything that is known at that moment — its state, next time, earliest events and who causes them — and nothing after that
(except possibly that the coordinator entered executing mode).  `code` is the sequence number in use. -/
theorem C51_parent_informed (self : FedId) (core restrictive : Bool) (wiring : List Msg) (evs : List Event) (cmd : Msg)
    (hset : Settled wiring evs) (ha : attended core cmd = true) :
    let w := life self core restrictive wiring evs
    let w' := life self core restrictive wiring (evs ++ [.cmd cmd])
    FromDependency w cmd → w.entered = true → w'.hasDelayed = false →
    ∃ code, InTime (w'.viewUp code) →
      ∀ d ∈ w'.deps, d.dependent = true → d.connection ≠ .child → Informed w' d.fedID (w'.viewUp code) := by
  intro w w' hd he hdel
  obtain ⟨hb, hk⟩ := life_inv (self := self) (core := core) (restrictive := restrictive) hset.1 _ evs rfl hset.2
  have hset' : ∀ m, Event.cmd m ∈ evs ++ [.cmd cmd] → wires m = false := by
    intro m hm
    simp only [List.mem_append, List.mem_singleton, Event.cmd.injEq] at hm
    rcases hm with hm | rfl
    · exact hset.2 m hm
    · exact not_wires (.inl ha)
  obtain ⟨hb', hk'⟩ := life_inv (self := self) (core := core) (restrictive := restrictive) hset.1 _ _ rfl hset'
  have hw' : w' = (w.processTimeMessage cmd).1.updateTimeFactors := by
    show life _ _ _ _ _ = _
    rw [life_snoc]
    exact handle_attended hk.sorted he hd (by rw [hb.core]; exact ha)
  have hx := keeps_processTimeMessage w cmd
  generalize (w.processTimeMessage cmd).1 = b at hw' hx
  have hu := keeps_updateTimeFactors b
  have hv : b.aggUp = w'.viewUp b.seq := aggUp_eq (by rw [hw']; exact (same_updateTimeFactors b).2) (by rw [hw']; exact hu.restrictive) (by rw [hw']; exact hu.who)
  refine ⟨b.seq, ?_⟩
  intro hin d hm h1 h2
  have hsame : Same w'.upstream (w'.viewUp b.seq) := by
    rw [← hv]
    rcases refresh_up b with ⟨g, _⟩ | ⟨_, _, _, g⟩
    · rw [hw', (updateTimeFactors_up b).1, g]; exact update_same _ _
    · exfalso
      apply g
      rw [hv]
      rcases hin with h | h | h | h <;> rw [h] <;> decide
  have hloud : Loud w'.upstream := by
    have := hin.loud
    unfold Loud at this ⊢
    rw [hsame.state]; exact this
  have hexec : w'.executionMode = true := by
    rw [← show w'.entered = w'.executionMode from hb'.mode, hw', hu.entered, hx.entered]; exact he
  obtain ⟨m, m1, m2⟩ := hk'.last hexec hdel hloud d hm ⟨h1, h2⟩
  refine ⟨m, m1, ?_⟩
  rcases m2 with m2 | ⟨m2, y, y1, y2, y3⟩
  · exact .inl (m2.congr hsame)
  · exact .inr ⟨m2, y, y1, y2, y3.congr hsame⟩

/-- **C51 (towards the children).** In the same situation each child that depends on the coordinator was last told the
state and next time of the combined view from above, unless at some moment the child itself was waiting for a later time. -/
theorem C51_children_informed (self : FedId) (core restrictive : Bool) (wiring : List Msg) (evs : List Event) (cmd : Msg)
    (hset : Settled wiring evs) (ha : attended core cmd = true) :
    let w := life self core restrictive wiring evs
    let w' := life self core restrictive wiring (evs ++ [.cmd cmd])
    let hasParent := (wired self core restrictive wiring).hasParent
    FromDependency w cmd → w.entered = true → w'.hasDelayed = false →
    ∃ code, InTime (w'.viewDown hasParent code) →
      ∀ d ∈ w'.deps, d.dependent = true → d.connection = .child → d.fedID ≠ invalidFed →
        (∃ m, lastTold w' d.fedID = some m ∧ SaysTime m (w'.viewDown hasParent code)) ∨
        ∃ a b, evs ++ [.cmd cmd] = a ++ b ∧ Later (life self core restrictive wiring a) d.fedID (w'.viewDown hasParent code).next := by
  intro w w' par hd he hdel
  obtain ⟨hb, hk⟩ := life_inv (self := self) (core := core) (restrictive := restrictive) hset.1 _ evs rfl hset.2
  have hset' : ∀ m, Event.cmd m ∈ evs ++ [.cmd cmd] → wires m = false := by
    intro m hm
    simp only [List.mem_append, List.mem_singleton, Event.cmd.injEq] at hm
    rcases hm with hm | rfl
    · exact hset.2 m hm
    · exact not_wires (.inl ha)
  obtain ⟨hb', hk'⟩ := life_inv (self := self) (core := core) (restrictive := restrictive) hset.1 _ _ rfl hset'
  have hw' : w' = (w.processTimeMessage cmd).1.updateTimeFactors := by
    show life _ _ _ _ _ = _
    rw [life_snoc]
    exact handle_attended hk.sorted he hd (by rw [hb.core]; exact ha)
  have hx := keeps_processTimeMessage w cmd
  generalize (w.processTimeMessage cmd).1 = b at hw' hx
  have hu := keeps_updateTimeFactors b
  have e1 : w'.deps = b.deps := by rw [hw']; exact (same_updateTimeFactors b).2
  have e2 : w'.restrictive = b.restrictive := by rw [hw']; exact hu.restrictive
  have e3 : w'.self = b.self := by rw [hw']; exact hu.who
  have e4 : b.noParent = !par := by
    rw [← hu.noParent, ← hw']; exact hb'.parent hdel
  have hv : b.aggDown = w'.viewDown par b.seq := by
    unfold aggDown viewDown
    rw [e4, aggUp_eq e1 e2 e3]
    cases par
    · simp
    · simp [e1, e2, e3]
  refine ⟨b.seq, ?_⟩
  intro hin d hm h1 h2 h3
  have hsame : w'.downstream.state = (w'.viewDown par b.seq).state ∧ w'.downstream.next = (w'.viewDown par b.seq).next := by
    rw [← hv]
    rcases refresh_down b with ⟨g1, g2, _⟩ | ⟨_, _, _, _, g⟩
    · rw [hw', (updateTimeFactors_up b).2]; exact ⟨g1, g2⟩
    · exfalso
      apply g
      rw [hv]
      rcases hin with h | h | h | h <;> rw [h] <;> decide
  have hexec : w'.executionMode = true := by
    rw [← show w'.entered = w'.executionMode from hb'.mode, hw', hu.entered, hx.entered]; exact he
  have herr : w'.downstream.state ≠ .error := by rw [hsame.1]; exact hin.loud.2
  rcases hk'.below hexec hdel herr d hm ⟨h1, h2, h3⟩ with ⟨m, m1, m2⟩ | ⟨a, c, hac, hl⟩
  · exact .inl ⟨m, m1, m2.congr hsame.1 hsame.2⟩
  · refine .inr ⟨a, c, hac, ?_⟩
    rw [← hsame.2]; exact hl

/-- **C51 (entering).** When a core or broker handles a command of a dependency and then all its dependencies have asked to enter
executing mode, it is in executing mode, and every neighbour that depends on it has been told so. -/
theorem C51_enters (self : FedId) (core restrictive : Bool) (wiring : List Msg) (evs : List Event) (cmd : Msg)
    (hset : Settled wiring evs) (ha : attended core cmd = true ∨ aboutEntry cmd = true) :
    let w := life self core restrictive wiring evs
    let w' := life self core restrictive wiring (evs ++ [.cmd cmd])
    FromDependency w cmd → Ready w' →
    w'.entered = true ∧ ∀ d ∈ w'.deps, d.dependent = true → d.fedID ≠ invalidFed →
      ∃ m ∈ w'.sent, m.dest = d.fedID ∧ m.action = .execGrant ∧ m.iterationRequested = false := by
  intro w w' hd hready
  obtain ⟨hb, hk⟩ := life_inv (self := self) (core := core) (restrictive := restrictive) hset.1 _ evs rfl hset.2
  have hset' : ∀ m, Event.cmd m ∈ evs ++ [.cmd cmd] → wires m = false := by
    intro m hm
    simp only [List.mem_append, List.mem_singleton, Event.cmd.injEq] at hm
    rcases hm with hm | rfl
    · exact hset.2 m hm
    · exact not_wires ha
  obtain ⟨hb', hk'⟩ := life_inv (self := self) (core := core) (restrictive := restrictive) hset.1 _ _ rfl hset'
  have hent : w'.entered = true := by
    cases he : w.entered with
    | true => exact (show w'.entered = true by
        show (life _ _ _ _ _).entered = true
        rw [life_snoc]; exact (stays_handle _ (not_wires ha)).on he)
    | false =>
      have hp : (w.processTimeMessage cmd).2 ≠ .notProcessed := accepted hk.sorted hd ha
      have hcore : w.core = core := hb.core
      have hop : w.operating = true := hb.operating
      have hw' : ∃ o, w' = (w.processTimeMessage cmd).1.tryEnter o := by
        show ∃ o, life _ _ _ _ _ = _
        rw [life_snoc]
        show ∃ o, w.handle cmd = _
        have hent' : (w.processTimeMessage cmd).1.entered = false := (keeps_processTimeMessage w cmd).entered.trans he
        unfold handle
        unfold attended aboutEntry at ha
        cases hc : core with
        | true =>
          rw [if_pos (hcore.trans hc)]
          rw [hc] at ha
          unfold handleCore
          dsimp only
          rw [he, hent']
          cases hx : cmd.action <;> rw [hx] at ha <;> simp at ha <;> simp
          all_goals first | exact ⟨true, rfl⟩ | exact ⟨false, rfl⟩
        | false =>
          rw [if_neg (by rw [hcore, hc]; decide)]
          rw [hc] at ha
          unfold handleBroker
          dsimp only
          rw [he, hop]
          cases hx : cmd.action <;> rw [hx] at ha <;> simp at ha <;> simp [hp]
          all_goals first | exact ⟨true, rfl⟩ | exact ⟨false, rfl⟩
      obtain ⟨o, hw'⟩ := hw'
      rw [hw'] at hready ⊢
      have hr : (w.processTimeMessage cmd).1.deps.readyForExecEntry false false = true := by
        unfold Ready at hready
        rw [tryEnter_deps] at hready
        unfold readyForExecEntry
        simp only [Bool.false_eq_true, if_false, List.all_eq_true]
        intro d hd
        have := hready d hd
        cases hdep : d.dependency
        · simp
        · rcases this hdep with h | h
          · revert h; cases d.state <;> simp [TimeState.rank]
          · simp [h, TimeState.rank]
      unfold tryEnter checkExecEntry
      have hm : (w.processTimeMessage cmd).1.mayEnter = true := by unfold mayEnter; rw [hr]; rfl
      rw [if_pos hm]
      rfl
  refine ⟨hent, ?_⟩
  intro d hm h1 h2
  have hu : UpDep d ∨ DownDep d := by
    by_cases hc : d.connection = .child
    · exact .inr ⟨h1, hc, h2⟩
    · exact .inl ⟨h1, hc⟩
  obtain ⟨m, m1, m2, m3⟩ := hk'.grants (show w'.executionMode = true by rw [← show w'.entered = w'.executionMode from hb'.mode]; exact hent) d hm hu
  exact ⟨m, m1, m2, m3⟩

/-- **C51 (asking).** Before that, when it handles a request to enter executing mode, every neighbour that depends on it and is
not its child has been told the combined state of everything below. -/
theorem C51_asks (self : FedId) (core restrictive : Bool) (wiring : List Msg) (evs : List Event) (cmd : Msg)
    (hset : Settled wiring evs) (ha : aboutEntry cmd = true) :
    let w := life self core restrictive wiring evs
    let w' := life self core restrictive wiring (evs ++ [.cmd cmd])
    FromDependency w cmd → w'.entered = false →
    ∃ code, (w'.viewUp code).state ≠ .initialized → (w'.viewUp code).state ≠ .error →
      ∀ d ∈ w'.deps, d.dependent = true → d.connection ≠ .child → ∃ m ∈ w'.sent, m.dest = d.fedID ∧ Says m (w'.viewUp code) := by
  intro w w' hd hent
  obtain ⟨hb, hk⟩ := life_inv (self := self) (core := core) (restrictive := restrictive) hset.1 _ evs rfl hset.2
  have hset' : ∀ m, Event.cmd m ∈ evs ++ [.cmd cmd] → wires m = false := by
    intro m hm
    simp only [List.mem_append, List.mem_singleton, Event.cmd.injEq] at hm
    rcases hm with hm | rfl
    · exact hset.2 m hm
    · exact not_wires (c := true) (.inr ha)
  obtain ⟨hb', hk'⟩ := life_inv (self := self) (core := core) (restrictive := restrictive) hset.1 _ _ rfl hset'
  have he : w.entered = false := by
    cases hh : w.entered with
    | false => rfl
    | true =>
      have : w'.entered = true := by
        show (life _ _ _ _ _).entered = true
        rw [life_snoc]; exact (stays_handle _ (not_wires (c := true) (.inr ha))).on hh
      rw [this] at hent; cases hent
  have hp : (w.processTimeMessage cmd).2 ≠ .notProcessed := accepted (c := core) hk.sorted hd (.inr ha)
  have hop : w.operating = true := hb.operating
  have hx := keeps_processTimeMessage w cmd
  have hw' : w' = (w.processTimeMessage cmd).1.tryEnter true := by
    show life _ _ _ _ _ = _
    rw [life_snoc]
    show w.handle cmd = _
    unfold handle
    unfold aboutEntry at ha
    split
    · unfold handleCore
      dsimp only
      cases hc : cmd.action <;> rw [hc] at ha <;> simp at ha <;> simp [hx.entered, he]
    · unfold handleBroker
      dsimp only
      rw [he, hop]
      cases hc : cmd.action <;> rw [hc] at ha <;> simp at ha <;> simp [hp]
  generalize hbdef : (w.processTimeMessage cmd).1 = b at hw' hx
  have hw2 : w' = b.updateTimeFactors := by
    rw [hw']
    unfold tryEnter checkExecEntry
    by_cases hm : b.mayEnter = true
    · exfalso
      rw [hw'] at hent
      unfold tryEnter checkExecEntry at hent
      rw [if_pos hm] at hent
      dsimp only at hent
      rw [if_pos rfl] at hent
      cases hent
    · rw [if_neg hm]
      rfl
  have hu := keeps_updateTimeFactors b
  have hv : b.aggUp = w'.viewUp b.seq := aggUp_eq (by rw [hw2]; exact (same_updateTimeFactors b).2) (by rw [hw2]; exact hu.restrictive) (by rw [hw2]; exact hu.who)
  refine ⟨b.seq, ?_⟩
  intro hn1 hn2 d hm h1 h2
  have hsame : Same w'.upstream (w'.viewUp b.seq) := by
    rw [← hv]
    rcases refresh_up b with ⟨g, _⟩ | ⟨_, _, g, _⟩
    · rw [hw2, (updateTimeFactors_up b).1, g]; exact update_same _ _
    · exfalso
      have : b.executionMode = false := by
        rw [hx.exec, ← show w.entered = w.executionMode from hb.mode]; exact he
      rw [this] at g; cases g
  have hloud : Loud w'.upstream := by
    unfold Loud; rw [hsame.state]; exact ⟨hn1, hn2⟩
  obtain ⟨m, m1, m2, m3⟩ := hk'.ever hloud d hm ⟨h1, h2⟩
  exact ⟨m, m1, m2, m3.congr hsame⟩

/-- **C51 (numbers).** If all dependencies other than the parent are in executing mode, the view towards the parent is the true
minimum: the event time is the least event time of the dependencies that count, the next time (under the restrictive
policy) their least next time. -/
theorem C51_true_minimum (w : Fwd) (code : Int)
    (hexec : ∀ d ∈ w.deps, MinTime.Member .upstream w.self invalidFed d → MinTime.Executing d) :
    ∃ members : List DepInfo, (∀ d, d ∈ members ↔ d ∈ w.deps ∧ MinTime.Member .upstream w.self invalidFed d) ∧
      MinTime.LeastOf (w.viewUp code).Te (maxVal :: members.map (·.Te)) ∧
      (w.restrictive = true → MinTime.LeastOf (w.viewUp code).next (maxVal :: members.map (·.next))) := by
  obtain ⟨ms, h1, h2, h3, _⟩ := MinTime.C13_true_minimum .upstream w.deps w.restrictive w.self invalidFed code hexec
  exact ⟨ms, h1, h2, h3⟩

end Fwd
end Verif
