import Verif.Lemmas.Inform
/-! The neighbours stay informed whatever happens (C51). -/
namespace Verif
namespace Fwd
open Deps

variable {W : FedId → Time → Prop}

theorem Kept.wait {w : Fwd} (h : Kept W w) (b : Fwd) : Kept (Wait W b) w := h.mono (fun _ _ => .inl)

theorem half_kept {w : Fwd} (h : Half W false w) : Kept W w := ⟨h.sorted, h.granted, h.grants, h.ever, h.last, h.below rfl⟩

theorem kept_updateTimeFactors {w : Fwd} (h : Kept W w) : Kept (Wait W w) w.updateTimeFactors := by
  have hh := half_up h
  unfold updateTimeFactors
  dsimp only
  have hdeps : w.refresh.1.deps = w.deps := rfl
  generalize w.refresh = r at hh hdeps
  obtain ⟨v, u, d⟩ := r
  dsimp only at hh ⊢
  have hd' : (if (u || d) = true then v.tellUp else v).deps = w.deps := by
    rw [← hdeps]
    split
    · exact (same_tell v).1.2
    · rfl
  generalize (if (u || d) = true then v.tellUp else v) = b at hh hd'
  cases d with
  | true =>
    rw [if_pos rfl]
    refine (kept_down hh).mono ?_
    intro x t hw
    rcases hw with hw | ⟨d, h1, h2⟩
    · exact .inl hw
    · exact .inr ⟨d, hd' ▸ h1, h2⟩
  | false =>
    rw [if_neg (by simp)]
    have hk := half_kept hh
    split
    · rename_i hc
      have hdel : b.hasDelayed = true := by simp only [Bool.and_eq_true] at hc; exact hc.1.1
      unfold sendExcluding send
      obtain ⟨a1, a2, a3, a4, a5⟩ := hh.app [.single (b.request (b.excluding w.aggDown.minFed) w.aggDown.minFed (b.excluding w.aggDown.minFed).responseSequenceCounter)]
        (by intro _ e; rw [hdel] at e; cases e)
      exact ⟨a1, a2, a3, a4, a5, by intro _ e; exact absurd (hdel.symm.trans e) (by decide)⟩
    · exact hk.wait w

theorem kept_quiet {a b : Fwd} (h : Kept W a) (h0 : b.deps = a.deps) (h1 : b.executionMode = a.executionMode) (h2 : b.upstream = a.upstream)
    (h3 : b.downstream = a.downstream) (h4 : b.hasDelayed = false → a.hasDelayed = false) {l : List Packet} (h5 : b.out = a.out ++ l)
    (h6 : ∀ p ∈ l, ∀ m ∈ p.parts, announces m = false) : Kept W b :=
  h.of (h0 ▸ h.sorted) (h0 ▸ Fewer.refl _) h1 h2 h3 h4 h5 h6

theorem kept_checkIssues {w : Fwd} (h : Kept W w) : Kept W w.checkIssues := by
  unfold checkIssues
  dsimp only
  have hd : (w.hasDelayed || w.deps.any Deps.delayedMutual) = false → w.hasDelayed = false := by
    intro e; simp only [Bool.or_eq_false_iff] at e; exact e.1
  split
  · exact kept_quiet h rfl rfl rfl rfl hd rfl (by simp [Packet.parts, announces])
  · exact kept_quiet h rfl rfl rfl rfl hd (l := []) (by simp) (by simp)

theorem kept_processBase {w : Fwd} (h : Kept W w) (cmd : Msg) : Kept W (w.processBase cmd).1 := by
  unfold processBase
  dsimp only
  have key : ∀ a : Fwd, Kept W a → Kept W (if (a.deps.updateTime cmd).2 = .processedAndCheck then
      ({ a with deps := (a.deps.updateTime cmd).1 } : Fwd).checkIssues else { a with deps := (a.deps.updateTime cmd).1 }) := by
    intro a ha
    have : Kept W ({ a with deps := (a.deps.updateTime cmd).1 } : Fwd) :=
      ha.of (Sorted.updateTime ha.sorted cmd) (fewer_updateTime ha.sorted cmd) rfl rfl rfl id (l := []) (by simp) (by simp)
    split
    · exact kept_checkIssues this
    · exact this
  apply key
  have h' : Kept W ({ w with deps := w.deps.removeDependent cmd.source } : Fwd) :=
    h.of (Sorted.removeDependent h.sorted _) (fewer_removeDependent h.sorted _) rfl rfl rfl id (l := []) (by simp) (by simp)
  split <;> first | exact h' | exact h

theorem kept_processTimeMessage {w : Fwd} (h : Kept W w) (cmd : Msg) : Kept W (w.processTimeMessage cmd).1 := by
  have := kept_processBase h cmd
  unfold processTimeMessage
  dsimp only
  split
  · exact kept_quiet this rfl rfl rfl rfl id (l := []) (by simp) (by simp)
  · exact this

/-- the state after entering executing mode -/
theorem kept_enter {w : Fwd} (h : Kept W w) (hm : w.mayEnter = true) : Kept W w.checkExecEntry.1 := by
  unfold checkExecEntry
  rw [if_pos hm]
  dsimp only
  unfold transmitUp transmitDown
  dsimp only
  generalize hmsg : ({ action := .execGrant, source := w.self } : Msg) = m
  have hann : announces m = true ∧ Entry m ∧ ¬ (m.action = .timeRequest ∨ m.action = .timeGrant) := by
    subst hmsg; exact ⟨rfl, ⟨rfl, rfl⟩, by simp⟩
  rw [List.append_assoc]
  generalize hl : downCopies w.deps m invalidFed ++ upCopies w.deps m = l
  have hall : ∀ x ∈ l.flatMap Packet.parts, announces x = true ∧ Entry x := by
    intro x hx
    rw [← hl, List.flatMap_append, List.mem_append] at hx
    have : ∃ e i, x = { m with dest := e, extraDestData := i } := by
      rcases hx with hx | hx
      · exact (downCopies_inv hx).2
      · exact (upCopies_inv hx).2
    obtain ⟨e, i, rfl⟩ := this
    exact ⟨hann.1, hann.2.1⟩
  have hgets : ∀ d ∈ w.deps, UpDep d ∨ DownDep d → ∃ x ∈ l.flatMap Packet.parts, x.dest = d.fedID := by
    intro d hd hu
    rw [← hl, List.flatMap_append]
    rcases hu with hu | hu
    · obtain ⟨x, x1, x2, _⟩ := mem_upCopies (m := m) hd hu
      exact ⟨x, List.mem_append_right _ x1, x2⟩
    · obtain ⟨x, x1, x2, _⟩ := mem_downCopies_other hd hu.1 hu.2.2 hann.2.2
      exact ⟨x, List.mem_append_left _ x1, x2⟩
  have hlast : ∀ d ∈ w.deps, UpDep d ∨ DownDep d → ∃ x, lastOf (w.sent ++ l.flatMap Packet.parts) d.fedID = some x ∧ Entry x := by
    intro d hd hu
    obtain ⟨x, x1, x2⟩ := hgets d hd hu
    exact lastOf_append_some ⟨x, x1, (hall x x1).1, x2⟩ (fun y hy _ _ => (hall y hy).2)
  refine ⟨h.sorted, fun _ => Nat.le_refl _, ?_, ?_, ?_, ?_⟩
  · intro _ d hd hu
    obtain ⟨x, x1, x2⟩ := hgets d hd hu
    refine ⟨x, ?_, x2, (hall x x1).2⟩
    simp only [sent, List.flatMap_append] at x1 ⊢
    exact List.mem_append_right _ x1
  · intro hl' d hd hu
    obtain ⟨x, x1, x2⟩ := h.ever hl' d hd hu
    refine ⟨x, ?_, x2⟩
    simp only [sent, List.flatMap_append] at x1 ⊢
    exact List.mem_append_left _ x1
  · intro _ _ hl' d hd hu
    obtain ⟨x, x1, x2⟩ := hlast d hd (.inl hu)
    obtain ⟨y, y1, y2⟩ := h.ever hl' d hd hu
    refine ⟨x, ?_, .inr ⟨x2, y, ?_, y2⟩⟩
    · simp only [lastTold, sent, List.flatMap_append]; exact x1
    · simp only [sent, List.flatMap_append] at y1 ⊢
      exact List.mem_append_left _ y1
  · intro _ _ _ d hd hu
    obtain ⟨x, x1, x2⟩ := hlast d hd (.inr hu)
    refine .inl ⟨x, ?_, .inr ⟨x2.1, x2.2, rfl⟩⟩
    simp only [lastTold, sent, List.flatMap_append]; exact x1

theorem kept_checkExecEntry {w : Fwd} (h : Kept W w) : Kept W w.checkExecEntry.1 := by
  by_cases hm : w.mayEnter = true
  · exact kept_enter h hm
  · unfold checkExecEntry; rw [if_neg hm]; exact h

theorem kept_tryEnter {w : Fwd} (h : Kept W w) (o : Bool) : Kept (Wait W w) (w.tryEnter o) := by
  have hc := kept_checkExecEntry h
  unfold tryEnter
  dsimp only
  split
  · refine Kept.wait ?_ w
    exact kept_quiet hc rfl rfl rfl rfl id (l := []) (by simp) (by simp)
  · rename_i hn
    have he : w.checkExecEntry.1 = w := by
      unfold checkExecEntry at hn ⊢
      split
      · rename_i hm; rw [if_pos hm] at hn; exact absurd rfl hn
      · rfl
    split
    · rw [he]; exact kept_updateTimeFactors h
    · exact hc.wait w

theorem kept_sendTimingInfo {w : Fwd} (h : Kept W w) : Kept W w.sendTimingInfo := by
  unfold sendTimingInfo
  refine kept_quiet h rfl rfl rfl rfl id rfl ?_
  intro p hp m hm
  obtain ⟨d, hd, e⟩ := List.mem_filterMap.mp hp
  split at e
  · cases e
    simp only [Packet.parts, List.mem_singleton] at hm
    subst hm; rfl
  · cases e

theorem kept_enteringExecMode {w : Fwd} (h : Kept W w) : Kept (Wait W w) w.enteringExecMode := by
  unfold enteringExecMode
  split
  · exact h.wait w
  · dsimp only
    have h1 : Kept W ({ w with checkingExec := true } : Fwd) := kept_quiet h rfl rfl rfl rfl id (l := []) (by simp) (by simp)
    have h2 : Kept (Wait W w) (if w.deps = [] then { w with checkingExec := true } else ({ w with checkingExec := true } : Fwd).updateTimeFactors.checkIssues) := by
      split
      · exact h1.wait w
      · exact kept_checkIssues (kept_updateTimeFactors h1)
    generalize (if w.deps = [] then { w with checkingExec := true } else ({ w with checkingExec := true } : Fwd).updateTimeFactors.checkIssues) = b at h2
    split
    · exact h2
    · exact kept_sendTimingInfo (kept_quiet h2 rfl rfl rfl rfl id (l := []) (by simp) (by simp))

theorem kept_disconnect {w : Fwd} (h : Kept W w) : Kept W w.disconnect := by
  have hbye : ∀ (a : Fwd) (x : FedId), Kept W a → Kept W (a.send { action := .disconnect, source := w.self, dest := x }) :=
    fun a x ha => kept_quiet ha rfl rfl rfl rfl id rfl (by simp [Packet.parts, announces])
  have hend : ∀ a : Fwd, Kept W a → Kept W ({ a with disconnected := true } : Fwd) :=
    fun a ha => kept_quiet ha rfl rfl rfl rfl id (l := []) (by simp) (by simp)
  unfold disconnect
  split
  · exact h
  · dsimp only
    split
    · exact hend _ h
    · apply hend
      split
      · split
        · exact kept_processTimeMessage h _
        · exact hbye _ _ h
      · exact h
    · have h2 : ∀ b : Bool, Kept W (if b = true then (w.processTimeMessage { action := .disconnect, source := w.self, dest := w.self }).1 else w) := by
        intro b; split
        · exact kept_processTimeMessage h _
        · exact h
      have h3 : ∀ (a : Fwd) (ms : List Msg), Kept W a → (∀ m ∈ ms, announces m = false) →
          Kept W ({ a with out := a.out ++ [.multi ms], disconnected := true } : Fwd) := by
        intro a ms ha hms
        exact kept_quiet ha rfl rfl rfl rfl id rfl (by simpa [Packet.parts] using hms)
      refine h3 _ _ (h2 _) ?_
      intro m hm
      simp only [TC.appendAll] at hm
      obtain ⟨d, _, rfl⟩ := List.mem_map.mp (List.mem_of_mem_take hm)
      rfl

theorem kept_dependencyUpdate {w : Fwd} (h : Kept W w) {cmd : Msg} (hr : wires cmd = false) : Kept W (w.processDependencyUpdate cmd) := by
  have ht : Kept W ({ w with deps := (w.deps.updateTime cmd).1 } : Fwd) :=
    h.of (Sorted.updateTime h.sorted cmd) (fewer_updateTime h.sorted cmd) rfl rfl rfl id (l := []) (by simp) (by simp)
  unfold processDependencyUpdate changeDeps
  unfold wires at hr
  cases hc : cmd.action <;> rw [hc] at hr <;> first | (cases hr; done) | skip
  all_goals dsimp only
  all_goals first
    | exact ht
    | exact h

theorem Kept.here {a b : Fwd} (h : Kept (Wait W a) b) (e : b.deps = a.deps) : Kept (Wait W b) b :=
  h.mono (fun _ _ hw => hw.imp id (fun ⟨d, h1, h2⟩ => ⟨d, e ▸ h1, h2⟩))

theorem tryEnter_deps (w : Fwd) (o : Bool) : (w.tryEnter o).deps = w.deps := by
  have h : w.checkExecEntry.1.deps = w.deps := by
    unfold checkExecEntry transmitDown transmitUp
    split <;> rfl
  unfold tryEnter
  dsimp only
  split
  · exact h
  · split
    · rw [(same_updateTimeFactors _).2]; exact h
    · exact h

theorem kept_handle {w : Fwd} (h : Kept W w) {cmd : Msg} (hr : wires cmd = false) :
    Kept (Wait W (w.handle cmd)) (w.handle cmd) := by
  have h1 := kept_processTimeMessage h cmd
  have h2 := (kept_dependencyUpdate h hr).wait (w.processDependencyUpdate cmd)
  have h3 := (kept_updateTimeFactors h1).here (same_updateTimeFactors _).2
  have h4 := fun o => (kept_tryEnter h1 o).here (tryEnter_deps _ o)
  have h5 := h.wait w
  have h6 := h1.wait (w.processTimeMessage cmd).1
  unfold handle
  split
  · unfold wires at hr
    unfold handleCore
    dsimp only
    cases hc : cmd.action <;> rw [hc] at hr <;> first | (cases hr; done) | skip
    all_goals dsimp only
    all_goals repeat' split
    all_goals first | exact h5 | exact h6 | exact h4 _ | exact h3
  · unfold wires at hr
    unfold handleBroker
    dsimp only
    cases hc : cmd.action <;> rw [hc] at hr <;> first | (cases hr; done) | skip
    all_goals dsimp only
    all_goals repeat' split
    all_goals first | exact h5 | exact h6 | exact h4 _ | exact h3 | exact h2

theorem Kept.any {V : FedId → Time → Prop} {w : Fwd} (h : Kept W w) (he : w.executionMode = false) : Kept V w :=
  ⟨h.sorted, h.granted, h.grants, h.ever, h.last, fun e => absurd (he.symm.trans e) (by decide)⟩

/-- what the time coordination does not change -/
structure Keeps (a b : Fwd) : Prop where
  who : b.self = a.self
  core : b.core = a.core
  restrictive : b.restrictive = a.restrictive
  operating : b.operating = a.operating
  noParent : b.noParent = a.noParent
  entered : b.entered = a.entered
  exec : b.executionMode = a.executionMode
  delayed : b.hasDelayed = false → a.hasDelayed = false

theorem Keeps.refl (a : Fwd) : Keeps a a := ⟨rfl, rfl, rfl, rfl, rfl, rfl, rfl, id⟩
theorem Keeps.trans {a b c : Fwd} (h : Keeps a b) (k : Keeps b c) : Keeps a c :=
  ⟨k.who.trans h.who, k.core.trans h.core, k.restrictive.trans h.restrictive, k.operating.trans h.operating, k.noParent.trans h.noParent,
   k.entered.trans h.entered, k.exec.trans h.exec, fun e => h.delayed (k.delayed e)⟩

theorem keeps_tell (a : Fwd) : Keeps a a.tellUp ∧ Keeps a a.tellDown := by
  unfold tellUp tellDown sendExcluding transmitUp transmitDown send
  dsimp only
  refine ⟨?_, ?_⟩
  · split <;> exact ⟨rfl, rfl, rfl, rfl, rfl, rfl, rfl, id⟩
  · split
    · split <;> exact ⟨rfl, rfl, rfl, rfl, rfl, rfl, rfl, id⟩
    · split <;> exact ⟨rfl, rfl, rfl, rfl, rfl, rfl, rfl, id⟩

theorem keeps_updateTimeFactors (a : Fwd) : Keeps a a.updateTimeFactors := by
  unfold updateTimeFactors
  dsimp only
  have h0 : Keeps a a.refresh.1 := ⟨rfl, rfl, rfl, rfl, rfl, rfl, rfl, id⟩
  generalize a.refresh = r at h0
  obtain ⟨w, u, d⟩ := r
  dsimp only at h0 ⊢
  have h1 : Keeps a (if (u || d) = true then w.tellUp else w) := by
    split
    · exact h0.trans (keeps_tell w).1
    · exact h0
  generalize (if (u || d) = true then w.tellUp else w) = v at h1
  split
  · exact h1.trans (keeps_tell v).2
  · split
    · exact h1.trans ⟨rfl, rfl, rfl, rfl, rfl, rfl, rfl, id⟩
    · exact h1

theorem keeps_checkIssues (w : Fwd) : Keeps w w.checkIssues := by
  unfold checkIssues
  dsimp only
  have hd : (w.hasDelayed || w.deps.any Deps.delayedMutual) = false → w.hasDelayed = false := by
    intro e; simp only [Bool.or_eq_false_iff] at e; exact e.1
  split <;> exact ⟨rfl, rfl, rfl, rfl, rfl, rfl, rfl, hd⟩

theorem keeps_processTimeMessage (w : Fwd) (cmd : Msg) : Keeps w (w.processTimeMessage cmd).1 := by
  have h : Keeps w (w.processBase cmd).1 := by
    unfold processBase
    dsimp only
    have key : ∀ a : Fwd, Keeps w a → Keeps w (if (a.deps.updateTime cmd).2 = .processedAndCheck then
        ({ a with deps := (a.deps.updateTime cmd).1 } : Fwd).checkIssues else { a with deps := (a.deps.updateTime cmd).1 }) := by
      intro a ha
      have : Keeps w ({ a with deps := (a.deps.updateTime cmd).1 } : Fwd) := ha.trans ⟨rfl, rfl, rfl, rfl, rfl, rfl, rfl, id⟩
      split
      · exact this.trans (keeps_checkIssues _)
      · exact this
    apply key
    split <;> exact ⟨rfl, rfl, rfl, rfl, rfl, rfl, rfl, id⟩
  unfold processTimeMessage
  dsimp only
  split
  · exact h.trans ⟨rfl, rfl, rfl, rfl, rfl, rfl, rfl, id⟩
  · exact h

theorem keeps_disconnect (w : Fwd) : Keeps w w.disconnect := by
  unfold disconnect
  split
  · exact .refl _
  · dsimp only
    split
    · exact ⟨rfl, rfl, rfl, rfl, rfl, rfl, rfl, id⟩
    · have key : ∀ a : Fwd, Keeps w a → Keeps w ({ a with disconnected := true } : Fwd) :=
        fun a ha => ha.trans ⟨rfl, rfl, rfl, rfl, rfl, rfl, rfl, id⟩
      apply key
      split
      · split
        · exact keeps_processTimeMessage _ _
        · exact ⟨rfl, rfl, rfl, rfl, rfl, rfl, rfl, id⟩
      · exact .refl _
    · have key : ∀ (a : Fwd) (l : List Packet), Keeps w a → Keeps w ({ a with out := a.out ++ l, disconnected := true } : Fwd) :=
        fun a l ha => ha.trans ⟨rfl, rfl, rfl, rfl, rfl, rfl, rfl, id⟩
      apply key
      split
      · exact keeps_processTimeMessage _ _
      · exact .refl _

theorem keeps_dependencyUpdate (w : Fwd) {cmd : Msg} (hr : wires cmd = false) : Keeps w (w.processDependencyUpdate cmd) := by
  unfold processDependencyUpdate changeDeps
  unfold wires at hr
  cases hc : cmd.action <;> rw [hc] at hr <;> first | (cases hr; done) | skip
  all_goals dsimp only
  all_goals exact ⟨rfl, rfl, rfl, rfl, rfl, rfl, rfl, id⟩

/-- the coordinator after `init`, in relation to the state `a` at some time after its initialization -/
structure Stays (a b : Fwd) : Prop where
  who : b.self = a.self
  core : b.core = a.core
  restrictive : b.restrictive = a.restrictive
  operating : b.operating = a.operating
  noParent : b.noParent = a.noParent
  mode : a.entered = a.executionMode → b.entered = b.executionMode
  on : a.entered = true → b.entered = true
  delayed : b.hasDelayed = false → a.hasDelayed = false

theorem Keeps.stays {a b : Fwd} (h : Keeps a b) : Stays a b :=
  ⟨h.who, h.core, h.restrictive, h.operating, h.noParent, fun e => by rw [h.entered, h.exec]; exact e, fun e => h.entered.trans e, h.delayed⟩

theorem Stays.trans {a b c : Fwd} (h : Stays a b) (k : Stays b c) : Stays a c :=
  ⟨k.who.trans h.who, k.core.trans h.core, k.restrictive.trans h.restrictive, k.operating.trans h.operating, k.noParent.trans h.noParent,
   fun e => k.mode (h.mode e), fun e => k.on (h.on e), fun e => h.delayed (k.delayed e)⟩

theorem stays_tryEnter (w : Fwd) (o : Bool) : Stays w (w.tryEnter o) := by
  unfold tryEnter checkExecEntry
  dsimp only
  by_cases hm : w.mayEnter = true
  · rw [if_pos hm]
    dsimp only
    rw [if_pos rfl]
    exact ⟨rfl, rfl, rfl, rfl, rfl, fun _ => rfl, fun _ => rfl, id⟩
  · rw [if_neg hm]
    dsimp only
    rw [if_neg (by decide)]
    split
    · exact (keeps_updateTimeFactors w).stays
    · exact (Keeps.refl w).stays

theorem stays_handle (w : Fwd) {cmd : Msg} (hr : wires cmd = false) : Stays w (w.handle cmd) := by
  have h1 := (keeps_processTimeMessage w cmd).stays
  have h2 := (keeps_dependencyUpdate w hr).stays
  have h3 := h1.trans (keeps_updateTimeFactors _).stays
  have h4 := fun o => h1.trans (stays_tryEnter (w.processTimeMessage cmd).1 o)
  have h5 := (Keeps.refl w).stays
  unfold handle
  split
  · unfold wires at hr
    unfold handleCore
    dsimp only
    cases hc : cmd.action <;> rw [hc] at hr <;> first | (cases hr; done) | skip
    all_goals dsimp only
    all_goals repeat' split
    all_goals first | exact h5 | exact h1 | exact h4 _ | exact h3
  · unfold wires at hr
    unfold handleBroker
    dsimp only
    cases hc : cmd.action <;> rw [hc] at hr <;> first | (cases hr; done) | skip
    all_goals dsimp only
    all_goals repeat' split
    all_goals first | exact h5 | exact h1 | exact h4 _ | exact h3 | exact h2

/-- a coordinator that only knows its dependencies -/
structure New (me : FedId) (core restrictive : Bool) (w : Fwd) : Prop where
  sorted : Sorted w.deps
  exec : w.executionMode = false
  entered : w.entered = false
  up : w.upstream = {}
  who : w.self = me
  core : w.core = core
  restrictive : w.restrictive = restrictive

theorem New.kept {self : FedId} {core restrictive : Bool} {w : Fwd} (h : New self core restrictive w) : Kept W w := by
  refine ⟨h.sorted, ?_, ?_, ?_, ?_, ?_⟩
  · intro e; rw [h.exec] at e; cases e
  · intro e; rw [h.exec] at e; cases e
  · intro e; rw [h.up] at e; exact absurd rfl e.1
  · intro e; rw [h.exec] at e; cases e
  · intro e; rw [h.exec] at e; cases e

theorem new_deps {self : FedId} {core restrictive : Bool} {w : Fwd} (h : New self core restrictive w) (ds : Deps) (hs : Sorted ds) (n : Bool) :
    New self core restrictive { w with deps := ds, noParent := n } := ⟨hs, h.exec, h.entered, h.up, h.who, h.core, h.restrictive⟩

theorem new_wires {self : FedId} {core restrictive : Bool} {w : Fwd} (h : New self core restrictive w) {cmd : Msg} (hc : wires cmd = true) :
    New self core restrictive (w.handle cmd) := by
  have hx : w.handle cmd = w.processDependencyUpdate cmd := by
    unfold wires at hc
    unfold handle handleCore handleBroker
    cases ha : cmd.action <;> rw [ha] at hc <;> first | (cases hc; done) | (split <;> rfl)
  rw [hx]
  have hadd : ∀ g, New self core restrictive (w.addDependency g).1 := by
    intro g
    unfold addDependency
    dsimp only
    refine new_deps h _ ?_ w.noParent
    split
    · exact Sorted.modify (Sorted.addDependency h.sorted g) _ _ (fun _ => rfl)
    · exact Sorted.addDependency h.sorted g
  have hchange : New self core restrictive (w.changeDeps cmd).1 := by
    unfold changeDeps
    split
    · exact hadd _
    · exact new_deps h _ (Sorted.removeDependency h.sorted _) w.noParent
    · exact new_deps h _ (Sorted.addDependent h.sorted _) w.noParent
    · exact new_deps h _ (Sorted.removeDependent h.sorted _) w.noParent
    · exact new_deps (hadd _) _ (Sorted.addDependent (hadd _).sorted _) (w.addDependency cmd.source).1.noParent
    · exact new_deps h _ (Sorted.removeDependent (Sorted.removeDependency h.sorted _) _) w.noParent
    · exact new_deps h _ (Sorted.updateTime h.sorted _) w.noParent
    · exact h
  unfold processDependencyUpdate
  dsimp only
  split
  · unfold relate
    dsimp only
    have h1 : New self core restrictive (if cmd.child = true then (w.changeDeps cmd).1.setAsChild cmd.source else (w.changeDeps cmd).1) := by
      split
      · unfold setAsChild
        split
        · exact hchange
        · refine new_deps hchange _ ?_ (w.changeDeps cmd).1.noParent
          exact Sorted.modify hchange.sorted _ _ (fun _ => rfl)
      · exact hchange
    generalize (if cmd.child = true then (w.changeDeps cmd).1.setAsChild cmd.source else (w.changeDeps cmd).1) = b at h1
    have h2 : New self core restrictive (if cmd.parent = true then b.setAsParent cmd.source else b) := by
      split
      · unfold setAsParent
        split
        · exact h1
        · split
          · exact h1
          · refine new_deps h1 _ ?_ false
            exact Sorted.modify h1.sorted _ _ (fun _ => rfl)
      · exact h1
    generalize (if cmd.parent = true then b.setAsParent cmd.source else b) = c at h2
    split
    · refine new_deps h2 _ ?_ c.noParent
      exact Sorted.modify h2.sorted _ _ (fun _ => rfl)
    · exact h2
  · exact hchange

theorem new_wired (self : FedId) (core restrictive : Bool) (wiring : List Msg) (h : ∀ m ∈ wiring, wires m = true) :
    New self core restrictive (wired self core restrictive wiring) := by
  have key : ∀ (l : List Msg) (w : Fwd), New self core restrictive w → (∀ m ∈ l, wires m = true) → New self core restrictive (l.foldl handle w) := by
    intro l
    induction l with
    | nil => intro w h _; exact h
    | cons m l ih => intro w h hl; exact ih _ (new_wires h (hl m (by simp))) (fun x hx => hl x (by simp [hx]))
  exact key wiring _ ⟨Sorted.nil, rfl, rfl, rfl, rfl, rfl, rfl⟩ h

theorem issues_any {ds : Deps} (h : ds.checkForIssues false = true) : ds.any Deps.delayedMutual = true := by
  have key : ∀ (l : Deps) (acc : Bool × Bool), (∀ d ∈ l, Deps.delayedMutual d = false) →
      (l.foldl (fun (acc : Bool × Bool) d => if acc.2 then acc else if Deps.delayedMutual d then (if acc.1 then (acc.1, true) else (true, false)) else acc) acc) = acc := by
    intro l
    induction l with
    | nil => intro _ _; rfl
    | cons d l ih =>
      intro acc hl
      rw [List.foldl_cons, hl d (by simp)]
      have : (if acc.2 = true then acc else if false = true then (if acc.1 = true then (acc.1, true) else (true, false)) else acc) = acc := by
        simp
      rw [this]
      exact ih _ (fun x hx => hl x (by simp [hx]))
  cases hb : ds.any Deps.delayedMutual with
  | true => rfl
  | false =>
    rw [List.any_eq_false] at hb
    unfold Deps.checkForIssues at h
    rw [key ds _ (fun d hd => by simpa using hb d hd)] at h
    cases h

/-- what is known once the federation is initialized -/
structure Begun (me : FedId) (core restrictive : Bool) (w0 w : Fwd) : Prop where
  who : w.self = me
  core : w.core = core
  restrictive : w.restrictive = restrictive
  operating : w.operating = true
  mode : w.entered = w.executionMode
  parent : w.hasDelayed = false → w.noParent = !w0.hasParent

theorem enteringExecMode_new {self : FedId} {core restrictive : Bool} {w : Fwd} (h : New self core restrictive w) :
    let b := ({ w with operating := true } : Fwd).enteringExecMode
    b.self = self ∧ b.core = core ∧ b.restrictive = restrictive ∧ b.operating = true ∧ b.entered = false ∧ b.executionMode = false ∧
    (b.hasDelayed = false → b.noParent = !w.hasParent) := by
  intro b
  have hb : b = ({ w with operating := true } : Fwd).enteringExecMode := rfl
  unfold enteringExecMode at hb
  rw [if_neg (by simp [h.exec])] at hb
  dsimp only at hb
  have h2 : Keeps ({ w with operating := true } : Fwd) (if w.deps = [] then ({ w with operating := true, checkingExec := true } : Fwd)
      else ({ w with operating := true, checkingExec := true } : Fwd).updateTimeFactors.checkIssues) ∧
      (if w.deps = [] then ({ w with operating := true, checkingExec := true } : Fwd)
      else ({ w with operating := true, checkingExec := true } : Fwd).updateTimeFactors.checkIssues).deps = w.deps ∧
      (w.deps ≠ [] → w.deps.checkForIssues false = true → (if w.deps = [] then ({ w with operating := true, checkingExec := true } : Fwd)
      else ({ w with operating := true, checkingExec := true } : Fwd).updateTimeFactors.checkIssues).hasDelayed = true) := by
    have hd := (same_updateTimeFactors ({ w with operating := true, checkingExec := true } : Fwd)).2
    split
    · rename_i hn
      exact ⟨⟨rfl, rfl, rfl, rfl, rfl, rfl, rfl, id⟩, rfl, fun e => absurd hn e⟩
    · refine ⟨?_, ?_, ?_⟩
      · exact (Keeps.trans (a := ({ w with operating := true } : Fwd)) (b := ({ w with operating := true, checkingExec := true } : Fwd)) ⟨rfl, rfl, rfl, rfl, rfl, rfl, rfl, id⟩
          (keeps_updateTimeFactors _)).trans (keeps_checkIssues _)
      · unfold checkIssues send
        dsimp only
        split <;> exact hd
      · intro _ hi
        unfold checkIssues send
        dsimp only
        have : (({ w with operating := true, checkingExec := true } : Fwd).updateTimeFactors.hasDelayed ||
            ({ w with operating := true, checkingExec := true } : Fwd).updateTimeFactors.deps.any Deps.delayedMutual) = true := by
          rw [hd, Bool.or_eq_true]
          exact .inr (issues_any hi)
        split <;> exact this
  generalize (if w.deps = [] then ({ w with operating := true, checkingExec := true } : Fwd)
      else ({ w with operating := true, checkingExec := true } : Fwd).updateTimeFactors.checkIssues) = c at h2 hb
  obtain ⟨k, hd, hi⟩ := h2
  have base : c.self = self ∧ c.core = core ∧ c.restrictive = restrictive ∧ c.operating = true ∧ c.entered = false ∧ c.executionMode = false :=
    ⟨k.who.trans h.who, k.core.trans h.core, k.restrictive.trans h.restrictive, k.operating, k.entered.trans h.entered, k.exec.trans h.exec⟩
  obtain ⟨a1, a2, a3, a4, a5, a6⟩ := base
  rw [hb]
  split
  · rename_i hc
    rw [hd] at hc
    refine ⟨a1, a2, a3, a4, a5, a6, ?_⟩
    intro e
    rw [hi hc.1 hc.2] at e; cases e
  · refine ⟨a1, a2, a3, a4, a5, a6, ?_⟩
    intro _
    unfold sendTimingInfo
    dsimp only
    rw [hd]; rfl

theorem begun_start {self : FedId} {core restrictive : Bool} {w : Fwd} (h : New self core restrictive w) :
    Begun self core restrictive w w.start ∧ Kept W w.start := by
  obtain ⟨a1, a2, a3, a4, a5, a6, a7⟩ := enteringExecMode_new h
  have hk0 : Kept W ({ w with operating := true } : Fwd).enteringExecMode :=
    (kept_enteringExecMode (W := W) (w := ({ w with operating := true } : Fwd))
      (New.kept (self := self) (core := core) (restrictive := restrictive) ⟨h.sorted, h.exec, h.entered, h.up, h.who, h.core, h.restrictive⟩)).any a6
  unfold start
  dsimp only
  generalize ({ w with operating := true } : Fwd).enteringExecMode = b at *
  have hk : Kept W (b.tryEnter false) := by
    have := kept_checkExecEntry hk0
    unfold tryEnter
    dsimp only
    split
    · exact kept_quiet this rfl rfl rfl rfl id (l := []) (by simp) (by simp)
    · rw [if_neg (by decide)]; exact this
  have hst := stays_tryEnter b false
  have hb : Begun self core restrictive w (b.tryEnter false) :=
    ⟨hst.who.trans a1, hst.core.trans a2, hst.restrictive.trans a3, hst.operating.trans a4, hst.mode (a5.trans a6.symm),
      fun e => hst.noParent.trans (a7 (hst.delayed e))⟩
  split
  · have k := keeps_disconnect (b.tryEnter false)
    exact ⟨⟨k.who.trans hb.who, k.core.trans hb.core, k.restrictive.trans hb.restrictive, k.operating.trans hb.operating,
      by rw [k.entered, k.exec]; exact hb.mode, fun e => k.noParent.trans (hb.parent (k.delayed e))⟩, kept_disconnect hk⟩
  · exact ⟨hb, hk⟩

theorem Begun.stays {self : FedId} {core restrictive : Bool} {w0 a b : Fwd} (h : Begun self core restrictive w0 a) (k : Stays a b) :
    Begun self core restrictive w0 b :=
  ⟨k.who.trans h.who, k.core.trans h.core, k.restrictive.trans h.restrictive, k.operating.trans h.operating, k.mode h.mode,
    fun e => k.noParent.trans (h.parent (k.delayed e))⟩

/-- `x` was waiting for a time later than `t` at some moment of the history -/
def Behind (self : FedId) (core restrictive : Bool) (wiring : List Msg) (evs : List Event) (x : FedId) (t : Time) : Prop :=
  ∃ a b, evs = a ++ b ∧ Later (life self core restrictive wiring a) x t

theorem life_snoc (self : FedId) (core restrictive : Bool) (wiring : List Msg) (evs : List Event) (e : Event) :
    life self core restrictive wiring (evs ++ [e]) = (life self core restrictive wiring evs).occur e := by
  simp [life, List.foldl_append]

theorem life_inv {self : FedId} {core restrictive : Bool} {wiring : List Msg} (hw : ∀ m ∈ wiring, wires m = true) :
    ∀ (n : Nat) (evs : List Event), evs.length = n → (∀ m, Event.cmd m ∈ evs → wires m = false) →
    Begun self core restrictive (wired self core restrictive wiring) (life self core restrictive wiring evs) ∧
    Kept (Behind self core restrictive wiring evs) (life self core restrictive wiring evs) := by
  intro n
  induction n with
  | zero =>
    intro evs hn _
    obtain rfl : evs = [] := List.length_eq_zero_iff.mp hn
    exact begun_start (new_wired self core restrictive wiring hw)
  | succ n ih =>
    intro evs hn he
    have hne : evs ≠ [] := by intro e; rw [e] at hn; cases hn
    obtain ⟨pre, e, rfl⟩ : ∃ pre e, evs = pre ++ [e] := ⟨evs.dropLast, evs.getLast hne, (List.dropLast_concat_getLast hne).symm⟩
    obtain ⟨h1, h2⟩ := ih pre (by simpa using hn) (fun m hm => he m (by simp [hm]))
    have hmono : ∀ x t, Behind self core restrictive wiring pre x t → Behind self core restrictive wiring (pre ++ [e]) x t := by
      rintro x t ⟨a, b, hab, hl⟩
      exact ⟨a, b ++ [e], by rw [hab, List.append_assoc], hl⟩
    rw [life_snoc]
    cases e with
    | cmd m =>
      have hr := he m (by simp)
      refine ⟨h1.stays (stays_handle _ hr), (kept_handle h2 hr).mono ?_⟩
      rintro x t (hx | hx)
      · exact hmono x t hx
      · exact ⟨pre ++ [.cmd m], [], by simp, by rw [life_snoc]; exact hx⟩
    | leave => exact ⟨h1.stays (keeps_disconnect _).stays, (kept_disconnect h2).mono hmono⟩

end Fwd
end Verif
