import Verif.Props.TreeEntrySpec
import Verif.Lemmas.Signed
/-! A federate whose user has not asked to enter executing mode and that has not left says nothing of importance. -/
namespace Verif
open TC

/-- a step of the coordinator that says nothing of importance -/
structure Mu (a b : TC) : Prop where
  mode : b.executionMode = a.executionMode
  disc : b.disconnected = a.disconnected
  last : b.lastSend = a.lastSend
  self : b.self = a.self
  out : ∃ l, b.out = a.out ++ l ∧ ∀ p ∈ l, ∀ m ∈ p.msgs, m.dest ≠ parentBroker → asked m = false

theorem Mu.refl (a : TC) : Mu a a := ⟨rfl, rfl, rfl, rfl, [], by simp, by simp⟩
theorem Mu.trans {a b c : TC} (h : Mu a b) (k : Mu b c) : Mu a c := by
  obtain ⟨l, h1, h2⟩ := h.out
  obtain ⟨l', k1, k2⟩ := k.out
  refine ⟨k.mode.trans h.mode, k.disc.trans h.disc, k.last.trans h.last, k.self.trans h.self, l ++ l', by rw [k1, h1, List.append_assoc], ?_⟩
  intro p hp m hm
  rcases List.mem_append.mp hp with hp | hp
  · exact h2 p hp m hm
  · exact k2 p hp m hm
theorem Mu.send (a : TC) (m : Msg) (h : m.dest ≠ parentBroker → asked m = false) : Mu a (a.send m) :=
  ⟨rfl, rfl, rfl, rfl, [.single m], rfl, by
    intro p hp x hx
    simp only [List.mem_singleton] at hp
    subst hp
    simp only [Packet.msgs, List.mem_singleton] at hx
    subst hx
    exact h⟩

theorem mu_updateDeps (a : TC) (cmd : Msg) : Mu a (a.updateDeps cmd).1 := by
  unfold updateDeps
  dsimp only
  have h0 : Mu a { a with deps := (a.deps.updateTime cmd).1 } := ⟨rfl, rfl, rfl, rfl, [], by simp, by simp⟩
  split
  · split
    · exact h0.trans (.send _ _ (fun h => absurd rfl h))
    · exact h0
  · exact h0

/-- what a federate may be told without saying anything of importance -/
def light (cmd : Msg) : Prop := cmd.action ≠ .forceTimeGrant

theorem mu_processTimeMessage (a : TC) (cmd : Msg) (h : cmd.action ≠ .forceTimeGrant) (hd : a.disconnected = false) (hl : a.lastSend.state = .initialized) :
    Mu a (a.processTimeMessage cmd).1 := by
  have blk : Mu a (a.processBlock cmd).1 := ⟨rfl, rfl, rfl, rfl, [], by simp [processBlock], by simp⟩
  unfold processTimeMessage
  cases hc : cmd.action <;> dsimp only <;> first
    | exact blk
    | exact absurd hc h
    | exact mu_updateDeps a cmd
    | exact Mu.trans (b := a.removeDependent cmd.source) ⟨rfl, rfl, rfl, rfl, [], by simp [TC.removeDependent], by simp⟩ (mu_updateDeps _ cmd)
    | skip
  rw [if_neg (by rw [hd, hl]; decide)]
  dsimp only
  have hr : asked (a.generateTimeRequest a.lastSend cmd.source cmd.counter) = false := by
    unfold generateTimeRequest
    rw [hl]
    dsimp only
    split
    · rfl
    · rfl
  have hr' : asked (if a.triggered then { a.generateTimeRequest a.lastSend cmd.source cmd.counter with destinationTarget := true }
      else a.generateTimeRequest a.lastSend cmd.source cmd.counter) = false := by
    split
    · exact hr
    · exact hr
  generalize (if a.triggered then { a.generateTimeRequest a.lastSend cmd.source cmd.counter with destinationTarget := true }
      else a.generateTimeRequest a.lastSend cmd.source cmd.counter) = r at hr' ⊢
  have h1 : Mu a (if (a.triggered && cmd.source == rootBroker) = true then { a with triggered := false } else a) := by
    split
    · exact ⟨rfl, rfl, rfl, rfl, [], by simp, by simp⟩
    · exact .refl _
  generalize (if (a.triggered && cmd.source == rootBroker) = true then { a with triggered := false } else a) = b at h1 ⊢
  have h2 := h1.trans (Mu.send b r (fun _ => hr'))
  exact ⟨h2.mode, h2.disc, h2.last, h2.self, h2.out⟩

theorem Mu.of {a b : TC} (h1 : b.executionMode = a.executionMode) (h2 : b.disconnected = a.disconnected) (h3 : b.lastSend = a.lastSend)
    (h4 : b.self = a.self) (h5 : b.out = a.out) : Mu a b := ⟨h1, h2, h3, h4, [], by simp [h5], by simp⟩

theorem mu_setConn (u : TC) (g : FedId) (c : Conn) : Mu u (u.setConn g c) := by
  unfold setConn
  split
  · exact .refl _
  · exact .of rfl rfl rfl rfl rfl

theorem mu_depTail (cmd : Msg) (r : TC × Bool) : Mu r.1 (depTail cmd r) := by
  unfold depTail
  split
  · have h2 : Mu r.1 (if cmd.child then r.1.setConn cmd.source .child else r.1) := by
      split
      · exact mu_setConn _ _ _
      · exact .refl _
    have h3 : ∀ u : TC, Mu u (if cmd.parent then u.setConn cmd.source .parent else u) := by
      intro u
      split
      · exact mu_setConn _ _ _
      · exact .refl _
    have h4 := h2.trans (h3 _)
    have h5 : ∀ u : TC, Mu u (if cmd.counter > 0 then
      { u with deps := u.deps.modify cmd.source (fun d => { d with timingVersion := toI8 cmd.counter }) } else u) := by
      intro u
      split
      · exact .of rfl rfl rfl rfl rfl
      · exact .refl _
    exact h4.trans (h5 _)
  · exact .refl _

theorem mu_processDependencyUpdate (a : TC) (cmd : Msg) : Mu a (a.processDependencyUpdate cmd) := by
  have hd : ∀ (u : TC) (b : Bool), Mu a u → Mu a (depTail cmd (u, b)) := fun u b h => h.trans (mu_depTail cmd (u, b))
  unfold processDependencyUpdate
  split
  all_goals exact hd _ _ (.of rfl rfl rfl rfl rfl)

namespace Fed

/-- the federate has not said anything of importance -/
structure Mum (f : Fed) : Prop where
  state : f.state ≠ .executing
  mode : f.state = .initializing → f.mode = true
  exec : f.tc.executionMode = false
  disc : f.tc.disconnected = false
  last : f.tc.lastSend.state = .initialized
  out : ∀ p ∈ f.tc.out, ∀ m ∈ p.msgs, m.dest ≠ parentBroker → Verif.asked m = false

theorem mum_of {f g : Fed} (h : Mum f) (hs : g.state ≠ .executing) (hm : g.state = .initializing → g.mode = true) (ht : Mu f.tc g.tc) : Mum g := by
  refine ⟨hs, hm, ht.mode.trans h.exec, ht.disc.trans h.disc, by rw [ht.last]; exact h.last, ?_⟩
  obtain ⟨l, h1, h2⟩ := ht.out
  intro p hp
  rw [h1] at hp
  rcases List.mem_append.mp hp with hp | hp
  · exact h.out p hp
  · exact h2 p hp

theorem mum_tc {f : Fed} (h : Mum f) {t : TC} (ht : Mu f.tc t) : Mum { f with tc := t } := by
  refine ⟨h.state, h.mode, ht.mode.trans h.exec, ht.disc.trans h.disc, by rw [ht.last]; exact h.last, ?_⟩
  obtain ⟨l, h1, h2⟩ := ht.out
  intro p hp
  rw [h1] at hp
  rcases List.mem_append.mp hp with hp | hp
  · exact h.out p hp
  · exact h2 p hp

theorem mum_pm {f : Fed} (h : Mum f) (cmd : Msg) (hc : cmd.action ≠ .forceTimeGrant) : Mum { f with tc := (f.tc.processTimeMessage cmd).1 } :=
  mum_tc h (mu_processTimeMessage _ cmd hc h.disc h.last)

theorem execCheck_mum {f : Fed} (h : Mum f) (cmd : Msg) : f.execCheck cmd = (f, .continueProcessing) := by
  unfold execCheck
  by_cases hs : f.state = .initializing
  · rw [if_neg (by simp [hs]), h.mode hs]; rfl
  · rw [if_pos hs]

theorem mum_coordinator {f : Fed} (h : Mum f) (cmd : Msg) (hc : Tree.decides f.tc.self (.msg cmd) = false) :
    Mum (f.coordinator cmd).1 ∧ ((f.coordinator cmd).2.1 = .reprocessMessage → (f.coordinator cmd).2.2.action = .execCheck) ∧
      ((f.coordinator cmd).2.2 = cmd ∨ (f.coordinator cmd).2.2.action = .execCheck) := by
  simp only [Tree.decides] at hc
  unfold coordinator
  cases ha : cmd.action <;> rw [ha] at hc <;> dsimp only at hc ⊢ <;> first
    | (cases hc; done)
    | skip
  all_goals (try have hpm := mum_pm h cmd (by rw [ha]; decide))
  all_goals (try rw [execCheck_mum h])
  all_goals (try rw [execCheck_mum hpm])
  all_goals (try rw [if_neg (by rw [hc]; decide)])
  all_goals (try rw [if_pos h.state])
  all_goals (repeat' split)
  all_goals first
    | exact ⟨h, (fun e => by cases e), .inl rfl⟩
    | exact ⟨hpm, (fun e => by cases e), .inl rfl⟩
    | exact ⟨hpm, fun _ => rfl, .inr rfl⟩
    | exact ⟨h, fun _ => rfl, .inr rfl⟩
    | (refine ⟨mum_of h ?_ ?_ (.of rfl rfl rfl rfl rfl), (fun e => by cases e), .inl rfl⟩ <;> simp_all; done)
    | exact ⟨mum_of h h.state h.mode (mu_processDependencyUpdate _ _), (fun e => by cases e), .inl rfl⟩
    | exact absurd ‹f.state = .executing› h.state
    | (exfalso; simp_all; done)
    | skip

theorem mum_stateChange (old : FedState) {f : Fed} (h : Mum f) : Mum (stateChange old f).1 := by
  unfold stateChange
  split
  · exact h
  · cases hs : f.state <;> dsimp only
    · exact h
    · split
      · exact mum_of h (by simp) (by simp) (.refl _)
      · refine mum_of h (by simp) (fun _ => h.mode hs) ?_
        dsimp only
        unfold enterInitialization
        split
        · refine ⟨rfl, rfl, rfl, rfl, _, rfl, ?_⟩
          intro p hp m hm _
          obtain ⟨d, _, hd⟩ := List.mem_filterMap.mp hp
          split at hd
          · cases hd
            simp only [Packet.msgs, List.mem_singleton] at hm
            subst hm
            rfl
          · cases hd
        · exact .refl _
    · exact absurd hs h.state
    · exact h
    · exact h
    · exact h

theorem mum_secondSwitch {f : Fed} (h : Mum f) (cmd : Msg) (hc : Tree.decides f.tc.self (.msg cmd) = false) :
    ∃ x, secondSwitch f cmd = some x ∧ Mum x.1 := by
  simp only [Tree.decides] at hc
  unfold secondSwitch
  cases ha : cmd.action <;> rw [ha] at hc <;> dsimp only at hc ⊢ <;> first
    | (cases hc; done)
    | exact ⟨_, rfl, h⟩
    | skip
  all_goals (have hpm := mum_pm h cmd (by rw [ha]; decide))
  all_goals first
    | rw [if_neg (by simpa using hc)]
    | skip
  · exact ⟨_, rfl, h⟩
  all_goals (repeat' split)
  all_goals first
    | exact ⟨_, rfl, hpm⟩
    | exact absurd ‹_› h.state
    | skip
  all_goals (exfalso; exact ‹¬ f.state ≠ .executing› h.state)

theorem mum_processN (n : Nat) {f : Fed} (h : Mum f) (cmd : Msg) (hc : Tree.decides f.tc.self (.msg cmd) = false) : Mum (processN n f cmd).1 := by
  induction n generalizing f cmd with
  | zero => exact h
  | succ n ih =>
    simp only [processN]
    obtain ⟨h1, h2, h3⟩ := mum_coordinator h cmd hc
    have hsc : (f.coordinator cmd).1.tc.self = f.tc.self := (sg_coordinator f cmd).self
    have hss : (stateChange f.state (f.coordinator cmd).1).1.tc.self = f.tc.self := (sg_stateChange _ _).self.trans hsc
    have hm := mum_stateChange f.state h1
    have hd : Tree.decides f.tc.self (.msg (f.coordinator cmd).2.2) = false := by
      rcases h3 with e | e
      · rw [e]; exact hc
      · simp only [Tree.decides, e]
    generalize f.coordinator cmd = r at *
    generalize stateChange f.state r.1 = s at *
    split
    · exact hm
    · split
      · obtain ⟨x, hx, hx'⟩ := mum_secondSwitch hm r.2.2 (by rw [hss]; exact hd)
        rw [hx]
        exact hx'
      · rename_i hre
        split
        · refine mum_tc hm (.send _ _ (fun _ => ?_))
          simp only [Verif.asked, h2 hre]
        · exact ih hm _ (by rw [hss]; exact hd)
      · exact hm

theorem mum_step (limit : Int) {f : Fed} (h : Mum f) (o : FedOp) (hc : Tree.decides f.tc.self o = false)
    (hv : ∀ cmd, o = .value cmd ∨ o = .message cmd → cmd.action ≠ .forceTimeGrant) : Mum (f.step limit o).1 := by
  have early : ∀ (t : Time), Mu f.tc (if t < 0 then { f.tc with hasInitUpdates := true } else f.tc) := by
    intro t; split
    · exact .of rfl rfl rfl rfl rfl
    · exact .refl _
  cases o with
  | msg cmd => exact mum_processN 4 h cmd hc
  | timeRequest t it nv nm =>
    simp only [step]
    rw [if_neg (fun e => h.state e.1)]
    exact h
  | execRequest it => cases hc
  | value cmd =>
    simp only [step, valueArrives]
    have h1 : Mu f.tc (f.tc.updateValueTime cmd.actionTime (!f.mode)) := by
      unfold updateValueTime
      rw [if_pos (by rw [h.exec]; rfl)]
      exact early _
    have h2 := mum_tc h h1
    split
    · exact mum_pm h2 cmd (hv cmd (by simp))
    · exact h2
  | message cmd =>
    simp only [step, messageArrives]
    have h1 : Mu f.tc (f.tc.updateMessageTime cmd.actionTime (!f.mode)) := by
      unfold updateMessageTime
      rw [if_pos (by rw [h.exec]; rfl)]
      exact early _
    have h2 := mum_tc h h1
    split
    · exact mum_pm h2 cmd (hv cmd (by simp))
    · exact h2
  | setTime p v =>
    simp only [step]
    split
    · exact h
    · exact mum_tc h (.of rfl rfl rfl rfl rfl)
  | setFlag o v => exact mum_tc h (.of rfl rfl rfl rfl rfl)
  | setMaxIterations v => exact mum_tc h (.of rfl rfl rfl rfl rfl)

theorem mum_initial (i : FedId) (a b c : Bool) : Mum (Fed.initial i a b c) :=
  ⟨by simp [Fed.initial], by simp [Fed.initial], rfl, rfl, rfl, fun _ hp => nomatch hp⟩

end Fed
end Verif
