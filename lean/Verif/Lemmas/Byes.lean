import Verif.Lemmas.TableRun
/-! What is said about leaving: which operations send a goodbye. -/
namespace Verif

/-- the messages of a packet -/
def Packet.msgs : Packet → List Msg
  | .single m => [m]
  | .multi ms => ms

/-- a goodbye to another federate (the notice to the core, addressed to the parent, is not counted) -/
def Msg.isBye (m : Msg) : Bool :=
  (m.action == .disconnect || m.action == .localError) && m.dest != parentBroker

namespace Deps

theorem Sorted.ids {ds : Deps} (h : Sorted ds) : (ds.map (·.fedID)).Nodup := by
  unfold Sorted at h
  rw [List.Nodup, List.pairwise_map]
  exact h.imp (fun h => by omega)

theorem Sorted.mapId {ds : Deps} (h : Sorted ds) (f : DepInfo → DepInfo) (hf : ∀ d, (f d).fedID = d.fedID) :
    Sorted (ds.map f) := by
  unfold Sorted at h ⊢
  rw [List.pairwise_map]
  exact h.imp (fun h => by rw [hf, hf]; exact h)

theorem Sorted.resetIterTime {ds : Deps} (h : Sorted ds) (t : Time) : Sorted (ds.resetIterTime t) :=
  h.mapId _ (fun d => by split <;> rfl)

theorem Sorted.resetIterExec {ds : Deps} (h : Sorted ds) : Sorted ds.resetIterExec :=
  h.mapId _ (fun d => by split <;> rfl)

theorem Sorted.resetEvents {ds : Deps} (h : Sorted ds) (t : Time) : Sorted (ds.resetEvents t) :=
  h.mapId _ (fun d => by split <;> rfl)

theorem Sorted.updateTime {ds : Deps} (h : Sorted ds) (cmd : Msg) : Sorted (ds.updateTime cmd).1 := by
  rw [updateTime_eq_upd h]
  apply upd_sorted h
  intro o d he ho
  cases o with
  | none => cases he
  | some e =>
    simp only [Option.map_some, Option.some.injEq] at he
    rw [← he, ← ho e rfl]
    split
    · exact process_fedID _ _
    · rfl

theorem Sorted.modify {ds : Deps} (h : Sorted ds) (g : FedId) (f : DepInfo → DepInfo) (hf : ∀ d, (f d).fedID = d.fedID) :
    Sorted (ds.modify g f) := by
  rw [modify_eq_upd h]
  apply upd_sorted h
  intro o d he ho
  cases o with
  | none => cases he
  | some e =>
    simp only [Option.map_some, Option.some.injEq] at he
    rw [← he, ← ho e rfl, hf]

theorem Sorted.removeDependent {ds : Deps} (h : Sorted ds) (g : FedId) : Sorted (ds.removeDependent g) := by
  rw [removeDependent_eq_upd h]
  apply upd_sorted h
  intro o d he ho
  cases o with
  | none => simp at he
  | some e => have := ho e rfl; grind

theorem Sorted.removeDependency {ds : Deps} (h : Sorted ds) (g : FedId) : Sorted (ds.removeDependency g) := by
  rw [removeDependency_eq_upd h]
  apply upd_sorted h
  intro o d he ho
  cases o with
  | none => simp at he
  | some e => have := ho e rfl; grind

theorem Sorted.addDependency {ds : Deps} (h : Sorted ds) (g : FedId) : Sorted (ds.addDependency g).1 := by
  rw [addDependency_eq_upd h]
  apply upd_sorted h
  intro o d he ho
  cases o with
  | none => simp only [Option.some.injEq] at he; rw [← he]; rfl
  | some e => have := ho e rfl; grind

theorem Sorted.addDependent {ds : Deps} (h : Sorted ds) (g : FedId) : Sorted (ds.addDependent g).1 := by
  rw [addDependent_eq_upd h]
  apply upd_sorted h
  intro o d he ho
  cases o with
  | none => simp only [Option.some.injEq] at he; rw [← he]; rfl
  | some e => have := ho e rfl; grind

theorem Sorted.tableMsg {ds : Deps} (h : Sorted ds) (cmd : Msg) : Sorted (tableMsg ds cmd) := by
  unfold Deps.tableMsg
  split
  all_goals first | exact h | exact (h.removeDependent _).updateTime _ | exact h.updateTime _

theorem Sorted.ds {self : FedId} {a b : Deps} (h : Sorted a) (k : DS self a b) : Sorted b := by
  induction k with
  | refl => exact h
  | bye _ c _ _ ih => exact ih.tableMsg c
  | iterTime _ t ih => exact ih.resetIterTime t
  | iterExec _ ih => exact ih.resetIterExec

end Deps

namespace TC
open Deps

/-- the goodbyes sent so far -/
def byes (tc : TC) : List Msg := (tc.out.flatMap Packet.msgs).filter Msg.isBye

/-- nothing was said -/
structure Hush (a b : TC) : Prop where
  sorted : Sorted a.deps → Sorted b.deps
  disc : b.disconnected = a.disconnected
  byes : b.byes = a.byes

theorem Hush.refl (a : TC) : Hush a a := ⟨id, rfl, rfl⟩
theorem Hush.trans {a b c : TC} (h : Hush a b) (k : Hush b c) : Hush a c :=
  ⟨fun x => k.sorted (h.sorted x), k.disc.trans h.disc, k.byes.trans h.byes⟩

/-- the three relevant fields -/
theorem Hush.of {a b : TC} (h : b.deps = a.deps) (h' : b.disconnected = a.disconnected) (h'' : b.out = a.out) :
    Hush a b := ⟨fun x => by rw [h]; exact x, h', by unfold TC.byes; rw [h'']⟩

/-- harmless packets appended -/
theorem Hush.app {a b : TC} (l : List Packet) (h : b.deps = a.deps) (h' : b.disconnected = a.disconnected)
    (h'' : b.out = a.out ++ l) (hl : ∀ p ∈ l, ∀ m ∈ p.msgs, m.isBye = false) : Hush a b := by
  refine ⟨fun x => by rw [h]; exact x, h', ?_⟩
  unfold TC.byes
  rw [h'', List.flatMap_append, List.filter_append]
  have : (l.flatMap Packet.msgs).filter Msg.isBye = [] := by
    rw [List.filter_eq_nil_iff]
    intro m hm
    obtain ⟨p, hp, hm⟩ := List.mem_flatMap.mp hm
    simp [hl p hp m hm]
  rw [this, List.append_nil]

theorem Hush.send (a : TC) (m : Msg) (h : m.isBye = false) : Hush a (a.send m) :=
  .app [.single m] rfl rfl rfl (by intro p hp x hx; simp only [List.mem_singleton] at hp; subst hp
                                   simp only [Packet.msgs, List.mem_singleton] at hx; subst hx; exact h)

theorem notBye {m : Msg} (h : m.action ≠ .disconnect) (h' : m.action ≠ .localError) : m.isBye = false := by
  unfold Msg.isBye; simp [h, h']

theorem hush_transmit (a : TC) (m : Msg) (s : FedId) (h : m.action ≠ .disconnect) (h' : m.action ≠ .localError) :
    Hush a (a.transmit m s).1 := by
  refine .app (timingCopies a.deps m s) rfl rfl rfl ?_
  intro p hp x hx
  unfold timingCopies at hp
  obtain ⟨d, _, hd⟩ := List.mem_filterMap.mp hp
  split at hd
  · cases hd
    simp only [Packet.msgs, List.mem_singleton] at hx
    subst hx
    apply notBye <;> split <;> assumption
  · cases hd

theorem hush_tr {a : TC} (u : TC) (m : Msg) (s : FedId) (h1 : u.deps = a.deps) (h2 : u.disconnected = a.disconnected)
    (h3 : u.out = a.out) (h : m.action ≠ .disconnect) (h' : m.action ≠ .localError) : Hush a (u.transmit m s).1 :=
  (Hush.of h1 h2 h3).trans (hush_transmit u m s h h')

theorem setIterationFlags_action (m : Msg) (i : IterReq) : (setIterationFlags m i).action = m.action := by
  cases i <;> rfl

theorem mkTimeRequest_action (a : TC) : a.mkTimeRequest.action = .timeRequest := by
  unfold mkTimeRequest
  simp only
  split
  · rw [setIterationFlags_action]
  · rfl

theorem hush_sendTimeRequest (a : TC) (g : FedId) : Hush a (a.sendTimeRequest g) := by
  have hm := mkTimeRequest_action a
  unfold sendTimeRequest
  simp only
  split
  · rename_i hc
    have h1 : Hush a (a.checkAndSend a.mkTimeRequest a.upstream.minFed).1 := by
      unfold checkAndSend
      split
      · exact hush_tr _ _ _ rfl rfl rfl (by rw [hm]; simp) (by rw [hm]; simp)
      · exact .refl _
    split
    · refine h1.trans (.send _ _ (notBye ?_ ?_)) <;> simp [minFedRequest, hm]
    · exact h1
  · split
    · split
      · exact .of rfl rfl rfl
      · split
        · exact .send _ _ (notBye (by simp [hm]) (by simp [hm]))
        · exact .refl _
    · exact .refl _

theorem hush_str {a : TC} (u : TC) (g : FedId) (h1 : u.deps = a.deps) (h2 : u.disconnected = a.disconnected)
    (h3 : u.out = a.out) : Hush a (u.sendTimeRequest g) := (Hush.of h1 h2 h3).trans (hush_sendTimeRequest u g)

theorem hush_replyTrigger (a : TC) (g : FedId) : Hush a (a.replyTrigger g) := by
  unfold replyTrigger
  split
  · exact hush_sendTimeRequest _ _
  · exact .refl _

theorem hush_timeRequest (a : TC) (t : Time) (i : IterReq) (v m : Time) : Hush a (a.timeRequest t i v m) := by
  have h1 : Hush a (a.prepRequest t i v m).updateTimeFactors :=
    ⟨fun h => h.resetEvents _, rfl, rfl⟩
  unfold timeRequest
  simp only
  split
  · exact h1
  · exact h1.trans (hush_sendTimeRequest _ _)

theorem hush_updateValueTime (a : TC) (t : Time) (s : Bool) : Hush a (a.updateValueTime t s) := by
  unfold updateValueTime
  simp only
  repeat' split
  all_goals first
    | exact .of rfl rfl rfl
    | exact hush_str _ _ rfl rfl rfl

theorem hush_updateMessageTime (a : TC) (t : Time) (s : Bool) : Hush a (a.updateMessageTime t s) := by
  unfold updateMessageTime
  simp only
  repeat' split
  all_goals first
    | exact .of rfl rfl rfl
    | exact hush_str _ _ rfl rfl rfl

theorem hush_updateTimeGrant (a : TC) : Hush a a.updateTimeGrant := by
  refine ⟨fun h => h.ds (ds_updateTimeGrant a), ?_, ?_⟩
  · unfold updateTimeGrant
    simp only
    refine (hush_transmit _ _ _ ?_ ?_).disc.trans ?_
    · simp
    · simp
    · dsimp only
      repeat' split
      all_goals rfl
  · unfold updateTimeGrant
    simp only
    refine (hush_transmit _ _ _ ?_ ?_).byes.trans ?_
    · simp
    · simp
    · unfold TC.byes
      dsimp only
      repeat' split
      all_goals rfl

theorem hush_grant {a : TC} (u : TC) (h : Hush a u) : Hush a u.updateTimeGrant := h.trans (hush_updateTimeGrant u)

theorem hush_updateDeps (a : TC) (cmd : Msg) : Hush a (a.updateDeps cmd).1 := by
  have h1 : Hush a { a with deps := (a.deps.updateTime cmd).1 } := ⟨fun h => h.updateTime _, rfl, rfl⟩
  unfold updateDeps
  simp only
  split
  · split
    · exact h1.trans (.send _ _ (notBye (by simp [issueError]) (by simp [issueError])))
    · exact h1
  · exact h1

theorem generateTimeRequest_action (a : TC) (d : TimeData) (f : FedId) (c : Int) :
    (a.generateTimeRequest d f c).action ≠ .disconnect ∧ (a.generateTimeRequest d f c).action ≠ .localError := by
  unfold generateTimeRequest
  simp only
  cases d.state <;> simp [setIterationFlags]
  split <;> simp

/-- processing a timing command says no goodbye, except as the answer to a federate asking for the current time -/
theorem hush_processTimeMessage (a : TC) (cmd : Msg) (hq : cmd.action ≠ .requestCurrentTime) :
    Hush a (a.processTimeMessage cmd).1 := by
  have hr : Hush a (a.removeDependent cmd.source) := ⟨fun h => h.removeDependent _, rfl, rfl⟩
  unfold processTimeMessage
  split
  all_goals first
    | exact Hush.of rfl rfl rfl
    | exact hr.trans (hush_updateDeps _ _)
    | exact hush_updateDeps _ _
    | (rename_i h; exact absurd h hq)
    | skip
  split
  · exact hush_tr _ _ _ rfl rfl rfl (by simp) (by simp)
  · exact .refl _

/-- a goodbye to distinct federates, once, or silence -/
structure Talk (a b : TC) : Prop where
  sorted : Sorted a.deps → Sorted b.deps
  said : Sorted a.deps → (b.disconnected = a.disconnected ∧ b.byes = a.byes) ∨
    (a.disconnected = false ∧ b.disconnected = true ∧ ∃ l : List Msg, (l.map (·.dest)).Nodup ∧ b.byes = a.byes ++ l)

theorem Hush.talk {a b : TC} (h : Hush a b) : Talk a b := ⟨h.sorted, fun _ => .inl ⟨h.disc, h.byes⟩⟩
theorem Talk.refl (a : TC) : Talk a a := (Hush.refl a).talk

theorem Talk.trans {a b c : TC} (h : Talk a b) (k : Talk b c) : Talk a c := by
  refine ⟨fun x => k.sorted (h.sorted x), fun x => ?_⟩
  rcases h.said x with ⟨d1, b1⟩ | ⟨d1, d1', l1, n1, b1⟩ <;>
  rcases k.said (h.sorted x) with ⟨d2, b2⟩ | ⟨d2, d2', l2, n2, b2⟩
  · exact .inl ⟨d2.trans d1, b2.trans b1⟩
  · exact .inr ⟨by rw [← d1]; exact d2, d2', l2, n2, by rw [b2, b1]⟩
  · exact .inr ⟨d1, d2.trans d1', l1, n1, b2.trans b1⟩
  · rw [d1'] at d2; cases d2

/-- the goodbyes a departing federate owes -/
def owed (tc : TC) (a : Cmd) : List Msg :=
  (tc.deps.filter fun d => needsBye d && d.fedID != tc.self).map fun d => { action := a, source := tc.self, dest := d.fedID }

theorem owed_nodup (tc : TC) (a : Cmd) (h : Sorted tc.deps) : ((tc.owed a).map (·.dest)).Nodup := by
  unfold owed
  rw [List.map_map]
  have : (tc.deps.filter fun d => needsBye d && d.fedID != tc.self).Sublist tc.deps := List.filter_sublist
  exact ((List.Sublist.map (fun d : DepInfo => d.fedID) this).nodup h.ids)


/-- exactly the owed goodbyes are sent, as many as fit into one packet -/
theorem disconnect_said (tc : TC) (hd : tc.disconnected = false) :
    tc.disconnect.out.flatMap Packet.msgs = tc.out.flatMap Packet.msgs ++ (tc.owed .disconnect).take 255 ∧
    tc.disconnect.disconnected = true := by
  have hsil : ∀ c : Msg, c.action = .disconnect → (tc.processTimeMessage c).1.out = tc.out := by
    intro c hc
    unfold processTimeMessage
    simp only [hc]
    have : (Deps.updateTime (tc.removeDependent c.source).deps c).2 ≠ .processedAndCheck := by
      unfold Deps.updateTime
      split
      · simp
      · split
        · simp
        · unfold DepInfo.process
          simp [hc]
    unfold updateDeps
    simp only
    rw [if_neg this]
    rfl
  unfold disconnect
  rw [hd]
  simp only [Bool.false_eq_true, if_false]
  unfold owed
  split
  · rename_i h0; simp [h0]
  · rename_i d h0
    refine ⟨?_, ?_⟩
    · rw [h0]
      by_cases h1 : needsBye d
      · by_cases h2 : d.fedID = tc.self
        · simp [h1, h2, hsil]
        · simp [h1, h2, send, Packet.msgs]
      · simp [h1]
    · rfl
  · rename_i ds h0 h1
    refine ⟨?_, rfl⟩
    simp only [List.flatMap_append, List.flatMap_cons, List.flatMap_nil, List.append_nil, Packet.msgs, appendAll]
    split
    · rw [hsil _ rfl]
    · rfl

/-- the same for a failure; a federate nobody is connected to stays undecided -/
theorem localError_said (tc : TC) (hd : tc.disconnected = false) :
    tc.localError.out.flatMap Packet.msgs = tc.out.flatMap Packet.msgs ++ (tc.owed .localError).take 255 ∧
    tc.localError.disconnected = !tc.deps.isEmpty := by
  have hsil : ∀ (u : TC) (c : Msg), u.out = tc.out → c.action = .localError →
      (u.processTimeMessage c).1.out = tc.out := by
    intro u c ho hc
    unfold processTimeMessage
    simp only [hc]
    have : (Deps.updateTime (u.removeDependent c.source).deps c).2 ≠ .processedAndCheck := by
      unfold Deps.updateTime
      split
      · simp
      · split
        · simp
        · unfold DepInfo.process
          simp [hc]
    unfold updateDeps
    simp only
    rw [if_neg this]
    exact ho
  unfold localError
  rw [hd]
  simp only [Bool.false_eq_true, if_false]
  unfold owed
  split
  · rename_i h0; simp [h0]
  · rename_i d h0
    refine ⟨?_, ?_⟩
    · rw [h0]
      by_cases h1 : needsBye d
      · by_cases h2 : d.fedID = tc.self
        · simp [h1, h2, hsil]
        · simp [h1, h2, send, Packet.msgs]
      · simp [h1]
    · rw [h0]; rfl
  · rename_i ds h0 h1
    refine ⟨?_, ?_⟩
    · simp only [List.flatMap_append, List.flatMap_cons, List.flatMap_nil, List.append_nil, Packet.msgs, appendAll]
      split
      · simp [hsil]
      · rfl
    · cases hh : tc.deps with
      | nil => exact absurd hh h0
      | cons x y => rfl

theorem isBye_owed (tc : TC) (a : Cmd) (h : a = .disconnect ∨ a = .localError) :
    ∀ m ∈ tc.owed a, m.isBye = (m.dest != parentBroker) := by
  intro m hm
  unfold owed at hm
  obtain ⟨d, _, rfl⟩ := List.mem_map.mp hm
  rcases h with rfl | rfl <;> simp [Msg.isBye]

theorem talk_bye {a b : TC} (c : Cmd) (hsort : Sorted a.deps → Sorted b.deps) (hd : a.disconnected = false)
    (hb : b.disconnected = true) (ho : b.out.flatMap Packet.msgs = a.out.flatMap Packet.msgs ++ (a.owed c).take 255) :
    Talk a b := by
  refine ⟨hsort, fun hs => .inr ⟨hd, hb, ((a.owed c).take 255).filter Msg.isBye, ?_, ?_⟩⟩
  · have h1 := owed_nodup a c hs
    have h2 : (((a.owed c).take 255).filter Msg.isBye).Sublist (a.owed c) :=
      List.filter_sublist.trans (List.take_sublist _ _)
    exact (List.Sublist.map _ h2).nodup h1
  · unfold TC.byes; rw [ho, List.filter_append]

theorem talk_disconnect (a : TC) : Talk a a.disconnect := by
  cases hd : a.disconnected with
  | true => rw [show a.disconnect = a by unfold disconnect; rw [if_pos hd]]; exact .refl _
  | false =>
    obtain ⟨h1, h2⟩ := disconnect_said a hd
    exact talk_bye .disconnect (fun h => h.ds (deps_disconnect a)) hd h2 h1

theorem talk_localError (a : TC) : Talk a a.localError := by
  cases hd : a.disconnected with
  | true => rw [show a.localError = a by unfold localError; rw [if_pos hd]]; exact .refl _
  | false =>
    obtain ⟨h1, h2⟩ := localError_said a hd
    cases he : a.deps.isEmpty with
    | false => exact talk_bye .localError (fun h => h.ds (deps_localError a)) hd (by rw [h2, he]; rfl) h1
    | true =>
      refine ⟨fun h => h.ds (deps_localError a), fun _ => .inl ⟨by rw [h2, he, hd]; rfl, ?_⟩⟩
      unfold TC.byes
      rw [h1]
      simp [owed, List.isEmpty_iff.mp he]

/-! ### The grant decision -/

theorem hush_applyRestriction (a : TC) (c : RestrictionCheck) (r s : Bool) (ok : MPR) :
    Hush a (a.applyRestriction c r s ok).1 := by
  unfold applyRestriction
  repeat' split
  all_goals exact .of rfl rfl rfl

theorem hush_iterDecision (a : TC) (s : Bool) : Hush a (a.iterDecision s).1 := by
  unfold iterDecision
  repeat' split
  all_goals first | exact .of rfl rfl rfl | exact hush_applyRestriction _ _ _ _ _

theorem hush_finishGrant (a : TC) (g : FedId) (s : Bool) (p : MPR) : Hush a (a.finishGrant g s p).1 := by
  unfold finishGrant
  split
  · dsimp only
    split
    · split
      · exact hush_sendTimeRequest _ _
      · split
        · exact hush_sendTimeRequest _ _
        · exact .refl _
    · exact .refl _
  · exact hush_grant _ (.of rfl rfl rfl)
  · split
    · exact hush_grant _ (.of rfl rfl rfl)
    · exact hush_grant _ (.of rfl rfl rfl)
  · exact .refl _

theorem hush_grantNoIter (a : TC) (g : FedId) (s : Bool) : Hush a (a.grantNoIter g s).1 := by
  unfold grantNoIter
  repeat' split
  all_goals first | exact hush_grant _ (.of rfl rfl rfl) | exact hush_finishGrant _ _ _ _

theorem hush_grantIter (a : TC) (g : FedId) (s : Bool) : Hush a (a.grantIter g s).1 := by
  unfold grantIter
  dsimp only
  repeat' split
  all_goals first
    | exact hush_grant _ (.of rfl rfl rfl)
    | exact (hush_iterDecision _ _).trans (hush_finishGrant _ _ _ _)
    | exact hush_finishGrant _ _ _ _

theorem talk_checkTimeGrant (a : TC) (g : FedId) : Talk a (a.checkTimeGrant g).1 := by
  have h0 : Hush a a.updateTimeFactors := .of rfl rfl rfl
  have h1 : Hush a { a.updateTimeFactors with needSendAll := false } := .of rfl rfl rfl
  have h2 : Hush a { a.updateTimeFactors with granted := maxVal, grantBase := maxVal } := .of rfl rfl rfl
  unfold checkTimeGrant
  dsimp only
  repeat' split
  · exact h2.talk.trans (talk_disconnect _)
  · exact (h0.trans (hush_replyTrigger _ _)).talk
  · exact (h0.trans (hush_replyTrigger _ _)).talk
  · exact (h1.trans (hush_grantNoIter _ _ _)).talk
  · exact (h1.trans (hush_grantIter _ _ _)).talk
  · exact (h1.trans (hush_grantIter _ _ _)).talk
  · exact (h1.trans (hush_finishGrant _ _ _ _)).talk

/-! ### The entry to executing mode -/

theorem hush_sendUpdatedExecRequest (a : TC) (t m : FedId) (r : Int) : Hush a (a.sendUpdatedExecRequest t m r) := by
  unfold sendUpdatedExecRequest
  dsimp only
  split
  · exact .send _ _ (notBye (by simp [setIterationFlags_action]) (by simp [setIterationFlags_action]))
  · refine .app _ rfl rfl rfl ?_
    intro p hp x hx
    obtain ⟨d, _, hd⟩ := List.mem_filterMap.mp hp
    split at hd
    · cases hd
      simp only [Packet.msgs, List.mem_singleton] at hx
      subst hx
      exact notBye (by simp [setIterationFlags_action]) (by simp [setIterationFlags_action])
    · cases hd

theorem hush_replyExec (a : TC) (t m : FedId) : Hush a (a.replyExec t m) := by
  unfold replyExec
  split
  · exact .of rfl rfl rfl
  · split
    · exact hush_sendUpdatedExecRequest _ _ _ _
    · exact .refl _

theorem hush_execNotReady (a : TC) (t : FedId) : Hush a (a.execNotReady t) := by
  unfold execNotReady
  dsimp only
  repeat' split
  all_goals first
    | exact .of rfl rfl rfl
    | exact hush_sendUpdatedExecRequest _ _ _ _
    | exact hush_replyExec _ _ _

theorem hush_execDecision (a : TC) (s : Bool) : Hush a (a.execDecision s).1 := by
  unfold execDecision
  dsimp only
  repeat' split
  all_goals first | exact .of rfl rfl rfl | exact hush_applyRestriction _ _ _ _ _

theorem hush_execGrant (a : TC) (p : MPR) : Hush a (a.execGrant p) := by
  unfold execGrant
  dsimp only
  split
  · split
    · exact hush_tr _ _ _ rfl rfl rfl (by simp) (by simp)
    · have h : Hush a { a with deps := a.deps.resetIterExec, hasInitUpdates := false, iteration := a.iteration + 1 } :=
        ⟨fun h => h.resetIterExec, rfl, rfl⟩
      have h2 := h.trans (hush_transmit { a with deps := a.deps.resetIterExec, hasInitUpdates := false, iteration := a.iteration + 1 }
        { action := .execGrant, source := a.self, counter := toU16 (a.iteration + 1), extraDestData := version, iterationRequested := true }
        invalidFed (by simp) (by simp))
      exact ⟨h2.sorted, h2.disc, h2.byes⟩
    · exact .refl _
  · split
    · refine hush_tr _ _ _ rfl rfl rfl ?_ ?_ <;> dsimp only <;> (repeat' split) <;> simp
    · exact .refl _

theorem hush_execContinue (a : TC) (t : FedId) (s : Bool) (p : MPR) : Hush a (a.execContinue t s p) := by
  unfold execContinue
  dsimp only
  repeat' split
  all_goals first
    | exact .refl _
    | exact hush_sendUpdatedExecRequest _ _ _ _
    | exact hush_replyExec _ _ _

theorem hush_checkExecEntry (a : TC) (t : FedId) : Hush a (a.checkExecEntry t).1 := by
  have h1 : Hush a { a with needSendAll := false } := .of rfl rfl rfl
  unfold checkExecEntry
  dsimp only
  split
  · exact .refl _
  · split
    · exact hush_execNotReady _ _
    · exact ((h1.trans (hush_execDecision _ _)).trans (hush_execGrant _ _)).trans (hush_execContinue _ _ _ _)

theorem hush_sendTimingInfo (a : TC) : Hush a a.sendTimingInfo := by
  refine .app _ rfl rfl rfl ?_
  intro p hp x hx
  obtain ⟨d, _, hd⟩ := List.mem_filterMap.mp hp
  split at hd
  · cases hd
    simp only [Packet.msgs, List.mem_singleton] at hx
    subst hx
    exact notBye (by simp) (by simp)
  · cases hd

theorem hush_enteringExecMode (a : TC) (m : IterReq) : Hush a (a.enteringExecMode m) := by
  unfold enteringExecMode
  dsimp only
  split
  · exact .refl _
  · have h0 : Hush a { a with iterating := m } := .of rfl rfl rfl
    split
    · exact h0.trans (.send _ _ (notBye (by simp [issueError]) (by simp [issueError])))
    · have h1 := h0.trans (hush_sendTimingInfo _)
      split
      · refine h1.trans (hush_tr _ _ _ rfl rfl rfl ?_ ?_) <;> split <;> simp [setIterationFlags_action]
      · exact h1.trans (hush_tr _ _ _ rfl rfl rfl (by simp) (by simp))

/-- the second half of `processDependencyUpdate` -/
def depTail (cmd : Msg) (r : TC × Bool) : TC :=
  if r.2 then
    let tc := if cmd.child then r.1.setConn cmd.source .child else r.1
    let tc := if cmd.parent then tc.setConn cmd.source .parent else tc
    if cmd.counter > 0 then
      { tc with deps := tc.deps.modify cmd.source (fun d => { d with timingVersion := toI8 cmd.counter }) }
    else tc
  else r.1

theorem hush_setConn (u : TC) (g : FedId) (c : Conn) : Hush u (u.setConn g c) := by
  unfold setConn
  split
  · exact .refl _
  · exact ⟨fun h => h.modify _ _ (fun _ => rfl), rfl, rfl⟩

theorem hush_depTail (cmd : Msg) (r : TC × Bool) : Hush r.1 (depTail cmd r) := by
  unfold depTail
  split
  · have h2 : Hush r.1 (if cmd.child then r.1.setConn cmd.source .child else r.1) := by
      split
      · exact hush_setConn _ _ _
      · exact .refl _
    have h3 : ∀ u : TC, Hush u (if cmd.parent then u.setConn cmd.source .parent else u) := by
      intro u
      split
      · exact hush_setConn _ _ _
      · exact .refl _
    have h4 := h2.trans (h3 _)
    have h5 : ∀ u : TC, Hush u (if cmd.counter > 0 then
      { u with deps := u.deps.modify cmd.source (fun d => { d with timingVersion := toI8 cmd.counter }) } else u) := by
      intro u
      split
      · exact ⟨fun h => h.modify _ _ (fun _ => rfl), rfl, rfl⟩
      · exact .refl _
    exact h4.trans (h5 _)
  · exact .refl _

theorem hush_processDependencyUpdate (a : TC) (cmd : Msg) : Hush a (a.processDependencyUpdate cmd) := by
  have hadd : ∀ u : TC, Sorted u.deps → Sorted (u.addDependency cmd.source).1.deps := by
    intro u h
    unfold addDependency
    dsimp only
    split
    · exact (h.addDependency _).modify _ _ (fun _ => rfl)
    · exact h.addDependency _
  have hd : ∀ (u : TC) (b : Bool), Hush a u → Hush a (depTail cmd (u, b)) := fun u b h => h.trans (hush_depTail cmd (u, b))
  unfold processDependencyUpdate
  split
  · exact hd _ _ ⟨hadd a, rfl, rfl⟩
  · exact hd _ _ ⟨fun h => h.removeDependency _, rfl, rfl⟩
  · exact hd _ _ ⟨fun h => h.addDependent _, rfl, rfl⟩
  · exact hd _ _ ⟨fun h => h.removeDependent _, rfl, rfl⟩
  · exact hd _ _ ⟨fun h => (hadd a h).addDependent _, rfl, rfl⟩
  · exact hd _ _ ⟨fun h => (h.removeDependency _).removeDependent _, rfl, rfl⟩
  · exact hd _ _ ⟨fun h => h.updateTime _, rfl, rfl⟩
  · exact hd _ _ (.refl _)

end TC

namespace Fed
open TC Deps

theorem talk_tryGrant (f : Fed) (t : FedId) : Talk f.tc (f.tryGrant t).1.tc := by
  unfold tryGrant
  split
  · exact talk_checkTimeGrant _ _
  · exact .refl _

theorem talk_execCheck (f : Fed) (c : Msg) : Talk f.tc (f.execCheck c).1.tc := by
  unfold execCheck
  dsimp only
  split
  · exact .refl _
  · split
    · have h := (hush_checkExecEntry f.tc (if c.action = .execRequest then c.source else invalidFed))
      split
      · exact h.talk
      · exact h.talk
      · dsimp only
        split
        · exact (h.trans (hush_sendUpdatedExecRequest _ _ _ _)).talk
        · exact h.talk
      · exact h.talk
    · exact .refl _

theorem talk_coordinator (f : Fed) (cmd : Msg) (hq : cmd.action ≠ .requestCurrentTime) :
    Talk f.tc (f.coordinator cmd).1.tc := by
  have hm := (hush_processTimeMessage f.tc cmd hq).talk
  have hg : ∀ (g : Fed) t, Talk f.tc g.tc → Talk f.tc (g.tryGrant t).1.tc := fun g t h => h.trans (talk_tryGrant g t)
  have he : ∀ (g : Fed), Talk f.tc g.tc → Talk f.tc (g.execCheck cmd).1.tc := fun g h => h.trans (talk_execCheck g cmd)
  unfold coordinator
  dsimp only
  repeat' split
  all_goals first
    | exact .refl _
    | (refine Hush.talk ?_; exact .of rfl rfl rfl)
    | exact hm
    | exact hg _ _ hm
    | exact hg _ _ (.refl _)
    | exact he _ hm
    | exact he _ (.refl _)
    | exact talk_disconnect _
    | exact talk_localError _
    | exact (hush_enteringExecMode _ _).talk
    | exact (hush_processDependencyUpdate _ _).talk
    | skip

theorem talk_stateChange (s : FedState) (f : Fed) : Talk f.tc (stateChange s f).1.tc := by
  have he : Talk f.tc (enterInitialization f.tc) := by
    unfold enterInitialization
    split
    · refine Hush.talk ?_
      refine .app _ rfl rfl rfl ?_
      intro p hp x hx
      obtain ⟨d, _, hd⟩ := List.mem_filterMap.mp hp
      split at hd
      · cases hd
        simp only [Packet.msgs, List.mem_singleton] at hx
        subst hx
        exact notBye (by simp) (by simp)
      · cases hd
    · exact .refl _
  unfold stateChange
  repeat' split
  all_goals first | exact .refl _ | exact he | (refine Hush.talk ?_; exact .of rfl rfl rfl)

theorem isBye_parent (m : Msg) (h : m.dest = parentBroker) : m.isBye = false := by
  unfold Msg.isBye; simp [h]

theorem talk_secondSwitch (f : Fed) (cmd : Msg) (hq : cmd.action ≠ .requestCurrentTime) (x : Fed × MPR)
    (h : secondSwitch f cmd = some x) : Talk f.tc x.1.tc := by
  have hm := (hush_processTimeMessage f.tc cmd hq).talk
  unfold secondSwitch at h
  dsimp only at h
  repeat' split at h
  all_goals cases h
  all_goals first
    | exact .refl _
    | exact hm
    | exact hm.trans (talk_checkTimeGrant _ _)
    | exact (talk_disconnect _).trans (Hush.send _ _ (isBye_parent _ rfl)).talk

theorem coordinator_action (f : Fed) (cmd : Msg) : (f.coordinator cmd).2.2.action = cmd.action ∨
    (f.coordinator cmd).2.2.action = .execCheck ∨ (f.coordinator cmd).2.2.action = .timeCheck := by
  unfold coordinator
  dsimp only
  repeat' split
  all_goals first | exact .inl rfl | exact .inr (.inl rfl) | exact .inr (.inr rfl)

theorem talk_processN (n : Nat) (f : Fed) (cmd : Msg) (hq : cmd.action ≠ .requestCurrentTime) :
    Talk f.tc (processN n f cmd).1.tc := by
  induction n generalizing f cmd with
  | zero => exact .refl _
  | succ n ih =>
    have hc := talk_coordinator f cmd hq
    have hh := coordinator_handed f cmd
    have hact := coordinator_action f cmd
    rw [processN]
    dsimp only
    generalize f.coordinator cmd = c at hc hh hact
    have hs := hc.trans (talk_stateChange f.state c.1)
    split
    · exact hs
    · split
      · rename_i hcp
        have hcm := hh.1 hcp
        split
        · rename_i x hx
          rw [hcm] at hx
          exact hs.trans (talk_secondSwitch _ _ hq _ hx)
        · exact hs.trans (ih _ _ (by simp))
      · rename_i hcp
        have hcm := hh.2 hcp
        have hb : c.2.2.isBye = false := by
          rcases hcm with e | e | e
          · rw [e]; exact notBye (by simp) (by simp)
          · rw [e]; exact notBye (by simp) (by simp)
          · exact isBye_parent _ e
        have ha : c.2.2.action ≠ .requestCurrentTime := by
          rcases hact with e | e | e <;> rw [e]
          · exact hq
          · simp
          · simp
        split
        · exact hs.trans (Hush.send _ _ hb).talk
        · exact hs.trans (ih _ _ ha)
      · exact hs

end Fed
end Verif
