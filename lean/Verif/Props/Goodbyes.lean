import Verif.Lemmas.Byes
import Verif.Props.Grants
/-!
# C10: a departing federate says goodbye once, to everybody concerned

A goodbye is a disconnect or local-error message to another federate.  `Concerned f d` is the specification of
who has to be told.  The goodbyes travel in one packet of at most 255 messages: with more than 255 federates
concerned the rest is not told (`C10_too_many`, `C10_dropped_counterexample`).
-/
namespace Verif
namespace Goodbyes
open Fed TC Deps Grants

/-- Federate `d` must be told when `f` leaves: it waits for `f`, or `f` waits for it and it has not itself left. -/
def Concerned (f : Fed) (d : FedId) : Prop :=
  d ≠ f.tc.self ∧ ∃ e ∈ f.tc.deps, e.fedID = d ∧ (e.dependent = true ∨ (e.dependency = true ∧ e.next < cTerm))

/-- All messages sent so far. -/
def sent (f : Fed) : List Msg := f.tc.out.flatMap Packet.msgs

/-- The goodbyes among them to federate `d`. -/
def goodbyesTo (d : FedId) (ms : List Msg) : List Msg := ms.filter fun m => m.isBye && m.dest == d

/-- The history holds no question for the current time: a federate that has left answers such a question with
another goodbye. -/
def NotAsked (ops : List FedOp) : Prop := ∀ cmd, FedOp.msg cmd ∈ ops → cmd.action ≠ .requestCurrentTime

/-- invariant of histories -/
structure Polite (f : Fed) : Prop where
  sorted : Sorted f.tc.deps
  silent : f.tc.disconnected = false → f.tc.byes = []
  once : (f.tc.byes.map (·.dest)).Nodup

theorem Polite.talk {f g : Fed} (h : Polite f) (t : Talk f.tc g.tc) : Polite g := by
  rcases t.said h.sorted with ⟨d, b⟩ | ⟨d, d', l, n, b⟩
  · exact ⟨t.sorted h.sorted, fun x => by rw [b]; exact h.silent (d ▸ x), by rw [b]; exact h.once⟩
  · refine ⟨t.sorted h.sorted, fun x => absurd (d'.symm.trans x) (by simp), ?_⟩
    rw [b, h.silent d]
    simpa using n

theorem talk_step (limit : Int) (f : Fed) (o : FedOp) (ho : o.sane f.tc.self)
    (hq : ∀ cmd, o = .msg cmd → cmd.action ≠ .requestCurrentTime) : Talk f.tc (f.step limit o).1.tc := by
  cases o with
  | msg cmd => exact talk_processN 4 f cmd (hq cmd rfl)
  | timeRequest t it nv nm =>
    simp only [step]
    split
    · exact (hush_timeRequest f.tc t (f.limitIter limit it) nv nm).talk.trans
        (talk_processN 4 { f with tc := f.tc.timeRequest t (f.limitIter limit it) nv nm, mode := false } _ (by simp))
    · exact .refl _
  | execRequest it =>
    simp only [step]
    split
    · refine talk_processN 4 f _ ?_
      rw [setIterationFlags_action]; simp
    · exact .refl _
  | value cmd =>
    simp only [step, valueArrives]
    have h := hush_updateValueTime f.tc cmd.actionTime (!f.mode)
    split
    · exact (h.trans (hush_processTimeMessage _ cmd (by rw [ho.1]; simp))).talk
    · exact h.talk
  | message cmd =>
    simp only [step, messageArrives]
    have h := hush_updateMessageTime f.tc cmd.actionTime (!f.mode)
    split
    · exact (h.trans (hush_processTimeMessage _ cmd (by rw [ho.1]; simp))).talk
    · exact h.talk
  | setTime p v =>
    simp only [step]
    split
    · exact .refl _
    · refine Hush.talk ?_; exact .of rfl rfl rfl
  | setFlag p v => refine Hush.talk ?_; exact .of rfl rfl rfl
  | setMaxIterations v => refine Hush.talk ?_; exact .of rfl rfl rfl

theorem talk_run (limit : Int) (f : Fed) (ops : List FedOp) (hi : Inv f) (ho : ∀ o ∈ ops, o.sane f.tc.self)
    (hq : NotAsked ops) : Talk f.tc (f.run limit ops).tc := by
  induction ops generalizing f with
  | nil => exact .refl _
  | cons o os ih =>
    have s := step_ok limit f o hi (ho o (by simp))
    have h1 := talk_step limit f o (ho o (by simp)) (fun cmd e => hq cmd (by simp [e]))
    have h2 := ih (f.step limit o).1 s.inv (by rw [s.self]; intro x hx; exact ho x (by simp [hx]))
      (fun cmd h => hq cmd (by simp [h]))
    exact h1.trans h2

/-- the table stays sorted by identifier, so every federate appears in it once -/
theorem sorted_step (limit : Int) (f : Fed) (o : FedOp) (ho : o.sane f.tc.self) (hs : Sorted f.tc.deps) :
    Sorted (f.step limit o).1.tc.deps := by
  by_cases hq : ∀ cmd, o = .msg cmd → cmd.action ≠ .requestCurrentTime
  · exact (talk_step limit f o ho hq).sorted hs
  · obtain ⟨cmd, rfl, ha⟩ : ∃ cmd, o = .msg cmd ∧ cmd.action = .requestCurrentTime := by
      cases o with
      | msg cmd => exact ⟨cmd, rfl, Decidable.not_not.mp fun h => hq fun c e => by cases e; exact h⟩
      | _ => exact absurd (fun cmd e => by cases e) hq
    have hco : f.coordinator cmd = ({ f with tc := (f.tc.processTimeMessage cmd).1 }, .continueProcessing, cmd) := by
      unfold coordinator; simp only [ha]
    have hst := stateChange_same f { f with tc := (f.tc.processTimeMessage cmd).1 } (Or.inl rfl)
    have hsec : ∀ g : Fed, secondSwitch g cmd = some (g, .continueProcessing) := by
      intro g; unfold secondSwitch; simp only [ha]
    have : (f.step limit (.msg cmd)).1.tc = (f.tc.processTimeMessage cmd).1 := by
      show (processN (3+1) f cmd).1.tc = _
      rw [processN]
      simp only [hco, hst, Bool.false_eq_true, if_false, hsec]
    rw [this]
    rcases deps_processTimeMessage' f.tc cmd with h | ⟨_, h⟩ <;> rw [h]
    · exact hs.tableMsg cmd
    · exact hs

theorem reached_sorted {limit : Int} {f : Fed} (hf : Reached limit f) : Sorted f.tc.deps := by
  obtain ⟨s, a, b, c, pre, hs, hp, rfl⟩ := hf
  have : ∀ (pre : List FedOp) (f : Fed), Inv f → (∀ o ∈ pre, o.sane f.tc.self) → Sorted f.tc.deps →
      Sorted (f.run limit pre).tc.deps := by
    intro pre
    induction pre with
    | nil => intro f _ _ h; exact h
    | cons o os ih =>
      intro f hi ho h
      have st := step_ok limit f o hi (ho o (by simp))
      exact ih (f.step limit o).1 st.inv (by rw [st.self]; intro x hx; exact ho x (by simp [hx]))
        (sorted_step limit f o (ho o (by simp)) h)
  exact this pre _ (initial_inv s a b c hs) hp .nil

theorem byes_eq (f : Fed) (d : FedId) : goodbyesTo d (sent f) = f.tc.byes.filter (fun m => m.dest == d) := by
  unfold goodbyesTo sent TC.byes
  rw [List.filter_filter]
  congr 1
  funext m
  exact Bool.and_comm _ _

theorem length_le_one_of_nodup {l : List Msg} (h : (l.map (·.dest)).Nodup) (d : FedId) :
    (l.filter fun m => m.dest == d).length ≤ 1 := by
  induction l with
  | nil => simp
  | cons m l ih =>
    simp only [List.map_cons, List.nodup_cons] at h
    rw [List.filter_cons]
    split
    · rename_i hm
      have : l.filter (fun m => m.dest == d) = [] := by
        rw [List.filter_eq_nil_iff]
        intro x hx hxd
        apply h.1
        have e1 : x.dest = d := by simpa using hxd
        have e2 : m.dest = d := by simpa using hm
        rw [e2, ← e1]
        exact List.mem_map_of_mem hx
      simp [this]
    · exact ih h.2

/-- **C10** (at most once).  In no history does a federate send anybody a second goodbye, however it leaves and
however often it is told to leave - disconnect, stop, error, acknowledgement, end of simulation, in any order. -/
theorem C10_at_most_once (limit : Int) (self : FedId) (ok ng gt : Bool) (ops : List FedOp)
    (hid : self ≠ parentBroker) (hops : ∀ o ∈ ops, o.sane self) (hq : NotAsked ops) (d : FedId) :
    (goodbyesTo d (sent ((Fed.initial self ok ng gt).run limit ops))).length ≤ 1 := by
  have hp : Polite (Fed.initial self ok ng gt) := ⟨.nil, fun _ => rfl, List.nodup_nil⟩
  have := (hp.talk (talk_run limit _ ops (initial_inv self ok ng gt hid) hops hq)).once
  rw [byes_eq]
  exact length_le_one_of_nodup this d

/-- **C10** (repeating is silent).  A federate that has said its goodbyes says none any more. -/
theorem C10_repeat_silent (limit : Int) (f : Fed) (ops : List FedOp) (hf : Reached limit f)
    (hops : ∀ o ∈ ops, o.sane f.tc.self) (hq : NotAsked ops)
    (hd : f.tc.disconnected = true) (d : FedId) :
    goodbyesTo d (sent (f.run limit ops)) = goodbyesTo d (sent f) := by
  rw [byes_eq, byes_eq]
  rcases (talk_run limit f ops hf.inv hops hq).said (reached_sorted hf) with ⟨_, b⟩ | ⟨h, _⟩
  · rw [b]
  · rw [hd] at h; cases h

/-- The commands that make a federate leave and tell the others. -/
def Leaving (f : Fed) (cmd : Msg) : Prop :=
  f.state ≠ .finished ∧ f.state ≠ .terminating ∧
  (cmd.action = .stop ∨
   ((cmd.action = .disconnect ∨ cmd.action = .disconnectFed) ∧ cmd.source = f.tc.self) ∨
   (cmd.action = .disconnectFedAck ∧ cmd.dest = f.tc.self ∧ cmd.source = parentBroker) ∨
   ((cmd.action = .error ∨ cmd.action = .localError) ∧ cmd.source = f.tc.self))

/-- which goodbye is used -/
def byeKind (cmd : Msg) : Cmd := if cmd.action = .error ∨ cmd.action = .localError then .localError else .disconnect

theorem process_done (f g : Fed) (cmd c : Msg) (p : MPR) (h : f.coordinator cmd = (g, p, c)) (hl : left g.state)
    (hp : p = .halted ∨ p = .errorResult) : f.process cmd = (g, p) := by
  show processN (3+1) f cmd = _
  rw [processN]
  simp only [h, stateChange_same f g (Or.inr hl), Bool.false_eq_true, if_false]
  rcases hp with rfl | rfl <;> rfl

theorem process_routed (f g : Fed) (cmd c : Msg) (h : f.coordinator cmd = (g, .reprocessMessage, c)) (hl : left g.state)
    (hd : c.dest ≠ g.tc.self) : f.process cmd = ({ g with tc := g.tc.send c }, .continueProcessing) := by
  show processN (3+1) f cmd = _
  rw [processN]
  simp only [h, stateChange_same f g (Or.inr hl), Bool.false_eq_true, if_false]
  rw [if_pos hd]

theorem leaving_sent (f : Fed) (cmd : Msg) (hid : f.tc.self ≠ parentBroker) (hl : Leaving f cmd)
    (hd : f.tc.disconnected = false) :
    ∃ rest : List Msg, (∀ m ∈ rest, m.dest = parentBroker) ∧
      sent (f.process cmd).1 = sent f ++ (f.tc.owed (byeKind cmd)).take 255 ++ rest := by
  obtain ⟨h1, h2, hc⟩ := hl
  obtain ⟨hdis, hdis2⟩ := disconnect_said f.tc hd
  obtain ⟨hloc, _⟩ := localError_said f.tc hd
  have hself : f.tc.disconnect.self = f.tc.self := congrArg Core.self (core_disconnect f.tc).1
  rcases hc with h | ⟨h, hs⟩ | ⟨h, hs, hs'⟩ | ⟨h, hs⟩
  · refine ⟨[], by simp, ?_⟩
    have hco : f.coordinator cmd = ({ f with state := .finished, tc := f.tc.disconnect }, .halted, cmd) := by
      unfold coordinator; simp only [h]
    rw [process_done f _ _ _ _ hco (by simp [left]) (by simp), List.append_nil]
    unfold sent byeKind
    rw [h]
    exact hdis
  · refine ⟨[{ cmd with dest := parentBroker }], by simp, ?_⟩
    have hco : f.coordinator cmd = ({ f with tc := f.tc.disconnect, state := .terminating }, .reprocessMessage,
          { cmd with dest := parentBroker }) := by
      unfold coordinator
      rcases h with h | h <;> simp only [h, hs, if_true] <;> rw [if_pos ⟨h1, h2⟩]
    rw [process_routed f _ _ _ hco (by simp [left]) (by rw [hself]; exact fun h => hid h.symm)]
    have hk : byeKind cmd = .disconnect := by
      unfold byeKind
      rcases h with h | h <;> simp [h]
    rw [hk]
    unfold sent
    simp only [send, List.flatMap_append, hdis, List.flatMap_cons, List.flatMap_nil, List.append_nil, Packet.msgs]
  · refine ⟨[], by simp, ?_⟩
    have hco : f.coordinator cmd = ({ f with tc := f.tc.disconnect, state := .finished }, .halted, cmd) := by
      unfold coordinator; simp only [h, hs, hs', and_self, if_true]
      rw [if_pos ⟨h1, h2⟩]
    rw [process_done f _ _ _ _ hco (by simp [left]) (by simp), List.append_nil]
    unfold sent byeKind
    rw [h]
    exact hdis
  · refine ⟨[], by simp, ?_⟩
    have hco : f.coordinator cmd = ({ f with tc := f.tc.localError, state := .errored }, .errorResult, cmd) := by
      unfold coordinator
      rcases h with h | h <;> simp [h, hs, h1, h2]
    rw [process_done f _ _ _ _ hco (by simp [left]) (by simp), List.append_nil]
    unfold sent byeKind
    rw [if_pos h]
    exact hloc

/-- the number of federates concerned -/
def concernedCount (f : Fed) : Nat :=
  (f.tc.deps.filter fun e => (e.dependent || (e.dependency && decide (e.next < cTerm))) && e.fedID != f.tc.self).length

theorem owed_dests (tc : TC) (a : Cmd) : (tc.owed a).map (·.dest) =
    (tc.deps.filter fun d => needsBye d && d.fedID != tc.self).map (·.fedID) := by
  unfold owed; rw [List.map_map]; rfl

theorem owed_count (f : Fed) (a : Cmd) : (f.tc.owed a).length = concernedCount f := by
  unfold owed concernedCount needsBye
  rw [List.length_map]
  congr 1
  congr 1
  funext e
  cases e.dependent <;> cases e.dependency <;> simp

theorem concerned_iff (f : Fed) (a : Cmd) (d : FedId) : Concerned f d ↔ d ∈ (f.tc.owed a).map (·.dest) := by
  rw [owed_dests]
  unfold Concerned needsBye
  simp only [List.mem_map, List.mem_filter, Bool.and_eq_true, Bool.or_eq_true, decide_eq_true_eq, bne_iff_ne, ne_eq]
  constructor
  · rintro ⟨h1, e, he, rfl, h⟩
    exact ⟨e, ⟨he, h.symm, h1⟩, rfl⟩
  · rintro ⟨e, ⟨he, h, h1⟩, rfl⟩
    exact ⟨h1, e, he, rfl, h.symm⟩

theorem filter_dest_length {l : List Msg} (h : (l.map (·.dest)).Nodup) (d : FedId) (hd : d ∈ l.map (·.dest)) :
    (l.filter fun m => m.dest == d).length = 1 := by
  have h1 := length_le_one_of_nodup h d
  obtain ⟨m, hm, rfl⟩ := List.mem_map.mp hd
  have : m ∈ l.filter fun x => x.dest == m.dest := List.mem_filter.mpr ⟨hm, by simp⟩
  have := List.length_pos_of_mem this
  omega

theorem goodbyes_step (f : Fed) (cmd : Msg) (hid : f.tc.self ≠ parentBroker) (hl : Leaving f cmd)
    (hd : f.tc.disconnected = false) (d : FedId) (hp : d ≠ parentBroker) :
    goodbyesTo d (sent (f.process cmd).1) = goodbyesTo d (sent f) ++
      ((f.tc.owed (byeKind cmd)).take 255).filter (fun m => m.dest == d) := by
  obtain ⟨rest, hr, he⟩ := leaving_sent f cmd hid hl hd
  rw [he]
  unfold goodbyesTo
  rw [List.filter_append, List.filter_append, List.append_assoc]
  congr 1
  have h0 : rest.filter (fun m => m.isBye && m.dest == d) = [] := by
    rw [List.filter_eq_nil_iff]
    intro m hm h
    have := hr m hm
    simp only [Bool.and_eq_true, beq_iff_eq] at h
    exact hp (by rw [← h.2, this])
  rw [h0, List.append_nil]
  apply List.filter_congr
  intro m hm
  have hb := isBye_owed f.tc (byeKind cmd) (by unfold byeKind; split <;> simp) m (List.mem_of_mem_take hm)
  rw [hb]
  by_cases hmd : m.dest = d
  · simp [hmd, hp]
  · simp [hmd]

/-- **C10** (everybody concerned).  When a federate leaves - by its own disconnect or error, by a stop or by the
broker's acknowledgement - and has not said goodbye before, every federate concerned is sent exactly one goodbye
and nobody else any, provided no more than 255 federates are concerned
(with more it fails, see `C10_too_many`). -/
theorem C10_everybody (limit : Int) (f : Fed) (cmd : Msg) (hf : Reached limit f)
    (hl : Leaving f cmd) (hd : f.tc.disconnected = false) (hn : concernedCount f ≤ 255) (d : FedId)
    (hp : d ≠ parentBroker) :
    (Concerned f d → (goodbyesTo d (sent (f.step limit (.msg cmd)).1)).length = (goodbyesTo d (sent f)).length + 1) ∧
    (¬ Concerned f d → goodbyesTo d (sent (f.step limit (.msg cmd)).1) = goodbyesTo d (sent f)) := by
  have he := goodbyes_step f cmd hf.inv.self hl hd d hp
  rw [List.take_of_length_le (by rw [owed_count]; exact hn)] at he
  show (_ → (goodbyesTo d (sent (f.process cmd).1)).length = _) ∧ (_ → goodbyesTo d (sent (f.process cmd).1) = _)
  rw [he]
  constructor
  · intro hc
    rw [concerned_iff f (byeKind cmd)] at hc
    rw [List.length_append, filter_dest_length (owed_nodup _ _ (reached_sorted hf)) d hc]
  · intro hc
    rw [concerned_iff f (byeKind cmd)] at hc
    have : (f.tc.owed (byeKind cmd)).filter (fun m => m.dest == d) = [] := by
      rw [List.filter_eq_nil_iff]
      intro m hm h
      apply hc
      have : m.dest = d := by simpa using h
      rw [← this]
      exact List.mem_map_of_mem hm
    rw [this, List.append_nil]

/-! ### Witnesses -/

/-- `demo` (which waits for federate 8) leaves -/
def leave : Msg := { action := .disconnect, source := 7, dest := 7 }

example : Reached 100 demo ∧ Leaving demo leave ∧ demo.tc.disconnected = false ∧ concernedCount demo ≤ 255 ∧
    (8 : FedId) ≠ parentBroker ∧ Concerned demo 8 ∧ ¬ Concerned demo 9 := by
  refine ⟨demo_reached, by unfold Leaving; decide, by decide, by decide, by decide, by unfold Concerned; decide,
    by unfold Concerned; decide⟩

example : (goodbyesTo 8 (sent (demo.step 100 (.msg leave)).1)).length = 1 := by decide

/-- two attempts to leave, an error and a stop -/
def leaveOften : List FedOp :=
  demoStart ++ [.msg leave, .msg leave, .msg { action := .localError, source := 7, dest := 7 }, .msg { action := .stop }]

example : (7 : FedId) ≠ parentBroker ∧ (∀ o ∈ leaveOften, o.sane 7) ∧ NotAsked leaveOften ∧
    (goodbyesTo 8 (sent ((Fed.initial 7 true false false).run 100 leaveOften))).length = 1 := by
  refine ⟨by decide, ?_, ?_, by decide⟩
  · intro o ho
    simp only [leaveOften, leave, demoStart, fromEight, List.cons_append, List.nil_append, List.mem_cons,
      List.not_mem_nil, or_false] at ho
    rcases ho with rfl | rfl | rfl | rfl | rfl | rfl | rfl | rfl | rfl <;> simp [FedOp.sane, Msg.sane, maxVal]
  · intro cmd hc
    simp only [leaveOften, leave, demoStart, fromEight, List.cons_append, List.nil_append, List.mem_cons,
      List.not_mem_nil, or_false, FedOp.msg.injEq, reduceCtorEq, false_or] at hc
    rcases hc with rfl | rfl | rfl | rfl | rfl | rfl | rfl | rfl <;> simp

/-! ### More than 255 federates -/

/-- **C10** fails for larger systems.  A federate with more than 255 federates concerned tells only 255 of them
when it leaves: somebody concerned is sent nothing (src/helics/core/BaseTimeCoordinator.cpp:103-121 ignores that
`appendMessage`, src/helics/core/ActionMessage.cpp:971-980, refuses the 256th part). -/
theorem C10_too_many (limit : Int) (f : Fed) (cmd : Msg) (hf : Reached limit f) (hl : Leaving f cmd)
    (hd : f.tc.disconnected = false) (hn : 255 < concernedCount f)
    (hp : ¬ Concerned f parentBroker) :
    ∃ d, Concerned f d ∧ goodbyesTo d (sent (f.step limit (.msg cmd)).1) = goodbyesTo d (sent f) := by
  have hlen : 255 < (f.tc.owed (byeKind cmd)).length := by rw [owed_count]; exact hn
  refine ⟨((f.tc.owed (byeKind cmd))[255]'hlen).dest, ?_, ?_⟩
  · rw [concerned_iff f (byeKind cmd)]
    exact List.mem_map_of_mem (List.getElem_mem _)
  · have hc : Concerned f ((f.tc.owed (byeKind cmd))[255]'hlen).dest := by
      rw [concerned_iff f (byeKind cmd)]
      exact List.mem_map_of_mem (List.getElem_mem _)
    show goodbyesTo _ (sent (f.process cmd).1) = _
    rw [goodbyes_step f cmd hf.inv.self hl hd _ (fun h => hp (h ▸ hc))]
    have : ((f.tc.owed (byeKind cmd)).take 255).filter
        (fun m => m.dest == ((f.tc.owed (byeKind cmd))[255]'hlen).dest) = [] := by
      rw [List.filter_eq_nil_iff]
      intro m hm h
      obtain ⟨i, hi, rfl⟩ := List.mem_take_iff_getElem.mp hm
      have hnd := owed_nodup f.tc (byeKind cmd) (reached_sorted hf)
      have hi' : i < 255 := by omega
      have e : (f.tc.owed (byeKind cmd))[i].dest = ((f.tc.owed (byeKind cmd))[255]'hlen).dest := by simpa using h
      exact List.pairwise_iff_getElem.mp hnd i 255 (by rw [List.length_map]; omega)
        (by rw [List.length_map]; exact hlen) hi' (by simpa using e)
    rw [this, List.append_nil]

/-- 256 federates say they wait for federate 7 -/
def crowd : List FedOp :=
  (List.range 256).map fun (i : Nat) => .msg { action := .addDependent, source := 1000 + Int.ofNat i, dest := 7 }

def popular : Fed := (Fed.initial 7 true false false).run 100 crowd

theorem popular_reached : Reached 100 popular :=
  ⟨7, true, false, false, crowd, by decide, by
    intro o ho
    unfold crowd at ho
    obtain ⟨i, _, rfl⟩ := List.mem_map.mp ho
    simp [FedOp.sane, Msg.sane, maxVal], rfl⟩

/-- A reachable federate that leaves without telling one of the federates waiting for it. -/
theorem C10_dropped_counterexample :
    Reached 100 popular ∧ Leaving popular leave ∧ popular.tc.disconnected = false ∧
    ∃ d, Concerned popular d ∧ goodbyesTo d (sent (popular.step 100 (.msg leave)).1) = [] := by
  have h1 : Leaving popular leave := by unfold Leaving; decide +kernel
  have h2 : popular.tc.disconnected = false := by decide +kernel
  have h3 : 255 < concernedCount popular := by decide +kernel
  have h4 : ¬ Concerned popular parentBroker := by unfold Concerned; decide +kernel
  have h5 : sent popular = [] := by decide +kernel
  obtain ⟨d, hd, he⟩ := C10_too_many 100 popular leave popular_reached h1 h2 h3 h4
  refine ⟨popular_reached, h1, h2, d, hd, ?_⟩
  rw [he, h5]
  rfl

end Goodbyes
end Verif
