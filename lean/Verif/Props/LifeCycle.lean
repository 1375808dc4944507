import Verif.Props.Grants
import Verif.Lemmas.Blocks
import Verif.Lemmas.TableRun
/-!
# C29: the life of a federate goes one way

`Moves` is the whole table of permitted changes of a federate's mode.  The theorems say that every event of
every history makes one of these moves, which events can make it, and that nothing is handed to the user once
executing mode has been left.
-/
namespace Verif
namespace LifeCycle
open Fed TC Grants

/-- The permitted changes of mode. -/
inductive Moves : FedState → FedState → Prop
  | stay (s : FedState) : Moves s s
  | initialize : Moves .created .initializing
  | execute : Moves .initializing .executing
  | fail (s : FedState) (h : s = .created ∨ s = .initializing ∨ s = .executing) : Moves s .errored
  | leave (s : FedState) (h : s ≠ .finished) : Moves s .terminating
  | finish (s : FedState) : Moves s .finished

/-- Executing mode is over. -/
def Over (s : FedState) : Prop := s = .errored ∨ s = .terminating ∨ s = .finished

theorem moves_of {a b : FedState} (h : a.rank ≤ b.rank) (he : a ≠ .executing → b = .executing → a = .initializing) :
    Moves a b := by
  cases a <;> cases b <;> simp [FedState.rank] at h he <;>
    first
    | exact .stay _
    | exact .initialize
    | exact .execute
    | exact .fail _ (by simp)
    | exact .leave _ (by simp)
    | exact .finish _

/-- **C29** (every event).  Whatever happens to a federate, its mode changes only as `Moves` permits. -/
theorem C29_moves (limit : Int) (f : Fed) (o : FedOp) (hf : Reached limit f) (ho : o.sane f.tc.self) :
    Moves f.state (f.step limit o).1.state :=
  let h := step_ok limit f o hf.inv ho
  moves_of h.rank h.enter

example : Reached 100 demo ∧ (fromEight .timeRequest 20).sane demo.tc.self :=
  ⟨demo_reached, by decide, by decide⟩

/-- **C29** (never back).  A mode that has been left is never entered again: if the mode before a history is
`a`, is `b` at some later point and `a` again after that, then `b = a`. -/
theorem C29_never_back (limit : Int) (f : Fed) (xs ys : List FedOp) (hf : Reached limit f)
    (hx : ∀ o ∈ xs, o.sane f.tc.self) (hy : ∀ o ∈ ys, o.sane f.tc.self)
    (h : (f.run limit (xs ++ ys)).state = f.state) : (f.run limit xs).state = f.state := by
  obtain ⟨i, r, s⟩ := run_ok limit f xs hf.inv hx
  obtain ⟨_, r', _⟩ := run_ok limit (f.run limit xs) ys i (by rw [s]; exact hy)
  have e : (f.run limit xs).run limit ys = f.run limit (xs ++ ys) := by simp [run]
  rw [e, h] at r'
  have hr : f.state.rank = (f.run limit xs).state.rank := Nat.le_antisymm r r'
  revert hr
  cases f.state <;> cases (f.run limit xs).state <;> simp [FedState.rank]

example : Reached 100 demo ∧ (demo.run 100 ([fromEight .timeRequest 20] ++ [fromEight .timeRequest 30])).state = demo.state :=
  ⟨demo_reached, by decide⟩

/-- **C29** (finished is final). -/
theorem C29_finished_final (limit : Int) (f : Fed) (ops : List FedOp) (hf : Reached limit f)
    (ho : ∀ o ∈ ops, o.sane f.tc.self) (h : f.state = .finished) : (f.run limit ops).state = .finished := by
  obtain ⟨_, r, _⟩ := run_ok limit f ops hf.inv ho
  rw [h] at r
  revert r
  cases (f.run limit ops).state <;> simp [FedState.rank]

/-- **C29** (over is over).  Once executing mode has been left through an error, a disconnect or the end, it is
never entered again and no time is handed out any more, whatever arrives or is called. -/
theorem C29_over (limit : Int) (f : Fed) (ops : List FedOp) (hf : Reached limit f)
    (ho : ∀ o ∈ ops, o.sane f.tc.self) (h : Over f.state) :
    Over (f.run limit ops).state ∧ f.grants limit ops = [] := by
  have key : ∀ (ops : List FedOp) (f : Fed), Inv f → (∀ o ∈ ops, o.sane f.tc.self) → 3 ≤ f.state.rank →
      3 ≤ (f.run limit ops).state.rank ∧ f.grants limit ops = [] := by
    intro ops
    induction ops with
    | nil => intro f _ _ h; exact ⟨h, rfl⟩
    | cons o os ih =>
      intro f hi ho h
      have s := step_ok limit f o hi (ho o (by simp))
      have hr : 3 ≤ (f.step limit o).1.state.rank := Nat.le_trans h s.rank
      obtain ⟨a, b⟩ := ih (f.step limit o).1 s.inv (by rw [s.self]; intro x hx; exact ho x (by simp [hx])) hr
      refine ⟨a, ?_⟩
      have hn : returned (f.step limit o) = none := by
        unfold returned
        rw [if_neg]
        intro he; rw [he] at hr; simp [FedState.rank] at hr
      simp only [grants, hn, b, List.append_nil]
  have h3 : 3 ≤ f.state.rank := by rcases h with h | h | h <;> rw [h] <;> decide
  obtain ⟨a, b⟩ := key ops f hf.inv ho h3
  refine ⟨?_, b⟩
  revert a
  cases (f.run limit ops).state <;> simp [FedState.rank, Over]

/-- `demo` after a failure -/
def failed : Fed := demo.run 100 [.msg { action := .localError, source := 7, dest := 7 }]

theorem failed_reached : Reached 100 failed :=
  ⟨7, true, false, false, demoStart ++ [.msg { action := .localError, source := 7, dest := 7 }], by decide, by
    intro o ho
    simp only [demoStart, fromEight, List.cons_append, List.nil_append, List.mem_cons, List.not_mem_nil, or_false] at ho
    rcases ho with rfl | rfl | rfl | rfl | rfl | rfl <;> simp [FedOp.sane, Msg.sane, maxVal], by
    simp [failed, demo, run]⟩

example : Reached 100 failed ∧ Over failed.state := ⟨failed_reached, by left; decide⟩

/-! ### What can cause each move -/

/-- The commands that can make a federate take each move. -/
def Causes (f : Fed) (cmd : Msg) : FedState → Prop
  | .created => False
  | .initializing => cmd.action = .initGrant
  | .executing => cmd.action ∈ [Cmd.execRequest, .execGrant, .execCheck, .timeCheck, .timeRequest, .timeGrant,
      .timeBlock, .timeUnblock, .timeBarrier, .timeBarrierClear]
  | .errored => cmd.action ∈ [Cmd.error, .localError, .globalError] ∨ (cmd.action = .initGrant ∧ f.interfacesOk = false)
  | .terminating => cmd.action ∈ [Cmd.disconnect, .disconnectFed] ∧ cmd.source = f.tc.self
  | .finished => cmd.action ∈ [Cmd.stop, .terminateImmediately] ∨
      (cmd.action = .disconnectFedAck ∧ cmd.source = parentBroker)


theorem execCheck_state (f : Fed) (cmd : Msg) :
    (f.execCheck cmd).1.state = f.state ∨ (f.execCheck cmd).1.state = .executing := by
  unfold execCheck
  simp only
  repeat' split
  all_goals first | exact Or.inl rfl | exact Or.inr rfl

/-- The commands under which the entry to executing mode is examined. -/
def examines : List Cmd := [Cmd.execRequest, .execGrant, .execCheck, .timeCheck, .timeRequest, .timeGrant,
      .timeBlock, .timeUnblock, .timeBarrier, .timeBarrierClear]

theorem coordinator_causes (f : Fed) (cmd : Msg) :
    ((f.coordinator cmd).1.state = f.state ∨
      (Causes f cmd (f.coordinator cmd).1.state ∧ ((f.coordinator cmd).1.state = .initializing →
        (f.coordinator cmd).2.1 = .nextStep))) ∧
    ((f.coordinator cmd).2.1 = .reprocessMessage →
      (f.coordinator cmd).1.state = .terminating ∧ (f.coordinator cmd).2.2.dest = parentBroker ∨
      (cmd.action ∈ examines ∧ (f.coordinator cmd).1.state = f.state ∧
        ((f.coordinator cmd).2.2.action = .execCheck ∨ (f.coordinator cmd).2.2.action = .timeCheck))) ∧
    ((f.coordinator cmd).2.1 = .continueProcessing → (f.coordinator cmd).2.2 = cmd ∧
      (f.coordinator cmd).1.state = f.state) := by
  have ht := tryGrant_keep
  have hr := tryGrant_result
  have he := execCheck_state
  have hq := execCheck_result
  have hpr := execCheck_progress
  unfold coordinator
  simp only
  split
  all_goals (try simp only [*])
  all_goals (repeat' split)
  all_goals (try simp [Causes, examines, *])
  all_goals grind [Causes]

theorem coordinator_ok (f : Fed) (cmd : Msg) :
    (f.coordinator cmd).1.interfacesOk = f.interfacesOk ∧
    ((f.coordinator cmd).1.state = .initializing → f.state ≠ .initializing → cmd.action = .initGrant) := by
  have h1 : ∀ (g : Fed) t, (g.tryGrant t).1.interfacesOk = g.interfacesOk := by
    intro g t; unfold tryGrant; split <;> rfl
  have h2 : ∀ (g : Fed) c, (g.execCheck c).1.interfacesOk = g.interfacesOk := by
    intro g c; unfold execCheck; simp only; repeat' split
    all_goals rfl
  have ht := tryGrant_keep
  have he := execCheck_state
  unfold coordinator
  simp only
  split
  all_goals (try simp only [*])
  all_goals (repeat' split)
  all_goals (try simp [*])
  all_goals grind

theorem secondSwitch_causes (f : Fed) (cmd : Msg) (x : Fed × MPR) (h : secondSwitch f cmd = some x) :
    x.1.state = f.state ∨ (x.1.state = .terminating ∧ cmd.action ∈ [Cmd.disconnect, .disconnectFed] ∧
      cmd.source = f.tc.self) := by
  unfold secondSwitch at h
  simp only at h
  repeat' split at h
  all_goals (first | cases h | skip)
  all_goals (first | exact Or.inl rfl | skip)
  all_goals (simp [*])

/-- re-examination only ever enters executing mode -/
theorem processN_examine (n : Nat) (f : Fed) (cmd : Msg) 
    (h : cmd.action = .execCheck ∨ cmd.action = .timeCheck) :
    (processN n f cmd).1.state = f.state ∨ (processN n f cmd).1.state = .executing := by
  induction n generalizing f cmd with
  | zero => exact Or.inl rfl
  | succ n ih =>
    rcases h with h | h
    · have hc : f.coordinator cmd = ((f.execCheck cmd).1, (f.execCheck cmd).2, cmd) := by
        unfold coordinator; simp only [h]
      have hn := execCheck_result f cmd
      have hst : (stateChange f.state (f.execCheck cmd).1).1.state = f.state ∨
          (stateChange f.state (f.execCheck cmd).1).1.state = .executing := by
        rcases execCheck_state f cmd with e | e
        · left; rw [stateChange_same f _ (Or.inl e)]; exact e
        · unfold stateChange
          split
          · rename_i h'; right; exact e
          · right; simp [e]
      have h2 : secondSwitch (stateChange f.state (f.execCheck cmd).1).1 cmd =
          some ((stateChange f.state (f.execCheck cmd).1).1, .continueProcessing) := by
        unfold secondSwitch; simp only [h]
      simp only [processN, hc]
      split
      · exact hst
      · split
        · rw [h2]; exact hst
        · rename_i h'; exact absurd h' hn
        · exact hst
    · by_cases hs : f.state = .executing
      · have hc : f.coordinator cmd = ((f.tryGrant invalidFed).1, (f.tryGrant invalidFed).2, cmd) := by
          unfold coordinator; simp only [h, hs, ne_eq, not_true_eq_false, if_false]
        have hn := tryGrant_result f invalidFed
        have hsc := stateChange_same f (f.tryGrant invalidFed).1 (Or.inl (tryGrant_keep _ _))
        have h2 : secondSwitch (f.tryGrant invalidFed).1 cmd = some ((f.tryGrant invalidFed).1, .continueProcessing) := by
          unfold secondSwitch; simp only [h]
        left
        simp only [processN, hc, hsc, Bool.false_eq_true, if_false]
        split
        · rw [h2]; exact tryGrant_keep _ _
        · rename_i h'; exact absurd h' hn
        · exact tryGrant_keep _ _
      · have h2 : secondSwitch f cmd = some (f, .continueProcessing) := by
          unfold secondSwitch; simp only [h]
        by_cases hi : f.state = .initializing
        · have hc : f.coordinator cmd = (f, .reprocessMessage, { cmd with action := .execCheck }) := by
            unfold coordinator; simp only [h, hi, ne_eq, reduceCtorEq, not_false_eq_true, if_true]
          have hsc := stateChange_same f f (Or.inl rfl)
          simp only [processN, hc, hsc, Bool.false_eq_true, if_false]
          split
          · exact Or.inl rfl
          · exact ih f _ (Or.inl rfl)
        · have hc : f.coordinator cmd = (f, .continueProcessing, cmd) := by
            unfold coordinator; simp only [h, hs, hi, ne_eq, not_false_eq_true, if_true, if_false]
          have hsc := stateChange_same f f (Or.inl rfl)
          simp only [processN, hc, hsc, Bool.false_eq_true, if_false, h2]
          exact Or.inl trivial

/-- the goodbye of the federate itself is dealt with before the second switch -/
theorem second_keeps (f : Fed) (cmd : Msg) (x : Fed × MPR) (hct : cmd.actionTime ≤ maxVal)
    (hp : (f.coordinator cmd).2.1 = .continueProcessing)
    (hs : (f.coordinator cmd).1.state = f.state)
    (h : secondSwitch (f.coordinator cmd).1 cmd = some x) : x.1.state = f.state := by
  rcases secondSwitch_causes _ _ _ h with e | ⟨_, ha, hself⟩
  · exact e.trans hs
  · have hc : cmd.source = f.tc.self := by rw [hself]; exact self_coordinator f cmd hct
    have hcoord : f.coordinator cmd = (f, .continueProcessing, cmd) ∨ (f.coordinator cmd).2.1 = .reprocessMessage := by
      simp only [List.mem_cons, List.not_mem_nil, or_false] at ha
      rcases ha with ha | ha <;> unfold coordinator <;> simp only [ha, hc, if_true] <;> split <;> simp
    rcases hcoord with e | e
    · have hcoord2 : f.state = .finished ∨ f.state = .terminating := by
        by_cases hh : f.state ≠ .finished ∧ f.state ≠ .terminating
        · exfalso
          simp only [List.mem_cons, List.not_mem_nil, or_false] at ha
          rcases ha with ha | ha <;> unfold coordinator at e <;> simp [ha, hc, hh] at e
        · exact Decidable.or_iff_not_not_and_not.mpr hh
      rw [e] at h
      unfold secondSwitch at h
      simp only [List.mem_cons, List.not_mem_nil, or_false] at ha
      rcases ha with ha | ha <;> rcases hcoord2 with h2 | h2 <;> simp [ha, hc, h2] at h <;> rw [← h]
    · rw [hp] at e; cases e

/-- the side effects of a change of mode -/
theorem stateChange_state (old : FedState) (g : Fed) : (stateChange old g).1.state = g.state ∨
    ((stateChange old g).1.state = .errored ∧ (stateChange old g).2 = true ∧ old ≠ .initializing ∧ g.state = .initializing ∧
      g.interfacesOk = false) := by
  unfold stateChange
  split
  · exact Or.inl rfl
  · rename_i hne
    split
    · rename_i hs
      rw [hs] at hne
      split
      · rename_i h
        right
        exact ⟨rfl, rfl, hne, hs, by simpa using h⟩
      · left; rfl
    · left; rfl
    · left; rfl

theorem process_causes (f : Fed) (cmd : Msg) (hct : cmd.actionTime ≤ maxVal) (hp : f.tc.self ≠ parentBroker) :
    (f.process cmd).1.state = f.state ∨ Causes f cmd (f.process cmd).1.state := by
  have hk := coordinator_causes f cmd
  have hok := coordinator_ok f cmd
  have hsf := self_coordinator f cmd hct
  have hsec := second_keeps f cmd
  generalize hcd : f.coordinator cmd = c at hk hok hsf hsec
  obtain ⟨g, m, cm⟩ := c
  simp only at hk hok hsf hsec
  obtain ⟨h1, h2, h3⟩ := hk
  show (processN 4 f cmd).1.state = f.state ∨ Causes f cmd (processN 4 f cmd).1.state
  rw [show (4 : Nat) = 3 + 1 from rfl]
  rw [processN]
  simp only [hcd]
  by_cases hsame : g.state = f.state
  · rw [stateChange_same f g (Or.inl hsame)]
    simp only [Bool.false_eq_true, if_false]
    split
    · obtain rfl : cm = cmd := (h3 rfl).1
      split
      · rename_i x hx
        exact Or.inl (hsec x hct rfl hsame hx)
      · rename_i hx
        have ha : cm.action = .execRequest := by
          unfold secondSwitch at hx
          simp only at hx
          repeat' split at hx
          all_goals first | assumption | cases hx
        rcases processN_examine 3 g { cm with action := .execCheck } (Or.inl rfl) with e | e
        · left; rw [e]; exact hsame
        · right; rw [e]; simp [Causes, ha]
    · split
      · exact Or.inl hsame
      · rename_i hd
        rcases h2 rfl with ⟨_, hd'⟩ | ⟨ha, _, hcm⟩
        · rw [hd', hsf] at hd
          exact absurd (Decidable.not_not.mp hd).symm hp
        · rcases processN_examine 3 g cm hcm with e | e
          · left; rw [e]; exact hsame
          · right; rw [e]; exact ha
    · exact Or.inl hsame
  · have hca := h1.resolve_left hsame
    have hst := stateChange_state f.state g
    have hsig : (stateChange f.state g).1.state = g.state ∨ True := Or.inr trivial
    split
    · rcases hst with e | ⟨e, _, e2, e3, e4⟩
      · right; show Causes f cmd (stateChange f.state g).1.state; rw [e]; exact hca.1
      · right; show Causes f cmd (stateChange f.state g).1.state; rw [e]
        exact Or.inr ⟨hok.2 e3 e2, by rw [← hok.1]; exact e4⟩
    · rename_i hno
      have e : (stateChange f.state g).1.state = g.state := by
        rcases hst with e | ⟨_, e, _⟩
        · exact e
        · exact absurd e hno
      split
      · exact absurd (h3 rfl).2 hsame
      · have h2' := h2 rfl
        rcases h2' with ⟨ht, hd⟩ | ⟨_, h', _⟩
        · have hself : cm.dest ≠ (stateChange f.state g).1.tc.self := by
            have : (stateChange f.state g).1 = g := by
              unfold stateChange; split
              · rfl
              · simp [ht]
            rw [this, hsf, hd]; exact fun h => hp h.symm
          rw [if_pos hself]
          right; show Causes f cmd (stateChange f.state g).1.state; rw [e]; exact hca.1
        · exact absurd h' hsame
      · right; show Causes f cmd (stateChange f.state g).1.state; rw [e]; exact hca.1

/-- **C29** (who moves it).  A federate changes mode only in response to a command that is meant to do so -
initialization on the broker's grant, an error on an error command (or on the broker's grant when its interfaces
are not valid), a goodbye on its own disconnect, the end on a stop or on the broker's acknowledgement - or by
entering executing mode; calls asking for a time, arriving data and changed settings never move it, and the call
asking for executing mode moves it nowhere else. -/
theorem C29_causes (limit : Int) (f : Fed) (o : FedOp) (hf : Reached limit f) (ho : o.sane f.tc.self)
    (hch : (f.step limit o).1.state ≠ f.state) :
    (∃ cmd, o = .msg cmd ∧ Causes f cmd (f.step limit o).1.state) ∨
    ((∃ it, o = .execRequest it) ∧ (f.step limit o).1.state = .executing) := by
  have hp := hf.inv.self
  cases o with
  | msg cmd =>
    left
    exact ⟨cmd, rfl, (process_causes f cmd ho.1 hp).resolve_left hch⟩
  | timeRequest t it nv nm =>
    exfalso; apply hch
    simp only [step]
    split
    · rename_i hx
      rcases processN_examine 4 { f with tc := f.tc.timeRequest t (f.limitIter limit it) nv nm, mode := false }
        { action := .timeCheck, source := f.tc.self, dest := f.tc.self, actionTime := t } (Or.inr rfl) with e | e
      · exact e
      · exact e.trans hx.1.symm
    · rfl
  | execRequest it =>
    right
    refine ⟨⟨it, rfl⟩, ?_⟩
    simp only [step] at hch ⊢
    split at hch
    · rename_i hx
      rw [if_pos hx]
      have := (process_causes f (setIterationFlags
        { action := .execRequest, source := f.tc.self, dest := f.tc.self, indicator := true } it)
        (by cases it <;> simp [setIterationFlags, maxVal]) hp).resolve_left hch
      show (f.process _).1.state = .executing
      have ha : (setIterationFlags
        { action := .execRequest, source := f.tc.self, dest := f.tc.self, indicator := true } it).action = .execRequest := by
        cases it <;> rfl
      revert this
      cases (f.process (setIterationFlags
        { action := .execRequest, source := f.tc.self, dest := f.tc.self, indicator := true } it)).1.state <;>
        simp [Causes, ha]
    · exact absurd rfl hch
  | value cmd => exact absurd rfl hch
  | message cmd => exact absurd rfl hch
  | setTime p v => simp only [step] at hch; split at hch <;> exact absurd rfl hch
  | setFlag p v => exact absurd rfl hch
  | setMaxIterations v => exact absurd rfl hch

example : Reached 100 demo ∧ (demo.step 100 (.msg { action := .localError, source := 7, dest := 7 })).1.state ≠ demo.state :=
  ⟨demo_reached, by decide⟩

end LifeCycle
end Verif
