import Verif.Props.ApiFine
import Verif.Props.ApiNotes
/-!
# C52, C53, C54: cases, and where the calls do not do what they promise

A federate that goes through its life shows that the theorems say something; then cases in which what one would expect is false of the code.
-/
namespace Verif
namespace App

/-- A core that grants everything: time requests up to the asked time, iterations when they are forced. -/
def kindCore : Core := fun calls =>
  match calls.getLast? with
  | some .currentTime => .gives true initializationTime .nextStep
  | some (.enterExec .force) => .gives true 0 .iterating
  | some (.timeRequest t) => .gives true t .nextStep
  | some (.timeRequestIter t .force) => .gives true (t - 1) .iterating
  | some (.timeRequestIter t _) => .gives true t .nextStep
  | _ => .gives true 0 .nextStep

theorem kindCore_kind : Kind kindCore := by
  intro calls e h
  unfold kindCore at h
  split at h <;> cases h

theorem kindCore_grants : Grants kindCore := by
  intro calls b t r h
  unfold kindCore at h
  rw [List.getLast?_concat] at h
  simp at h
  exact h.1

/-- A federate's life, with asynchronous calls. -/
def life : List Op :=
  [.iterInit, .enterInitAsync, .isCompleted, .work .init, .enterInitComplete, .requestTime 3 5, .enterExec .force, .enterExecAsync .no, .enterExecComplete,
   .requestTime 3 5, .requestTimeAsync 9, .work .time, .requestTimeComplete, .requestIter 12 .force, .requestIterAsync 15 .no, .requestIterComplete,
   .finalizeAsync, .finalizeComplete]

/-- It is careful, plain, and over once. -/
example : History Careful kindCore (start false false false minVal) life := by
  simp only [life, History, Careful, Op.rash]; decide +kernel
example : History OnceOver kindCore (start false false false minVal) life := by
  simp only [life, History, OnceOver]
  refine ⟨?_, ?_, ?_, ?_, ?_, ?_, ?_, ?_, ?_, ?_, ?_, ?_, ?_, ?_, ?_, ?_, ?_, ?_, ?_⟩ <;> decide +kernel
example : History Plain kindCore (start false false false minVal) life := by
  simp only [life, History, Plain]
  refine ⟨?_, ?_, ?_, ?_, ?_, ?_, ?_, ?_, ?_, ?_, ?_, ?_, ?_, ?_, ?_, ?_, ?_, ?_, ?_⟩ <;> first | trivial | (refine ⟨by decide +kernel, ?_, by decide +kernel⟩; intro it e; cases e; decide +kernel) | (refine ⟨by decide +kernel, ?_, by decide +kernel⟩; intro it e; cases e)
/-- The mode callback is told the whole story, and the core is called in the right order; the time request before executing mode was refused. -/
example : (run kindCore (start false false false minVal) life).calls =
    [.enterInit .force, .enterInit .no, .currentTime, .enterExec .force, .currentTime, .enterExec .no, .timeRequest 5, .timeRequest 9,
     .timeRequestIter 12 .force, .timeRequestIter 15 .no, .finalize] := by decide +kernel
example : ((run kindCore (start false false false minVal) life).notes.filter fun n => match n with | .mode _ _ | .execEntry | .terminated => true | _ => false) =
    [.mode .initializing .startup, .mode .executing .initializing, .execEntry, .mode .finalize .executing, .terminated] := by decide +kernel
example : ((run kindCore (start false false false minVal) life).notes.filter fun n => match n with | .timeUpdate _ _ => true | _ => false) =
    [.timeUpdate 0 false, .timeUpdate 5 false, .timeUpdate 9 false, .timeUpdate 11 true, .timeUpdate 15 false] := by decide +kernel
example : (run kindCore (start false false false minVal) life).mode = .finalize ∧ (run kindCore (start false false false minVal) life).now = 15 := by decide +kernel

/-- A refused call. -/
example : ¬ Allowed (start false false false 0) (.requestTime 1 5) := by unfold Allowed; decide +kernel
example : ¬ Allowed (start true false false 0) .enterInitAsync := by unfold Allowed; decide +kernel
example : Allowed (start true false false 0) .enterInit := by unfold Allowed; decide +kernel

/-- The state of a federate in executing mode, and in the other modes, with nothing pending. -/
def executing : St := run kindCore (start false false false minVal) [.enterInit, .enterExec .no]
example : executing.mode = .executing ∧ executing.single = false ∧ executing.retrigger = false ∧ AtRest executing :=
  ⟨by decide +kernel, rfl, rfl, fun k => by cases k <;> decide +kernel⟩
def initialized : St := run kindCore (start false false false minVal) [.enterInit]
example : initialized.mode = .initializing ∧ initialized.single = false ∧ AtRest initialized := ⟨by decide +kernel, rfl, fun k => by cases k <;> decide +kernel⟩
example : AtRest (start false true false minVal) ∧ (start false true false minVal).mode = .startup := ⟨fun k => by cases k <;> decide +kernel, rfl⟩
def finishedState : St := run kindCore executing [.requestTime 1 maxVal]
example : finishedState.mode = .finished ∧ AtRest finishedState := ⟨by decide +kernel, fun k => by cases k <;> decide +kernel⟩

/-- What a time request returns. -/
example : (act kindCore (.requestTime 1 7) executing).1 = .ok (.time 7) := by decide +kernel
example : (act kindCore (.requestTime 1 maxVal) executing).1 = .ok (.time maxVal) := by decide +kernel
example : (act kindCore (.requestIter 7 .force) executing).1 = .ok (.iter 6 .iterating) := by decide +kernel
/-- With automatic repetition, until the end. -/
def stepCore : Core := fun calls =>
  match calls.getLast? with
  | some (.timeRequest _) => .gives true (if calls.length < 8 then calls.length else maxVal) .nextStep
  | _ => kindCore calls
example : (act stepCore (.requestTime 9 7) (run stepCore (start false false true 0) [.enterInit, .enterExec .no])).1 = .ok (.time maxVal) := by decide +kernel
example : (act stepCore (.requestTime 2 7) (run stepCore (start false false true 0) [.enterInit, .enterExec .no])).1 = .busy := by decide +kernel

/-- `C53_time` applied. -/
example : act kindCore .requestTimeComplete (run kindCore (act kindCore (.requestTimeAsync 7) executing).2 [.isCompleted, .work .time, .isCompleted]) =
    act kindCore (.requestTime 1 7) executing :=
  C53_time kindCore executing 7 0 (by decide +kernel) rfl (fun k => by cases k <;> decide +kernel) rfl (fun c e h => absurd h (kindCore_kind c e)) _ (by decide +kernel)

/-! ## Where it fails -/

/-- A core that throws `e` at every call `p` accepts. -/
def failing (p : Call → Bool) (e : Exn) : Core := fun calls =>
  match calls.getLast? with
  | some c => if p c then .throws e else kindCore calls
  | none => kindCore calls

/-- The error of a time request: after the blocking call the federate is in the error mode, after the asynchronous one it goes on as if nothing had happened. -/
theorem C53_time_fails :
    let core := failing (fun c => c == .timeRequest 7) .execFailure
    (act core (.requestTime 1 7) executing).1 = .throws .execFailure ∧ (act core (.requestTime 1 7) executing).2.mode = .error ∧
    (act core .requestTimeComplete (act core (.requestTimeAsync 7) executing).2).1 = .throws .execFailure ∧
    (act core .requestTimeComplete (act core (.requestTimeAsync 7) executing).2).2.mode = .executing := by decide +kernel

/-- Automatic repetition is not done by the asynchronous request: it returns a time before the end. -/
theorem C53_retrigger_fails :
    let s := run stepCore (start false false true 0) [.enterInit, .enterExec .no]
    (act stepCore (.requestTime 9 7) s).1 = .ok (.time maxVal) ∧ (act stepCore .requestTimeComplete (act stepCore (.requestTimeAsync 7) s).2).1 = .ok (.time 4) := by decide +kernel

/-- A request to enter initializing mode that is answered with `false` (as for callback federates): after the blocking call another one is possible; after the
asynchronous one the federate waits for a thread that is gone, and the next completion takes it to the error mode. -/
theorem C53_init_fails :
    let core : Core := fun calls => if calls.getLast? = some (.enterInit .no) then .gives false 0 .nextStep else kindCore calls
    let s := start false false false minVal
    (act core .enterInit s).2.mode = .startup ∧ (act core .enterInit (act core .enterInit s).2).1 = .ok .unit ∧
    (run core s [.enterInitAsync, .enterInitComplete]).mode = .pendingInit ∧ (act core .isCompleted (run core s [.enterInitAsync, .enterInitComplete])).1 = .throws .std ∧
    (run core s [.enterInitAsync, .enterInitComplete, .enterInitComplete]).mode = .error := by decide +kernel

/-- An exception that is not one of HELICS' own: the blocking call leaves the mode as it is, the asynchronous one gives an error. -/
theorem C53_init_std_fails :
    let core := failing (fun c => c == .enterInit .no) .std
    let s := start false false false minVal
    (act core .enterInit s).2.mode = .startup ∧ (run core s [.enterInitAsync, .enterInitComplete]).mode = .error := by decide +kernel

/-- An iteration of the initialization with potential interfaces: the blocking call offers them, the asynchronous one does not. -/
theorem C53_again_fails :
    let s := start false true false minVal
    (act kindCore .iterInit s).2.calls = [.offer, .enterInit .force] ∧ (run kindCore s [.iterInitAsync, .iterInitComplete]).calls = [.enterInit .force] ∧
    (act kindCore .iterInit s).2.potSeq = 2 ∧ (run kindCore s [.iterInitAsync, .iterInitComplete]).potSeq = 0 := by decide +kernel

/-- An asynchronous iteration of the initialization takes down a federate that uses one thread only. -/
theorem C52_single_crash : (act kindCore .iterInitAsync (start true false false minVal)).1 = .crash := by decide +kernel

/-- An exception at the entry to executing mode: the blocking call leaves the federate in initializing mode, the asynchronous one gives an error. -/
theorem C53_exec_fails :
    let core := failing (fun c => c == .enterExec .no) .execFailure
    (act core (.enterExec .no) initialized).1 = .throws .execFailure ∧ (act core (.enterExec .no) initialized).2.mode = .initializing ∧
    (run core initialized [.enterExecAsync .no, .enterExecComplete]).mode = .error := by decide +kernel

/-- An exception at the end: after the blocking call the federate may try again; after the asynchronous one it waits for ever for a thread that is gone. -/
theorem C53_finalize_fails :
    let core := failing (fun c => c == .finalize) .helics
    (act core .finalize executing).2.mode = .executing ∧ (run core executing [.finalizeAsync, .finalizeComplete]).mode = .pendingFinalize ∧
    (act core .finalize (run core executing [.finalizeAsync, .finalizeComplete])).1 = .throws .std ∧
    (act core .finalize (run core executing [.finalizeAsync, .finalizeComplete])).2.mode = .pendingFinalize := by decide +kernel

/-- `enterExecutingMode` for a federate whose time request is pending says that a step may be made even when the simulation is over. -/
theorem C53_exec_pending_fails :
    (act kindCore (.enterExec .no) (act kindCore (.requestTimeAsync maxVal) executing).2).1 = .ok (.iter 0 .nextStep) ∧
    (act kindCore (.enterExec .no) (act kindCore (.requestTimeAsync maxVal) executing).2).2.mode = .finished := by decide +kernel

/-- From startup mode straight to executing mode: the blocking call tells the mode callback of both changes, the asynchronous one of the second only, so that the callback
hears of a change from a mode that it has never heard of. -/
theorem C54_story_fails :
    let s := start false false false minVal
    let told (x : St) := x.notes.filter fun n => match n with | .mode _ _ | .initEntry _ => true | _ => false
    told (act kindCore (.enterExec .no) s).2 = [.mode .initializing .startup, .initEntry false, .mode .executing .initializing] ∧
    told (run kindCore s [.enterExecAsync .no, .enterExecComplete]) = [.mode .executing .initializing] := by decide +kernel

/-- The asynchronous end of a federate that never got to executing mode is reported as the end of one in executing mode. -/
theorem C54_finalize_fails :
    (run kindCore (start false false false minVal) [.finalizeAsync, .finalizeComplete]).notes = [.mode .finalize .executing, .terminated] := by decide +kernel

/-- An asynchronous iteration of the initialization that fails is not reported to the mode callback, only as the end. -/
theorem C54_iterate_fails :
    let s := run (failing (fun c => c == .enterInit .force) .helics) (start false false false minVal) [.iterInitAsync, .iterInitComplete]
    s.mode = .error ∧ s.notes = [.terminated] := by decide +kernel

/-- An error raised after the end: the end is announced twice, and the mode leads from the end to the error. -/
theorem C54_end_once_fails : (run kindCore executing [.finalize, .localError]).notes.count .terminated = 2 := by decide +kernel

/-- At the end of the simulation the time callback is called before the mode callback: it runs in the old mode (`updateSimulationTime`). -/
theorem C54_time_before_mode :
    ∃ ns, (run kindCore executing [.requestTime 1 maxVal]).notes = ns ++ [.timeUpdate maxVal false, .hookTime maxVal 0, .mode .finished .executing, .requestReturn maxVal false] :=
  ⟨(run kindCore executing [.requestTime 1 maxVal]).notes.take 9, by decide +kernel⟩

/-- While an iteration of the initialization is pending, an asynchronous end or an error leaves its thread alone: it may ask the core to enter initializing mode after the
core was told that the federate is done. -/
theorem C52_order_fails : (run kindCore (start false false false minVal) [.iterInitAsync, .finalizeAsync, .finalizeComplete, .work .iterInit]).calls = [.finalize, .enterInit .force] := by
  decide +kernel

/-- The end of a federate while an iteration of the initialization is pending: `finalize` is refused, and the destructor swallows that; the core never hears of the end. -/
theorem C52_destroy_fails :
    (act kindCore .finalize (act kindCore .iterInitAsync (start false false false minVal)).2).1 = .throws .invalidCall ∧
    (run kindCore (start false false false minVal) [.iterInitAsync, .destroy]).mode = .pendingIterInit ∧
    (run kindCore (start false false false minVal) [.iterInitAsync, .destroy]).calls = [] := by decide +kernel

/-- An asynchronous end while the entry to executing mode is pending, and the answer is an error: the error mode is left again. -/
theorem C52_forward_fails :
    let core : Core := fun calls => if calls.getLast? = some (.enterExec .no) then .gives true 0 .error else kindCore calls
    let s := run core (start false false false minVal) [.enterInit, .enterExecAsync .no]
    (act core .enterExecComplete s).2.mode = .error ∧ (act core .finalizeAsync s).2.mode = .pendingFinalize ∧
    (run core s [.finalizeAsync, .finalizeComplete]).mode = .finalize ∧
    (run core s [.finalizeAsync, .finalizeComplete]).notes.count .terminated = 2 := by decide +kernel

end App
end Verif
