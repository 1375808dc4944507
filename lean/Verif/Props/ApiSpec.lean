import Verif.Model.AppFed
/-!
# What the calls of the application interface promise

Written from the documentation of the calls in src/helics/application_api/Federate.hpp:51-78,155-330: which calls may be made in which mode, what a mode says about
what has happened, and what callbacks are told.
-/
namespace Verif
namespace App

/-- Calls that start something and return at once.  They are not for federates that promise to use a single thread. -/
def Op.isAsync : Op → Bool
  | .enterInitAsync | .enterExecAsync _ | .requestTimeAsync _ | .requestIterAsync _ _ | .finalizeAsync => true
  | _ => false

/-- The modes in which a call may be made.  Everything else is refused. -/
def Op.permitted : Op → Mode → Bool
  | .enterInit, m | .enterInitAsync, m | .enterInitComplete, m =>
    m == .startup || m == .pendingInit || m == .initializing
  | .iterInit, m | .iterInitAsync, m | .iterInitComplete, m => m == .startup || m == .pendingIterInit
  | .enterExec _, m | .enterExecAsync _, m | .enterExecComplete, m =>
    m == .startup || m == .pendingInit || m == .initializing || m == .pendingExec || m == .executing || m == .pendingTime || m == .pendingIterTime
  | .requestTime _ _, m | .requestIter _ _, m => m == .executing || m == .finalize || m == .finished
  | .requestTimeAsync _, m | .requestIterAsync _ _, m => m == .executing
  | .requestTimeComplete, m => m == .pendingTime
  | .requestIterComplete, m => m == .pendingIterTime
  | .finalize, m | .finalizeComplete, m => m != .pendingIterInit
  | _, _ => true

/-- May this federate make this call now? -/
def Allowed (s : St) (o : Op) : Prop := o.permitted s.mode = true ∧ (s.single = true → o.isAsync = false)

/-- The calls a list of calls consists of, seen one after the other: each with those before it and itself. -/
def Asked (calls : List Call) (upTo : List Call) (c : Call) : Prop := ∃ rest, calls = upTo ++ c :: rest

/-- The core was asked `c` (after `upTo`) and answered without throwing. -/
def Answered (core : Core) (calls : List Call) (upTo : List Call) (c : Call) (flag : Bool) (t : Time) (r : Result) : Prop :=
  Asked calls upTo c ∧ core (upTo ++ [c]) = .gives flag t r

/-- Some request to enter initializing mode was answered. -/
def HadInit (core : Core) (calls : List Call) : Prop := ∃ p b t r, Answered core calls p (.enterInit .no) b t r
/-- Some request to enter executing mode was granted. -/
def HadExec (core : Core) (calls : List Call) : Prop := ∃ p it b t, Answered core calls p (.enterExec it) b t .nextStep
/-- The core has been told that the federate is done. -/
def HadFin (core : Core) (calls : List Call) : Prop := ∃ p b t r, Answered core calls p .finalize b t r

/-- The federate has been let into initializing mode: its request was granted, or a request to enter executing mode led to an iteration. -/
def InInit (core : Core) (calls : List Call) : Prop :=
  (∃ p t r, Answered core calls p (.enterInit .no) true t r) ∨ ∃ p it b t, Answered core calls p (.enterExec it) b t .iterating
/-- The core has said that the simulation is over. -/
def Ended (core : Core) (calls : List Call) : Prop :=
  (∃ p it b t, Answered core calls p (.enterExec it) b t .halted) ∨
  (∃ p n b t r, Answered core calls p (.timeRequest n) b t r ∧ t ≥ cTerm) ∨
  ∃ p n it b t r, Answered core calls p (.timeRequestIter n it) b t r ∧ (r = .halted ∨ t ≥ cTerm)

/-- Calls are made in the right order: the core is asked for executing mode only after it has answered the request for initializing mode, for time only after it has granted
executing mode, and after it has been told of the end it is told of errors at most. -/
def Ordered (core : Core) (calls : List Call) : Prop :=
  ∀ p c, Asked calls p c →
    ((∃ it, c = .enterExec it) → HadInit core p) ∧
    ((∃ t, c = .timeRequest t ∨ ∃ it, c = .timeRequestIter t it) → HadExec core p) ∧
    (HadFin core p → c = .localError ∨ c = .globalError)

/-- Calls that must not be made while an iteration of the initialization is pending. -/
def Op.rash : Op → Bool
  | .finalizeAsync | .localError | .globalError => true
  | _ => false

/-- Every call of a history is made in a state in which `ok` allows it. -/
def History (ok : St → Op → Prop) (core : Core) : St → List Op → Prop
  | _, [] => True
  | s, o :: os => ok s o ∧ History ok core (act core o s).2 os

/-- While an iteration of the initialization is pending, the caller does not end the federate asynchronously or raise an error. -/
def Careful (s : St) (o : Op) : Prop := s.mode = .pendingIterInit → o.rash = false

/-- Every request to enter initializing mode that is answered is granted (true for all but callback federates). -/
def Grants (core : Core) : Prop := ∀ calls b t r, core (calls ++ [.enterInit .no]) = .gives b t r → b = true

/-- How far a mode is in the life of a federate. -/
def Mode.rank : Mode → Nat
  | .startup | .pendingInit | .pendingIterInit => 0
  | .initializing | .pendingExec => 1
  | .executing | .pendingTime | .pendingIterTime => 2
  | .finished | .pendingFinalize => 3
  | .finalize | .error => 4

/-- Calls that only wait: for an asynchronous thread to get done, or asking whether it is. -/
def Op.waits : Op → Bool
  | .work _ | .isCompleted => true
  | _ => false

/-- The mode of which the mode callback knows: a pending operation has not changed it yet. -/
def Mode.settled : Mode → Mode
  | .pendingInit | .pendingIterInit => .startup
  | .pendingExec => .initializing
  | .pendingTime | .pendingIterTime | .pendingFinalize => .executing
  | m => m

/-- The mode callbacks tell one story: each starts from the mode in which the one before has ended. -/
def Story : Mode → List Note → Mode → Prop
  | m, [], m' => m = m'
  | m, .mode new old :: ns, m' => old = m ∧ new ≠ old ∧ Story new ns m'
  | m, _ :: ns, m' => Story m ns m'

/-- Every time update comes after the entry to executing mode was announced. -/
def EntryFirst (ns : List Note) : Prop := ∀ before t i rest, ns = before ++ .timeUpdate t i :: rest → .execEntry ∈ before

end App
end Verif
