import Verif.Model.Time
/-!
# The federate object of the application interface

Models the operating modes, the blocking and asynchronous calls and the callbacks of `Federate`
(src/helics/application_api/Federate.hpp, src/helics/application_api/Federate.cpp).  The core below it is an arbitrary function
that answers each call, given all calls so far.  Callbacks are recorded whether or not one is installed (installing
one changes nothing else).  Simplifications: the core calls of an asynchronous thread happen in one go, at some moment between its
start and the completion; callbacks do not call the federate again and do not throw; the federate is not moved; the closing of
filters and translators (`cManager`) is left out; a completion waits as long as the asynchronous thread needs.
-/
namespace Verif
namespace App

/-- `Federate::Modes` (src/helics/application_api/Federate.hpp:51-78). -/
inductive Mode
  | startup | initializing | executing | finalize | error | pendingInit | pendingExec | pendingTime | pendingIterTime
  | pendingFinalize | finished | pendingIterInit
  deriving DecidableEq, Repr

/-- `IterationRequest` (src/helics/core/helics-time.hpp, src/helics/helics_enums.h). -/
inductive Iter
  | no | force | ifNeeded | halt | error
  deriving DecidableEq, Repr

/-- `IterationResult` (src/helics/core/helics-time.hpp). -/
inductive Result
  | nextStep | error | halted | iterating
  deriving DecidableEq, Repr

/-- The exceptions that are told apart: four kinds of `HelicsException` (src/helics/core/core-exceptions.hpp:18-110) and any
other `std::exception`. -/
inductive Exn
  | invalidCall | execFailure | registration | helics | std
  deriving DecidableEq, Repr

/-- Calls of the federate to its core.  `commands` stands for the loop that fetches and processes commands, and `offer` for
`PotentialInterfacesManager::initialize` (src/helics/application_api/Federate.cpp:1098-1129). -/
inductive Call
  | enterInit (it : Iter) | currentTime | enterExec (it : Iter) | timeRequest (t : Time) | timeRequestIter (t : Time) (it : Iter)
  | finalize | localError | globalError | offer | commands
  deriving DecidableEq, Repr

/-- What a call to the core does: it throws, or gives a result (of which each call uses one part). -/
inductive Ans
  | throws (e : Exn)
  | gives (flag : Bool) (t : Time) (r : Result)
  deriving DecidableEq, Repr

/-- What callbacks are told, and the hooks for derived classes (`startupToInitializeStateTransition`,
`initializeToExecuteStateTransition`, `updateTime`; src/helics/application_api/Federate.cpp:1199-1211). -/
inductive Note
  | mode (new old : Mode) | initEntry (iterating : Bool) | execEntry | requestEntry (now next : Time) (iterating : Bool)
  | timeUpdate (t : Time) (iterating : Bool) | requestReturn (t : Time) (iterating : Bool) | terminated
  | hookInit | hookExec (r : Result) | hookTime (new old : Time)
  deriving DecidableEq, Repr

/-- The six futures of `AsyncFedCallInfo` (src/helics/application_api/AsyncFedCallInfo.hpp:21-33). -/
inductive Slot
  | init | exec | time | iterTime | finalize | iterInit
  deriving DecidableEq, Repr

/-- What an asynchronous thread is asked to do (the lambdas of src/helics/application_api/Federate.cpp:304-309,437-439,
555-563,574-576,837,1025-1027,1044-1046). -/
inductive Job
  | enterInit | enterExecFromStart (it : Iter) | enterExec (it : Iter) | timeRequest (t : Time) | timeRequestIter (t : Time) (it : Iter)
  | finalize | iterInit
  deriving DecidableEq, Repr

/-- What is returned to the caller. -/
inductive Val
  | unit | flag (b : Bool) | time (t : Time) | iter (t : Time) (r : Result)
  deriving DecidableEq, Repr

/-- How a call ends: it returns, throws, the process crashes (a null pointer is used), or it has not returned yet. -/
inductive Out (α : Type)
  | ok (a : α) | throws (e : Exn) | crash | busy
  deriving DecidableEq, Repr

/-- A future: not valid, not finished, or finished. -/
inductive Future
  | invalid | todo (j : Job) | done (r : Out Val)
  deriving DecidableEq, Repr

/-- The members of `Federate` used here (src/helics/application_api/Federate.hpp:80-118); `calls` are the calls made to the core and
`notes` the callbacks, oldest first. `pot` is `hasPotentialInterfaces` together with the existence of `potManager`. -/
structure St where
  mode : Mode := .startup
  now : Time := minVal
  single : Bool := false
  pot : Bool := false
  potSeq : Nat := 0
  retrigger : Bool := false
  fut : Slot → Future := fun _ => .invalid
  calls : List Call := []
  notes : List Note := []

/-- A core: the answer to the last of the calls. -/
abbrev Core := List Call → Ans

/-- A piece of a method: it ends somehow and changes the state. -/
abbrev Act (α : Type) := St → Out α × St

namespace Act

/-- Nothing happens. -/
def pure (a : α) : Act α := fun s => (.ok a, s)

/-- One after the other; what is thrown is passed on. -/
def bind (x : Act α) (f : α → Act β) : Act β := fun s =>
  match x s with
  | (.ok a, s') => f a s'
  | (.throws e, s') => (.throws e, s')
  | (.crash, s') => (.crash, s')
  | (.busy, s') => (.busy, s')

instance : Monad Act where
  pure := Act.pure
  bind := Act.bind

/-- `throw`. -/
def throw (e : Exn) : Act α := fun s => (.throws e, s)

/-- The `catch` blocks of this class: when an exception accepted by `p` comes, the mode becomes `ERROR_STATE` (by `onError`) and the
exception is thrown again. -/
def rethrow (p : Exn → Bool) (onError : Act Unit) (x : Act α) : Act α := fun s =>
  match x s with
  | (.throws e, s') => if p e then (match onError s' with | (_, s'') => (.throws e, s'')) else (.throws e, s')
  | r => r

end Act

/-- `InvalidFunctionCall` and the other `HelicsException`s. -/
def Exn.isHelics (e : Exn) : Bool := e != .std

/-- The state is read. -/
def get : Act St := fun s => (.ok s, s)

/-- The state is changed. -/
def set (f : St → St) : Act Unit := fun s => (.ok (), f s)

/-- A callback or hook is called. -/
def note (n : Note) : Act Unit := set fun s => { s with notes := s.notes ++ [n] }

/-- A call to the core. -/
def ask (core : Core) (c : Call) : Act (Bool × Time × Result) := fun s =>
  let s' := { s with calls := s.calls ++ [c] }
  match core s'.calls with
  | .throws e => (.throws e, s')
  | .gives b t r => (.ok (b, t, r), s')

/-- The pending modes that are entered silently (src/helics/application_api/Federate.cpp:1138-1142). -/
def Mode.silent : Mode → Bool
  | .pendingExec | .pendingInit | .pendingIterTime | .pendingTime | .pendingFinalize => true
  | _ => false

/-- What the mode callback is told, given the new and the old mode (src/helics/application_api/Federate.cpp:1143-1173). -/
def modeNote (new old : Mode) : List Note :=
  match old with
  | .pendingIterInit => []
  | .pendingInit => [.mode new .startup]
  | .pendingExec => if new ≠ .initializing then [.mode new .initializing] else []
  | .pendingIterTime | .pendingTime => if new ≠ .executing then [.mode new .executing] else []
  | .pendingFinalize => [.mode new .executing]
  | o => [.mode new o]

/-- `updateFederateMode` (src/helics/application_api/Federate.cpp:1131-1185). -/
def updateMode (new : Mode) : Act Unit := set fun s =>
  let old := s.mode
  let s := { s with mode := new }
  if new = old then s
  else if new.silent then s
  else { s with notes := s.notes ++ modeNote new old ++
    (if new = .executing ∧ (old = .initializing ∨ old = .pendingExec) then [.execEntry] else []) ++
    (if new = .finalize ∨ new = .error then [.terminated] else []) }

/-- `updateSimulationTime` (src/helics/application_api/Federate.cpp:1187-1197). -/
def updateSimulationTime (new old : Time) (iterating : Bool) : Act Unit := do
  set fun s => { s with now := new }
  note (.timeUpdate new iterating)
  note (.hookTime new old)
  if new ≥ cTerm then updateMode .finished else pure ()

/-- `preTimeRequestOperations` (src/helics/application_api/Federate.cpp:970-975). -/
def preTimeRequest (next : Time) (iterating : Bool) : Act Unit := do
  let s ← get
  note (.requestEntry s.now next iterating)

/-- `postTimeRequestOperations` (src/helics/application_api/Federate.cpp:976-983). -/
def postTimeRequest (new : Time) (iterating : Bool) : Act Unit := do
  let s ← get
  updateSimulationTime new s.now iterating
  note (.requestReturn new iterating)

/-- One step of the sequence below. -/
def potStage (n : Nat) (x : Act Unit) : Act Unit := do
  let s ← get
  if s.potSeq = n then do x; set fun s => { s with potSeq := n + 1 }
  else pure ()

/-- `potentialInterfacesStartupSequence`, for a federate with potential interfaces
(src/helics/application_api/Federate.cpp:1098-1129). -/
def potSequence (core : Core) : Act Unit := do
  let s ← get
  if s.pot then do
    potStage 0 (do let _ ← ask core .offer)
    potStage 1 (do let _ ← ask core (.enterInit .force))
    potStage 2 (do let _ ← ask core (.enterInit .force); let _ ← ask core .commands)
  else pure ()

/-- `enteringInitializingMode` (src/helics/application_api/Federate.cpp:281-291). -/
def enteringInit (core : Core) (r : Result) : Act Unit := do
  updateMode .initializing
  let a ← ask core .currentTime
  set fun s => { s with now := a.2.1 }
  (if r = .nextStep then note .hookInit else pure ())
  note (.initEntry (r ≠ .nextStep))

/-- `enteringExecutingMode` (src/helics/application_api/Federate.cpp:505-534). -/
def enteringExec (core : Core) (t : Time) (r : Result) : Act Unit := do
  match r with
  | .nextStep =>
    updateMode .executing
    set fun s => { s with now := t }
    note (.timeUpdate t false)
    note (.hookExec r)
    note (.requestReturn t false)
  | .iterating =>
    set fun s => { s with now := initializationTime }
    enteringInit core r
    note (.hookExec r)
  | .error => updateMode .error
  | .halted => updateMode .finished

/-- What an asynchronous thread does, and what its future holds then (src/helics/application_api/Federate.cpp:304-309,437-439,
555-563,574-576,837,1025-1027,1044-1046). -/
def runJob (core : Core) : Job → Act Val
  | .enterInit => do
    potSequence core
    let a ← ask core (.enterInit .no)
    return .flag a.1
  | .enterExecFromStart it => do
    potSequence core
    let _ ← ask core (.enterInit .no)
    let a ← ask core .currentTime
    set fun s => { s with now := a.2.1 }
    note .hookInit
    let a ← ask core (.enterExec it)
    return .iter a.2.1 a.2.2
  | .enterExec it => do
    let a ← ask core (.enterExec it)
    return .iter a.2.1 a.2.2
  | .timeRequest t => do
    let a ← ask core (.timeRequest t)
    return .time a.2.1
  | .timeRequestIter t it => do
    let a ← ask core (.timeRequestIter t it)
    return .iter a.2.1 a.2.2
  | .finalize => do
    let _ ← ask core .finalize
    return .unit
  | .iterInit => do
    let _ ← ask core (.enterInit .force)
    return .unit

/-- The future `k` gets a new value. -/
def setFut (k : Slot) (v : Future) : Act Unit := set fun s => { s with fut := fun j => if j = k then v else s.fut j }

/-- `std::async`: a thread is started, which works for the future `k`. -/
def launch (k : Slot) (j : Job) : Act Unit := setFut k (.todo j)

/-- The asynchronous thread working for `k` finishes, if it has not yet. -/
def work (core : Core) (k : Slot) : Act Unit := fun s =>
  match s.fut k with
  | .todo j => match runJob core j s with | (r, s') => setFut k (.done r) s'
  | _ => (.ok (), s)

/-- `std::future::get`: waits for the thread, takes the result away or throws what the thread has thrown.  Taking twice from the same future
throws `std::future_error`. -/
def take (core : Core) (k : Slot) : Act Val := do
  work core k
  let s ← get
  match s.fut k with
  | .done r => do
    setFut k .invalid
    fun s => (r, s)
  | _ => Act.throw .std

/-- Using `asyncCallInfo`, which a single thread federate does not have (src/helics/application_api/Federate.cpp:239-241). -/
def lockAsync : Act Unit := fun s => if s.single then (.crash, s) else (.ok (), s)

/-- All `std::exception`s. -/
def anyExn : Exn → Bool := fun _ => true

/-- The part of `enterInitializingModeComplete` for a pending call (src/helics/application_api/Federate.cpp:352-363). -/
def completePendingInit (core : Core) : Act Val := do
  lockAsync
  Act.rethrow anyExn (updateMode .error) do
    let v ← take core .init
    (if v = .flag true then enteringInit core .nextStep else pure ())
    return .unit

/-- The part of `enterInitializingMode` for a federate in startup mode (src/helics/application_api/Federate.cpp:256-269). -/
def enterInitFromStart (core : Core) : Act Val :=
  Act.rethrow Exn.isHelics (updateMode .error) do
    potSequence core
    let a ← ask core (.enterInit .no)
    (if a.1 then enteringInit core .nextStep else pure ())
    return .unit

/-- `enterInitializingMode` (src/helics/application_api/Federate.cpp:252-279); for a single thread federate in the mode of a pending call, which it
cannot be in, the code would call itself for ever (src/helics/application_api/Federate.cpp:347-350). -/
def enterInitializingMode (core : Core) : Act Val := do
  let s ← get
  match s.mode with
  | .startup => enterInitFromStart core
  | .pendingInit => if s.single then fun s => (.busy, s) else completePendingInit core
  | .initializing => return .unit
  | _ => Act.throw .invalidCall

/-- `enterInitializingModeComplete` (src/helics/application_api/Federate.cpp:345-374). -/
def enterInitializingModeComplete (core : Core) : Act Val := do
  let s ← get
  if s.single then enterInitializingMode core
  else match s.mode with
    | .pendingInit => completePendingInit core
    | .initializing => return .unit
    | .startup => enterInitializingMode core
    | _ => Act.throw .invalidCall

/-- `enterInitializingModeAsync` (src/helics/application_api/Federate.cpp:293-316). -/
def enterInitializingModeAsync : Act Val := do
  let s ← get
  if s.single then Act.throw .invalidCall
  else match s.mode with
    | .startup => do
      set fun s => { s with mode := .pendingInit }
      launch .init .enterInit
      return .unit
    | .pendingInit | .initializing => return .unit
    | _ => Act.throw .invalidCall

/-- `isAsyncOperationCompleted` (src/helics/application_api/Federate.cpp:318-343), when no check function is set. -/
def isAsyncOperationCompleted : Act Val := do
  let s ← get
  if s.single then return .flag false
  else
    let ready (k : Slot) : Act Val :=
      match s.fut k with
      | .done _ => return .flag true
      | .todo _ => return .flag false
      | .invalid => Act.throw .std
    match s.mode with
    | .pendingInit => ready .init
    | .pendingExec => ready .exec
    | .pendingTime => ready .time
    | .pendingIterTime => ready .iterTime
    | .pendingFinalize => ready .finalize
    | .pendingIterInit => ready .iterInit
    | _ => return .flag false

/-- `enterInitializingModeIterativeComplete` (src/helics/application_api/Federate.cpp:447-469). -/
def iterInitComplete (core : Core) : Act Val := do
  let s ← get
  match s.mode with
  | .pendingIterInit => do
    lockAsync
    Act.rethrow anyExn (updateMode .error) do
      let _ ← take core .iterInit
      updateMode .startup
      return .unit
  | .startup => return .unit
  | _ => Act.throw .invalidCall

/-- `enterInitializingModeIterative` (src/helics/application_api/Federate.cpp:376-426). -/
def iterInit (core : Core) : Act Val := do
  let s ← get
  match s.mode with
  | .startup =>
    Act.rethrow Exn.isHelics (updateMode .error) do
      (if s.pot = true ∧ s.potSeq = 0 then do
          let _ ← ask core .offer
          let _ ← ask core (.enterInit .force)
          set fun s => { s with potSeq := 2 }
        else if s.pot = true ∧ s.potSeq = 2 then do
          let _ ← ask core (.enterInit .force)
          let _ ← ask core .commands
          set fun s => { s with potSeq := 3 }
        else do let _ ← ask core (.enterInit .force))
      return .unit
  | .pendingIterInit => iterInitComplete core
  | _ => Act.throw .invalidCall

/-- `enterInitializingModeIterativeAsync` (src/helics/application_api/Federate.cpp:428-445): there is no test for single thread federates. -/
def iterInitAsync : Act Val := do
  let s ← get
  match s.mode with
  | .startup => do
    lockAsync
    set fun s => { s with mode := .pendingIterInit }
    launch .iterInit .iterInit
    return .unit
  | .pendingIterInit => return .unit
  | _ => Act.throw .invalidCall

/-- The result of a future holding an `iteration_time`. -/
def Val.toIter : Val → Time × Result
  | .iter t r => (t, r)
  | _ => (0, .error)

/-- The result of a future holding a time. -/
def Val.toTime : Val → Time
  | .time t => t
  | _ => 0

/-- `requestTimeComplete` (src/helics/application_api/Federate.cpp:1053-1065).  (A federate in this mode has `asyncCallInfo`.) -/
def requestTimeComplete (core : Core) : Act Val := do
  let s ← get
  if s.mode = .pendingTime then
    set fun s => { s with mode := .executing }
    let v ← take core .time
    postTimeRequest v.toTime false
    return .time v.toTime
  else Act.throw .invalidCall

/-- What follows the answer to an iterative time request (src/helics/application_api/Federate.cpp:990-1005,1075-1090). -/
def afterIterative (t : Time) (r : Result) : Act Val := do
  (match r with
  | .nextStep => postTimeRequest t false
  | .iterating => postTimeRequest t true
  | .halted => do
    updateMode .finished
    let s ← get
    updateSimulationTime t s.now false
  | .error => updateMode .error)
  return .iter t r

/-- `requestTimeIterativeComplete` (src/helics/application_api/Federate.cpp:1067-1096).  (A federate in this mode has `asyncCallInfo`.) -/
def requestTimeIterativeComplete (core : Core) : Act Val := do
  let s ← get
  if s.mode = .pendingIterTime then
    set fun s => { s with mode := .executing }
    let v ← take core .iterTime
    afterIterative v.toIter.1 v.toIter.2
  else Act.throw .invalidCall

/-- The part of `enterExecutingMode` for a federate in initializing mode (src/helics/application_api/Federate.cpp:479-484). -/
def execFromInit (core : Core) (it : Iter) : Act Val := do
  let a ← ask core (.enterExec it)
  enteringExec core a.2.1 a.2.2
  return .iter a.2.1 a.2.2

/-- The part of `enterExecutingModeComplete` for a pending call (src/helics/application_api/Federate.cpp:597-608). -/
def completePendingExec (core : Core) : Act Val := do
  lockAsync
  Act.rethrow anyExn (updateMode .error) do
    let v ← take core .exec
    enteringExec core v.toIter.1 v.toIter.2
    return .iter v.toIter.1 v.toIter.2

/-- `enterExecutingMode` (src/helics/application_api/Federate.cpp:471-503); the time in the result stands for nothing.  (The remark at
`enterInitializingMode` applies.) -/
def enterExecutingMode (core : Core) (it : Iter) : Act Val := do
  let s ← get
  match s.mode with
  | .startup | .pendingInit => do
    let _ ← enterInitializingMode core
    execFromInit core it
  | .initializing => execFromInit core it
  | .pendingExec => if s.single then fun s => (.busy, s) else completePendingExec core
  | .executing => return .iter 0 .nextStep
  | .pendingTime => do
    let _ ← requestTimeComplete core
    return .iter 0 .nextStep
  | .pendingIterTime => do
    let v ← requestTimeIterativeComplete core
    return .iter v.toIter.1 (if v.toIter.2 = .iterating then .nextStep else v.toIter.2)
  | _ => Act.throw .invalidCall

/-- `enterExecutingModeComplete` (src/helics/application_api/Federate.cpp:591-612). -/
def enterExecutingModeComplete (core : Core) : Act Val := do
  let s ← get
  if s.single then enterExecutingMode core .no
  else match s.mode with
    | .pendingExec => completePendingExec core
    | _ => enterExecutingMode core .no

/-- The part of `enterExecutingModeAsync` that starts the thread (src/helics/application_api/Federate.cpp:564-566,577-579). -/
def launchExec (j : Job) : Act Val := do
  updateMode .pendingExec
  launch .exec j
  return .unit

/-- `enterExecutingModeAsync` (src/helics/application_api/Federate.cpp:547-589). -/
def enterExecutingModeAsync (core : Core) (it : Iter) : Act Val := do
  let s ← get
  if s.single then Act.throw .invalidCall
  else match s.mode with
    | .startup => launchExec (.enterExecFromStart it)
    | .pendingInit => do
      let _ ← enterInitializingModeComplete core
      launchExec (.enterExec it)
    | .initializing => launchExec (.enterExec it)
    | .pendingExec | .executing | .pendingTime | .pendingIterTime => return .unit
    | _ => Act.throw .invalidCall

/-- The loop of `requestTime` (src/helics/application_api/Federate.cpp:943-948), at most `fuel` rounds of which have been made. -/
def requestLoop (core : Core) (next : Time) : Nat → Act Val
  | 0 => fun s => (.busy, s)
  | fuel + 1 => do
    preTimeRequest next false
    let a ← ask core (.timeRequest next)
    postTimeRequest a.2.1 false
    let s ← get
    if s.retrigger && decide (a.2.1 < cTerm) then requestLoop core next fuel else return .time a.2.1

/-- The two exceptions caught by `requestTime` (src/helics/application_api/Federate.cpp:952-959). -/
def requestCaught (e : Exn) : Bool := e == .execFailure || e == .registration

/-- `requestTime` (src/helics/application_api/Federate.cpp:937-968). -/
def requestTime (core : Core) (fuel : Nat) (next : Time) : Act Val := do
  let s ← get
  match s.mode with
  | .executing => Act.rethrow requestCaught (updateMode .error) (requestLoop core next fuel)
  | .finalize | .finished => return .time maxVal
  | _ => Act.throw .invalidCall

/-- `requestTimeIterative` (src/helics/application_api/Federate.cpp:985-1013). -/
def requestTimeIterative (core : Core) (next : Time) (it : Iter) : Act Val := do
  let s ← get
  if s.mode = .executing then
    preTimeRequest next (it ≠ .no)
    let a ← ask core (.timeRequestIter next it)
    afterIterative a.2.1 a.2.2
  else if s.mode = .finalize ∨ s.mode = .finished then return .iter maxVal .halted
  else Act.throw .invalidCall

/-- `requestTimeAsync` (src/helics/application_api/Federate.cpp:1015-1032). -/
def requestTimeAsync (next : Time) : Act Val := do
  let s ← get
  if s.single then Act.throw .invalidCall
  else if s.mode = .executing then
    set fun s => { s with mode := .pendingTime }
    preTimeRequest next false
    launch .time (.timeRequest next)
    return .unit
  else Act.throw .invalidCall

/-- `requestTimeIterativeAsync` (src/helics/application_api/Federate.cpp:1034-1051). -/
def requestTimeIterativeAsync (next : Time) (it : Iter) : Act Val := do
  let s ← get
  if s.single then Act.throw .invalidCall
  else if s.mode = .executing then
    set fun s => { s with mode := .pendingIterTime }
    preTimeRequest next (it ≠ .no)
    launch .iterTime (.timeRequestIter next it)
    return .unit
  else Act.throw .invalidCall

/-- The pending part of `finalizeComplete` (src/helics/application_api/Federate.cpp:854-857) with `finalizeOperations`
(src/helics/application_api/Federate.cpp:863-870). -/
def completePendingFinalize (core : Core) : Act Val := do
  lockAsync
  let _ ← take core .finalize
  updateMode .finalize
  return .unit

/-- The end of `finalize` (src/helics/application_api/Federate.cpp:808-811). -/
def finalizeNow (core : Core) : Act Val := do
  let _ ← ask core .finalize
  updateMode .finalize
  return .unit

/-- `finalize` (src/helics/application_api/Federate.cpp:770-812). (The remark at `enterInitializingMode` applies.) -/
def finalize (core : Core) : Act Val := do
  let s ← get
  match s.mode with
  | .startup | .initializing | .executing | .finished => finalizeNow core
  | .pendingInit => do
    lockAsync
    let _ ← Act.rethrow anyExn (updateMode .error) (take core .init)
    finalizeNow core
  | .pendingExec => do
    lockAsync
    let _ ← take core .exec
    finalizeNow core
  | .pendingTime => do
    lockAsync
    let _ ← take core .time
    finalizeNow core
  | .pendingIterTime => do
    lockAsync
    let _ ← take core .iterTime
    finalizeNow core
  | .finalize | .error => return .unit
  | .pendingFinalize => if s.single then fun s => (.busy, s) else completePendingFinalize core
  | .pendingIterInit => Act.throw .invalidCall

/-- `finalizeComplete` (src/helics/application_api/Federate.cpp:848-861). -/
def finalizeComplete (core : Core) : Act Val := do
  let s ← get
  if s.single then finalize core
  else if s.mode = .pendingFinalize then completePendingFinalize core
  else finalize core

/-- `completeOperation` (src/helics/application_api/Federate.cpp:886-907). -/
def completeOperation (core : Core) : Act Unit := do
  let s ← get
  match s.mode with
  | .pendingInit => do let _ ← enterInitializingModeComplete core
  | .pendingExec => do let _ ← enterExecutingModeComplete core
  | .pendingTime => do let _ ← requestTimeComplete core
  | .pendingIterTime => do let _ ← requestTimeIterativeComplete core
  | .pendingFinalize => do let _ ← finalizeComplete core
  | _ => pure ()

/-- The end of `finalizeAsync` (src/helics/application_api/Federate.cpp:837-844). -/
def launchFinalize : Act Val := do
  updateMode .pendingFinalize
  launch .finalize .finalize
  return .unit

/-- `finalizeAsync` (src/helics/application_api/Federate.cpp:814-845). -/
def finalizeAsync (core : Core) : Act Val := do
  let s ← get
  if s.single then Act.throw .invalidCall
  else match s.mode with
    | .pendingInit => do let _ ← enterInitializingModeComplete core; launchFinalize
    | .pendingExec => do let _ ← enterExecutingModeComplete core; launchFinalize
    | .pendingTime => do let _ ← requestTimeComplete core; launchFinalize
    | .pendingIterTime => do let _ ← requestTimeIterativeComplete core; launchFinalize
    | .finalize | .error | .pendingFinalize => return .unit
    | _ => launchFinalize

/-- `localError`, `globalError` (src/helics/application_api/Federate.cpp:909-935). -/
def raise (core : Core) (c : Call) : Act Val := do
  completeOperation core
  updateMode .error
  let _ ← ask core c
  return .unit

/-- The destructor (src/helics/application_api/Federate.cpp:129-143): what `finalize` throws is swallowed. -/
def destroy (core : Core) : Act Val := do
  let s ← get
  if s.mode = .finalize then return .unit
  else fun s =>
    match finalize core s with
    | (.throws _, s') => (.ok .unit, s')
    | r => r

/-- The calls of the application interface; `work` is not one: an asynchronous thread gets done. -/
inductive Op
  | enterInit | enterInitAsync | enterInitComplete | iterInit | iterInitAsync | iterInitComplete
  | enterExec (it : Iter) | enterExecAsync (it : Iter) | enterExecComplete
  | requestTime (fuel : Nat) (t : Time) | requestTimeAsync (t : Time) | requestTimeComplete
  | requestIter (t : Time) (it : Iter) | requestIterAsync (t : Time) (it : Iter) | requestIterComplete
  | finalize | finalizeAsync | finalizeComplete | localError | globalError | isCompleted | destroy
  | work (k : Slot)
  deriving DecidableEq, Repr

/-- One of the calls. -/
def act (core : Core) : Op → Act Val
  | .enterInit => enterInitializingMode core
  | .enterInitAsync => enterInitializingModeAsync
  | .enterInitComplete => enterInitializingModeComplete core
  | .iterInit => App.iterInit core
  | .iterInitAsync => App.iterInitAsync
  | .iterInitComplete => App.iterInitComplete core
  | .enterExec it => enterExecutingMode core it
  | .enterExecAsync it => enterExecutingModeAsync core it
  | .enterExecComplete => enterExecutingModeComplete core
  | .requestTime fuel t => App.requestTime core fuel t
  | .requestTimeAsync t => App.requestTimeAsync t
  | .requestTimeComplete => App.requestTimeComplete core
  | .requestIter t it => requestTimeIterative core t it
  | .requestIterAsync t it => requestTimeIterativeAsync t it
  | .requestIterComplete => requestTimeIterativeComplete core
  | .finalize => App.finalize core
  | .finalizeAsync => App.finalizeAsync core
  | .finalizeComplete => App.finalizeComplete core
  | .localError => raise core .localError
  | .globalError => raise core .globalError
  | .isCompleted => isAsyncOperationCompleted
  | .destroy => App.destroy core
  | .work k => do work core k; return .unit

/-- The state after a list of calls. -/
def run (core : Core) (s : St) (ops : List Op) : St := ops.foldl (fun s o => (act core o s).2) s

/-- A new federate object: what is set up by its constructor (src/helics/application_api/Federate.cpp:225-250). -/
def start (single pot retrigger : Bool) (now : Time) : St := { single := single, pot := pot, retrigger := retrigger, now := now }

end App
end Verif
