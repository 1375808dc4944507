/-
How a federate works through its incoming messages, with messages of a source set aside
(`src/helics/core/FederateState.cpp`: `processDelayQueue`, `addFederateToDelay`,
`messageShouldBeDelayed`, `processQueue`, `callbackProcessing`).

What a single message does (`processActionMessage`, `FederateState.cpp:1506-1650`) is left open: any
function of the federate's state and the message, with any result.  Two things it does to the queues are
kept: on `DELAY_MESSAGE` it adds the source to the delayed list (`:1485-1487`, `:1578-1580`), and the federate's
own requests run the delay queue once more in their middle (`:1510-1528`, `:1541-1551`).
-/
namespace Verif.DelayQueue

/-- A message: who sent it, and a body (any type). -/
structure Msg (β : Type) where
  src : Nat
  body : β
deriving DecidableEq, Repr

/-- `MessageProcessingResult`, `CoreTypes.hpp:75-92`: continue, delay, or one of the results that end the
processing loop (`returnableResult`). -/
inductive Res | cont | delay | ret (code : Nat)
deriving DecidableEq, Repr

/-- `returnableResult`, `CoreTypes.hpp:89-92`. -/
def Res.returnable : Res → Bool
  | .ret _ => true
  | _ => false

/-- What a message does. `request` = one of the federate's own time or execution requests: state after
the first part, and the second part. -/
inductive Act (σ : Type)
  | done (st : σ) (r : Res)
  | request (st : σ) (second : σ → σ × Res)

/-- The federate: its state, the sources being delayed (`delayedFederates`, `FederateState.hpp:151`), the
messages set aside per source (`delayQueues`, `FederateState.hpp:148`, a map ordered by id), and - only to state
the properties - the messages processed so far. -/
structure Fed (σ β : Type) where
  st : σ
  delayed : List Nat := []
  queues : List (Nat × List (Msg β)) := []
  done : List (Msg β) := []

/-- `std::lower_bound` and insertion, `FederateState.cpp:1083-1097`. -/
def addToDelay (gid : Nat) : List Nat → List Nat
  | [] => [gid]
  | a :: l => if a < gid then a :: addToDelay gid l else if a = gid then a :: l else gid :: a :: l

/-- `std::lower_bound(..)` followed by the test, `FederateState.cpp:1109-1112`. -/
def boundTest (x : Nat) : List Nat → Bool
  | [] => false
  | a :: l => if a < x then boundTest x l else a == x

/-- `messageShouldBeDelayed`, `FederateState.cpp:1099-1114`. -/
def shouldDelay (d : List Nat) (src : Nat) : Bool :=
  match d with
  | [] => false
  | [a] => src == a
  | [a, b] => src == a || src == b
  | d => boundTest src d

/-- `delayQueues[source].push_back(cmd)`: the map entry is made when missing, ids in order
(`FederateState.cpp:1394`, `:1400`). -/
def pushBack (m : Msg β) : List (Nat × List (Msg β)) → List (Nat × List (Msg β))
  | [] => [(m.src, [m])]
  | (k, q) :: l =>
    if k < m.src then (k, q) :: pushBack m l
    else if k = m.src then (k, q ++ [m]) :: l
    else (m.src, [m]) :: (k, q) :: l

/-- Processing one message that is not one of the federate's own requests. -/
def plain (handle : σ → Msg β → Act σ) (f : Fed σ β) (m : Msg β) : Fed σ β × Res :=
  match handle f.st m with
  | .done st .delay => ({ f with st := st, delayed := addToDelay m.src f.delayed }, .delay)
  | .done st r => ({ f with st := st, done := f.done ++ [m] }, r)
  -- never in a delay queue, see `own_never_set_aside`
  | .request st _ => ({ f with st := st, done := f.done ++ [m] }, .cont)

/-- The inner loop of `processDelayQueue` over one source's queue (`FederateState.cpp:1059-1075`): returns
what is left of the queue. -/
def drainOne (handle : σ → Msg β → Act σ) (f : Fed σ β) : List (Msg β) → Fed σ β × List (Msg β) × Res
  | [] => (f, [], .cont)
  | m :: rest =>
    if shouldDelay f.delayed m.src then (f, m :: rest, .delay)
    else
      match plain handle f m with
      | (f', .delay) => (f', m :: rest, .delay)
      | (f', .cont) => drainOne handle f' rest
      | (f', .ret c) => (f', rest, .ret c)

/-- The outer loop, over the sources in order (`FederateState.cpp:1057-1079`): the queues left, and the last
result. -/
def drainAll (handle : σ → Msg β → Act σ) (f : Fed σ β) (r : Res) :
    List (Nat × List (Msg β)) → Fed σ β × List (Nat × List (Msg β)) × Res
  | [] => (f, [], r)
  | (k, q) :: l =>
    match drainOne handle f q with
    | (f', q', r') =>
      if r'.returnable then (f', (k, q') :: l, r')
      else
        match drainAll handle f' r' l with
        | (f'', l', r'') => (f'', (k, q') :: l', r'')

/-- `processDelayQueue`, `FederateState.cpp:1052-1081`. -/
def processDelayQueue (handle : σ → Msg β → Act σ) (f : Fed σ β) : Fed σ β × Res :=
  match drainAll handle { f with delayed := [] } .cont f.queues with
  | (f', l, r) => ({ f' with queues := l }, r)

/-- `processActionMessage` for a message taken from the main queue (`FederateState.cpp:1506-1551`). -/
def process (handle : σ → Msg β → Act σ) (f : Fed σ β) (m : Msg β) : Fed σ β × Res :=
  match handle f.st m with
  | .done st .delay => ({ f with st := st, delayed := addToDelay m.src f.delayed }, .delay)
  | .done st r => ({ f with st := st, done := f.done ++ [m] }, r)
  | .request st second =>
    match processDelayQueue handle { f with st := st, done := f.done ++ [m] } with
    | (f1, r1) =>
      if r1.returnable then (f1, r1)
      else
        match second f1.st with
        | (st2, r2) => ({ f1 with st := st2 }, r2)

/-- The body of the loop of `processQueue` for a message taken from the main queue
(`FederateState.cpp:1391-1404`). -/
def receive (handle : σ → Msg β → Act σ) (f : Fed σ β) (m : Msg β) : Fed σ β × Res :=
  if shouldDelay f.delayed m.src then ({ f with queues := pushBack m f.queues }, .cont)
  else
    match process handle f m with
    | (f', .delay) => ({ f' with queues := pushBack m f'.queues }, .delay)
    | (f', r) => (f', r)

/-- What happens at a federate: `processQueue` is entered (`FederateState.cpp:1376-1389`), or, inside it, a message
comes out of the main queue (`:1392`). -/
inductive Ev (β : Type)
  | enter
  | recv (m : Msg β)
deriving Repr

/-- The federate and whether it is inside `processQueue`. -/
structure Run (σ β : Type) where
  fed : Fed σ β
  inside : Bool := false

/-- One event.  `processQueue` is left when a result is returnable (`:1391`); messages are only taken
inside it. -/
def runEv (handle : σ → Msg β → Act σ) (s : Run σ β) : Ev β → Option (Run σ β)
  | .enter =>
    if s.inside then none
    else
      match processDelayQueue handle s.fed with
      | (f, r) => some ⟨f, !r.returnable⟩
  | .recv m =>
    if s.inside then
      match receive handle s.fed m with
      | (f, r) => some ⟨f, !r.returnable⟩
    else none

/-- A history of a federate using `processQueue`. -/
def runEvs (handle : σ → Msg β → Act σ) (s : Run σ β) : List (Ev β) → Option (Run σ β)
  | [] => some s
  | e :: l =>
    match runEv handle s e with
    | none => none
    | some s' => runEvs handle s' l

/-- `callbackProcessing`, `FederateState.cpp:1325-1343`, `:1372`: the delay queue is worked through before the first message
(once here: the loop at `:1327-1331` repeats it while results are returnable), and then every waiting message
is taken, returnable results or not. -/
def callbackRun (handle : σ → Msg β → Act σ) (f : Fed σ β) : List (Msg β) → Fed σ β
  | [] => f
  | m :: l => callbackRun handle (receive handle f m).1 l

end Verif.DelayQueue
