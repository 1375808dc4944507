/-
The two-lock blocking queue with a priority channel through which every core, broker and federate
receives its commands.

`src/helics/core/BrokerBase.hpp:116` (`actionQueue`) and `src/helics/core/FederateState.hpp` (`queue`) use
`gmlc::containers::BlockingPriorityQueue`, which lives in a submodule absent from the pinned tree.
The same class is in the tree at `src/helics/network/ipc/IpcBlockingPriorityQueue.cpp:20-423`; that is the
text modelled here.

Granularity.  Any number of threads work on one queue.  A step of the model is one access to something
another thread may touch at that moment: one lock being taken, one lock being released, one operation on
the atomic `queueEmptyFlag`, one wait on the condition variable, one wake-up.  Accesses to
`pushElements` are made only while `m_pushLock` is held and accesses to `pullElements` and
`priorityQueue` only while `m_pullLock` is held, so they are joined to a neighbouring step.
Every history of the queue is a list of such steps, in any order the locks permit.

Simplifications: capacity (`reserve`), moves and the destructor are left out; `emplace`
(`:158-187`) and `emplacePriority` (`:192-211`) are the same code as `push` and `pushPriority`; the
callback of `pop(Functor)` (`:322-357`) may do anything to the queue another thread may do, so that
overload is the blocking `pop`; wake-ups without cause and time-outs happen at any moment.
-/
namespace Verif.CmdQueue

/-- What is put into the queue: the command, whether it was put in the priority channel, and a number
telling one call from another (the model's name for the call; the code has no such number). -/
structure Item (α : Type) where
  id : Nat
  prio : Bool
  val : α
deriving DecidableEq, Repr

/-- The three ways to take an element: `try_pop` (`:366-417`), `pop()` (`:238-273`) and
`pop(timeout)` (`:276-313`); `last` is the attempt `pop(timeout)` makes after its time ran out
(`:306-309`). -/
inductive Mode | once | block | timed | last
deriving DecidableEq, Repr

/-- The operations of the class that a thread can call. -/
inductive Op (α : Type)
  | push (v : α) | pushPriority (v : α) | tryPop | pop | popTimed | peek | isEmpty | clear
deriving Repr

/-- Where a thread stands.  "wants" = about to take the lock, "has" = holds it. -/
inductive PC (α : Type)
  | idle
  -- push, :102-131
  | pushLock (i : Item α)      -- wants push lock, :105
  | pushLook (i : Item α)      -- has push, :106-110
  | pushRel (i : Item α)       -- has push, won the flag, :112 unlock
  | pushPull (i : Item α)      -- wants pull, :113
  | pushSet (i : Item α)       -- has pull, :114 flag := false
  | pushPut (i : Item α)       -- has pull, :115-116
  | pushDone (i : Item α)      -- has pull, element in pullElements, :118 notify
  | pushRelA (i : Item α)      -- has pull, notified, end of scope
  | pushLockB (i : Item α)     -- has pull, wants push, :120
  | pushPutB (i : Item α)      -- has both, :121
  | pushRelB (i : Item α)      -- has both, inner scope ends: pull released
  | pushCas (i : Item α)       -- has push, :125-126 second look at the flag
  | pushNote (i : Item α)      -- has push, :127 notify
  | pushEnd (i : Item α)       -- has push, released at the end
  -- pushPriority, :136-155
  | prioCas (i : Item α)       -- :140
  | prioLockA (i : Item α)     -- wants pull, :141
  | prioSetA (i : Item α)      -- has pull, :142-143
  | prioPutA (i : Item α)      -- has pull, :144
  | prioLockB (i : Item α)     -- wants pull, :148
  | prioPutB (i : Item α)      -- has pull, :149
  | prioCasB (i : Item α)      -- has pull, :150-151
  | prioNote (i : Item α)      -- has pull, :146 or :152 notify
  | prioEnd (i : Item α)       -- has pull, released at the end
  -- try_pop, :366-417
  | popLock (m : Mode)         -- wants pull, :369
  | popLook (m : Mode)         -- has pull, :370-375, :402-405
  | popLockA (m : Mode)        -- has pull, wants push, :376
  | popSwap (m : Mode)         -- has both, :377-378
  | popRelA (m : Mode)         -- has both, swapped, :379 unlock
  | popTake (m : Mode)         -- has pull, :382-385
  | popLockB (m : Mode)        -- has pull, wants push, :386 or :406
  | popSwapB (m : Mode)        -- has both, :387-395, :407-414
  | popRelB (m : Mode)         -- has both, push released, :391, :410 or end of scope
  | popEnd (m : Mode)          -- has pull, released at the end
  | popNoneA (m : Mode)        -- has both, :399, inner scope ends: push released
  | popNone (m : Mode)         -- has pull, :400 return
  -- pop, :238-273, :276-313
  | waitLock (m : Mode)        -- wants pull, :243
  | waitLook (m : Mode)        -- has pull, :244-254
  | waiting (m : Mode) (noted : Bool)   -- :255 inside condition.wait
  | wakeLock (m : Mode) (late : Bool)   -- wants pull, still inside condition.wait
  | wakeLook (m : Mode) (late : Bool)   -- has pull, :256-267
  -- try_peek, :216-229
  | peekLock | peekLook | peekEnd
  -- clear, :41-51
  | clearLock | clearLockB | clearLook | clearRel | clearEnd
  -- empty, :419-423
  | emptyLook
deriving DecidableEq, Repr

/-- What can be seen from outside: calls, returns, elements leaving the queue, answers. -/
inductive Ev (α : Type)
  | called (i : Item α)          -- push or pushPriority called
  | returned (i : Item α)        -- that call returned
  | popStart (t : Nat)           -- a try_pop begins (also the ones inside pop)
  | popNone (t : Nat)            -- a try_pop comes back empty-handed
  | took (i : Item α)            -- the element moves to the caller of a pop
  | dropped (i : Item α)         -- removed by clear
  | peeked (i : Option (Item α)) -- answer of try_peek
  | saidEmpty (b : Bool)         -- answer of empty
deriving DecidableEq, Repr

/-- `IpcBlockingPriorityQueue.cpp:28-35`.  `pull` is the vector `pullElements`; its last element is next
to leave.  `hist` is the history, newest first. -/
structure St (α : Type) where
  push : List (Item α) := []
  pull : List (Item α) := []
  prio : List (Item α) := []
  flag : Bool := true
  pushOwner : Option Nat := none
  pullOwner : Option Nat := none
  pcs : Nat → PC α := fun _ => .idle
  next : Nat := 0
  hist : List (Ev α) := []

/-- The queue as constructed (`:38`). -/
def init : St α := {}

/-- What a scheduled thread is told to do: call an operation (idle threads), go on, or come out of the
wait (with or without the time having run out). -/
inductive Choice (α : Type)
  | call (o : Op α) | go | wake (late : Bool)
deriving Repr

/-- Write one thread's position. -/
def upd (p : Nat → PC α) (t : Nat) (x : PC α) : Nat → PC α := fun u => if u = t then x else p u

/-- What `notify_all` does to a thread. -/
def noted : PC α → PC α
  | .waiting m _ => .waiting m true
  | p => p

/-- Move thread `t` to `x`. -/
def St.goto (s : St α) (t : Nat) (x : PC α) : St α := { s with pcs := upd s.pcs t x }

/-- `condition.notify_all()` by thread `t`, which then stands at `x`. -/
def St.notify (s : St α) (t : Nat) (x : PC α) : St α :=
  { s with pcs := upd (fun u => noted (s.pcs u)) t x }

/-- Take the push lock, when free, and move on to `x`. -/
def St.lockPush (s : St α) (t : Nat) (x : PC α) : Option (St α) :=
  if s.pushOwner = none then some { s with pushOwner := some t, pcs := upd s.pcs t x } else none

/-- Take the pull lock, when free, and move on to `x`. -/
def St.lockPull (s : St α) (t : Nat) (x : PC α) : Option (St α) :=
  if s.pullOwner = none then some { s with pullOwner := some t, pcs := upd s.pcs t x } else none

/-- Release the push lock and move on to `x`. -/
def St.freePush (s : St α) (t : Nat) (x : PC α) : St α :=
  { s with pushOwner := none, pcs := upd s.pcs t x }

/-- Release the pull lock and move on to `x`. -/
def St.freePull (s : St α) (t : Nat) (x : PC α) : St α :=
  { s with pullOwner := none, pcs := upd s.pcs t x }

/-- Record an event. -/
def St.log (s : St α) (e : Ev α) : St α := { s with hist := e :: s.hist }

/-- What a call does before it touches anything shared: the thread stands at the first step of the
operation. -/
def call (s : St α) (t : Nat) : Op α → St α
  | .push v => (({ s with next := s.next + 1 }.log (.called ⟨s.next, false, v⟩))).goto t
      (.pushLock ⟨s.next, false, v⟩)
  | .pushPriority v => (({ s with next := s.next + 1 }.log (.called ⟨s.next, true, v⟩))).goto t
      (.prioCas ⟨s.next, true, v⟩)
  | .tryPop => (s.log (.popStart t)).goto t (.popLock .once)
  | .pop => (s.log (.popStart t)).goto t (.popLock .block)
  | .popTimed => (s.log (.popStart t)).goto t (.popLock .timed)
  | .peek => s.goto t .peekLock
  | .isEmpty => s.goto t .emptyLook
  | .clear => s.goto t .clearLock

/-- `push`, `IpcBlockingPriorityQueue.cpp:102-131`. -/
def stepPush (s : St α) (t : Nat) : PC α → Option (St α)
  | .pushLock i => s.lockPush t (.pushLook i)
  | .pushLook i =>
      if s.push ≠ [] then some ({ s with push := s.push ++ [i] }.goto t (.pushEnd i))
      else if s.flag then some ({ s with flag := false }.goto t (.pushRel i))
      else some ({ s with push := s.push ++ [i] }.goto t (.pushCas i))
  | .pushRel i => some (s.freePush t (.pushPull i))
  | .pushPull i => s.lockPull t (.pushSet i)
  | .pushSet i => some ({ s with flag := false }.goto t (.pushPut i))
  | .pushPut i =>
      if s.pull = [] then some ({ s with pull := s.pull ++ [i] }.goto t (.pushDone i))
      else some (s.goto t (.pushLockB i))
  | .pushDone i => some (s.notify t (.pushRelA i))
  | .pushRelA i => some ((s.log (.returned i)).freePull t .idle)
  | .pushLockB i => s.lockPush t (.pushPutB i)
  | .pushPutB i => some ({ s with push := s.push ++ [i] }.goto t (.pushRelB i))
  | .pushRelB i => some (s.freePull t (.pushEnd i))
  | .pushCas i =>
      if s.flag then some ({ s with flag := false }.goto t (.pushNote i))
      else some (s.goto t (.pushEnd i))
  | .pushNote i => some (s.notify t (.pushEnd i))
  | .pushEnd i => some ((s.log (.returned i)).freePush t .idle)
  | _ => none

/-- `pushPriority`, `IpcBlockingPriorityQueue.cpp:136-155`. -/
def stepPrio (s : St α) (t : Nat) : PC α → Option (St α)
  | .prioCas i =>
      if s.flag then some ({ s with flag := false }.goto t (.prioLockA i))
      else some (s.goto t (.prioLockB i))
  | .prioLockA i => s.lockPull t (.prioSetA i)
  | .prioSetA i => some ({ s with flag := false }.goto t (.prioPutA i))
  | .prioPutA i => some ({ s with prio := s.prio ++ [i] }.goto t (.prioNote i))
  | .prioLockB i => s.lockPull t (.prioPutB i)
  | .prioPutB i => some ({ s with prio := s.prio ++ [i] }.goto t (.prioCasB i))
  | .prioCasB i =>
      if s.flag then some ({ s with flag := false }.goto t (.prioNote i))
      else some (s.goto t (.prioEnd i))
  | .prioNote i => some (s.notify t (.prioEnd i))
  | .prioEnd i => some ((s.log (.returned i)).freePull t .idle)
  | _ => none

/-- Take the last element of `pullElements`, or do `none` (`:382-384`, `:402-404`, `:249-253`). -/
def takeBack (s : St α) : Option (Item α × St α) :=
  match s.pull.getLast? with
  | none => none
  | some i => some (i, { s with pull := s.pull.dropLast }.log (.took i))

/-- Take the front of `priorityQueue` (`:370-373`, `:244-247`). -/
def takePrio (s : St α) : Option (Item α × St α) :=
  match s.prio with
  | [] => none
  | i :: rest => some (i, { s with prio := rest }.log (.took i))

/-- `std::swap(pushElements, pullElements)` and `std::reverse(pullElements)` (`:378-381`).  The reversal
is done in the step of the swap: it touches only `pullElements`, whose lock is held throughout. -/
def swapLists (s : St α) : St α := { s with push := s.pull, pull := s.push.reverse }

/-- `try_pop`, `IpcBlockingPriorityQueue.cpp:366-417`. -/
def stepTry (s : St α) (t : Nat) : PC α → Option (St α)
  | .popLock m => s.lockPull t (.popLook m)
  | .popLook m =>
      match takePrio s with
      | some (_, s') => some (s'.goto t (.popEnd m))
      | none =>
        match takeBack s with
        | none => some (s.goto t (.popLockA m))
        | some (_, s') =>
            if s'.pull = [] then some (s'.goto t (.popLockB m)) else some (s'.goto t (.popEnd m))
  | .popLockA m => s.lockPush t (.popSwap m)
  | .popSwap m =>
      if s.push ≠ [] then some ((swapLists s).goto t (.popRelA m))
      else some ({ s with flag := true }.goto t (.popNoneA m))
  | .popRelA m => some (s.freePush t (.popTake m))
  | .popTake m =>
      match takeBack s with
      | none => none
      | some (_, s') =>
          if s'.pull = [] then some (s'.goto t (.popLockB m)) else some (s'.goto t (.popEnd m))
  | .popLockB m => s.lockPush t (.popSwapB m)
  | .popSwapB m =>
      if s.push ≠ [] then some ((swapLists s).goto t (.popRelB m))
      else some ({ s with flag := true }.goto t (.popRelB m))
  | .popRelB m => some (s.freePush t (.popEnd m))
  | .popEnd _ => some (s.freePull t .idle)
  | .popNoneA m => some (s.freePush t (.popNone m))
  | .popNone m =>
      let s' := s.log (.popNone t)
      match m with
      | .once => some (s'.freePull t .idle)
      | .last => some (s'.freePull t .idle)
      | .block => some (s'.freePull t (.waitLock .block))
      | .timed => some (s'.freePull t (.waitLock .timed))
  | _ => none

/-- The rest of `pop()` (`:242-268`) and `pop(timeout)` (`:279-309`): wait while there is nothing. -/
def stepWait (s : St α) (t : Nat) : PC α → Option (St α)
  | .waitLock m => s.lockPull t (.waitLook m)
  | .waitLook m =>
      match takePrio s with
      | some (_, s') => some (s'.goto t (.popEnd m))
      | none =>
        match takeBack s with
        | some (_, s') => some (s'.goto t (.popEnd m))
        | none => some (s.freePull t (.waiting m false))
  | .wakeLock m late => s.lockPull t (.wakeLook m late)
  | .wakeLook m late =>
      match takePrio s with
      | some (_, s') => some (s'.goto t (.popEnd m))
      | none =>
        match takeBack s with
        | some (_, s') => some (s'.goto t (.popEnd m))
        | none => some ((s.log (.popStart t)).freePull t (.popLock (if late then .last else m)))
  | _ => none

/-- `try_peek` (`:216-229`), `empty` (`:419-423`) and `clear` (`:41-51`). -/
def stepRest (s : St α) (t : Nat) : PC α → Option (St α)
  | .peekLock => s.lockPull t .peekLook
  | .peekLook => some ((s.log (.peeked (if s.prio ≠ [] then s.prio.head? else s.pull.getLast?))).goto t
      .peekEnd)
  | .peekEnd => some (s.freePull t .idle)
  | .emptyLook => some ((s.log (.saidEmpty s.flag)).goto t .idle)
  | .clearLock => s.lockPull t .clearLockB
  | .clearLockB => s.lockPush t .clearLook
  | .clearLook =>
      some ({ s with pull := [], push := [], prio := [], flag := true,
                     hist := (s.pull ++ s.push ++ s.prio).map Ev.dropped ++ s.hist }.goto t .clearRel)
  | .clearRel => some (s.freePush t .clearEnd)
  | .clearEnd => some (s.freePull t .idle)
  | _ => none

/-- One step of thread `t`; `none` when it cannot move (a lock it wants is held, or the choice does not
fit where it stands). -/
def step (s : St α) (t : Nat) : Choice α → Option (St α)
  | .call o => if s.pcs t matches .idle then some (call s t o) else none
  | .wake late =>
      match s.pcs t with
      | .waiting m _ =>
          if late = true ∧ m ≠ .timed then none else some (s.goto t (.wakeLock m late))
      | _ => none
  | .go =>
      match stepPush s t (s.pcs t) with
      | some s' => some s'
      | none =>
        match stepPrio s t (s.pcs t) with
        | some s' => some s'
        | none =>
          match stepTry s t (s.pcs t) with
          | some s' => some s'
          | none =>
            match stepWait s t (s.pcs t) with
            | some s' => some s'
            | none => stepRest s t (s.pcs t)

/-- A history: which thread moved, in which order, and what it was told. -/
def runs (s : St α) : List (Nat × Choice α) → Option (St α)
  | [] => some s
  | (t, c) :: rest =>
    match step s t c with
    | none => none
    | some s' => runs s' rest

end Verif.CmdQueue
