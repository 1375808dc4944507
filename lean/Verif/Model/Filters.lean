import Verif.Model.Time
/-!
# Message filters

Models `src/helics/core/FilterFederate.cpp` (source filter chains, destination filters, the holds on
the time of a federate while one of its messages is out for filtering), the part of
`src/helics/core/CommonCore.cpp` that hands messages to it, and `manageTimeBlocks`.

A core `A` with its endpoints and its filter federate is modelled in full (`FF`).  Filters of other cores
are reached through commands; what their filter federate does with a command is a function of the filter
alone (`atHome`).

Simplifications:
* user operators are arbitrary total functions on messages; the conversions between `ActionMessage` and
  `Message` around them keep all fields of the message (this is property C31), so a command carries the
  message itself;
* the time coordinator of the filter federate is left out except for the time it is told
  (`minReturn`);
* counters are unbounded integers except `ActionMessage::counter`, which is 16 bits wide;
* `std::map<int, std::set<int>>` is a list of pairs without duplicates.
-/
namespace Verif.Filt

/-- `Message`, src/helics/core/core-data.hpp (`helics::Message`) -/
structure Msg where
  dest : String
  source : String := ""
  osrc : String := ""
  odest : String := ""
  data : List Nat := []
  time : Int := 0
  flags : Nat := 0
  id : Int := 0
deriving DecidableEq, Repr, Inhabited

/-- `FilterOperator`, src/helics/core/Core.hpp: `process` may drop the message, `processVector` makes
any number of new ones (a null pointer among them is not delivered, so it is left out here) -/
structure Op where
  proc : Msg → Option Msg
  vec : Msg → List Msg

/-- `FilterInfo` as referred to by a `FilterCoordinator`, FilterInfo.hpp:31-60: the home (`core_id`, the
id of the filter federate there), the handle, `cloning`, and `disconnected_flag` -/
structure FInfo where
  core : Int
  handle : Int
  cloning : Bool := false
  off : Bool := false
deriving DecidableEq, Repr

/-- the actions of the commands used, ActionMessageDefintions.hpp -/
inductive Act
  | send | forFilter | forFilterRet | forDestRet | result | destResult | null | nullDest | ignore
deriving DecidableEq, Repr

/-- `invalid_handle`-like default of `InterfaceHandle` -/
def noHandle : Int := -1700000000
/-- `parent_broker_id` -/
def parentId : Int := 0

/-- the fields of an `ActionMessage` this code uses; `src` and `dst` are (federate, handle).  The defaults
are those of ActionMessage.hpp:33-46 -/
structure Cmd where
  act : Act
  src : Int × Int := (parentId, noHandle)
  dst : Int × Int := (parentId, noHandle)
  counter : Nat := 0
  seq : Int := 0
  msg : Msg
deriving DecidableEq, Repr

/-- `ActionMessage(std::unique_ptr<Message>)`, ActionMessage.cpp:62-70: all ids are reset -/
def Cmd.ofMsg (m : Msg) : Cmd := { act := .send, msg := m }

/-- an `ActionMessage` built from an action alone, as in `command = CMD_IGNORE` -/
def Cmd.ofAct (a : Act) : Cmd := { act := a, msg := { dest := "" } }

/-- an endpoint of the core with its `FilterCoordinator`, FilterCoordinator.hpp:17-33 -/
structure Ept where
  fed : Int
  key : String
  chain : List FInfo := []
  dest : Option FInfo := none
  clones : List FInfo := []

/-- `cBigTime`, helicsTime.hpp:37 (the exact value is not used) -/
def bigTime : Int := 9223372036854774000

/-- `FilterFederate`, FilterFederate.hpp:37-76 -/
structure FF where
  /-- `mFedID` -/
  fed : Int
  /-- the endpoints among `mHandles` with their `filterCoord` entry -/
  epts : Int → Option Ept
  /-- `filterOp` of the local filters, by handle -/
  ops : Int → Option Op
  /-- `ongoingFilterProcesses` -/
  ongoing : List (Int × Int) := []
  /-- `ongoingDestFilterProcesses` -/
  ongoingDest : List (Int × Int) := []
  /-- `timeBlockProcesses` -/
  returns : List (Int × Int) := []
  /-- `minReturnTime` -/
  minReturn : Int := Verif.maxVal
  /-- `messageCounter` -/
  counter : Int := 54

/-- what the filter federate makes its core do -/
inductive Eff
  /-- `mSendMessage` of a command for another core -/
  | wire (c : Cmd)
  /-- `mDeliverMessage` -/
  | deliver (c : Cmd)
  /-- `mSendMessage` of a message for a local federate -/
  | give (c : Cmd)
  /-- `CMD_TIME_BLOCK`/`CMD_TIME_UNBLOCK` to the core, for the federate -/
  | block (fid : Int)
  | unblock (fid : Int)
  /-- `CMD_TIME_BLOCK`/`CMD_TIME_UNBLOCK` to the federate -/
  | blockFed (fid : Int)
  | unblockFed (fid : Int)
  /-- a null pointer was used -/
  | crash
deriving DecidableEq, Repr

/-- `FilterFederate::addTimeReturn`, FilterFederate.cpp:502-509 -/
def FF.addReturn (s : FF) (id time : Int) : FF :=
  { s with returns := s.returns ++ [(id, time)], minReturn := if time < s.minReturn then time else s.minReturn }

/-- the loop recomputing `minReturnTime`, FilterFederate.cpp:525-531 -/
def minTime (l : List (Int × Int)) : Int :=
  l.foldl (fun r p => if p.2 < r then p.2 else r) bigTime

/-- `FilterFederate::clearTimeReturn`, FilterFederate.cpp:511-533 -/
def FF.clearReturn (s : FF) (id : Int) : FF :=
  match s.returns with
  | [] => s
  | p :: rest =>
    if p.1 = id then
      { s with returns := rest, minReturn := if p.2 = s.minReturn then minTime rest else s.minReturn }
    else s

/-- is there an ongoing process of this federate: `ongoing…[fid].empty()` negated -/
def busy (l : List (Int × Int)) (fid : Int) : Bool := l.any (fun p => p.1 = fid)

/-- `FilterFederate::generateProcessMarker`, FilterFederate.cpp:187-199 -/
def FF.mark (s : FF) (fid pid time : Int) : FF × List Eff :=
  ({ s with ongoing := if (fid, pid) ∈ s.ongoing then s.ongoing else s.ongoing ++ [(fid, pid)] }.addReturn
      pid time,
    if busy s.ongoing fid then [] else [.block fid])

/-- `FilterFederate::acceptProcessReturn`, FilterFederate.cpp:201-214 -/
def FF.unmark (s : FF) (fid pid : Int) : FF × List Eff :=
  let o := s.ongoing.filter (fun p => p ≠ (fid, pid))
  ({ s with ongoing := o }.clearReturn pid, if busy o fid then [] else [.unblock fid])

/-- `FilterFederate::generateDestProcessMarker`, FilterFederate.cpp:216-229 -/
def FF.markDest (s : FF) (fid pid time : Int) : FF × List Eff :=
  ({ s with ongoingDest :=
      if (fid, pid) ∈ s.ongoingDest then s.ongoingDest else s.ongoingDest ++ [(fid, pid)] }.addReturn pid time,
    if busy s.ongoingDest fid then [] else [.blockFed fid])

/-- `FilterFederate::acceptDestProcessReturn`, FilterFederate.cpp:231-244 -/
def FF.unmarkDest (s : FF) (fid pid : Int) : FF × List Eff :=
  let o := s.ongoingDest.filter (fun p => p ≠ (fid, pid))
  ({ s with ongoingDest := o }.clearReturn pid, if busy o fid then [] else [.unblockFed fid])

/-- `FilterFederate::executeFilter`, FilterFederate.cpp:330-370: the command afterwards, whether to go
on with the next filter, and the effects -/
def FF.execute (s : FF) (c : Cmd) (f : FInfo) : Cmd × Bool × List Eff :=
  if f.core = s.fed then
    match s.ops f.handle with
    | none => (c, false, [.crash])
    | some op =>
      if f.cloning then (c, true, (op.vec c.msg).map (fun m => .deliver (Cmd.ofMsg m)))
      else
        match op.proc c.msg with
        | some m => (Cmd.ofMsg m, true, [])
        | none => (Cmd.ofAct .ignore, false, [])
  else if f.cloning then
    (c, true, [.wire { c with act := .forFilter, dst := (f.core, f.handle) }])
  else ({ c with dst := (f.core, f.handle) }, false, [])

/-- the loop of `FilterFederate::processMessage`, FilterFederate.cpp:379-403, from the remaining filters
on; `ii` counts the filters not skipped, `n` is the length of the whole chain -/
def FF.walk (s : FF) (fid : Int) (n : Nat) : List FInfo → Nat → Cmd → FF × Cmd × List Eff
  | [], _, c => (s, c, [])
  | f :: fs, ii, c =>
    if f.off then s.walk fid n fs ii c
    else
      let (c1, go, e1) := s.execute c f
      if go then
        let (s2, c2, e2) := s.walk fid n fs (ii + 1) c1
        (s2, c2, e1 ++ e2)
      else if .crash ∈ e1 then (s, c1, e1)
      else if c1.act = .ignore then (s, c1, e1)
      else
        let c1 := { c1 with counter := ii % 65536 }
        if ii + 1 < n then
          let c2 := { c1 with act := .forFilterRet, seq := s.counter }
          let (s1, e2) := { s with counter := s.counter + 1 }.mark fid s.counter c1.msg.time
          (s1, c2, e1 ++ e2)
        else (s, { c1 with act := .forFilter }, e1)

/-- `CommonCore::processMessage`, CommonCore.cpp:5560-5574, and `FilterFederate::processMessage`,
FilterFederate.cpp:372-406: the source filters of the endpoint `h` -/
def FF.process (s : FF) (h : Int) (c : Cmd) : FF × Cmd × List Eff :=
  match s.epts h with
  | none => (s, c, [])
  | some e => s.walk e.fed e.chain.length e.chain 0 c

/-- the loop of `FilterFederate::processFilterReturn`, FilterFederate.cpp:266-291, from the filter at
position `ii` on: the command, whether it is to be sent, the effects -/
def FF.resume (s : FF) (fid h : Int) (n : Nat) : List FInfo → Nat → Cmd → FF × Option Cmd × List Eff
  | [], _, c => (s, some c, [])
  | f :: fs, ii, c =>
    if f.off then s.resume fid h n fs (ii + 1) c
    else
      let (c1, go, e1) := s.execute c f
      if go then
        let (s2, c2, e2) := s.resume fid h n fs (ii + 1) c1
        (s2, c2, e1 ++ e2)
      else if .crash ∈ e1 then (s, none, e1)
      else if c1.act = .ignore then (s, none, e1)
      else if ii + 1 < n then
        let c2 := { c1 with
          counter := ii % 65536, act := .forFilterRet, seq := s.counter, src := (fid, h) }
        let (s1, e2) := { s with counter := s.counter + 1 }.mark fid s.counter c1.msg.time
        (s1, some c2, e1 ++ e2)
      else (s, some { c1 with act := .forFilter }, e1)

/-- `FilterFederate::processFilterReturn`, FilterFederate.cpp:247-297 -/
def FF.filterReturn (s : FF) (c : Cmd) : FF × List Eff :=
  match s.epts c.dst.2 with
  | none => (s, [])
  | some e =>
    if (e.fed, c.seq) ∈ s.ongoing then
      if c.act = .null then s.unmark e.fed c.seq
      else
        let (s1, oc, e1) := s.resume e.fed c.dst.2 e.chain.length (e.chain.drop (c.counter + 1))
          (c.counter + 1) { c with act := .send }
        let (s2, e2) := s1.unmark e.fed c.seq
        (s2, e1 ++ e2 ++ match oc with | some c1 => [.deliver c1] | none => [])
    else (s, [])

/-- `FilterFederate::runCloningDestinationFilters`, FilterFederate.cpp:458-500 (a local cloning filter
without operator does nothing) -/
def FF.runClones (s : FF) (e : Ept) (h : Int) (c : Cmd) : List Eff :=
  e.clones.flatMap (fun f =>
    if f.off then []
    else if f.core = s.fed then
      match s.ops f.handle with
      | none => []
      | some op => (op.vec c.msg).map (fun m =>
          if m.dest = e.key then .give { Cmd.ofMsg m with dst := (e.fed, h) }
          else .deliver (Cmd.ofMsg m))
    else [.wire { c with act := .forFilter, dst := (f.core, f.handle) }])

/-- `FilterFederate::destinationProcessMessage`, FilterFederate.cpp:408-456, for the endpoint `h`: the
command afterwards (`none`: do not deliver it) and the effects.  An operator dropping the message makes
the code read through a null pointer (line 441) -/
def FF.destProcess (s : FF) (e : Ept) (h : Int) (c : Cmd) : FF × Option Cmd × List Eff :=
  match e.dest with
  | none => (s, some c, s.runClones e h c)
  | some f =>
    if f.off then (s, some c, s.runClones e h c)
    else if f.core ≠ s.fed then
      let s1 := { s with counter := s.counter + 1 }
      let (s2, e1) := s1.markDest e.fed s1.counter c.msg.time
      (s2, none, e1 ++ [.wire { c with
        act := .forDestRet, seq := s1.counter, src := (e.fed, h), dst := (f.core, f.handle) }])
    else
      match s.ops f.handle with
      | none => (s, some c, s.runClones e h c)
      | some op =>
        match op.proc c.msg with
        | none => (s, none, [.crash])
        | some m =>
          if m.dest = c.msg.dest then
            (s, some { c with act := .send, msg := m }, s.runClones e h { c with act := .send, msg := m })
          else (s, none, [.deliver { c with act := .send, msg := m }])

/-- `FilterFederate::processDestFilterReturn`, FilterFederate.cpp:300-328 -/
def FF.destReturn (s : FF) (c : Cmd) : FF × List Eff :=
  match s.epts c.dst.2 with
  | none => (s, [])
  | some e =>
    if (e.fed, c.seq) ∈ s.ongoingDest then
      if c.act = .nullDest then s.unmarkDest e.fed c.seq
      else
        let e1 := s.runClones e c.dst.2 c
        let (s2, e2) := s.unmarkDest e.fed c.seq
        (s2, e1 ++ [.give { c with act := .send }] ++ e2)
    else (s, [])

/-- a filter at its home: `cloning`, `disconnected_flag` and `filterOp` of the `FilterInfo` there -/
structure Home where
  cloning : Bool := false
  off : Bool := false
  op : Option Op

/-- `FilterFederate::processMessageFilter`, FilterFederate.cpp:74-185, at the filter federate `me` for its
own filter `h` (`none`: not known there; with assertions off the message is dropped): the commands handed
to `mDeliverMessage` -/
def atHome (me h : Int) (fi : Option Home) (c : Cmd) : List Cmd :=
  match fi with
  | none => []
  | some fi =>
    match (if fi.off then none else fi.op) with
    | some op =>
      if fi.cloning then (op.vec c.msg).map Cmd.ofMsg
      else
        let destFilter : Bool := decide (c.act = .forDestRet)
        let back : Bool := decide (c.act = .forFilterRet) || destFilter
        let res : Cmd × List Cmd :=
          match op.proc c.msg with
          | none => (Cmd.ofAct .ignore, [])
          | some m =>
            if m.dest ≠ c.msg.dest ∧ destFilter = true then
              (Cmd.ofAct .ignore, [{ Cmd.ofMsg m with dst := (parentId, noHandle) }])
            else (Cmd.ofMsg m, [])
        if back = false then
          if res.1.act = .ignore then res.2
          else res.2 ++ [{ res.1 with src := c.src, dst := (parentId, noHandle) }]
        else
          let r : Cmd := { res.1 with dst := c.src, counter := c.counter, seq := c.seq, src := (me, h) }
          if r.act = .ignore then
            res.2 ++ [{ r with act := if destFilter then .nullDest else .null }]
          else res.2 ++ [{ r with act := if destFilter then .destResult else .result }]
    | none =>
      let destFilter : Bool := decide (c.act = .forDestRet)
      let back : Bool := decide (c.act = .forFilterRet) || destFilter
      if back = false then [{ c with act := .send, dst := (parentId, noHandle) }]
      else
        [{ c with
            dst := c.src, act := if destFilter then .destResult else .result, src := (me, h) }]

/-! ## The core and the rest of the federation -/

/-- core `A` with its filter federate, and the commands under way -/
structure Sys where
  ff : FF
  /-- the filters of other cores: home and handle -/
  home : Int → Int → Option Home
  /-- the endpoint a broker finds under a name (`fillMessageRouteInformation`, CoreBroker.cpp:297-310) -/
  resolve : String → Option (Int × Int)
  /-- requests to filters of other cores and their answers -/
  wire : List Cmd := []
  /-- the messages handed to `deliverMessage` as `CMD_SEND_MESSAGE`, oldest first -/
  handed : List Cmd := []
  /-- the messages passed to local federates: endpoint handle and message -/
  received : List (Int × Msg) := []
  /-- `timeBlocks`, CommonCore.hpp:478 -/
  blocks : List (Int × Int) := []
  /-- `delayedTimingMessages`: (federate, content) in the order of arrival -/
  delayed : List (Int × Int) := []
  /-- the time requests and grants of local federates passed on -/
  timing : List (Int × Int) := []
  /-- federates told to hold their time (`CMD_TIME_BLOCK` to the federate) -/
  held : List Int := []
  crashed : Bool := false

/-- `CommonCore::hasTimeBlock`, CommonCore.cpp:5226-5234 -/
def Sys.hasBlock (y : Sys) (fid : Int) : Bool :=
  match y.blocks.find? (fun b => b.1 = fid) with
  | some b => decide (b.2 ≠ 0)
  | none => false

/-- `CommonCore::manageTimeBlocks` for `CMD_TIME_BLOCK`, CommonCore.cpp:5276-5288 -/
def Sys.addBlock (y : Sys) (fid : Int) : Sys :=
  { y with blocks :=
    if y.blocks.any (fun b => b.1 = fid) then
      y.blocks.map (fun b => if b.1 = fid then (b.1, b.2 + 1) else b)
    else y.blocks ++ [(fid, 1)] }

/-- `CommonCore::manageTimeBlocks` for `CMD_TIME_UNBLOCK`, CommonCore.cpp:5289-5299, with
`transmitDelayedMessages`, 3446-3477 (the part for time messages): the delayed ones are sent in order when
the count comes to zero -/
def Sys.dropBlock (y : Sys) (fid : Int) : Sys :=
  let y1 : Sys := { y with
    blocks := y.blocks.map (fun b =>
      if b.1 = fid then (b.1, if b.2 - 1 ≤ 0 then 0 else b.2 - 1) else b) }
  if y.blocks.any (fun b => decide (b.1 = fid) && decide (b.2 - 1 ≤ 0)) then
    { y1 with
      timing := y1.timing ++ y1.delayed.filter (fun d => decide (d.1 = fid)),
      delayed := y1.delayed.filter (fun d => decide (d.1 ≠ fid)) }
  else y1

/-- carry out one effect.  `deliverMessage`, CommonCore.cpp:2400-2450, sends every command which is not
`CMD_SEND_MESSAGE` to the route of its destination -/
def Sys.effect (y : Sys) : Eff → Sys
  | .wire c => { y with wire := y.wire ++ [c] }
  | .deliver c =>
    if c.act = .send then { y with handed := y.handed ++ [c] } else { y with wire := y.wire ++ [c] }
  | .give c => { y with received := y.received ++ [(c.dst.2, c.msg)] }
  | .block fid => y.addBlock fid
  | .unblock fid => y.dropBlock fid
  | .blockFed fid => { y with held := y.held ++ [fid] }
  | .unblockFed fid => { y with held := y.held.filter (fun i => i ≠ fid) }
  | .crash => { y with crashed := true }

/-- carry out the effects in order -/
def Sys.effects (y : Sys) (es : List Eff) : Sys := es.foldl Sys.effect y

/-- what can happen next -/
inductive Ev
  /-- endpoint `h` of `A` sends a message; `dst` is the target's handle if the endpoint has one target
  (`generateMessages`, CommonCore.cpp:2249-2258) and the parent otherwise -/
  | post (h : Int) (m : Msg) (dst : Int × Int)
  /-- the `j`-th command under way is a request which arrives at the home of the filter -/
  | home (j : Nat)
  /-- the `j`-th command under way is an answer which arrives at `A` -/
  | back (j : Nat)
  /-- a message for endpoint `h` of `A` arrives there, `dst` is what the sender or a broker has filled in -/
  | arrive (h : Int) (m : Msg) (dst : Int × Int)
  /-- a time request or grant of a local federate reaches the core -/
  | time (fid : Int) (x : Int)
deriving DecidableEq, Repr

/-- is this a request to a filter -/
def Act.isRequest : Act → Bool
  | .forFilter | .forFilterRet | .forDestRet => true
  | _ => false

/-- is this an answer of a source filter -/
def Act.isAnswer : Act → Bool
  | .result | .null => true
  | _ => false

/-- is this an answer of a destination filter -/
def Act.isDestAnswer : Act → Bool
  | .destResult | .nullDest => true
  | _ => false

/-- an answer addressed to `parent_broker_id` is given the destination found under the name in the message
by a broker (CoreBroker.cpp:1420-1448) -/
def Sys.address (y : Sys) (c : Cmd) : Cmd :=
  if c.dst.1 = parentId then
    match y.resolve c.msg.dest with
    | some d => { c with dst := d }
    | none => c
  else c

/-- does this destination belong to `A` -/
def Sys.isMine (y : Sys) (d : Int × Int) : Bool :=
  match y.ff.epts d.2 with
  | some e => decide (e.fed = d.1)
  | none => false

/-- `deliverMessage` for a message arriving at a local endpoint, CommonCore.cpp:2415-2436 -/
def Sys.arrive (y : Sys) (h : Int) (c : Cmd) : Sys :=
  match y.ff.epts h with
  | none => y
  | some e =>
    let (s, oc, es) := y.ff.destProcess e h c
    let y1 := { y with ff := s }.effects es
    match oc with
    | some c1 => { y1 with received := y1.received ++ [(h, c1.msg)] }
    | none => y1

/-- `CMD_SEND_MESSAGE` of an endpoint, CommonCore.cpp:3729-3736: source filters, then delivery (a dropped
message is `CMD_IGNORE`, which `deliverMessage` sends to the parent, where it has no effect) -/
def Sys.post (y : Sys) (h : Int) (m : Msg) (dst : Int × Int) : Sys :=
  match y.ff.epts h with
  | none => y
  | some e =>
    let (s, c, es) := y.ff.process h { act := .send, src := (e.fed, h), dst := dst, msg := m }
    let y1 := { y with ff := s }.effects es
    if c.act = .ignore ∨ .crash ∈ es then y1 else y1.effect (.deliver c)

/-- one step -/
def Sys.step (y : Sys) : Ev → Sys
  | .post h m dst => y.post h m dst
  | .home j =>
    match y.wire[j]? with
    | some c =>
      if c.act.isRequest then
        { y with wire := y.wire.eraseIdx j }.effects
          ((atHome c.dst.1 c.dst.2 (y.home c.dst.1 c.dst.2) c).map Eff.deliver)
      else y
    | none => y
  | .back j =>
    match y.wire[j]? with
    | some c =>
      let y1 := { y with wire := y.wire.eraseIdx j }
      let c1 := y.address c
      if c.act.isAnswer then
        if y.isMine c1.dst then
          { y1 with ff := (y.ff.filterReturn c1).1 }.effects (y.ff.filterReturn c1).2
        else y1
      else if c.act.isDestAnswer then
        if y.isMine c1.dst then
          { y1 with ff := (y.ff.destReturn c1).1 }.effects (y.ff.destReturn c1).2
        else y1
      else y
    | none => y
  | .arrive h m dst => y.arrive h { act := .send, dst := dst, msg := m }
  | .time fid x =>
    if y.hasBlock fid then { y with delayed := y.delayed ++ [(fid, x)] }
    else { y with timing := y.timing ++ [(fid, x)] }

/-- a run -/
def Sys.run (y : Sys) (es : List Ev) : Sys := es.foldl Sys.step y

/-! ## The order of the filters -/

/-- a filter as `organizeFilterOperations` sees it -/
structure Typed where
  info : FInfo
  inType : String
  outType : String
deriving DecidableEq, Repr

/-- one pass of the inner loop of `FilterFederate::organizeFilterOperations`, FilterFederate.cpp:877-906,
after the first: take the filters whose input type matches the current type, in order.  The result is the
filters taken, those left, and the current type.  `mt` is `core::matchingTypes`,
coreTypeOperations.cpp:299-316 -/
def typedPass (mt : String → String → Bool) : List Typed → String → List Typed × List Typed × String
  | [], t => ([], [], t)
  | f :: fs, t =>
    if mt f.inType t then
      let (a, b, t1) := typedPass mt fs f.outType
      (f :: a, b, t1)
    else
      let (a, b, t1) := typedPass mt fs t
      (a, f :: b, t1)

/-- the outer loop, FilterFederate.cpp:874-911, after the first pass: until nothing is left or a pass
takes nothing.  `fuel` bounds the number of passes (each but the last takes a filter) -/
def typedPasses (mt : String → String → Bool) : Nat → List Typed → String → List Typed × List Typed × String
  | 0, l, t => ([], l, t)
  | fuel + 1, l, t =>
    let (a, b, t1) := typedPass mt l t
    if b.isEmpty || a.isEmpty then (a, b, t1)
    else
      let (a', b', t2) := typedPasses mt fuel b t1
      (a ++ a', b', t2)

/-- `FilterFederate::organizeFilterOperations` for one endpoint of type `t`, FilterFederate.cpp:855-918:
the ordered source filters and those left out with a warning.  The first pass takes the cloning
filters -/
def organize (mt : String → String → Bool) (t : String) (all : List Typed) : List Typed × List Typed :=
  let first := all.filter (fun f => f.info.cloning)
  let rest := all.filter (fun f => !f.info.cloning)
  if rest.isEmpty then (first, [])
  else
    let (a, b, _) := typedPasses mt (rest.length + 1) rest t
    (first ++ a, b)

end Verif.Filt
