import Verif.Model.Time
/-!
# Inputs: src/helics/core/InputInfo.hpp and src/helics/core/InputInfo.cpp

The parallel vectors `current_data_time`, `current_data`, `input_sources`, `deactivated`, `source_info`
and `data_queues` (InputInfo.hpp:74-83) are always resized together (InputInfo.cpp:201-210); they are one list of
per-source records here.
-/
namespace Verif

/-- The bytes of a `SmallBuffer` (src/helics/core/SmallBuffer.hpp); its storage is modelled separately. -/
abbrev Bytes := List UInt8

/-- `GlobalHandle` (src/helics/core/GlobalFederateId.hpp): a federate id and an interface handle. -/
structure GHandle where
  fed : FedId
  handle : Int
  deriving DecidableEq, Repr, Inhabited

/-- `InputInfo::dataRecord` (src/helics/core/InputInfo.hpp:24-39).  The shared pointer is never null inside a
queue because `addData` refuses null data (InputInfo.cpp:113-115). -/
structure DRec where
  time : Time
  iter : Nat
  data : Bytes
  deriving DecidableEq, Repr, Inhabited

/-- One slot of the parallel vectors of an input (src/helics/core/InputInfo.hpp:74-83). -/
structure Src where
  handle : GHandle
  key : String := ""
  type : String := ""
  units : String := ""
  queue : List DRec := []
  cur : Option Bytes := none
  curTime : Time := minVal
  curIter : Nat := 0
  deact : Time := maxVal
  deriving DecidableEq, Repr, Inhabited

/-- `class InputInfo` (src/helics/core/InputInfo.hpp:57-159).  `quote` strings are kept as produced. -/
structure Input where
  required : Bool := false
  onlyChange : Bool := false
  notInterruptible : Bool := false
  strictType : Bool := false
  ignoreUnit : Bool := false
  requiredConns : Int := 0
  gap : Time := 0
  priority : List Int := []
  srcs : List Src := []
  queued : UInt64 := 0
  inputUnits : String := ""
  inputType : String := ""
  sourceTargets : String := ""
  deriving Repr, Inhabited

namespace Input

/-- `dataSize(data)` and `dataSize(begin, end)` (src/helics/core/InputInfo.cpp:93-106), in 64-bit arithmetic. -/
def sizeOf (l : List DRec) : UInt64 := (l.map fun r => UInt64.ofNat r.data.length).sum

/-- `recordComparison` (src/helics/core/InputInfo.cpp:82-91). -/
def recLt (a b : DRec) : Bool := decide (a.time < b.time) || (decide (a.time = b.time) && decide (a.iter < b.iter))

/-- Position of `std::upper_bound(..., recordComparison)` (src/helics/core/InputInfo.cpp:159-162): the elements
not greater than `r`, and the rest.  Simplification: found by a scan, not by bisection; the two agree on sorted
queues, and queues are sorted (`Verif.Input.Sorted`). -/
def splitAt (r : DRec) : List DRec → List DRec × List DRec
  | [] => ([], [])
  | e :: es => if recLt r e then ([], e :: es) else ((e :: (splitAt r es).1), (splitAt r es).2)

/-- The two rejection tests applied against a previous value (src/helics/core/InputInfo.cpp:133-142, 146-155,
166-175): minimum time gap, then equal bytes under `only_update_on_change`. -/
def rejects (i : Input) (prevTime : Time) (prevData : Bytes) (t : Time) (d : Bytes) : Bool :=
  (decide (i.gap > 0) && decide (t - prevTime < i.gap)) || (i.onlyChange && decide (prevData = d))

/-- The queue part of `InputInfo::addData` for the matching source (src/helics/core/InputInfo.cpp:131-178):
`none` is a rejected value, otherwise the new queue. -/
def enqueue (i : Input) (s : Src) (r : DRec) : Option (List DRec) :=
  match s.queue.getLast? with
  | none =>
    match s.cur with
    | some c => if i.rejects s.curTime c r.time r.data then none else some [r]
    | none => some [r]
  | some b =>
    if r.time > b.time then
      if i.rejects b.time b.data r.time r.data then none else some (s.queue ++ [r])
    else
      let (pre, post) := splitAt r s.queue
      match pre.getLast? with
      | some p => if i.rejects p.time p.data r.time r.data then none else some (pre ++ r :: post)
      | none => some (pre ++ r :: post)

/-- The search loop of `InputInfo::addData` (src/helics/core/InputInfo.cpp:116-129) over the source slots; `none`
is a rejected value. -/
def addToSrcs (i : Input) (h : GHandle) (r : DRec) : List Src → Option (List Src)
  | [] => none
  | s :: ss =>
    if s.handle = h then
      if r.time > s.deact then none
      else match i.enqueue s r with
        | some q => some ({ s with queue := q } :: ss)
        | none => none
    else (addToSrcs i h r ss).map (s :: ·)

/-- `InputInfo::addData` (src/helics/core/InputInfo.cpp:108-181); `data = none` is a null pointer. -/
def addData (i : Input) (h : GHandle) (t : Time) (iter : Nat) (data : Option Bytes) : Input × Bool :=
  match data with
  | none => (i, false)
  | some d =>
    match i.addToSrcs h ⟨t, iter, d⟩ i.srcs with
    | none => (i, false)
    | some ss => ({ i with srcs := ss, queued := i.queued + UInt64.ofNat d.length }, true)

/-- `InputInfo::updateData` (src/helics/core/InputInfo.cpp:470-488) on one source. -/
def updateData (onlyChange : Bool) (s : Src) (u : DRec) : Src × Bool :=
  if !onlyChange || s.cur = none then ({ s with cur := some u.data, curTime := u.time, curIter := u.iter }, true)
  else if s.cur ≠ some u.data then ({ s with cur := some u.data, curTime := u.time, curIter := u.iter }, true)
  else if s.curTime = u.time then ({ s with curIter := u.iter }, false)
  else (s, false)

/-- The scanning loop `while (it != end && p(*it)) { last = it; ++it; }` shared by the update functions
(src/helics/core/InputInfo.cpp:375-378): the last record passed, the records passed, the records left. -/
def advance (p : DRec → Bool) (last : DRec) : List DRec → DRec × List DRec × List DRec
  | [] => (last, [], [])
  | c :: cs =>
    if p c then
      let (l, passed, rest) := advance p c cs
      (l, c :: passed, rest)
    else (last, [], c :: cs)

/-- One source in `updateTimeUpTo` (src/helics/core/InputInfo.cpp:362-388): its new slot, the records removed and
the reported change. -/
def srcUpTo (oc : Bool) (T : Time) (s : Src) : Src × List DRec × Bool :=
  match s.queue with
  | [] => (s, [], false)
  | c :: cs =>
    if c.time ≥ T then (s, [], false)
    else
      let (last, passed, rest) := advance (fun r => decide (r.time < T)) c cs
      let (s', b) := updateData oc s last
      ({ s' with queue := rest }, c :: passed, b)

/-- One source in `updateTimeInclusive` (src/helics/core/InputInfo.cpp:441-466). -/
def srcInclusive (oc : Bool) (T : Time) (s : Src) : Src × List DRec × Bool :=
  match s.queue with
  | [] => (s, [], false)
  | c :: cs =>
    if c.time > T then (s, [], false)
    else
      let (last, passed, rest) := advance (fun r => decide (r.time ≤ T)) c cs
      let (s', b) := updateData oc s last
      ({ s' with queue := rest }, c :: passed, b)

/-- One source in `updateTimeNextIteration` (src/helics/core/InputInfo.cpp:397-432); the iteration compared with
is that of the last record passed before `newTime` was reached (line 415). -/
def srcNextIter (oc : Bool) (T : Time) (s : Src) : Src × List DRec × Bool :=
  match s.queue with
  | [] => (s, [], false)
  | c :: cs =>
    if c.time > T then (s, [], false)
    else
      let (last, passed, rest) := advance (fun r => decide (r.time < T)) c cs
      match rest with
      | [] =>
        let (s', b) := updateData oc s last
        ({ s' with queue := [] }, c :: passed, b)
      | n :: ns =>
        if n.time = T then
          let (last', passed', rest') :=
            advance (fun r => decide (r.time = T) && decide (r.iter = last.iter)) last (n :: ns)
          let (s', b) := updateData oc s last'
          ({ s' with queue := rest' }, c :: (passed ++ passed'), b)
        else
          let (s', b) := updateData oc s last
          ({ s' with queue := n :: ns }, c :: passed, b)

/-- The loop over the queues with the byte count and the `updated` flag (src/helics/core/InputInfo.cpp:359-389). -/
def sweep (f : Src → Src × List DRec × Bool) : List Src → UInt64 → List Src × UInt64 × Bool
  | [], q => ([], q, false)
  | s :: ss, q =>
    let (s', gone, b) := f s
    let (ss', q', b') := sweep f ss (q - sizeOf gone)
    (s' :: ss', q', b || b')

/-- `InputInfo::updateTimeUpTo` (src/helics/core/InputInfo.cpp:357-390). -/
def updateTimeUpTo (i : Input) (T : Time) : Input × Bool :=
  let (ss, q, b) := sweep (srcUpTo i.onlyChange T) i.srcs i.queued
  ({ i with srcs := ss, queued := q }, b)

/-- `InputInfo::updateTimeNextIteration` (src/helics/core/InputInfo.cpp:392-434). -/
def updateTimeNextIteration (i : Input) (T : Time) : Input × Bool :=
  let (ss, q, b) := sweep (srcNextIter i.onlyChange T) i.srcs i.queued
  ({ i with srcs := ss, queued := q }, b)

/-- `InputInfo::updateTimeInclusive` (src/helics/core/InputInfo.cpp:436-468). -/
def updateTimeInclusive (i : Input) (T : Time) : Input × Bool :=
  let (ss, q, b) := sweep (srcInclusive i.onlyChange T) i.srcs i.queued
  ({ i with srcs := ss, queued := q }, b)

/-- The search loop of `InputInfo::addSource` (src/helics/core/InputInfo.cpp:188-200): `none` when the source is
new, otherwise the slots and the returned flag.  On a reconnection both the units and the type are overwritten
with the new units (lines 193-194). -/
def reconnect (h : GHandle) (units : String) : List Src → Option (List Src × Bool)
  | [] => none
  | s :: ss =>
    if s.handle = h then
      if s.deact < maxVal then some ({ s with deact := maxVal, units := units, type := units } :: ss, true)
      else some (s :: ss, false)
    else (reconnect h units ss).map fun r => (s :: r.1, r.2)

/-- `InputInfo::addSource` (src/helics/core/InputInfo.cpp:183-213). -/
def addSource (i : Input) (h : GHandle) (name type units : String) : Input × Bool :=
  match reconnect h units i.srcs with
  | some (ss, b) => ({ i with srcs := ss }, b)
  | none =>
    ({ i with inputUnits := "", inputType := "",
              srcs := i.srcs ++ [{ handle := h, key := name, type := type, units := units }] }, true)

/-- Lowering of the deactivation time (src/helics/core/InputInfo.cpp:222-224, 241-243, 259-261). -/
def deactivate (minTime : Time) (s : Src) : Src := if minTime < s.deact then { s with deact := minTime } else s

/-- `InputInfo::disconnectFederate` (src/helics/core/InputInfo.cpp:215-228). -/
def disconnectFederate (i : Input) (fed : FedId) (minTime : Time) : Input :=
  { i with inputUnits := "", inputType := "",
           srcs := i.srcs.map fun s => if s.handle.fed = fed then deactivate minTime s else s }

/-- `while (!queue.empty() && queue.back().time > minTime) queue.pop_back();`
(src/helics/core/InputInfo.cpp:237-240) on the reversed queue: what is left and what was removed. -/
def popBack (minTime : Time) : List DRec → List DRec × List DRec
  | [] => ([], [])
  | b :: bs => if b.time > minTime then ((popBack minTime bs).1, b :: (popBack minTime bs).2) else (b :: bs, [])

/-- One matching source in `removeSource` (src/helics/core/InputInfo.cpp:236-244). -/
def srcRemove (minTime : Time) (s : Src) : Src × List DRec :=
  let (left, gone) := popBack minTime s.queue.reverse
  (deactivate minTime { s with queue := left.reverse }, gone)

/-- The loop of `removeSource` over all slots (src/helics/core/InputInfo.cpp:235-246, 253-264). -/
def removeLoop (p : Src → Bool) (minTime : Time) : List Src → UInt64 → List Src × UInt64
  | [], q => ([], q)
  | s :: ss, q =>
    if p s then
      let (s', gone) := srcRemove minTime s
      let (ss', q') := removeLoop p minTime ss (q - sizeOf gone)
      (s' :: ss', q')
    else
      let (ss', q') := removeLoop p minTime ss q
      (s :: ss', q')

/-- `InputInfo::removeSource(GlobalHandle, Time)` (src/helics/core/InputInfo.cpp:230-247). -/
def removeSource (i : Input) (h : GHandle) (minTime : Time) : Input :=
  let (ss, q) := removeLoop (fun s => decide (s.handle = h)) minTime i.srcs i.queued
  { i with inputUnits := "", inputType := "", srcs := ss, queued := q }

/-- `InputInfo::removeSource(std::string_view, Time)` (src/helics/core/InputInfo.cpp:249-265). -/
def removeSourceNamed (i : Input) (name : String) (minTime : Time) : Input :=
  let (ss, q) := removeLoop (fun s => decide (s.key = name)) minTime i.srcs i.queued
  { i with inputUnits := "", inputType := "", srcs := ss, queued := q }

/-- `InputInfo::clearFutureData` (src/helics/core/InputInfo.cpp:267-273). -/
def clearFutureData (i : Input) : Input :=
  { i with srcs := i.srcs.map fun s => { s with queue := [] }, queued := 0 }

/-- `InputInfo::nextValueTime` (src/helics/core/InputInfo.cpp:490-504). -/
def nextValueTime (i : Input) : Time :=
  if i.notInterruptible then maxVal
  else i.srcs.foldl (fun nv s => match s.queue.head? with
    | some r => if r.time < nv then r.time else nv
    | none => nv) maxVal

/-- `priorityCheck` (src/helics/core/InputInfo.cpp:40-52) on the reversed priority list. -/
def priorityCheckRev (i1 i2 : Int) : List Int → Bool
  | [] => false
  | p :: ps => if p = i1 then true else if p = i2 then false else priorityCheckRev i1 i2 ps

/-- `priorityCheck` (src/helics/core/InputInfo.cpp:40-52). -/
def priorityCheck (i1 i2 : Int) (prio : List Int) : Bool := priorityCheckRev i1 i2 prio.reverse

/-- The selection loop of `getData(uint32_t*)` (src/helics/core/InputInfo.cpp:59-69). -/
def selectLoop (prio : List Int) : List Time → Nat → Int → Time → Int
  | [], _, mxind, _ => mxind
  | t :: ts, ind, mxind, mxTime =>
    if t > mxTime then selectLoop prio ts (ind + 1) ind t
    else if t = mxTime then
      selectLoop prio ts (ind + 1) (if priorityCheck ind mxind prio then ind else mxind) mxTime
    else selectLoop prio ts (ind + 1) mxind mxTime

/-- The value of `mxind` after the loop of `getData(uint32_t*)` (src/helics/core/InputInfo.cpp:56-69). -/
def selected (i : Input) : Int := selectLoop i.priority (i.srcs.map (·.curTime)) 0 (-1) minVal

/-- `InputInfo::getData(uint32_t*)` (src/helics/core/InputInfo.cpp:54-80): the value and the reported index. -/
def getData (i : Input) : Option Bytes × Nat :=
  let m := i.selected
  if m ≥ 0 then ((i.srcs[m.toNat]?).bind (·.cur), m.toNat) else (none, 0)

/-- `InputInfo::getData(int)` (src/helics/core/InputInfo.cpp:31-37). -/
def getDataAt (i : Input) (idx : Int) : Option Bytes :=
  if idx < 0 then none else (i.srcs[idx.toNat]?).bind (·.cur)

/-- The options switched on by inputs, publications and endpoints (src/helics/core/InputInfo.cpp:509-548,
src/helics/core/helics_definitions.hpp). -/
inductive Opt
  | ignoreInterrupts | onlyUpdateOnChange | onlyTransmitOnChange | connectionRequired | connectionOptional
  | singleConnectionOnly | multipleConnectionsAllowed | strictTypeChecking | ignoreUnitMismatch | bufferData
  | sendOnly | receiveOnly | connections | inputPriorityLocation | clearPriorityList | timeRestricted | other
  deriving DecidableEq, Repr, Inhabited

/-- `InputInfo::setProperty` (src/helics/core/InputInfo.cpp:506-549); `value` is a 32-bit integer,
`Time(value, time_units::ms)` is `value` milliseconds. -/
def setProperty (i : Input) (o : Opt) (value : Int) : Input :=
  let b : Bool := value ≠ 0
  match o with
  | .ignoreInterrupts => { i with notInterruptible := b }
  | .onlyUpdateOnChange => { i with onlyChange := b }
  | .connectionRequired => { i with required := b }
  | .connectionOptional => { i with required := !b }
  | .singleConnectionOnly => { i with requiredConns := if b then 1 else 0 }
  | .multipleConnectionsAllowed => { i with requiredConns := if b then 0 else 1 }
  | .strictTypeChecking => { i with strictType := b }
  | .ignoreUnitMismatch => { i with ignoreUnit := b }
  | .connections => { i with requiredConns := value }
  | .inputPriorityLocation => { i with priority := i.priority ++ [value] }
  | .clearPriorityList => { i with priority := [] }
  | .timeRestricted => { i with gap := value * 1000000 }
  | _ => i

/-- Truncation of a count to `int32_t` (used at src/helics/core/InputInfo.cpp:577,584). -/
def toInt32 (n : Int) : Int := (n + 2147483648) % 4294967296 - 2147483648

/-- `InputInfo::getProperty` (src/helics/core/InputInfo.cpp:551-589). -/
def getProperty (i : Input) (o : Opt) : Int :=
  let flag (b : Bool) : Int := if b then 1 else 0
  match o with
  | .ignoreInterrupts => flag i.notInterruptible
  | .onlyUpdateOnChange => flag i.onlyChange
  | .connectionRequired => flag i.required
  | .connectionOptional => flag !i.required
  | .singleConnectionOnly => flag (i.requiredConns = 1)
  | .multipleConnectionsAllowed => flag (i.requiredConns ≠ 1)
  | .strictTypeChecking => flag i.strictType
  | .connections => toInt32 i.srcs.length
  | .inputPriorityLocation => i.priority.getLast?.getD (-1)
  | .clearPriorityList => flag i.priority.isEmpty
  | .timeRestricted => toInt32 (Int.tdiv i.gap 1000000)
  | _ => 0

/-- Joining quoted names into a bracketed list (src/helics/core/InputInfo.cpp:345-350); `quote` stands for
`generateJsonQuotedString` (src/helics/common/JsonGeneration.hpp:17-21), a JSON library call. -/
def bracketed (quote : String → String) (names : List String) : String :=
  "[" ++ String.intercalate "," (names.map quote) ++ "]"

/-- Name list as built by `getTargets` (src/helics/core/InputInfo.cpp:340-353, and the same code in
src/helics/core/PublicationInfo.cpp:137-154, src/helics/core/EndpointInfo.cpp:262-298). -/
def nameList (quote : String → String) : List String → String
  | [] => ""
  | [n] => n
  | ns => bracketed quote ns

/-- `InputInfo::getTargets` (src/helics/core/InputInfo.cpp:338-355): the names are computed when the cached string
is empty and then kept. -/
def getTargets (quote : String → String) (i : Input) : Input × String :=
  if i.sourceTargets = "" then
    let s := nameList quote (i.srcs.map (·.key))
    ({ i with sourceTargets := s }, s)
  else (i, i.sourceTargets)

/-- Cached list of types or units (src/helics/core/InputInfo.cpp:277-296, 314-333): the common value, or the
bracketed list when they differ. -/
def commonOrList (quote : String → String) : List String → String
  | [] => ""
  | v :: vs => if vs.all (· == v) then v else bracketed quote (v :: vs)

/-- `InputInfo::getInjectionType` (src/helics/core/InputInfo.cpp:275-299). -/
def getInjectionType (quote : String → String) (i : Input) : Input × String :=
  if i.inputType = "" then
    let s := commonOrList quote (i.srcs.map (·.type))
    ({ i with inputType := s }, s)
  else (i, i.inputType)

/-- `InputInfo::getInjectionUnits` (src/helics/core/InputInfo.cpp:312-336). -/
def getInjectionUnits (quote : String → String) (i : Input) : Input × String :=
  if i.inputUnits = "" then
    let s := commonOrList quote (i.srcs.map (·.units))
    ({ i with inputUnits := s }, s)
  else (i, i.inputUnits)

/-- The calls made on an input by the federate (src/helics/core/FederateState.cpp:643-945, 1739-1945). -/
inductive Op
  | add (h : GHandle) (t : Time) (iter : Nat) (data : Option Bytes)
  | upTo (T : Time)
  | inclusive (T : Time)
  | nextIteration (T : Time)
  | addSource (h : GHandle) (name type units : String)
  | remove (h : GHandle) (minTime : Time)
  | removeNamed (name : String) (minTime : Time)
  | disconnect (fed : FedId) (minTime : Time)
  | clear
  | set (o : Opt) (value : Int)
  deriving Repr

/-- One call, with its returned flag (`true` for calls returning nothing). -/
def step (i : Input) : Op → Input × Bool
  | .add h t it d => i.addData h t it d
  | .upTo T => i.updateTimeUpTo T
  | .inclusive T => i.updateTimeInclusive T
  | .nextIteration T => i.updateTimeNextIteration T
  | .addSource h n ty u => i.addSource h n ty u
  | .remove h T => (i.removeSource h T, true)
  | .removeNamed n T => (i.removeSourceNamed n T, true)
  | .disconnect f T => (i.disconnectFederate f T, true)
  | .clear => (i.clearFutureData, true)
  | .set o v => (i.setProperty o v, true)

/-- A history of calls. -/
def run (i : Input) : List Op → Input
  | [] => i
  | o :: os => run (i.step o).1 os

end Input
end Verif
