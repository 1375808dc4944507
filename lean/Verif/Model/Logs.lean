/-!
# Log messages

Models `LogBuffer` (src/helics/common/LogBuffer.cpp:17-50), `LogManager` (src/helics/core/LogManager.cpp:92-153,204-269) and the
use made of it by a federate (src/helics/core/FederateState.cpp:2494-2521).  What is printed is a record of where a message goes;
headers, formats, the spdlog objects and flushing are left out, and the loggers count as initialized.  A remote target is a number
(all targets are sources of commands, so they are valid).
-/
namespace Verif
namespace Logs

/-- `LogLevels::FED` (src/helics/common/logging.hpp:35). -/
def fed : Int := 99999
/-- `HELICS_LOG_LEVEL_NO_PRINT` (src/helics/common/logging.hpp:22). -/
def noPrint : Int := -4
/-- `LogBuffer::cDefaultBufferSize` (src/helics/common/LogBuffer.hpp:27). -/
def defaultSize : Nat := 10

/-- The buffer of the last messages. -/
structure Buf where
  cap : Nat := 0
  items : List Nat := []
  deriving DecidableEq, Repr

namespace Buf

/-- `resize` (src/helics/common/LogBuffer.cpp:17-27). -/
def resize (b : Buf) (n : Nat) : Buf :=
  { cap := n, items := if n < b.cap then b.items.drop (b.items.length - n) else b.items }

/-- `enable` (src/helics/common/LogBuffer.cpp:29-38). -/
def enable (b : Buf) (on : Bool) : Buf :=
  if on then (if b.cap = 0 then b.resize defaultSize else b) else b.resize 0

/-- `push` (src/helics/common/LogBuffer.cpp:40-50). -/
def push (b : Buf) (m : Nat) : Buf :=
  if b.cap = 0 then b
  else { b with items := (if b.items.length = b.cap then b.items.drop 1 else b.items) ++ [m] }

end Buf

/-- where a message goes -/
structure Out where
  /-- the level it is reported with -/
  level : Int := 0
  buffered : Bool := false
  sentTo : List Nat := []
  callback : Bool := false
  console : Bool := false
  file : Bool := false
  deriving DecidableEq, Repr

/-- The logging of one object (src/helics/core/LogManager.hpp:31-55). -/
structure Mgr where
  maxLevel : Int := 3
  consoleLevel : Int := 3
  fileLevel : Int := 3
  targets : List (Nat × Int) := []
  hasCallback : Bool := false
  hasFile : Bool := false
  buf : Buf := {}
  deriving DecidableEq, Repr

namespace Mgr

/-- `updateMaxLogLevel` (src/helics/core/LogManager.cpp:232-241). -/
def updateMax (s : Mgr) : Mgr :=
  { s with maxLevel := s.targets.foldl (fun a t => if t.2 > a then t.2 else a) (max s.consoleLevel s.fileLevel) }

/-- `setLogLevels` (src/helics/core/LogManager.cpp:225-230). -/
def setLevels (s : Mgr) (c f : Int) : Mgr := { s with consoleLevel := c, fileLevel := f }.updateMax

/-- the loop of `updateRemote` over the known targets (src/helics/core/LogManager.cpp:261-266). -/
def retarget (d : Nat) (l : Int) : List (Nat × Int) → List (Nat × Int)
  | [] => []
  | t :: ts => if t.1 = d then (d, l) :: ts else t :: retarget d l ts

/-- `updateRemote` (src/helics/core/LogManager.cpp:259-269): the largest level is updated for a new target only. -/
def remote (s : Mgr) (d : Nat) (l : Int) : Mgr :=
  if s.targets.any (fun t => t.1 == d) then { s with targets := retarget d l s.targets }
  else { s with targets := s.targets ++ [(d, l)] }.updateMax

/-- `sendToLogger`: the decisions (src/helics/core/LogManager.cpp:92-153). -/
def out (s : Mgr) (level : Int) (fromRemote : Bool) : Out :=
  let isFed : Bool := decide (level > fed - 100)
  let always := fromRemote || isFed
  let l := if isFed then level - fed else level
  if l > s.maxLevel ∧ always = false then {}
  else
    { level := l
      buffered := true
      sentTo := if fromRemote then [] else (s.targets.filter fun t => decide (t.2 ≥ l)).map (·.1)
      callback := s.hasCallback && (decide (s.consoleLevel ≥ l) || decide (s.fileLevel ≥ l) || always)
      console := !s.hasCallback && (decide (s.consoleLevel ≥ l) || always)
      file := !s.hasCallback && s.hasFile && (decide (s.fileLevel ≥ l) || always) }

/-- `sendToLogger`: the buffer afterwards (src/helics/core/LogManager.cpp:108). -/
def log (s : Mgr) (m : Nat) (level : Int) (fromRemote : Bool) : Mgr :=
  if (s.out level fromRemote).buffered then { s with buf := s.buf.push m } else s

end Mgr

inductive Ev
  | levels (c f : Int)
  | remote (d : Nat) (l : Int)
  | log (m : Nat) (level : Int) (fromRemote : Bool)
  | resize (n : Nat)
  | enable (on : Bool)
  deriving DecidableEq, Repr

/-- One event: `setLogLevel(s)`, the command `remotelog` (src/helics/core/BrokerBase.cpp:712-729,
src/helics/core/FederateState.cpp:2623-2641), a message, the commands and options for the buffer
(src/helics/core/BrokerBase.cpp:702-711, src/helics/core/FederateState.cpp:2613-2622). -/
def Mgr.step (s : Mgr) : Ev → Mgr
  | .levels c f => s.setLevels c f
  | .remote d l => s.remote d l
  | .log m l r => s.log m l r
  | .resize n => { s with buf := s.buf.resize n }
  | .enable on => { s with buf := s.buf.enable on }

/-- The level with which a remote target receives a message that was logged with level `l`: the `CMD_REMOTE_LOG` carries none
(src/helics/core/LogManager.cpp:113-117), its `messageID` is the default 0 (src/helics/core/ActionMessage.hpp:36) and is what the
target takes for the level (src/helics/core/FederateState.cpp:1958-1963, src/helics/core/CommonCore.cpp:4527-4533). -/
def received (_l : Int) : Int := 0

/-! ## The steps of the buffer, for threads that use it at the same time -/

/-- The atomic steps: `push` reads the size, then does the rest under the lock; `resize` compares, trims under the lock, and then
stores the new size (src/helics/common/LogBuffer.cpp:17-50). -/
inductive Step
  | pushTest (t : Nat) (m : Nat)
  | pushRest (t : Nat)
  | sizeTest (t : Nat) (n : Nat)
  | sizeTrim (t : Nat)
  | sizeStore (t : Nat)
  deriving DecidableEq, Repr

/-- what a thread is about to do -/
inductive Pc
  | idle
  | pushing (m : Nat)
  | trimming (n : Nat)
  | storing (n : Nat)
  deriving DecidableEq, Repr

structure Conc where
  cap : Nat := 0
  items : List Nat := []
  pc : Nat → Pc := fun _ => .idle
  /-- an element was taken from an empty deque -/
  broken : Bool := false

def Conc.at (s : Conc) (t : Nat) (p : Pc) : Conc := { s with pc := fun u => if u = t then p else s.pc u }

/-- One atomic step of one thread (src/helics/common/LogBuffer.cpp:17-50); a step that is not the next of its thread does nothing. -/
def Conc.step (s : Conc) : Step → Conc
  | .pushTest t m => if s.pc t = .idle ∧ s.cap ≠ 0 then s.at t (.pushing m) else s
  | .pushRest t =>
    match s.pc t with
    | .pushing m =>
      let s := s.at t .idle
      if s.items.length = s.cap then
        { s with items := s.items.drop 1 ++ [m], broken := s.broken || s.items.isEmpty }
      else { s with items := s.items ++ [m] }
    | _ => s
  | .sizeTest t n => if s.pc t = .idle then s.at t (if n < s.cap then .trimming n else .storing n) else s
  | .sizeTrim t =>
    match s.pc t with
    | .trimming n => { s.at t (.storing n) with items := s.items.drop (s.items.length - n) }
    | _ => s
  | .sizeStore t =>
    match s.pc t with
    | .storing n => { s.at t .idle with cap := n }
    | _ => s

end Logs
end Verif
