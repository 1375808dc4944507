/-!
# Tags of interfaces, federates and cores

src/helics/core/BasicHandleInfo.cpp:16-35, src/helics/core/FederateState.cpp:2933-2958, src/helics/core/CommonCore.cpp:5575-5665, 3702-3724.
-/
namespace Verif.Tags

/-- A list of tags (src/helics/core/BasicHandleInfo.hpp:66-76). -/
abbrev Tags := List (String × String)

/-- `BasicHandleInfo::setTag` and `FederateState::setTag` (src/helics/core/BasicHandleInfo.cpp:16-25, src/helics/core/FederateState.cpp:2933-2945). -/
def setTag (tag value : String) : Tags → Tags
  | [] => [(tag, value)]
  | (t, x) :: r => if t = tag then (t, value) :: r else (t, x) :: setTag tag value r

/-- The first entry for a tag. -/
def find (tag : String) : Tags → Option String
  | [] => none
  | (t, x) :: r => if t = tag then some x else find tag r

/-- `BasicHandleInfo::getTag` and `FederateState::getTag` (src/helics/core/BasicHandleInfo.cpp:27-35, src/helics/core/FederateState.cpp:2947-2958). -/
def getTag (l : Tags) (tag : String) : String := (find tag l).getD ""

/-- The loop of `CMD_CORE_TAG` (src/helics/core/CommonCore.cpp:3706-3711), which leaves the loop and not the case. -/
def updFirst (tag value : String) : Tags → Tags
  | [] => []
  | (t, x) :: r => if t = tag then (t, value) :: r else (t, x) :: updFirst tag value r

/-- `CMD_CORE_TAG` (src/helics/core/CommonCore.cpp:3702-3714). -/
def setCoreTag (tag value : String) (l : Tags) : Tags := updFirst tag value l ++ [(tag, value)]

/-- A JSON object filled from a list of pairs (src/helics/core/CommonCore.cpp:2929-2932): the last entry for a name counts. -/
def object (l : Tags) (tag : String) : Option String := find tag l.reverse

/-- Commands a core gives to itself (src/helics/core/CommonCore.cpp:5620-5624, 5655-5659). -/
inductive Cmd
  | interfaceTag (h : Nat) (tag value : String)
  | coreTag (tag value : String)
  deriving DecidableEq, Repr

/-- A core: the tags of interfaces as the calls see them (`handles`) and as queries see them (`loopHandles`), of federates, its own, and the
commands not processed yet (src/helics/core/CommonCore.hpp).  Simplification: every interface and federate is there from the start. -/
structure Core where
  handles : Nat → Tags := fun _ => []
  loop : Nat → Tags := fun _ => []
  feds : Nat → Tags := fun _ => []
  own : Tags := []
  queue : List Cmd := []

/-- Change one entry of a table. -/
def put (f : Nat → Tags) (i : Nat) (g : Tags → Tags) : Nat → Tags := fun j => if j = i then g (f j) else f j

/-- What happens to a core: calls, and the processing of a command. -/
inductive Op
  | setInterface (h : Nat) (tag value : String)
  | setInfo (h : Nat) (info : String)
  | setFederate (f : Nat) (tag value : String)
  | setCore (tag value : String)
  | process
  deriving DecidableEq, Repr

/-- The tag that holds the info of an interface (src/helics/core/CommonCore.cpp:5580, 5588). -/
def infoTag : String := "local_info_"

/-- One command (src/helics/core/CommonCore.cpp:3702-3724). -/
def exec (s : (Nat → Tags) × Tags) : Cmd → (Nat → Tags) × Tags
  | .interfaceTag h t v => (put s.1 h (setTag t v), s.2)
  | .coreTag t v => (s.1, setCoreTag t v s.2)

/-- One operation, and whether it is refused: `setInterfaceTag`, `setInterfaceInfo`, `setFederateTag` (src/helics/core/CommonCore.cpp:5585-5589,
5600-5626, 5647-5665) and the processing of the next command. -/
def step (c : Core) : Op → Core × Bool
  | .setInterface h t v =>
    if t = "" then (c, true)
    else ({ c with handles := put c.handles h (setTag t (if v = "" then "true" else v)), queue := c.queue ++ [.interfaceTag h t v] }, false)
  | .setInfo h i => ({ c with handles := put c.handles h (setTag infoTag i) }, false)
  | .setFederate f t v => if t = "" then (c, true) else ({ c with feds := put c.feds f (setTag t v) }, false)
  | .setCore t v => if t = "" then (c, true) else ({ c with queue := c.queue ++ [.coreTag t v] }, false)
  | .process =>
    match c.queue with
    | [] => (c, false)
    | m :: r => ({ c with loop := (exec (c.loop, c.own) m).1, own := (exec (c.loop, c.own) m).2, queue := r }, false)

/-- A history (src/helics/core/CommonCore.cpp:5585-5665). -/
def run (ops : List Op) : Core := ops.foldl (fun c o => (step c o).1) {}

/-- What the core's commands come to once all of them are processed. -/
def drained (c : Core) : (Nat → Tags) × Tags := c.queue.foldl exec (c.loop, c.own)

/-- `getInterfaceTag` (src/helics/core/CommonCore.cpp:5591-5598). -/
def getInterface (c : Core) (h : Nat) (tag : String) : String := getTag (c.handles h) tag
/-- `getInterfaceInfo` (src/helics/core/CommonCore.cpp:5576-5583). -/
def getInfo (c : Core) (h : Nat) : String := getTag (c.handles h) infoTag
/-- `getFederateTag` for a federate (src/helics/core/CommonCore.cpp:5628-5645). -/
def getFederate (c : Core) (f : Nat) (tag : String) : String := getTag (c.feds f) tag
/-- `getFederateTag` for the core (src/helics/core/CommonCore.cpp:5631-5640): an ordered query, answered after every command given before it
(src/helics/core/CommonCore.cpp:2935-2944).  Simplification: `trip` is what writing a text as JSON and removing the quotes does to it. -/
def getCore (trip : String → String) (c : Core) (tag : String) : String := trip (getTag (drained c).2 tag)

end Verif.Tags
