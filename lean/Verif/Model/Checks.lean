import Verif.Model.Input
import Verif.Model.Endpoint
import Verif.Model.Publication
/-!
# Connection checks made when a federate enters initializing mode

src/helics/core/InterfaceInfo.cpp:29-104, 235-327, src/helics/core/EndpointInfo.cpp:300-349, src/helics/core/InputInfo.cpp:591-657 and
src/helics/core/FederateState.cpp:1434-1450, 2437-2456.
-/
namespace Verif.Checks

/-- `convertibleSet` and `isConvertibleType` (src/helics/core/InputInfo.cpp:591-614). -/
def isConvertible (t : String) : Bool :=
  ["double_vector", "complex_vector", "vector", "double", "float", "bool", "time", "char", "uchar", "json", "int32",
    "int64", "uint32", "uint64", "int16", "string", "complex", "complex_f", "named_point"].contains t

/-- `checkTypeMatch` (src/helics/core/InputInfo.cpp:616-633). -/
def checkTypeMatch (type1 type2 : String) (strict : Bool) : Bool :=
  if type1 = "" ∨ type1 = type2 ∨ type1 = "def" ∨ type1 = "any" ∨ type1 = "raw" ∨ type1 = "json" then true
  else if strict then false
  else if type2 = "" ∨ type2 = "def" ∨ type2 = "any" ∨ type1 = "json" then true
  else if isConvertible type1 then isConvertible type2
  else decide (type2 = "raw")

/-- `checkUnitMatch` (src/helics/core/InputInfo.cpp:635-657), always called with `strict_match` false
(src/helics/core/InterfaceInfo.cpp:280).  Simplification: the units library is the parameter `conv`, true when both texts are units and
one converts to the other. -/
def checkUnitMatch (conv : String → String → Bool) (unit1 unit2 : String) : Bool :=
  if unit1 = "" ∨ unit1 = unit2 ∨ unit1 = "def" ∨ unit1 = "any" then true
  else if unit2 = "" ∨ unit2 = "def" ∨ unit2 = "any" then true
  else conv unit1 unit2

/-- The entries of the list `issues` (src/helics/core/InterfaceInfo.cpp:237-320, src/helics/core/EndpointInfo.cpp:305-347).  Every one of them
carries the code `CONNECTION_FAILURE`. -/
inductive Issue
  | inputRequired (key : String)
  | inputSingle (key : String)
  | inputCount (key : String) (wanted : Int) (have_ : Nat)
  | inputType (key inputType sourceType : String)
  | inputUnit (key inputUnits sourceUnits : String)
  | pubRequired (key : String)
  | pubSingle (key : String)
  | pubCount (key : String) (wanted : Int) (have_ : Nat)
  | eptRequired (key : String)
  | eptSingle (key : String)
  | eptAtLeast (key : String) (wanted : Int) (have_ : Nat)
  | eptOnly (key : String) (wanted : Int) (have_ : Nat)
  deriving DecidableEq, Repr

/-- The message of an issue (the `fmt::format` calls of src/helics/core/InterfaceInfo.cpp:242-318 and
src/helics/core/EndpointInfo.cpp:307-346). -/
def Issue.text : Issue → String
  | .inputRequired k => s!"Input {k} is required but has no connection"
  | .inputSingle k => s!"Input {k} is single source only but has more than one connection"
  | .inputCount k w h => s!"Input {k} requires {w} connections but{if (h : Int) < w then " only" else ""} {h} were made"
  | .inputType k a b => s!"Input \"{k}\" source has mismatched types: {a} is not compatible with {b}"
  | .inputUnit k a b => s!"Input \"{k}\" source has incompatible unit: {b} is not convertible to {a}"
  | .pubRequired k => s!"Publication {k} is required but has no subscribers"
  | .pubSingle k => s!"Publication {k} is single source only but has more than one connection"
  | .pubCount k w h => s!"Publication {k} requires {w} connections but only {h} are made"
  | .eptRequired k => s!"Endpoint {k} is required but has no connections"
  | .eptSingle k => s!"Endpoint {k} is single source only but has more than one connection"
  | .eptAtLeast k w h => s!"Endpoint {k} requires {w} connections but has at least {h}"
  | .eptOnly k w h => s!"Endpoint {k} requires {w} connections but has only {h}"

/-- The parts of an `InputInfo` the check looks at (src/helics/core/InputInfo.hpp:57-85). -/
structure InIf where
  key : String
  type : String
  units : String
  ipt : Input

/-- The loop body over inputs (src/helics/core/InterfaceInfo.cpp:238-289).  `has_target` is set by the call that adds the first source
and never cleared (src/helics/core/InputInfo.cpp:211), and sources are never taken out of the list, so it is `srcs ≠ []`. -/
def inputIssues (conv : String → String → Bool) (f : InIf) : List Issue :=
  (if f.ipt.required then (if f.ipt.srcs.isEmpty then [.inputRequired f.key] else []) else []) ++
  (if f.ipt.requiredConns > 0 then
    (if (f.ipt.srcs.length : Int) ≠ f.ipt.requiredConns then
      (if f.ipt.requiredConns = 1 then [.inputSingle f.key] else [.inputCount f.key f.ipt.requiredConns f.ipt.srcs.length])
    else []) else []) ++
  f.ipt.srcs.flatMap fun s =>
    (if !checkTypeMatch f.type s.type f.ipt.strictType then [.inputType f.key f.type s.type] else []) ++
    (if !f.ipt.ignoreUnit && !checkUnitMatch conv f.units s.units then [.inputUnit f.key f.units s.units] else [])

/-- The loop body over publications (src/helics/core/InterfaceInfo.cpp:293-319). -/
def pubIssues (key : String) (p : Pub) : List Issue :=
  (if p.required then (if p.subscribers.isEmpty then [.pubRequired key] else []) else []) ++
  (if p.requiredConns > 0 then
    (if (p.subscribers.length : Int) ≠ p.requiredConns then
      (if p.requiredConns = 1 then [.pubSingle key] else [.pubCount key p.requiredConns p.subscribers.length])
    else []) else [])

/-- `EndpointInfo::checkInterfacesForIssues` (src/helics/core/EndpointInfo.cpp:300-349).  Simplification: the casts of list lengths
to `int32_t` are exact. -/
def eptIssues (key : String) (e : Endpoint) : List Issue :=
  if !e.targeted then []
  else
    (if e.required then (if e.sources.isEmpty && e.targetInfo.isEmpty then [.eptRequired key] else []) else []) ++
    (if e.requiredConns > 0 then
      let mx := max e.targetInfo.length e.sources.length
      let sum := e.targetInfo.length + e.sources.length
      if (mx : Int) > e.requiredConns then
        (if e.requiredConns = 1 then [.eptSingle key] else [.eptAtLeast key e.requiredConns mx])
      else if (sum : Int) ≠ e.requiredConns then
        let handles := (e.sources.map (·.id) ++ e.targetInfo.map (·.id)).eraseDups
        if (handles.length : Int) ≠ e.requiredConns then [.eptOnly key e.requiredConns handles.length] else []
      else []
    else [])

/-- The flags an interface can be registered with that matter here (src/helics/core/InterfaceInfo.cpp:38-103). -/
structure Flags where
  required : Bool := false
  optional : Bool := false
  single : Bool := false
  targeted : Bool := false
  deriving DecidableEq, Repr

/-- `InterfaceInfo::createInput` (src/helics/core/InterfaceInfo.cpp:54-76). -/
def newInput (g : Flags) : Input :=
  let i : Input := {}
  let i := if g.required then i.setProperty .connectionRequired 1 else i
  let i := if g.optional then i.setProperty .connectionOptional 1 else i
  if g.single then i.setProperty .singleConnectionOnly 1 else i

/-- `InterfaceInfo::createPublication` (src/helics/core/InterfaceInfo.cpp:29-52). -/
def newPub (g : Flags) : Pub :=
  let p : Pub := {}
  let p := if g.required then p.setProperty .connectionRequired 1 else p
  let p := if g.optional then p.setProperty .connectionOptional 1 else p
  if g.single then p.setProperty .singleConnectionOnly 1 else p

/-- `InterfaceInfo::createEndpoint` (src/helics/core/InterfaceInfo.cpp:78-104). -/
def newEpt (g : Flags) : Endpoint :=
  let e : Endpoint := {}
  let e := if g.required then e.setProperty .connectionRequired 1 else e
  let e := if g.optional then e.setProperty .connectionOptional 1 else e
  let e := if g.targeted then { e with targeted := true } else e
  if g.single then e.setProperty .singleConnectionOnly 1 else e

/-- The calls on an endpoint that matter here (src/helics/core/FederateState.cpp:1752-1806, 2029-2093). -/
inductive ECall
  | addDestination (h : GHandle) (name type : String)
  | addSource (h : GHandle) (name type : String)
  | remove (h : GHandle)
  | disconnect (f : FedId)
  | set (o : Input.Opt) (v : Int)
  deriving Repr

/-- One call on an endpoint (src/helics/core/EndpointInfo.cpp:180-261, 351-379). -/
def eptStep (e : Endpoint) : ECall → Endpoint
  | .addDestination h n t => e.addDestination h n t
  | .addSource h n t => e.addSource h n t
  | .remove h => e.removeTarget h
  | .disconnect f => e.disconnectFederate f
  | .set o v => e.setProperty o v

/-- An input as registered, and every call made on it afterwards (src/helics/core/FederateState.cpp:643-945, 1739-1845). -/
structure InDecl where
  key : String
  type : String := ""
  units : String := ""
  flags : Flags := {}
  calls : List Input.Op := []

/-- A publication as registered, and every call made on it afterwards (src/helics/core/FederateState.cpp:251-258, 1762-1789). -/
structure PubDecl where
  key : String
  flags : Flags := {}
  calls : List Pub.Op := []

/-- An endpoint as registered, and the calls made on it afterwards (src/helics/core/FederateState.cpp:1752-1806). -/
structure EptDecl where
  key : String
  flags : Flags := {}
  calls : List ECall := []

/-- The input after its calls (src/helics/core/InterfaceInfo.cpp:54-76). -/
def InDecl.now (d : InDecl) : InIf := { key := d.key, type := d.type, units := d.units, ipt := (newInput d.flags).run d.calls }
/-- The publication after its calls (src/helics/core/InterfaceInfo.cpp:29-52). -/
def PubDecl.now (d : PubDecl) : Pub := (newPub d.flags).run d.calls
/-- The endpoint after its calls (src/helics/core/InterfaceInfo.cpp:78-104). -/
def EptDecl.now (d : EptDecl) : Endpoint := d.calls.foldl eptStep (newEpt d.flags)

/-- The interfaces of a federate in the order they were registered (src/helics/core/InterfaceInfo.hpp).  Simplification: calls reach an
interface by its handle, so each interface carries its own history. -/
structure Ifs where
  inputs : List InDecl := []
  pubs : List PubDecl := []
  epts : List EptDecl := []

/-- `InterfaceInfo::checkInterfacesForIssues` (src/helics/core/InterfaceInfo.cpp:235-327). -/
def issues (conv : String → String → Bool) (f : Ifs) : List Issue :=
  f.inputs.flatMap (fun d => inputIssues conv d.now) ++ f.pubs.flatMap (fun d => pubIssues d.key d.now) ++
    f.epts.flatMap (fun d => eptIssues d.key d.now)

/-- What the federate's entry ends in (src/helics/core/FederateState.cpp:1434-1450). -/
inductive Entry
  | initializing
  | errored (code : Int) (message : String)
  deriving DecidableEq, Repr

/-- The initialization grant: `checkProcResult` for INITIALIZING and `checkInterfaces` (src/helics/core/FederateState.cpp:1434-1450,
2437-2456); `HELICS_ERROR_CONNECTION_FAILURE` is -2 (src/helics/helics_enums.h:260). -/
def enterInit (conv : String → String → Bool) (f : Ifs) : Entry :=
  match issues conv f with
  | [] => .initializing
  | i :: _ => .errored (-2) i.text

end Verif.Checks
