import Verif.Model.Input
/-!
# Publications: src/helics/core/PublicationInfo.hpp and src/helics/core/PublicationInfo.cpp
-/
namespace Verif

/-- `class PublicationInfo` (src/helics/core/PublicationInfo.hpp:27-71). -/
structure Pub where
  subscribers : List (GHandle × String) := []
  data : Bytes := []
  lastPublish : Time := 0
  onlyChange : Bool := false
  required : Bool := false
  buffer : Bool := false
  requiredConns : Int := 0
  gap : Time := 0
  destTargets : String := ""
  deriving Repr, Inhabited

namespace Pub

/-- `PublicationInfo::CheckSetValue` (src/helics/core/PublicationInfo.cpp:18-39). -/
def checkSetValue (p : Pub) (d : Bytes) (now : Time) (force : Bool) : Pub × Bool :=
  if p.gap > 0 ∧ now - p.lastPublish < p.gap then (p, false)
  else if p.onlyChange || force then
    if d ≠ p.data then ({ p with data := d, lastPublish := now }, true) else (p, false)
  else if p.buffer then ({ p with data := d, lastPublish := now }, true)
  else ({ p with lastPublish := now }, true)

/-- `PublicationInfo::addSubscriber` (src/helics/core/PublicationInfo.cpp:41-50). -/
def addSubscriber (p : Pub) (h : GHandle) (name : String) : Pub × Bool :=
  if p.subscribers.any (fun s => decide (s.1 = h)) then (p, false)
  else ({ p with subscribers := p.subscribers ++ [(h, name)] }, true)

/-- `PublicationInfo::disconnectFederate` (src/helics/core/PublicationInfo.cpp:52-60). -/
def disconnectFederate (p : Pub) (f : FedId) : Pub :=
  { p with subscribers := p.subscribers.filter fun s => !decide (s.1.fed = f) }

/-- `PublicationInfo::removeSubscriber` (src/helics/core/PublicationInfo.cpp:62-70). -/
def removeSubscriber (p : Pub) (h : GHandle) : Pub :=
  { p with subscribers := p.subscribers.filter fun s => !decide (s.1 = h) }

/-- `PublicationInfo::setProperty` (src/helics/core/PublicationInfo.cpp:72-103). -/
def setProperty (p : Pub) (o : Input.Opt) (value : Int) : Pub :=
  let b : Bool := value ≠ 0
  match o with
  | .onlyTransmitOnChange => { p with onlyChange := b }
  | .connectionRequired => { p with required := b }
  | .connectionOptional => { p with required := !b }
  | .singleConnectionOnly => { p with requiredConns := if b then 1 else 0 }
  | .multipleConnectionsAllowed => { p with requiredConns := if !b then 0 else 1 }
  | .bufferData => { p with buffer := b }
  | .connections => { p with requiredConns := value }
  | .timeRestricted => { p with gap := value * 1000000 }
  | _ => p

/-- `PublicationInfo::getProperty` (src/helics/core/PublicationInfo.cpp:105-135). -/
def getProperty (p : Pub) (o : Input.Opt) : Int :=
  let flag (b : Bool) : Int := if b then 1 else 0
  match o with
  | .onlyTransmitOnChange => flag p.onlyChange
  | .connectionRequired => flag p.required
  | .connectionOptional => flag !p.required
  | .singleConnectionOnly => flag (p.requiredConns = 1)
  | .multipleConnectionsAllowed => flag (p.requiredConns ≠ 1)
  | .bufferData => flag p.buffer
  | .connections => Input.toInt32 p.subscribers.length
  | .timeRestricted => Input.toInt32 (Int.tdiv p.gap 1000000)
  | _ => 0

/-- `PublicationInfo::getTargets` (src/helics/core/PublicationInfo.cpp:137-154). -/
def getTargets (quote : String → String) (p : Pub) : Pub × String :=
  if p.destTargets = "" then
    let s := Input.nameList quote (p.subscribers.map (·.2))
    ({ p with destTargets := s }, s)
  else (p, p.destTargets)

/-- The calls made on a publication (src/helics/core/FederateState.cpp:251-258, 1764-1789, 1829-1834, 2029-2093). -/
inductive Op
  | publish (d : Bytes) (now : Time) (force : Bool)
  | subscribe (h : GHandle) (name : String)
  | unsubscribe (h : GHandle)
  | disconnect (f : FedId)
  | set (o : Input.Opt) (v : Int)
  deriving Repr

/-- One call and its returned flag (`true` for calls returning nothing). -/
def step (p : Pub) : Op → Pub × Bool
  | .publish d t f => p.checkSetValue d t f
  | .subscribe h n => p.addSubscriber h n
  | .unsubscribe h => (p.removeSubscriber h, true)
  | .disconnect f => (p.disconnectFederate f, true)
  | .set o v => (p.setProperty o v, true)

/-- A history of calls. -/
def run (p : Pub) : List Op → Pub
  | [] => p
  | o :: os => run (p.step o).1 os

end Pub
end Verif
