import Verif.Model.Publication
import Verif.Model.Endpoint
import Verif.Model.Filters
/-!
# Translators

Models `src/helics/core/TranslatorFederate.cpp` (the federate of a core that holds its translators) with
`src/helics/core/TranslatorInfo.hpp`, on top of the models of publications, inputs and endpoints, and the
operators of `src/helics/application_api/TranslatorOperations.cpp`.

Simplifications:
* the conversions are arbitrary total functions; those of the JSON operator are the value conversions of other
  models and are not repeated here;
* the timing part of `handleMessage` (lines 118-173) is left out: the commands below go through it unchanged, and
  what the coordinator is told of dependencies is not recorded;
* times do not overflow.
-/
namespace Verif.Trans

/-- `TranslatorOperator`, src/helics/core/core-data.hpp:131-151 (an empty buffer: no value; a null pointer: no
message) -/
structure Op where
  toValue : Filt.Msg → List Nat
  toMessage : List Nat → Option Filt.Msg
  /-- `computeNewValueTime` -/
  valueTime : Int → Int := fun t => t + 1
  /-- `computeNewMessageTime` -/
  messageTime : Int → Int := fun t => t + 1

/-- `NullTranslatorOperator`, src/helics/core/core-data.hpp:152-164, used by `CommonCore::setTranslatorOperator`,
CommonCore.cpp:2629-2643, for no operator -/
def nullOp : Op := { toValue := fun _ => [], toMessage := fun _ => none }

/-- `BinaryTranslatorOperator`, TranslatorOperations.cpp:39-52 -/
def binaryOp : Op := { toValue := fun m => m.data, toMessage := fun v => some { dest := "", data := v } }

/-- `TranslatorInfo`, TranslatorInfo.hpp:31-64 -/
structure Tr where
  key : String
  op : Option Op := none
  pub : Pub := {}
  ipt : Input := {}
  ept : Endpoint := {}

/-- the commands about a translator, TranslatorFederate.cpp:194-288 -/
inductive Cmd
  /-- `CMD_CLOSE_INTERFACE` -/
  | close
  /-- `CMD_REMOVE_ENDPOINT`, `CMD_REMOVE_PUBLICATION`, `CMD_REMOVE_SUBSCRIBER`, by their source -/
  | removeEndpoint (h : GHandle)
  | removePublication (h : GHandle)
  | removeSubscriber (h : GHandle)
  /-- `CMD_ADD_PUBLISHER`, `CMD_ADD_SUBSCRIBER` -/
  | addPublisher (h : GHandle) (name type units : String)
  | addSubscriber (h : GHandle) (name : String)
  /-- `CMD_ADD_ENDPOINT`; `dest`: with `destination_target` -/
  | addEndpoint (h : GHandle) (name type : String) (dest : Bool)
  /-- `CMD_CORE_CONFIGURE` with `UPDATE_TRANSLATOR_OPERATOR`; `none`: the null operator -/
  | setOp (o : Option Op)
  /-- `CMD_SEND_MESSAGE` -/
  | message (m : Filt.Msg)
  /-- `CMD_PUB` -/
  | publish (src : GHandle) (time : Int) (data : List Nat)

/-- what the translator federate makes its core do: `CMD_PUB` by `mSendMessage`, `CMD_SEND_MESSAGE` by
`mDeliverMessage` -/
inductive Out
  | pub (src dst : GHandle) (time : Int) (data : List Nat)
  | send (src dst : GHandle) (m : Filt.Msg)
deriving DecidableEq, Repr

/-- `InputInfo::getSourceName`, src/helics/core/InputInfo.cpp:301-311 -/
def sourceName (h : GHandle) : List Src → String
  | [] => ""
  | s :: ss => if h = s.handle then s.key else sourceName h ss

/-- `executeTranslator` for a message, TranslatorFederate.cpp:63-97 -/
def Tr.onMessage (g : GHandle) (t : Tr) (m : Filt.Msg) : List Out :=
  match t.op with
  | none => []
  | some o =>
    if t.pub.subscribers = [] then []
    else
      let val := o.toValue m
      if val = [] then [] else t.pub.subscribers.map (fun s => .pub g s.1 (o.valueTime m.time) val)

/-- `executeTranslator` for a value, TranslatorFederate.cpp:98-124 -/
def Tr.onValue (t : Tr) (src : GHandle) (time : Int) (data : List Nat) : List Out :=
  match t.op with
  | none => []
  | some o =>
    match o.toMessage data with
    | none => []
    | some m =>
      let m := { m with source := t.key, osrc := sourceName src t.ipt.srcs, time := o.messageTime time }
      t.ept.targets.map (fun d => .send src d.1 { m with dest := d.2 })

/-- `TranslatorFederate::handleMessage` for one translator, TranslatorFederate.cpp:194-288 -/
def Tr.handle (g : GHandle) (t : Tr) : Cmd → Tr × List Out
  | .close => (t, [])
  | .removeEndpoint h => ({ t with ept := t.ept.removeTarget h }, [])
  | .removePublication h => ({ t with ipt := t.ipt.removeSource h 0 }, [])
  | .removeSubscriber h => ({ t with pub := t.pub.removeSubscriber h }, [])
  | .addPublisher h n ty u => ({ t with ipt := (t.ipt.addSource h n ty u).1 }, [])
  | .addSubscriber h n => ({ t with pub := (t.pub.addSubscriber h n).1 }, [])
  | .addEndpoint h n ty d => ({ t with ept := if d then t.ept.addDestination h n ty else t.ept.addSource h n ty }, [])
  | .setOp o => ({ t with op := some (o.getD nullOp) }, [])
  | .message m => (t, t.onMessage g m)
  | .publish s time d => (t, t.onValue s time d)

/-- the translators of a core, `translators`; events are commands with their destination -/
abbrev Fed := GHandle → Option Tr

/-- what happens: `createTranslator`, TranslatorFederate.cpp:291-322, or a command (one for an unknown translator is
ignored) -/
inductive Ev
  | create (g : GHandle) (key : String)
  | cmd (g : GHandle) (c : Cmd)

/-- one event; a handle already there is not made again (`MappedVector::insert`) -/
def step (f : Fed) : Ev → Fed × List Out
  | .create g k => (fun g' => if g' = g then (match f g with | some t => some t | none => some { key := k }) else f g', [])
  | .cmd g c =>
    match f g with
    | none => (f, [])
    | some t => (fun g' => if g' = g then some (t.handle g c).1 else f g', (t.handle g c).2)

/-- after some events, and what was sent, in order -/
def run (f : Fed) : List Ev → Fed × List Out
  | [] => (f, [])
  | e :: es => ((run (step f e).1 es).1, (step f e).2 ++ (run (step f e).1 es).2)

end Verif.Trans
