import Verif.Model.Checks
import Verif.Props.Targets
/-!
# C66: what "the connection requirements of a federate are met" means

Everything is read off the registration of the interfaces and the calls made on them.
-/
namespace Verif.Checks

/-- The last of a list of calls that says something decides; before any of them the value is `start`. -/
def lastSays {α β : Type} (says : α → Option β) (start : β) (calls : List α) : β :=
  (calls.reverse.findSome? says).getD start

/-- What setting an option says about an interface being required. -/
def saysRequired : Input.Opt → Int → Option Bool
  | .connectionRequired, v => some (v ≠ 0)
  | .connectionOptional, v => some (v = 0)
  | _, _ => none

/-- What setting an option says about the exact number of connections of an input; 0 is no demand. -/
def saysInputCount : Input.Opt → Int → Option Int
  | .singleConnectionOnly, v => some (if v ≠ 0 then 1 else 0)
  | .multipleConnectionsAllowed, v => some (if v ≠ 0 then 0 else 1)
  | .connections, v => some v
  | _, _ => none

/-- The same for publications and endpoints.  Their code has the option "multiple connections allowed" the wrong way round: switching it
on demands exactly one connection. -/
def saysOutputCount : Input.Opt → Int → Option Int
  | .singleConnectionOnly, v => some (if v ≠ 0 then 1 else 0)
  | .multipleConnectionsAllowed, v => some (if v ≠ 0 then 1 else 0)
  | .connections, v => some v
  | _, _ => none

/-- What setting an option says about strict type checking. -/
def saysStrict : Input.Opt → Int → Option Bool
  | .strictTypeChecking, v => some (v ≠ 0)
  | _, _ => none

/-- What setting an option says about ignoring units. -/
def saysIgnoreUnit : Input.Opt → Int → Option Bool
  | .ignoreUnitMismatch, v => some (v ≠ 0)
  | _, _ => none

/-- An option set on an input. -/
def onInput {β : Type} (says : Input.Opt → Int → Option β) : Input.Op → Option β
  | .set o v => says o v
  | _ => none
/-- An option set on a publication. -/
def onPub {β : Type} (says : Input.Opt → Int → Option β) : Pub.Op → Option β
  | .set o v => says o v
  | _ => none
/-- An option set on an endpoint. -/
def onEpt {β : Type} (says : Input.Opt → Int → Option β) : ECall → Option β
  | .set o v => says o v
  | _ => none

/-- Required at registration: marked required and not also marked optional. -/
def Flags.req (g : Flags) : Bool := g.required && !g.optional
/-- Number of connections demanded at registration. -/
def Flags.count (g : Flags) : Int := if g.single then 1 else 0

/-- `L` lists the members of `P`, each once. -/
def Lists {α : Type} (L : List α) (P : α → Prop) : Prop := L.Nodup ∧ ∀ x, x ∈ L ↔ P x

/-! ## Types and units -/

/-- The data types HELICS converts between. -/
def standardTypes : List String :=
  ["bool", "char", "uchar", "int16", "int32", "int64", "uint32", "uint64", "float", "double", "time", "string", "complex",
    "complex_f", "vector", "double_vector", "complex_vector", "named_point", "json"]

/-- An input declared with `want` takes a publication declared with `have_`. -/
inductive Accepts (strict : Bool) (want have_ : String) : Prop
  /-- the input takes anything -/
  | anything : want ∈ ["", "def", "any", "raw", "json"] → Accepts strict want have_
  /-- the types are the same -/
  | same : want = have_ → Accepts strict want have_
  /-- the publication can be anything -/
  | untyped : strict = false → have_ ∈ ["", "def", "any"] → Accepts strict want have_
  /-- both are standard types -/
  | converts : strict = false → want ∈ standardTypes → have_ ∈ standardTypes → Accepts strict want have_
  /-- a user's own type, sent as raw bytes -/
  | custom : strict = false → want ∉ standardTypes → have_ = "raw" → Accepts strict want have_

/-- Units `have_` can be turned into `want`, or one of them leaves the units open. -/
def UnitsAccept (conv : String → String → Bool) (want have_ : String) : Prop :=
  want ∈ ["", "def", "any"] ∨ have_ ∈ ["", "def", "any"] ∨ want = have_ ∨ conv want have_ = true

/-! ## Inputs -/

/-- Source `h` was connected to the input at some time. -/
def EverConnected (calls : List Input.Op) (h : GHandle) : Prop := ∃ n ty u, Input.Op.addSource h n ty u ∈ calls

/-- The name and closing time of source `h` (`Input.connection` of C35) and the type and units held for it.  Connecting it for the
first time records its type and units; connecting it again while it is open changes nothing; connecting it again after it was closed
records its units, and records them as its type too. -/
def known (h : GHandle) (c : Option (String × Time) × Option (String × String)) (op : Input.Op) :
    Option (String × Time) × Option (String × String) :=
  (Input.connection h c.1 op,
    match op with
    | .addSource h' _ ty u =>
      if h' = h then
        match c.1 with
        | none => some (ty, u)
        | some (_, closes) => if closes < maxVal then some (u, u) else c.2
      else c.2
    | _ => c.2)

/-- The type and units of source `h` as the input holds them. -/
def offers (calls : List Input.Op) (h : GHandle) : Option (String × String) := (calls.foldl (known h) (none, none)).2

/-- The input's requirements are met. -/
structure InDecl.Met (conv : String → String → Bool) (d : InDecl) : Prop where
  required : lastSays (onInput saysRequired) d.flags.req d.calls = true → ∃ h, EverConnected d.calls h
  count : lastSays (onInput saysInputCount) d.flags.count d.calls > 0 → ∀ L, Lists L (EverConnected d.calls) →
    (L.length : Int) = lastSays (onInput saysInputCount) d.flags.count d.calls
  type : ∀ h ty u, offers d.calls h = some (ty, u) → Accepts (lastSays (onInput saysStrict) false d.calls) d.type ty
  units : lastSays (onInput saysIgnoreUnit) false d.calls = false →
    ∀ h ty u, offers d.calls h = some (ty, u) → UnitsAccept conv d.units u

/-! ## Publications and endpoints -/

/-- `h` is subscribed: the last call concerning it subscribed it. -/
def Subscribed (calls : List Pub.Op) (h : GHandle) : Prop := connectedAfter false (calls.map (Pub.effect h)) = true

/-- The publication's requirements are met. -/
structure PubDecl.Met (d : PubDecl) : Prop where
  required : lastSays (onPub saysRequired) d.flags.req d.calls = true → ∃ h, Subscribed d.calls h
  count : lastSays (onPub saysOutputCount) d.flags.count d.calls > 0 → ∀ L, Lists L (Subscribed d.calls) →
    (L.length : Int) = lastSays (onPub saysOutputCount) d.flags.count d.calls

/-- What a call means for destination `h`. -/
def destEffect (h : GHandle) : ECall → Effect35
  | .addDestination h' _ _ => if h' = h then .connect else .none
  | .remove h' => if h' = h then .drop else .none
  | .disconnect f => if h.fed = f then .drop else .none
  | _ => .none

/-- What a call means for source `h`. -/
def sourceEffect (h : GHandle) : ECall → Effect35
  | .addSource h' _ _ => if h' = h then .connect else .none
  | .remove h' => if h' = h then .drop else .none
  | .disconnect f => if h.fed = f then .drop else .none
  | _ => .none

/-- The endpoint sends to `h`. -/
def SendsTo (calls : List ECall) (h : GHandle) : Prop := connectedAfter false (calls.map (destEffect h)) = true
/-- The endpoint receives from `h`. -/
def HearsFrom (calls : List ECall) (h : GHandle) : Prop := connectedAfter false (calls.map (sourceEffect h)) = true

/-- The endpoint's requirements are met.  Only targeted endpoints have any.  A demand for `n` connections is met by `n` partners, and
also by `n` directions: a partner that is both destination and source then counts twice. -/
structure EptDecl.Met (d : EptDecl) : Prop where
  required : d.flags.targeted = true → lastSays (onEpt saysRequired) d.flags.req d.calls = true →
    ∃ h, SendsTo d.calls h ∨ HearsFrom d.calls h
  count : d.flags.targeted = true → lastSays (onEpt saysOutputCount) d.flags.count d.calls > 0 →
    ∀ D S U, Lists D (SendsTo d.calls) → Lists S (HearsFrom d.calls) → Lists U (fun h => SendsTo d.calls h ∨ HearsFrom d.calls h) →
      ((D.length + S.length : Nat) : Int) = lastSays (onEpt saysOutputCount) d.flags.count d.calls ∨
      (U.length : Int) = lastSays (onEpt saysOutputCount) d.flags.count d.calls

/-- Every requirement of the federate is met. -/
def Ifs.Met (conv : String → String → Bool) (f : Ifs) : Prop :=
  (∀ d ∈ f.inputs, d.Met conv) ∧ (∀ d ∈ f.pubs, d.Met) ∧ (∀ d ∈ f.epts, d.Met)

/-- The interface an issue names. -/
def Issue.key : Issue → String
  | .inputRequired k | .inputSingle k | .inputCount k _ _ | .inputType k _ _ | .inputUnit k _ _ | .pubRequired k | .pubSingle k
  | .pubCount k _ _ | .eptRequired k | .eptSingle k | .eptAtLeast k _ _ | .eptOnly k _ _ => k

end Verif.Checks

/-! ## What the messages say -/
namespace Verif.Checks

/-- What an issue says about an input is so.  The text of `inputSingle`, "single source only but has more than one connection", is taken
to mean that the input does not have exactly one source: it is also used when there is none. -/
def InDecl.Says (conv : String → String → Bool) (d : InDecl) : Issue → Prop
  | .inputRequired _ => lastSays (onInput saysRequired) d.flags.req d.calls = true ∧ ∀ h, ¬ EverConnected d.calls h
  | .inputSingle _ => lastSays (onInput saysInputCount) d.flags.count d.calls = 1 ∧
      ∀ L, Lists L (EverConnected d.calls) → L.length ≠ 1
  | .inputCount _ w n => lastSays (onInput saysInputCount) d.flags.count d.calls = w ∧ 1 < w ∧
      ∀ L, Lists L (EverConnected d.calls) → L.length = n ∧ (n : Int) ≠ w
  | .inputType _ a b => a = d.type ∧ (∃ h u, offers d.calls h = some (b, u)) ∧
      ¬ Accepts (lastSays (onInput saysStrict) false d.calls) a b
  | .inputUnit _ a b => a = d.units ∧ (∃ h t, offers d.calls h = some (t, b)) ∧ ¬ UnitsAccept conv a b ∧
      lastSays (onInput saysIgnoreUnit) false d.calls = false
  | _ => False

/-- What an issue says about a publication is so. -/
def PubDecl.Says (d : PubDecl) : Issue → Prop
  | .pubRequired _ => lastSays (onPub saysRequired) d.flags.req d.calls = true ∧ ∀ h, ¬ Subscribed d.calls h
  | .pubSingle _ => lastSays (onPub saysOutputCount) d.flags.count d.calls = 1 ∧ ∀ L, Lists L (Subscribed d.calls) → L.length ≠ 1
  | .pubCount _ w n => lastSays (onPub saysOutputCount) d.flags.count d.calls = w ∧ 1 < w ∧
      ∀ L, Lists L (Subscribed d.calls) → L.length = n ∧ (n : Int) ≠ w
  | _ => False

/-- What an issue says about an endpoint is so. -/
def EptDecl.Says (d : EptDecl) : Issue → Prop
  | .eptRequired _ => lastSays (onEpt saysRequired) d.flags.req d.calls = true ∧ ∀ h, ¬ SendsTo d.calls h ∧ ¬ HearsFrom d.calls h
  | .eptSingle _ => lastSays (onEpt saysOutputCount) d.flags.count d.calls = 1 ∧
      ∀ D S, Lists D (SendsTo d.calls) → Lists S (HearsFrom d.calls) → 1 < D.length ∨ 1 < S.length
  | .eptAtLeast _ w n => lastSays (onEpt saysOutputCount) d.flags.count d.calls = w ∧ 1 < w ∧ w < (n : Int) ∧
      ∀ D S, Lists D (SendsTo d.calls) → Lists S (HearsFrom d.calls) → n = max D.length S.length
  | .eptOnly _ w n => lastSays (onEpt saysOutputCount) d.flags.count d.calls = w ∧ (n : Int) ≠ w ∧
      ∀ U, Lists U (fun h => SendsTo d.calls h ∨ HearsFrom d.calls h) → n = U.length
  | _ => False

end Verif.Checks
