import Verif.Model.Values
/-!
# The application-side input and publication

Models `Input` (src/helics/application_api/Inputs.hpp, Inputs.cpp), the change detection
(src/helics/application_api/helicsPrimaryTypes.cpp:19-172), the update step of `ValueFederateManager`
(src/helics/application_api/ValueFederateManager.cpp:216-310) and the change detection of `Publication`
(src/helics/application_api/Publications.cpp:70-335).

Simplifications: the type and units of the sources are loaded before the first value arrives
(`startupToInitializeStateTransition`, src/helics/application_api/ValueFederateManager.cpp:312-317) and do
not change afterwards; user callbacks are not modelled.
-/
namespace Verif.Value
open Verif.Wire (Byte)

/-- what a `getValue<X>` call asks for -/
inductive Kind
  | dbl | int | str | cplx | vec | cvec | np | bool | time | chr
  deriving DecidableEq

/-- what it returns -/
inductive Got
  | dbl (d : Dbl) | int (i : Int64) | str (s : Str) | cplx (c : Cplx) | vec (v : List Dbl) | cvec (v : List Cplx)
  | np (p : NPoint) | bool (b : Bool) | time (t : Int64) | chr (c : Byte)
  deriving DecidableEq

/-- `valueExtract(const data_view&, DataType, X&)`, all overloads
(src/helics/application_api/helicsPrimaryTypes.cpp:596-1100, src/helics/application_api/HelicsPrimaryTypes.hpp:239-337).  The
caller's variable is a fresh one. -/
def rd (L : Lib) (le : Bool) (d : List Byte) (t : DT) : Kind → Res Got
  | .dbl => (rdDbl L le d t).map .dbl
  | .int => (rdInt L le d t).map .int
  | .str => (rdStr L le d t).map .str
  | .cplx => (rdCplx L le ⟨dZero, dZero⟩ d t).map .cplx
  | .vec => (rdVec L le d t).map .vec
  | .cvec => (rdCVec L le d t).map .cvec
  | .np => (rdNP L le d t).map .np
  | .bool => (rdBool L le d t).map .bool
  | .time => (rdTime L le d t).map .time
  | .chr => (rdChar L le d t).map .chr

/-- `valueExtract(const defV&, X&)`, all overloads (src/helics/application_api/helicsPrimaryTypes.cpp:174-541,
src/helics/application_api/HelicsPrimaryTypes.hpp:171-236). -/
def ex (L : Lib) (v : Val) : Kind → Res Got
  | .dbl => (exDbl L v).map .dbl
  | .int => (exInt L v).map .int
  | .str => .ok (.str (exStr L v))
  | .cplx => .ok (.cplx (exCplx L ⟨dZero, dZero⟩ v))
  | .vec => .ok (.vec (exVec L v))
  | .cvec => (exCVec L v).map .cvec
  | .np => .ok (.np (exNP L v))
  | .bool => .ok (.bool (exBool L v))
  | .time => (exTime L v).map .time
  | .chr => (exChar L v).map .chr

/-- `make_valid` (src/helics/application_api/HelicsPrimaryTypes.hpp:68-121). -/
def Got.keep : Got → Val
  | .dbl d => .dbl d
  | .int i => .int i
  | .str s => .str s
  | .cplx c => .cplx c
  | .vec v => .vec v
  | .cvec v => .cvec v
  | .np p => .np p
  | .bool b => .int (if b then 1#64 else 0#64)
  | .time t => .int t
  | .chr c => .int (chrInt c)

/-! ## Change detection -/

/-- the texts `isTrueString` calls false (src/helics/application_api/helicsPrimaryTypes.cpp:36-56). -/
def trueText (s : Str) : Bool :=
  !(s ∈ ([asc "0", [], asc "false", asc "False", asc "FALSE", asc "off", asc "Off", asc "OFF", asc "disabled",
    asc "Disabled", asc "DISABLED", asc "disable", asc "Disable", asc "DISABLE", asc "f", asc "F", [0#8], asc " ",
    asc "no", asc "NO", asc "No", asc "-"] : List Str))

/-- `std::abs(prev - val) > static_cast<int64_t>(deltaV)` (src/helics/application_api/helicsPrimaryTypes.cpp:153-159); the
subtraction is taken not to overflow. -/
def ifar (L : Lib) (a b : Int64) (δ : Dbl) : Bool := (L.trunc δ).toInt < ((a.toInt - b.toInt).natAbs : Int)

/-- `changeDetected`, all overloads (src/helics/application_api/helicsPrimaryTypes.cpp:19-172). -/
def changed (L : Lib) (prev : Val) (new : Got) (δ : Dbl) : Bool :=
  match new with
  | .str s => match prev with
    | .str p => s != p
    | _ => true
  | .bool b => match prev with
    | .str p => trueText p != b
    | .int i => (i != 0#64) != b
    | _ => true
  | .vec v => match prev with
    | .vec p => if v.length = p.length then (p.zip v).any (fun x => L.far x.1 x.2 δ) else true
    | _ => true
  | .cvec v => match prev with
    | .cvec p => if v.length = p.length then (p.zip v).any (fun x => L.cfar x.1 x.2 δ) else true
    | _ => true
  | .cplx c => match prev with
    | .cplx p => L.far p.re c.re δ || L.far p.im c.im δ
    | _ => true
  | .dbl d => match prev with
    | .dbl p => L.far p d δ
    | _ => true
  | .time t => match prev with
    | .dbl p => L.far p (L.ofTicks t) δ
    | .int p => L.tfar p t δ
    | _ => true
  | .int i => match prev with
    | .int p => ifar L p i δ
    | _ => true
  | .chr c => match prev with
    | .int p => ifar L p (chrInt c) δ
    | _ => true
  | .np q =>
    match prev with
    | .dbl p => if !isNaN q.value then L.far p q.value δ else true
    | .np p => if p.name = q.name ∧ !isNaN q.value then L.far p.value q.value δ else true
    | _ => true

/-- the stored value as what `getValue` of its own type would return -/
def Val.got : Val → Got
  | .dbl d => .dbl d
  | .int i => .int i
  | .str s => .str s
  | .cplx c => .cplx c
  | .vec v => .vec v
  | .cvec v => .cvec v
  | .np p => .np p
/-- type of a stored value -/
def Val.kind : Val → Kind
  | .dbl _ => .dbl | .int _ => .int | .str _ => .str | .cplx _ => .cplx | .vec _ => .vec | .cvec _ => .cvec | .np _ => .np

/-! ## Publication -/

/-- application side of a publication (src/helics/application_api/Publications.hpp:24-45) -/
structure PubApi where
  type : DT
  changeOn : Bool := false
  delta : Dbl
  /-- `prevValue`, default constructed: the double zero -/
  prev : Val := .dbl dZero
  deriving DecidableEq

/-- what the change detection of a call looks at and keeps: a Boolean is compared and kept as text, a character
as the value it is published as, a C array of complex numbers as a vector
(src/helics/application_api/Publications.cpp:102-149, 232-249, 283-298). -/
def PubCall.seen (t : DT) : PubCall → Got
  | .dbl d => .dbl d
  | .int i => .int i
  | .chr c => match t with
    | .bool => .str (bStr (!(c = BitVec.ofNat 8 '0'.toNat ∨ c = BitVec.ofNat 8 'f'.toNat ∨ c = 0#8 ∨
        c = BitVec.ofNat 8 'F'.toNat ∨ c = BitVec.ofNat 8 '-'.toNat)))
    | .string | .namedPoint | .char => .str [c]
    | _ => .int (chrInt c)
  | .time x => .time x
  | .bool b => .str (bStr b)
  | .str s => .str s
  | .vec v => .vec v
  | .cvec v | .cptr v => .cvec v
  | .cplx c => .cplx c
  | .np p => .np p
  | .field s d => .np ⟨s, d⟩
  | .val v => v.got

/-- one publish call: the new state and the block handed to the core, if any
(src/helics/application_api/Publications.cpp:70-335).  With change detection `publishComplex` converts the
vector it built.  `publishDefV` compares with `!=`, which the argument `ne` stands for (it differs from
`changeDetected` on doubles). -/
def PubApi.step (L : Lib) (le : Bool) (ne : Val → Val → Bool) (s : PubApi) (c : PubCall) : PubApi × Option (Res (List Byte)) :=
  if s.changeOn then
    let diff := match c with
      | .val v => ne s.prev v
      | _ => changed L s.prev (c.seen s.type) s.delta
    if diff then
      ({ s with prev := (c.seen s.type).keep },
        some (match c with
          | .cptr v => .ok (cvtCVec L le s.type v)
          | _ => publish L le s.type c))
    else (s, none)
  else (s, some (publish L le s.type c))

/-- `setMinimumChange` (src/helics/application_api/Publications.hpp:237-247).  `neg`: the number is below zero. -/
def PubApi.setMinimumChange (neg : Dbl → Bool) (s : PubApi) (δ : Dbl) : PubApi :=
  { s with delta := δ, changeOn := if neg δ then false else if neg s.delta then true else s.changeOn }

/-- `publish(double, const std::string& units)`: the branch for the publication's own units does not return
(src/helics/application_api/Publications.cpp:300-311), so the value is published there and again converted.
`own`: the units are those of the publication; `conv`: conversion from the given units, none when the units
are not valid.  The result lists the doubles published, and whether an exception follows. -/
def publishUnits (own : Bool) (conv : Option (Dbl → Dbl)) (d : Dbl) : List Dbl × Bool :=
  ((if own then [d] else []) ++ (match conv with | some f => [f d] | none => []), conv.isNone)

/-! ## Input -/

/-- `MultiInputHandlingMethod` (src/helics/application_api/Inputs.hpp:24-36) -/
inductive Multi
  | none | vectorize | and | or | sum | diff | max | min | average
  deriving DecidableEq

/-- application side of an input (src/helics/application_api/Inputs.hpp:38-66) with the part of
`InputData` it uses -/
structure Inp where
  /-- `injectionType` -/
  inj : DT
  /-- conversion between the publication's and the input's units, when both are given -/
  units : Option (Dbl → Dbl) := none
  /-- `targetType` -/
  target : DT := .unknown
  op : Multi := .none
  /-- `sourceTypes`: type and unit conversion of each source, when they differ -/
  sources : List (DT × Option (Dbl → Dbl)) := []
  multiUnits : Bool := false
  changeOn : Bool := false
  delta : Dbl
  /-- `lastValue` -/
  last : Val := .dbl dInvalid
  /-- `hasUpdate` -/
  upd : Bool := false
  /-- `InputData::lastData` -/
  data : List Byte := []
  /-- `InputData::hasUpdate` -/
  fedUpd : Bool := false

/-- `doubleExtractAndConvert` (src/helics/application_api/Inputs.cpp:777-786). -/
def dblUnits (le : Bool) (u : Option (Dbl → Dbl)) (d : List Byte) : Res Val :=
  (decDbl le d).map fun x => .dbl (match u with | some f => f x | none => x)
/-- `integerExtractAndConvert` (src/helics/application_api/Inputs.cpp:788-799). -/
def intUnits (L : Lib) (le : Bool) (u : Option (Dbl → Dbl)) (d : List Byte) : Res Val :=
  (decInt le d).map fun i => match u with | some f => .dbl (f (L.ofInt i)) | none => .int i

/-- the three-way reading of the current block (src/helics/application_api/Inputs.hpp:445-455 and
src/helics/application_api/Inputs.cpp:552-561). -/
def Inp.block (L : Lib) (le : Bool) (s : Inp) (k : Kind) : Res Got :=
  if s.inj = .double then (dblUnits le s.units s.data).bind fun v => ex L v k
  else if s.inj = .int then (intUnits L le s.units s.data).bind fun v => ex L v k
  else rd L le s.data s.inj k

/-- `checkUpdate(true)` (src/helics/application_api/Inputs.cpp:544-577). -/
def Inp.checkUpdate (L : Lib) (le : Bool) (s : Inp) : Res Inp :=
  if s.changeOn then
    let s := { s with fedUpd := false }
    (s.block L le s.last.kind).map fun g =>
      if changed L s.last g s.delta then { s with last := g.keep, upd := true } else s
  else .ok { s with upd := true }

/-- `getUpdateFromCore` for an input without a reduction (src/helics/application_api/ValueFederateManager.cpp:256-268). -/
def Inp.arrive (L : Lib) (le : Bool) (s : Inp) (d : List Byte) : Res Inp :=
  Inp.checkUpdate L le { s with data := d, fedUpd := true }

/-- `checkAndGetFedUpdate` returns a block (src/helics/application_api/Inputs.cpp:801-806; `dv.empty()`,
src/helics/application_api/Inputs.hpp:440). -/
def Inp.fresh (s : Inp) : Bool := (s.fedUpd || (s.upd && !s.changeOn && s.op == .none)) && s.data != []
/-- `checkAndGetFedUpdate` asks the federate, which clears its flag (src/helics/application_api/Inputs.cpp:801-806,
src/helics/application_api/ValueFederateManager.cpp:216-225). -/
def Inp.asked (s : Inp) : Inp :=
  if s.fedUpd || (s.upd && !s.changeOn && s.op == .none) then { s with fedUpd := false } else s

/-- `getValueChar` (src/helics/application_api/Inputs.cpp:840-880). -/
def Inp.getChar (L : Lib) (le : Bool) (s : Inp) : Res (Got × Inp) :=
  (if s.fresh then
      (if s.inj = .string ∨ s.inj = .any ∨ s.inj = .char ∨ s.inj = .custom then rd L le s.data s.inj .str
        else if s.inj = .double then (dblUnits le s.units s.data).bind fun v => ex L v .int
        else rd L le s.data s.inj .int).map fun g =>
        if s.changeOn then (if changed L s.last g s.delta then g.keep else s.last) else g.keep
    else .ok s.last).bind fun last =>
  (exChar L last).map fun c => (.chr c, { s.asked with last := last, upd := false })

/-- `getValue<X>` (src/helics/application_api/Inputs.hpp:436-467); a character goes to `getValueChar` (lines
295-305). -/
def Inp.getValue (L : Lib) (le : Bool) (s : Inp) (k : Kind) : Res (Got × Inp) :=
  if k = .chr then s.getChar L le
  else if s.fresh then
    (s.block L le k).bind fun g =>
      if s.changeOn then
        if changed L s.last g s.delta then .ok (g, { s.asked with last := g.keep, upd := false })
        else (ex L s.last k).map fun g => (g, { s.asked with upd := false })
      else .ok (g, { s.asked with last := g.keep, upd := false })
  else (ex L s.last k).map fun g => (g, { s.asked with upd := false })

/-- `locType` (src/helics/application_api/Inputs.cpp:825-831) -/
def Val.loc : Val → DT
  | .dbl _ => .double | .int _ => .int | .str _ => .string | .cplx _ => .complex | .vec _ => .vector
  | .cvec _ => .cvector | .np _ => .namedPoint

/-- `checkForNeededCoreRetrieval` (src/helics/application_api/Inputs.cpp:821-838). -/
def retrieve (last : Val) (inj want : DT) : Bool :=
  if last.loc = inj ∨ last.loc = want then false else !(last.loc != .int && want = .double)

/-- the primary types, as publication types -/
def Kind.dt : Kind → DT
  | .dbl => .double | .int => .int | .str => .string | .cplx => .complex | .vec => .vector | .cvec => .cvector
  | .np => .namedPoint | .bool => .bool | .time => .time | .chr => .char

/-- `getValueRefImpl` (src/helics/application_api/Inputs.hpp:469-486): the stored value is converted in place, and
a named point asked for as text gives its name. -/
def refImpl (L : Lib) (v : Val) (k : Kind) : Res (Got × Val) :=
  match k, v with
  | .str, .np p => .ok (.str p.name, v)
  | _, _ => (convertVal L v k.dt).map fun w => (w.got, w)

/-- `getValueRef<X>` for the primary types (src/helics/application_api/Inputs.hpp:492-533), without a reduction.  Without
change detection the block is read without converting units. -/
def Inp.getRef (L : Lib) (le : Bool) (s : Inp) (k : Kind) : Res (Got × Inp) :=
  (if s.fresh then
      if s.changeOn then
        (s.block L le k).map fun g => if changed L s.last g s.delta then g.keep else s.last
      else rdVal L le s.data s.inj
    else if retrieve s.last s.inj k.dt && s.data != [] then rdVal L le s.data s.inj
    else .ok s.last).bind fun last =>
  (refImpl L last k).map fun r =>
    let f := if !s.fresh && retrieve s.last s.inj k.dt then false else s.asked.fedUpd
    (r.1, { s.asked with last := r.2, upd := false, fedUpd := f })

/-! ## Reductions -/

/-- one source's value (src/helics/application_api/Inputs.cpp:420-440). -/
def oneSource (L : Lib) (le : Bool) (t : DT) (u : Option (Dbl → Dbl)) (d : List Byte) : Res Val :=
  if t = .double then dblUnits le u d
  else if t = .int then intUnits L le u d
  else rdVal L le d t

/-- type and units used for source `i` (src/helics/application_api/Inputs.cpp:422-427). -/
def Inp.src (s : Inp) (i : Nat) : DT × Option (Dbl → Dbl) :=
  (if s.inj = .multi then (s.sources.getD i (.unknown, none)).1 else s.inj,
   if s.multiUnits then (s.sources.getD i (.unknown, none)).2 else s.units)

/-- sequence of results -/
def allOk {α : Type} : List (Res α) → Res (List α)
  | [] => .ok []
  | r :: t => r.bind fun a => (allOk t).map (a :: ·)

/-- values of the sources that have data, in order (src/helics/application_api/Inputs.cpp:418-441). -/
def Inp.gather (L : Lib) (le : Bool) (s : Inp) : Nat → List (Option (List Byte)) → Res (List Val)
  | _, [] => .ok []
  | i, none :: t => s.gather L le (i + 1) t
  | i, some d :: t =>
    (oneSource L le (s.src i).1 (s.src i).2 d).bind fun v => (s.gather L le (i + 1) t).map (v :: ·)

/-- the common type (src/helics/application_api/Inputs.cpp:442-482). -/
def Inp.common (s : Inp) : DT :=
  match s.op with
  | .and | .or => .bool
  | .average => .vector
  | .sum => match s.target with
    | .string | .char => .string
    | _ => .vector
  | .vectorize => match s.target with
    | .string | .char => .string
    | .complex | .cvector => .cvector
    | _ => .vector
  | _ => if s.target = .unknown then .double else s.target

/-- `std::get<double>`: throws on another type -/
def asDbl : Val → Res Dbl
  | .dbl d => .ok d
  | _ => .throw
/-- `std::get<int64_t>` -/
def asInt : Val → Res Int64
  | .int i => .ok i
  | _ => .throw
/-- `std::get<std::string>` -/
def asStr : Val → Res Str
  | .str s => .ok s
  | _ => .throw
/-- `std::get<std::complex<double>>` -/
def asCplx : Val → Res Cplx
  | .cplx c => .ok c
  | _ => .throw
/-- `std::get<std::vector<double>>` -/
def asVec : Val → Res (List Dbl)
  | .vec v => .ok v
  | _ => .throw
/-- `std::get<std::vector<std::complex<double>>>` -/
def asCVec : Val → Res (List Cplx)
  | .cvec v => .ok v
  | _ => .throw
/-- `std::get<NamedPoint>` -/
def asNP : Val → Res NPoint
  | .np p => .ok p
  | _ => .throw

/-- keep the better of each next element (`varMax`, `varMin`, src/helics/application_api/Inputs.cpp:127-137, 166-176) -/
def best {α : Type} (better : α → α → Bool) : α → List α → α
  | a, [] => a
  | a, b :: t => best better (if better b a then b else a) t

/-- `varMaxIndex`, `varMinIndex` (src/helics/application_api/Inputs.cpp:149-164, 178-193): running extreme, index of it and
index of the next element. -/
def bestIndex (better : Dbl → Dbl → Bool) : Dbl → Nat → Nat → List Dbl → Nat
  | _, ix, _, [] => ix
  | d, ix, i, b :: t => if better b d then bestIndex better b i (i + 1) t else bestIndex better d ix (i + 1) t

/-- `std::string` comparison: bytes compared as unsigned numbers -/
def strLt : Str → Str → Bool
  | [], [] => false
  | [], _ :: _ => true
  | _ :: _, [] => false
  | a :: s, b :: t => if a.toNat < b.toNat then true else if b.toNat < a.toNat then false else strLt s t

/-- `maxOperation` and `minOperation` (src/helics/application_api/Inputs.cpp:195-229, 309-343): `isMax` chooses. -/
def extreme (L : Lib) (isMax : Bool) (vals : List Val) : Res Val :=
  let dl := fun a b => if isMax then L.lt b a else L.lt a b
  let start := if isMax then L.dLow else L.dMax
  let pick := fun (ks : List Dbl) => vals.getD (bestIndex dl start 0 0 ks) (.dbl dZero)
  match vals with
  | [] => .ok (.dbl dInvalid)
  | .dbl d :: t => (allOk (t.map asDbl)).map fun l => .dbl (best dl d l)
  | .int i :: t => (allOk (t.map asInt)).map fun l =>
      .int (best (fun a b => if isMax then decide (b.toInt < a.toInt) else decide (a.toInt < b.toInt)) i l)
  | .str s :: t => (allOk (t.map asStr)).map fun l => .str (best (fun a b => if isMax then strLt b a else strLt a b) s l)
  | .cplx _ :: _ => (allOk (vals.map asCplx)).map fun l => pick (l.map L.cabs)
  | .vec _ :: _ => (allOk (vals.map asVec)).map fun l => pick (l.map L.norm)
  | .cvec _ :: _ => (allOk (vals.map asCVec)).map fun l => pick (l.map L.cnorm)
  | .np _ :: _ => (allOk (vals.map asNP)).map fun l => pick (l.map (·.value))

/-- `diffOperation` (src/helics/application_api/Inputs.cpp:231-266). -/
def diffOp (L : Lib) (vals : List Val) : Res Val :=
  match vals with
  | [] => .ok (.dbl dInvalid)
  | .dbl d :: t => (allOk (t.map asDbl)).map fun l => .dbl (l.foldl L.sub d)
  | .int i :: t => (allOk (t.map asInt)).map fun l => .int (l.foldl (· - ·) i)
  | .str s :: t => (allOk (t.map asStr)).map fun l => .str (if l.any (· != s) then asc "1" else asc "0")
  | .cplx c :: t => (allOk (t.map asCplx)).map fun l => .cplx (l.foldl L.csub c)
  | .vec v :: t => (allOk (t.map asVec)).map fun l => .dbl ((l.map L.norm).foldl L.sub (L.norm v))
  | .cvec v :: t => (allOk (t.map asCVec)).map fun l => .dbl ((l.map L.cnorm).foldl L.sub (L.cnorm v))
  | .np p :: t => (allOk (t.map asNP)).map fun l => .dbl ((l.map (·.value)).foldl L.sub p.value)

/-- `vectorizeOperation` (src/helics/application_api/Inputs.cpp:268-307); `vals.front()` of no values is out of range. -/
def vectorizeOp (L : Lib) (vals : List Val) : Res Val :=
  match vals with
  | [] => .fault
  | .vec _ :: _ => (allOk (vals.map asVec)).map fun l => .vec l.flatten
  | .str _ :: _ => (allOk (vals.map asStr)).map fun l => .str (L.jsonTexts l)
  | .cvec _ :: _ => (allOk (vals.map asCVec)).map fun l => .cvec l.flatten
  | _ => .ok (.vec [])

/-- `vectorSum` (src/helics/application_api/Inputs.cpp:345-355). -/
def vecSum (L : Lib) (vals : List Val) : Res Val :=
  (allOk (vals.map asVec)).map fun l => .dbl (l.flatten.foldl L.add dZero)
/-- `sumOperation` (src/helics/application_api/Inputs.cpp:387-403). -/
def sumOp (L : Lib) (vals : List Val) : Res Val :=
  match vals with
  | [] => .ok (.str [])
  | .str _ :: _ => .ok (.str (vals.map (exStr L)).flatten)
  | _ => vecSum L vals
/-- `vectorAvg` (src/helics/application_api/Inputs.cpp:357-369). -/
def vecAvg (L : Lib) (vals : List Val) : Res Val :=
  (allOk (vals.map asVec)).map fun l =>
    .dbl (L.div (l.flatten.foldl L.add dZero) (L.ofInt (BitVec.ofNat 64 l.flatten.length)))
/-- differences of neighbours; the first element is skipped by comparing with `invalidDouble`
(src/helics/application_api/Inputs.cpp:371-385). -/
def steps (L : Lib) : Dbl → List Dbl → List Dbl
  | _, [] => []
  | start, e :: t => if start ≠ dInvalid then L.sub start e :: steps L e t else steps L e t
/-- `vectorDiff` (src/helics/application_api/Inputs.cpp:371-385). -/
def vecDiff (L : Lib) (vals : List Val) : Res Val :=
  (allOk (vals.map asVec)).map fun l => .vec (steps L dInvalid l.flatten)

/-- the reduction (src/helics/application_api/Inputs.cpp:483-528); `NO_OP` leaves the default value. -/
def Inp.reduce (L : Lib) (s : Inp) (vals : List Val) : Res Val :=
  match s.op with
  | .none => .ok (.dbl dZero)
  | .max => extreme L true vals
  | .min => extreme L false vals
  | .and => .ok (.str (if vals.all (exBool L) then asc "1" else asc "0"))
  | .or => .ok (.str (if vals.any (exBool L) then asc "1" else asc "0"))
  | .sum => sumOp L vals
  | .average => vecAvg L vals
  | .diff => if s.common = .vector then vecDiff L vals else diffOp L vals
  | .vectorize => vectorizeOp L vals

/-- `vectorDataProcess` (src/helics/application_api/Inputs.cpp:411-542), called by `getUpdateFromCore`
(src/helics/application_api/ValueFederateManager.cpp:256-268). -/
def Inp.arriveAll (L : Lib) (le : Bool) (s : Inp) (ds : List (Option (List Byte))) : Res Inp :=
  (s.gather L le 0 ds).bind fun vs =>
  (allOk (vs.map fun v => convertVal L v s.common)).bind fun ws =>
  (s.reduce L ws).map fun r =>
    let s := { s with fedUpd := false }
    if s.changeOn then
      if changed L s.last r.got s.delta then { s with last := r, upd := true } else { s with upd := false }
    else { s with last := r, upd := true }

end Verif.Value
