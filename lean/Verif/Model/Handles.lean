import Verif.Model.Input
/-!
# Names and identifiers of interfaces

`HandleManager` (src/helics/core/HandleManager.hpp:25-137, HandleManager.cpp): the table of interfaces of a core
or broker with its four name maps, the identifier map and the aliases.  An operation that throws leaves behind
whatever it did before throwing; operations return `(table, ok)` with `ok = false` for an exception.

Not modelled: tags, units and type strings, the `used` mark, regular-expression search, threads (the class is used
under a lock).  `std::string_view` keys are modelled as the strings they view.
-/
namespace Verif

/-- A name: the bytes of the string. -/
abbrev IName := List Nat

/-- `InterfaceType` (src/helics/core/CoreTypes.hpp:112): the kinds the table distinguishes. -/
inductive IfKind | endpoint | publication | filter | input | translator | sink | unknown
  deriving DecidableEq, Repr

/-- The four name maps (src/helics/core/HandleManager.hpp:37-41). -/
inductive Slot | pubs | epts | inps | filts
  deriving DecidableEq, Repr

/-- The part of `BasicHandleInfo` that is modelled (src/helics/core/BasicHandleInfo.hpp:20-56); the default is the
blank record. -/
structure HInfo where
  gh : GHandle := ⟨-2010000000, -1700000000⟩
  kind : IfKind := .unknown
  key : IName := []
  flags : BitVec 16 := 0
  deriving DecidableEq, Repr

/-- `operator uint64_t` of a global handle (src/helics/core/GlobalFederateId.hpp:157-162): the key of the
identifier map. -/
def GHandle.idKey (g : GHandle) : Nat :=
  ((g.fed % 2 ^ 64 * 2 ^ 32) % 2 ^ 64 + g.handle % 2 ^ 32).toNat % 2 ^ 64

/-- `HandleManager` (src/helics/core/HandleManager.hpp:27-45).  Each map is a list of pairs with distinct keys,
consulted with `lookup`.  The identifier map is keyed by the handle itself, which `idKey` determines
(theorem `idKey_injective`).  `ub` records an insertion into a vector that a caller is iterating over. -/
structure HM where
  handles : List HInfo := []
  pubs : List (IName × Nat) := []
  epts : List (IName × Nat) := []
  inps : List (IName × Nat) := []
  filts : List (IName × Nat) := []
  ids : List (GHandle × Nat) := []
  aliases : List (IName × List IName) := []
  ub : Bool := false
  deriving DecidableEq, Repr

namespace HM

/-- one of the four maps -/
def map (hm : HM) : Slot → List (IName × Nat)
  | .pubs => hm.pubs | .epts => hm.epts | .inps => hm.inps | .filts => hm.filts

/-- replace one of the four maps -/
def setMap (hm : HM) (s : Slot) (m : List (IName × Nat)) : HM :=
  match s with
  | .pubs => { hm with pubs := m } | .epts => { hm with epts := m }
  | .inps => { hm with inps := m } | .filts => { hm with filts := m }

/-- The maps an interface is entered in, in order (src/helics/core/HandleManager.cpp:570-595). -/
def slotsOf : IfKind → List Slot
  | .endpoint => [.epts] | .publication => [.pubs] | .filter => [.filts] | .input => [.inps]
  | .translator => [.pubs, .epts, .inps] | .sink => [.epts, .inps] | .unknown => []

/-- `getMap` (src/helics/core/HandleManager.cpp:264-298). -/
def slotFor : IfKind → Slot
  | .publication => .pubs | .input => .inps | .filter => .filts | _ => .epts

/-- `try_emplace`: insert unless the key is there; second component: inserted. -/
def tryEmplace {α β : Type} [BEq α] (m : List (α × β)) (k : α) (v : β) : List (α × β) × Bool :=
  if (m.lookup k).isSome then (m, false) else ((k, v) :: m, true)

/-- `erase(key)` of a map -/
def eraseKey {α β : Type} [BEq α] (m : List (α × β)) (k : α) : List (α × β) := m.filter (fun p => !(p.1 == k))

/-- The loop over the aliases in `addFields` (src/helics/core/HandleManager.cpp:557-564): every alias is entered;
the first one already there throws. -/
def addAll (m : List (IName × Nat)) (i : Nat) : List IName → List (IName × Nat) × Bool
  | [] => (m, true)
  | a :: as => let r := tryEmplace m a i; if r.2 then addAll r.1 i as else (r.1, false)

/-- `addFields` (src/helics/core/HandleManager.cpp:546-566). -/
def addFields (m : List (IName × Nat)) (key : IName) (i : Nat) (aliases : List (IName × List IName)) :
    List (IName × Nat) × Bool :=
  let r := tryEmplace m key i
  if r.2 then addAll r.1 i ((aliases.lookup key).getD []) else (r.1, false)

/-- The `addFields` calls for the maps of one interface, in order, stopping at the first exception
(src/helics/core/HandleManager.cpp:571-595). -/
def addSlots (hm : HM) (key : IName) (i : Nat) : List Slot → HM × Bool
  | [] => (hm, true)
  | s :: ss =>
    let r := addFields (hm.map s) key i hm.aliases
    let hm' := hm.setMap s r.1
    if r.2 then addSlots hm' key i ss else (hm', false)

/-- `addSearchFields` (src/helics/core/HandleManager.cpp:568-599). -/
def addSearchFields (hm : HM) (info : HInfo) (i : Nat) : HM × Bool :=
  let r := if info.key ≠ [] then addSlots hm info.key i (slotsOf info.kind) else (hm, true)
  if r.2 then ({ r.1 with ids := (tryEmplace r.1.ids info.gh i).1 }, true) else (r.1, false)

/-- `generateName` (src/helics/core/HandleManager.cpp:601-629): a prefix and the number of records. -/
def generateName (hm : HM) (k : IfKind) : IName :=
  (match k with
   | .endpoint => "_ept_" | .input => "_input_" | .publication => "_pub_" | .filter => "_filter_"
   | .translator => "_translator_" | .sink => "_sink_" | .unknown => "_handle_").toList.map Char.toNat
  ++ (Nat.toDigits 10 hm.handles.length).map Char.toNat

/-- the name actually used (src/helics/core/HandleManager.cpp:23,37) -/
def actKey (hm : HM) (k : IfKind) (key : IName) : IName := if key ≠ [] then key else hm.generateName k

/-- append a record and enter it in the maps: the common part of the three `addHandle`
(src/helics/core/HandleManager.cpp:16-48) -/
def push (hm : HM) (info : HInfo) : HM × Bool :=
  addSearchFields { hm with handles := hm.handles ++ [info] } info hm.handles.length

/-- `addHandle` with a local identifier chosen by the table (src/helics/core/HandleManager.cpp:16-27). -/
def addHandle (hm : HM) (fed : Int) (k : IfKind) (key : IName) (flags : BitVec 16) : HM × Bool :=
  hm.push { gh := ⟨fed, hm.handles.length⟩, kind := k, key := hm.actKey k key, flags := flags }

/-- `addHandle` with a given identifier (src/helics/core/HandleManager.cpp:29-41). -/
def addHandleId (hm : HM) (g : GHandle) (k : IfKind) (key : IName) (flags : BitVec 16) : HM × Bool :=
  hm.push { gh := g, kind := k, key := hm.actKey k key, flags := flags }

/-- `addHandleAtIndex` (src/helics/core/HandleManager.cpp:100-114) for an index that is not negative. -/
def addHandleAtIndex (hm : HM) (info : HInfo) (i : Nat) : HM × Bool :=
  if i = hm.handles.length then hm.push info
  else if i < hm.handles.length then addSearchFields { hm with handles := hm.handles.set i info } info i
  else addSearchFields { hm with handles := hm.handles ++ List.replicate (i - hm.handles.length) {} ++ [info] } info i

/-- the maps an interface is removed from (src/helics/core/HandleManager.cpp:60-85) -/
def eraseSlots (hm : HM) (key : IName) : List Slot → HM
  | [] => hm
  | s :: ss => eraseSlots (hm.setMap s (eraseKey (hm.map s) key)) key ss

/-- the `switch` of `removeHandle` (src/helics/core/HandleManager.cpp:60-85) -/
def eraseOf : IfKind → List Slot
  | .endpoint => [.epts] | .publication => [.pubs] | .filter => [.filts] | .input => [.inps]
  | .translator => [.inps, .epts, .pubs] | .sink => [.inps, .epts] | .unknown => []

/-- `removeHandle` (src/helics/core/HandleManager.cpp:50-89): the record becomes blank. -/
def removeHandle (hm : HM) (g : GHandle) : HM :=
  match hm.ids.lookup g with
  | none => hm
  | some i =>
    let info := hm.handles.getD i {}
    let hm := { hm with ids := eraseKey hm.ids g }
    let hm := if info.key ≠ [] then eraseSlots hm info.key (eraseOf info.kind) else hm
    { hm with handles := hm.handles.set i {} }

/-- `removeFederateHandles` (src/helics/core/HandleManager.cpp:91-98): one pass over the records. -/
def removeFederateHandles (hm : HM) (fed : Int) : HM :=
  (List.range hm.handles.length).foldl (fun hm i =>
    let h := hm.handles.getD i {}
    if h.gh.fed = fed then hm.removeHandle h.gh else hm) hm

/-- `getInterfaceHandle` by name (src/helics/core/HandleManager.cpp:300-340). -/
def byName (hm : HM) (name : IName) (k : IfKind) : Option HInfo :=
  match (hm.map (slotFor k)).lookup name with
  | none => none
  | some i =>
    match hm.handles[i]? with
    | none => none
    | some h =>
      if k = .translator ∧ h.kind ≠ .translator then none
      else if k = .sink ∧ h.kind ≠ .sink then none
      else some h

/-- `findHandle` (src/helics/core/HandleManager.cpp:151-169). -/
def findHandle (hm : HM) (g : GHandle) : Option HInfo :=
  match hm.ids.lookup g with
  | none => none
  | some i => hm.handles[i]?

/-- one of `addPublicationAlias`, `addEndpointAlias`, `addFilterAlias`, `addInputAlias`
(src/helics/core/HandleManager.cpp:454-516), on its map -/
def mapAlias (m : List (IName × Nat)) (name alias : IName) : List (IName × Nat) × Bool :=
  match m.lookup name with
  | some i =>
    match m.lookup alias with
    | some j => (m, decide (j = i))
    | none => ((alias, i) :: m, true)
  | none =>
    match m.lookup alias with
    | some j => ((tryEmplace m name j).1, true)
    | none => (m, true)

/-- the four calls in order (src/helics/core/HandleManager.cpp:419-422,428-431,440-443,448-451), stopping at an
exception -/
def slotAlias (hm : HM) (name alias : IName) : List Slot → HM × Bool
  | [] => (hm, true)
  | s :: ss =>
    let r := mapAlias (hm.map s) name alias
    let hm' := hm.setMap s r.1
    if r.2 then slotAlias hm' name alias ss else (hm', false)

/-- order of the four calls -/
def aliasOrder : List Slot := [.pubs, .inps, .epts, .filts]

/-- `std::lower_bound` followed by `insert` (src/helics/core/HandleManager.cpp:530-532) -/
def insertSorted (b : IName) : List IName → List IName
  | [] => [b]
  | x :: xs => if x < b then x :: insertSorted b xs else b :: x :: xs

/-- set the alias vector of a name -/
def setAliases (hm : HM) (a : IName) (v : List IName) : HM :=
  { hm with aliases := (a, v) :: eraseKey hm.aliases a }

/-- `addAliasName` (src/helics/core/HandleManager.cpp:518-542).  `n` bounds the recursion depth (every theorem
holds for every `n`); `act` lists the names whose alias vector a caller is iterating over: inserting into such a
vector invalidates the caller's iterators (`ub`), and the loop is modelled over the vector it started with. -/
def addAliasName : Nat → List IName → HM → IName → IName → HM × Bool
  | 0, _, hm, _, _ => (hm, false)
  | n + 1, act, hm, a, b =>
    if a = b then (hm, false)
    else
      match hm.aliases.lookup a with
      | none => addAliasName n act (hm.setAliases a [b]) b a
      | some v =>
        if b ∈ v then (hm, false)
        else
          let v' := insertSorted b v
          let hm := { hm.setAliases a v' with ub := hm.ub || act.contains a }
          let hm := v'.foldl (fun h o => (addAliasName n (a :: act) h o b).1) hm
          ((addAliasName n act hm b a).1, true)

/-- the loop over the aliases of `name` in `addAlias` (src/helics/core/HandleManager.cpp:415-424,436-445) -/
def cascade (hm : HM) (name skip : IName) : List IName → HM × Bool
  | [] => (hm, true)
  | a :: as =>
    if a ≠ skip then
      let r := slotAlias hm a name aliasOrder
      if r.2 then cascade r.1 name skip as else r
    else cascade hm name skip as

/-- one half of `addAlias` (src/helics/core/HandleManager.cpp:412-431 and 434-451; `skip` is the alias in both) -/
def aliasHalf (n : Nat) (hm : HM) (name alias skip : IName) : HM × Bool :=
  let r := addAliasName n [] hm name alias
  let r' := if r.2 then cascade r.1 name skip ((r.1.aliases.lookup name).getD []) else (r.1, true)
  if r'.2 then slotAlias r'.1 name alias aliasOrder else r'

/-- `addAlias` (src/helics/core/HandleManager.cpp:403-452). -/
def addAlias (n : Nat) (hm : HM) (name alias : IName) : HM × Bool :=
  let r := aliasHalf n hm name alias alias
  if r.2 then aliasHalf n r.1 alias name alias else r

end HM
end Verif
