/-!
# Binary form of command messages

Models `helics::ActionMessage` as a value and its byte-level encoder and decoder
(src/helics/core/ActionMessage.cpp).  Integers are fixed-width (`BitVec`) because the properties are about
bytes.  Writing or reading outside the supplied storage is a separate outcome, never assumed away.

Simplifications: a null `data` pointer is not modelled (the buffer exists); the JSON reader and writer
(nlohmann, base64) are parameters; `int` return values are natural numbers.
-/
namespace Verif.Wire

/-- `std::byte` -/
abbrev Byte := BitVec 8

/-- `CMD_TIME_REQUEST` (src/helics/core/ActionMessageDefintions.hpp:152). -/
def cmdTimeRequest : BitVec 32 := 500#32
/-- `CMD_INVALID` (src/helics/core/ActionMessageDefintions.hpp:108). -/
def cmdInvalid : BitVec 32 := 1010101#32
/-- `CMD_IGNORE` (src/helics/core/ActionMessageDefintions.hpp:53). -/
def cmdIgnore : BitVec 32 := 0#32
/-- `CMD_MULTI_MESSAGE` (src/helics/core/ActionMessageDefintions.hpp:198). -/
def cmdMulti : BitVec 32 := 1037#32
/-- `CMD_SEND_MESSAGE = cmd_info_basis + 20` (src/helics/core/ActionMessageDefintions.hpp:156, ActionMessage.hpp:27). -/
def cmdSendMessage : BitVec 32 := 65556#32
/-- base value of a default `InterfaceHandle` (src/helics/core/LocalFederateId.hpp:57,65). -/
def noHandle : BitVec 32 := BitVec.ofInt 32 (-1700000000)

/-- `class ActionMessage` (src/helics/core/ActionMessage.hpp:30-52). -/
structure AMsg where
  action : BitVec 32 := cmdIgnore
  messageID : BitVec 32 := 0#32
  sourceId : BitVec 32 := 0#32
  sourceHandle : BitVec 32 := noHandle
  destId : BitVec 32 := 0#32
  destHandle : BitVec 32 := noHandle
  counter : BitVec 16 := 0#16
  flags : BitVec 16 := 0#16
  sequenceID : BitVec 32 := 0#32
  actionTime : BitVec 64 := 0#64
  te : BitVec 64 := 0#64
  tdemin : BitVec 64 := 0#64
  tso : BitVec 64 := 0#64
  payload : List Byte := []
  strings : List (List Byte) := []
  deriving DecidableEq

/-- `maxPayloadSize` (src/helics/core/ActionMessage.cpp:157). -/
def maxPayload : Nat := 0x00FFFFFF
/-- `action_message_base_size` (src/helics/core/ActionMessage.cpp:177-180). -/
def baseSize : Nat := 45
/-- range of `uint32_t` -/
def two32 : Nat := 4294967296

/-- `k` bytes of `v`, least significant first. -/
def leBytes : Nat → Nat → List Byte
  | 0, _ => []
  | k + 1, v => BitVec.ofNat 8 v :: leBytes k (v / 256)
/-- value of bytes, least significant first. -/
def ofLe : List Byte → Nat
  | [] => 0
  | b :: bs => b.toNat + 256 * ofLe bs
/-- memory image of an unsigned integer of `k` bytes on a machine that is little endian iff `le`
(`*reinterpret_cast<T*>(data) = v`, `memcpy`). -/
def toBytes (le : Bool) (k v : Nat) : List Byte := if le then leBytes k v else (leBytes k v).reverse
/-- value read from memory on such a machine. -/
def ofBytes (le : Bool) (bs : List Byte) : Nat := if le then ofLe bs else ofLe bs.reverse
/-- `swap_bytes<k>` (src/helics/core/ActionMessage.cpp:425-431). -/
def swapBytes (k v : Nat) : Nat := ofLe (leBytes k v).reverse

/-! ## Encoder -/

/-- result of writing into a caller's buffer -/
inductive Enc
  /-- returned the number of bytes written; these are the bytes -/
  | ok (written : List Byte)
  /-- returned -1 -/
  | fail
  /-- wrote outside the buffer -/
  | overflow
  deriving DecidableEq

/-- sequential store of `bs` at the write pointer of a buffer of `cap` bytes; `none` when it does not fit -/
def put (cap : Nat) (w bs : List Byte) : Option (List Byte) :=
  if w.length + bs.length ≤ cap then some (w ++ bs) else none
/-- several stores -/
def putAll (cap : Nat) : List Byte → List (List Byte) → Option (List Byte)
  | w, [] => some w
  | w, c :: cs => (put cap w c).bind fun w' => putAll cap w' cs

/-- payload bytes stored in the main section (src/helics/core/ActionMessage.cpp:186-194). -/
def mainSize (m : AMsg) : Nat :=
  if m.action ≠ cmdTimeRequest then (if maxPayload ≤ m.payload.length then maxPayload else m.payload.length) else 0

/-- the fixed header (src/helics/core/ActionMessage.cpp:202-227). -/
def header (le : Bool) (m : AMsg) (ssize : Nat) : List (List Byte) :=
  [ [if le then 1#8 else 0#8, BitVec.ofNat 8 (ssize / 65536), BitVec.ofNat 8 (ssize / 256), BitVec.ofNat 8 ssize],
    toBytes le 4 m.action.toNat, toBytes le 4 m.messageID.toNat, toBytes le 4 m.sourceId.toNat,
    toBytes le 4 m.sourceHandle.toNat, toBytes le 4 m.destId.toNat, toBytes le 4 m.destHandle.toNat,
    toBytes le 2 m.counter.toNat, toBytes le 2 m.flags.toNat, toBytes le 4 m.sequenceID.toNat,
    toBytes le 8 m.actionTime.toNat ]

/-- the string loop (src/helics/core/ActionMessage.cpp:256-267); `ssize` is a `uint32_t`, so it wraps. -/
def putStrings (le : Bool) (cap : Nat) : List Byte → Nat → List (List Byte) → Enc × Nat
  | w, ssize, [] => (.ok w, ssize)
  | w, ssize, s :: ss =>
    let strsize := s.length % two32
    if cap < (ssize + strsize + 4) % two32 then (.fail, ssize)
    else
      match putAll cap w [toBytes le 4 strsize, s] with
      | none => (.overflow, ssize)
      | some w' => putStrings le cap w' ((ssize + strsize + 4) % two32) ss

/-- `ActionMessage::toByteArray` (src/helics/core/ActionMessage.cpp:182-281). -/
def toByteArray (le : Bool) (m : AMsg) (cap : Nat) : Enc :=
  let ssize := mainSize m
  if cap = 0 ∨ cap < baseSize + ssize then .fail
  else
    match putAll cap [] (header le m ssize) with
    | none => .overflow
    | some w =>
      if m.action = cmdTimeRequest then
        match putAll cap w [toBytes le 8 m.te.toNat, toBytes le 8 m.tdemin.toNat, toBytes le 8 m.tso.toNat, [0#8]] with
        | none => .overflow
        | some w => .ok w
      else
        let count := if maxPayload ≤ m.payload.length then m.strings.length + 1 else m.strings.length
        match putAll cap w [m.payload.take ssize, [BitVec.ofNat 8 count]] with
        | none => .overflow
        | some w =>
          match putStrings le cap w ((ssize + baseSize) % two32) m.strings with
          | (.ok w, ssize) =>
            if maxPayload < m.payload.length then
              if cap < ssize + m.payload.length - maxPayload + 4 then .fail
              else
                match putAll cap w [toBytes le 4 ((m.payload.length - maxPayload) % two32), m.payload.drop maxPayload] with
                | none => .overflow
                | some w => .ok w
            else .ok w
          | (r, _) => r

/-- `ActionMessage::serializedByteCount` (src/helics/core/ActionMessage.cpp:283-301).  Simplification: the
`int` is a natural number, so the value is only right below 2^31. -/
def serializedByteCount (m : AMsg) : Nat :=
  if m.action = cmdTimeRequest then baseSize + 24
  else
    baseSize + m.payload.length + (m.strings.map fun s => 4 + s.length).sum
      + (if maxPayload ≤ m.payload.length then 4 else 0)

/-- contents of a buffer of `old` bytes after the encoder ran: bytes past the written part keep their old
value.  On -1 the caller's buffer keeps an unspecified mixture; `to_string` and friends ignore the result. -/
def overwrite (old written : List Byte) : List Byte := written ++ old.drop written.length

/-- `std::string::resize` / `std::vector::resize`: keeps a prefix, extends with zero bytes -/
def resize (old : List Byte) (n : Nat) : List Byte := old.take n ++ List.replicate (n - old.length) 0#8

/-- `ActionMessage::to_string(std::string&)`, `to_vector(std::vector&)` (src/helics/core/ActionMessage.cpp:402-423):
`data` is the caller's container.  `none`: the encoder left the container or refused. -/
def toStringInto (le : Bool) (m : AMsg) (data : List Byte) : Option (List Byte) :=
  let size := serializedByteCount m
  match toByteArray le m size with
  | .ok w => some (overwrite (resize data size) w)
  | _ => none

/-- `use_json_serialization_flag` (src/helics/core/flagOperations.hpp:95), tested in `to_string()` -/
def useJson (m : AMsg) : Bool := m.flags.getLsbD 6

/-- `ActionMessage::to_string()` (src/helics/core/ActionMessage.cpp:303-314); `wr` is `to_json_string`. -/
def toString (le : Bool) (wr : AMsg → List Byte) (m : AMsg) : Option (List Byte) :=
  if useJson m then some (wr m) else toStringInto le m []

/-- `LEADING_CHAR`, `TAIL_CHAR1`, `TAIL_CHAR2` (src/helics/core/ActionMessage.cpp:362-364). -/
def leading : Byte := 0xF3#8
def tail1 : Byte := 0xFA#8
def tail2 : Byte := 0xFC#8
/-- the character that starts a JSON object -/
def brace : Byte := 0x7B#8

/-- `ActionMessage::packetize(std::string&)` (src/helics/core/ActionMessage.cpp:386-400) into a caller's string `data`:
the payload goes after four header bytes, which are then filled in. -/
def packetizeInto (le : Bool) (m : AMsg) (data : List Byte) : Option (List Byte) :=
  let size := serializedByteCount m
  match toByteArray le m size with
  | .ok w =>
    let dsz := 4 + size
    some ([leading, BitVec.ofNat 8 (dsz / 65536), BitVec.ofNat 8 (dsz / 256), BitVec.ofNat 8 dsz]
      ++ overwrite ((resize data dsz).drop 4) w ++ [tail1, tail2])
  | _ => none
/-- `ActionMessage::packetize()` (src/helics/core/ActionMessage.cpp:366-371). -/
def packetize (le : Bool) (m : AMsg) : Option (List Byte) := packetizeInto le m []

/-! ## Decoder -/

/-- read `n` bytes at the pointer; `rest` is the storage from the pointer to the end of the supplied buffer.
`none`: the read leaves the buffer. -/
def get (n : Nat) (rest : List Byte) : Option (List Byte × List Byte) :=
  if n ≤ rest.length then some (rest.take n, rest.drop n) else none
/-- read an integer of `n` bytes -/
def getInt (le : Bool) (n : Nat) (rest : List Byte) : Option (Nat × List Byte) :=
  (get n rest).map fun (bs, r) => (ofBytes le bs, r)

/-- the string loop (src/helics/core/ActionMessage.cpp:530-544): the remaining number of strings, the strings read so
far, `tsize`, the pointer.  `none`: out of bounds.  Result: strings, `tsize`, and whether it was rejected. -/
def getStrings (le swap : Bool) (len : Nat) : Nat → Nat → List Byte → Option (List (List Byte) × Nat × Bool)
  | 0, tsize, _ => some ([], tsize, true)
  | n + 1, tsize, rest =>
    (getInt le 4 rest).bind fun (raw, rest) =>
      let ssize := if swap then swapBytes 4 raw else raw
      let tsize := tsize + ssize
      if len < tsize then some ([], tsize, false)
      else (get ssize rest).bind fun (s, rest) =>
        (getStrings le swap len n tsize rest).map fun (ss, t, ok) => (s :: ss, t, ok)

/-- the fixed fields (src/helics/core/ActionMessage.cpp:460-494), read in the machine's own byte order except for the
action, which is swapped at once. -/
def readFixed (le swap : Bool) (m0 : AMsg) (rest : List Byte) : Option (AMsg × List Byte) :=
  (getInt le 4 rest).bind fun (action, rest) =>
  (getInt le 4 rest).bind fun (messageID, rest) =>
  (getInt le 4 rest).bind fun (sourceId, rest) =>
  (getInt le 4 rest).bind fun (sourceHandle, rest) =>
  (getInt le 4 rest).bind fun (destId, rest) =>
  (getInt le 4 rest).bind fun (destHandle, rest) =>
  (getInt le 2 rest).bind fun (counter, rest) =>
  (getInt le 2 rest).bind fun (flags, rest) =>
  (getInt le 4 rest).bind fun (sequenceID, rest) =>
  (getInt le 8 rest).bind fun (actionTime, rest) =>
  some ({ m0 with
    action := BitVec.ofNat 32 (if swap then swapBytes 4 action else action)
    messageID := BitVec.ofNat 32 messageID, sourceId := BitVec.ofNat 32 sourceId
    sourceHandle := BitVec.ofNat 32 sourceHandle, destId := BitVec.ofNat 32 destId
    destHandle := BitVec.ofNat 32 destHandle, counter := BitVec.ofNat 16 counter
    flags := BitVec.ofNat 16 flags, sequenceID := BitVec.ofNat 32 sequenceID
    actionTime := BitVec.ofNat 64 actionTime }, rest)

/-- the time block (src/helics/core/ActionMessage.cpp:496-515): present for time requests only.  Result: the message,
`tsize`, the pointer, and whether the buffer was long enough. -/
def readTimes (le : Bool) (raw : AMsg) (tsize len : Nat) (rest : List Byte) : Option (AMsg × Nat × List Byte × Bool) :=
  if raw.action = cmdTimeRequest then
    if len < tsize + 24 then some ({ raw with action := cmdInvalid }, tsize + 24, rest, false)
    else
      (getInt le 8 rest).bind fun (te, rest) =>
      (getInt le 8 rest).bind fun (tdemin, rest) =>
      (getInt le 8 rest).bind fun (tso, rest) =>
      some ({ raw with te := BitVec.ofNat 64 te, tdemin := BitVec.ofNat 64 tdemin, tso := BitVec.ofNat 64 tso },
        tsize + 24, rest, true)
  else some ({ raw with te := 0#64, tdemin := 0#64, tso := 0#64 }, tsize, rest, true)

/-- the payload (src/helics/core/ActionMessage.cpp:516-519): an empty one leaves the old payload in place. -/
def readPayload (raw : AMsg) (size : Nat) (rest : List Byte) : Option (AMsg × List Byte) :=
  if 0 < size then (get size rest).map fun (p, rest) => ({ raw with payload := p }, rest)
  else some (raw, rest)

/-- the string section (src/helics/core/ActionMessage.cpp:520-547). -/
def readStrings (le swap : Bool) (len tsize : Nat) (rest : List Byte) : Option (List (List Byte) × Nat × Bool) :=
  (get 1 rest).bind fun (c, rest) =>
  let stringCount := (c.getD 0 0#8).toNat
  if stringCount ≠ 0 then
    if len < tsize + 4 * stringCount then some ([], tsize, false)
    else getStrings le swap len stringCount (tsize + 4 * stringCount) rest
  else some ([], tsize, true)

/-- the final byte swapping (src/helics/core/ActionMessage.cpp:549-571); `sequenceID` is not in the list. -/
def finalSwap (swap : Bool) (m : AMsg) : AMsg :=
  if swap then
    let s32 (v : BitVec 32) : BitVec 32 := BitVec.ofNat 32 (swapBytes 4 v.toNat)
    let s16 (v : BitVec 16) : BitVec 16 := BitVec.ofNat 16 (swapBytes 2 v.toNat)
    let s64 (v : BitVec 64) : BitVec 64 := BitVec.ofNat 64 (swapBytes 8 v.toNat)
    { m with
      messageID := s32 m.messageID, sourceId := s32 m.sourceId, sourceHandle := s32 m.sourceHandle
      destId := s32 m.destId, destHandle := s32 m.destHandle, counter := s16 m.counter, flags := s16 m.flags
      actionTime := s64 m.actionTime
      te := if m.action = cmdTimeRequest then s64 m.te else m.te
      tdemin := if m.action = cmdTimeRequest then s64 m.tdemin else m.tdemin
      tso := if m.action = cmdTimeRequest then s64 m.tso else m.tso }
  else m

/-- `fromByteArray` after the framing tests (src/helics/core/ActionMessage.cpp:451-577): result message and byte count.
Simplification: after a rejection in the string section the strings of the message are the ones read so far. -/
def decodeBody (le : Bool) (m0 : AMsg) (rest : List Byte) (len : Nat) : Option (AMsg × Nat) :=
  (get 4 rest).bind fun (h, rest) =>
  let size := 256 * 256 * (h.getD 1 0#8).toNat + 256 * (h.getD 2 0#8).toNat + (h.getD 3 0#8).toNat
  let tsize := baseSize + size
  if len < tsize then some ({ m0 with action := cmdInvalid }, 0) else
  let swap : Bool := h.getD 0 0#8 != (if le then 1#8 else 0#8)
  (readFixed le swap m0 rest).bind fun (raw, rest) =>
  (readTimes le raw tsize len rest).bind fun (raw, tsize, rest, ok) =>
  if ok = false then some (raw, 0) else
  (readPayload raw size rest).bind fun (raw, rest) =>
  (readStrings le swap len tsize rest).bind fun (strings, tsize, ok) =>
  if ok = false then some ({ raw with action := cmdInvalid, strings }, 0) else
  let m : AMsg := { finalSwap swap raw with strings }
  if size = maxPayload ∧ strings ≠ [] then
    some ({ m with payload := m.payload ++ strings.getLastD [], strings := strings.dropLast }, tsize)
  else some (m, tsize)

/-- a JSON reader: new contents of the message, and success (src/helics/core/ActionMessage.cpp:624-665). -/
abbrev JsonReader := AMsg → List Byte → AMsg × Bool

/-- the length field of a frame (src/helics/core/ActionMessage.cpp:588-592). -/
def frameSize (b1 b2 b3 : Byte) : Nat := (b1.toNat * 256 + b2.toNat) * 256 + b3.toNat

mutual
/-- `ActionMessage::fromByteArray` (src/helics/core/ActionMessage.cpp:433-577).  `rest`: storage from the pointer to the
end of the supplied buffer; `len`: the claimed size. -/
def fromByteArray (le : Bool) (js : JsonReader) (m0 : AMsg) (rest : List Byte) (len : Nat) : Option (AMsg × Nat) :=
  if len < baseSize then some ({ m0 with action := cmdInvalid }, 0)
  else
    match rest[0]? with
    | none => none
    | some b0 =>
      if b0 = leading then
        match depacketize le js m0 rest len with
        | none => none
        | some (m1, res) => if 0 < res then some (m1, res) else decodeBody le m1 rest len
      else if b0 = brace then some (m0, 0)
      else decodeBody le m0 rest len
termination_by (len, 1)
/-- `ActionMessage::depacketize` (src/helics/core/ActionMessage.cpp:579-611).  `message_size - 4` is computed in
`unsigned int`; a wrap there is an out-of-bounds outcome. -/
def depacketize (le : Bool) (js : JsonReader) (m0 : AMsg) (rest : List Byte) (len : Nat) : Option (AMsg × Nat) :=
  match rest[0]? with
  | none => none
  | some b0 =>
    if b0 ≠ leading then some (m0, 0)
    else if len < 6 then some (m0, 0)
    else
      match rest[1]?, rest[2]?, rest[3]? with
      | some b1, some b2, some b3 =>
        let size := frameSize b1 b2 b3
        if len < size + 2 then some (m0, 0)
        else
          match rest[size]?, rest[size + 1]? with
          | some t1, some t2 =>
            if t1 ≠ tail1 then some (m0, 0)
            else if t2 ≠ tail2 then some (m0, 0)
            else if size < 4 then none
            else
              match fromByteArray le js m0 (rest.drop 4) (size - 4) with
              | none => none
              | some (m1, used) =>
                if used = 0 then
                  let (m2, ok) := js m1 ((rest.drop 4).take (size - 4))
                  some (m2, if ok then size + 2 else 0)
                else some (m1, size + 2)
          | _, _ => none
      | _, _, _ => none
termination_by (len, 0)
end

/-- `ActionMessage::from_string` / `from_vector` (src/helics/core/ActionMessage.cpp:613-622, 667-677). -/
def fromString (le : Bool) (js : JsonReader) (m0 : AMsg) (data : List Byte) : Option (AMsg × Nat) :=
  match fromByteArray le js m0 data data.length with
  | none => none
  | some (m1, res) =>
    if res = 0 ∧ data.head? = some brace then
      let (m2, ok) := js m1 data
      if ok then some (m2, data.length) else some (m2, res)
    else some (m1, res)

/-- `TcpComms::dataReceive`'s loop (src/helics/network/tcp/TcpComms.cpp:99-135): the messages taken from a received
block, and how many bytes they used.  Simplification: what is done with each message is not part of it.
`none`: out of bounds. -/
def dataReceive (le : Bool) (js : JsonReader) : (fuel : Nat) → List Byte → Option (List AMsg × Nat)
  | 0, _ => some ([], 0)
  | fuel + 1, data =>
    if data = [] then some ([], 0)
    else
      match depacketize le js {} data data.length with
      | none => none
      | some (m, used) =>
        if used = 0 then some ([], 0)
        else (dataReceive le js fuel (data.drop used)).map fun (ms, n) => (m :: ms, n + used)

/-! ## Message containers -/

/-- `ActionMessage::setString` (src/helics/core/ActionMessage.cpp:159-168); `none`: it throws. -/
def setString (m : AMsg) (index : Nat) (s : List Byte) : Option AMsg :=
  if 255 ≤ index then none
  else
    let strs := if m.strings.length ≤ index then m.strings ++ List.replicate (index + 1 - m.strings.length) [] else m.strings
    some { m with strings := strs.set index s }
/-- `ActionMessage::getString` (src/helics/core/ActionMessage.cpp:150-156). -/
def getString (m : AMsg) (index : Nat) : List Byte := m.strings.getD index []

/-- `appendMessage` (src/helics/core/ActionMessage.cpp:971-980): new container and result code, -1 when refused.
`none`: an exception or a failed encoding. -/
def appendMessage (le : Bool) (wr : AMsg → List Byte) (multi new : AMsg) : Option (AMsg × Int) :=
  if multi.action = cmdMulti then
    if multi.counter.toNat < 255 then
      match toString le wr new with
      | none => none
      | some s =>
        match setString { multi with counter := multi.counter + 1#16 } multi.counter.toNat s with
        | none => none
        | some m => some (m, m.counter.toNat)
    else some (multi, -1)
  else some (multi, -1)

/-- the loop over a container in `BrokerBase::commandProcessor` (src/helics/core/BrokerBase.cpp:1163-1176): the messages
decoded from it.  Simplification: what is done with each is not part of it. -/
def unpack (le : Bool) (js : JsonReader) (multi : AMsg) : List (Option (AMsg × Nat)) :=
  (List.range multi.counter.toNat).map fun i => fromString le js {} (getString multi i)

/-- the fan-out loop of `CommonCore::setValue` and `generateMessages` (src/helics/core/CommonCore.cpp:1835-1859,
2261-2279): one copy of a message per target, packed into containers.  `dst t m` sets the destination fields. -/
def fanOut {τ : Type} (le : Bool) (wr : AMsg → List Byte) (dst : τ → AMsg → AMsg) (empty : AMsg) :
    AMsg → AMsg → List τ → Option (List AMsg)
  | package, _, [] => some [package]
  | package, pub, t :: ts =>
    let pub := dst t pub
    match appendMessage le wr package pub with
    | none => none
    | some (package', res) =>
      if res < 0 then
        match appendMessage le wr empty pub with
        | none => none
        | some (p2, _) => (fanOut le wr dst empty p2 pub ts).map (package' :: ·)
      else fanOut le wr dst empty package' pub ts

/-! ## User messages -/

/-- `class Message` (src/helics/core/core-data.hpp:29-41). -/
structure UserMsg where
  time : BitVec 64
  flags : BitVec 16
  messageID : BitVec 32
  data : List Byte
  dest : List Byte
  source : List Byte
  originalSource : List Byte
  originalDest : List Byte
  deriving DecidableEq

/-- `ActionMessage(std::unique_ptr<Message>)` (src/helics/core/ActionMessage.cpp:62-70). -/
def ofUser (u : UserMsg) : AMsg :=
  { action := cmdSendMessage, messageID := u.messageID, flags := u.flags, actionTime := u.time, payload := u.data,
    strings := [u.dest, u.source, u.originalSource, u.originalDest] }

/-- `createMessageFromCommand` (src/helics/core/ActionMessage.cpp:679-742). -/
def toUser (m : AMsg) : UserMsg :=
  let e : UserMsg := { time := m.actionTime, flags := m.flags, messageID := m.messageID, data := m.payload,
                       dest := [], source := [], originalSource := [], originalDest := [] }
  match m.strings with
  | [] => e
  | [a] => { e with dest := a }
  | [a, b] => { e with dest := a, source := b }
  | [a, b, c] => { e with dest := a, source := b, originalSource := c }
  | a :: b :: c :: d :: _ => { e with dest := a, source := b, originalSource := c, originalDest := d }

end Verif.Wire
