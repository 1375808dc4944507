import Verif.Lemmas.WireSafe
/-!
# Command messages as bytes: properties C20–C24, C31, C32 and C41

`le`/`le'` say whether the writing/reading machine is little endian; `js`/`wr` are arbitrary JSON readers and
writers; `m0` is the message object the reader decodes into; `{}` is a fresh one.
-/
namespace Verif.Wire

/-! ## Specification vocabulary -/

/-- the documented limits: at most 255 strings (one fewer when the payload needs the overflow string), and a
total size that an `int` holds -/
structure Fits (m : AMsg) : Prop where
  size : serializedByteCount m < 2147483648
  count : m.strings.length + (if maxPayload ≤ m.payload.length then 1 else 0) ≤ 255

/-- the message uses only the fields its kind transmits: a time request has times but neither payload nor
strings; every other message has no extra times -/
def Transmitted (m : AMsg) : Prop :=
  if m.action = cmdTimeRequest then m.payload = [] ∧ m.strings = [] else m.te = 0#64 ∧ m.tdemin = 0#64 ∧ m.tso = 0#64

/-- a message with every field in use -/
def sample : AMsg :=
  { action := 65536#32, messageID := 7#32, sourceId := 131073#32, sourceHandle := 3#32, destId := 131074#32, destHandle := 9#32,
    counter := 2#16, flags := 37#16, sequenceID := 1#32, actionTime := 5000000000#64,
    payload := [1#8, 2#8, 3#8], strings := [[104#8, 105#8], []] }
/-- a time request -/
def sampleTime : AMsg :=
  { action := cmdTimeRequest, sourceId := 131073#32, destId := 131074#32, actionTime := 10#64, te := 20#64, tdemin := 30#64, tso := 40#64 }

theorem sample_fits : Fits sample ∧ Transmitted sample := ⟨⟨by decide, by decide⟩, by unfold Transmitted; rw [if_neg (by decide)]; decide⟩
theorem sampleTime_fits : Fits sampleTime ∧ Transmitted sampleTime := ⟨⟨by decide, by decide⟩, by unfold Transmitted; rw [if_pos (show sampleTime.action = cmdTimeRequest from rfl)]; decide⟩

theorem Fits.two32 {m : AMsg} (h : Fits m) : serializedByteCount m < two32 :=
  Nat.lt_trans h.size (by decide)

theorem Fits.strings {m : AMsg} (h : Fits m) : (wireStrings m).length ≤ 255 := by
  have := h.count
  unfold wireStrings
  split at this
  · rename_i hh; rw [if_pos hh]; simp; omega
  · rename_i hh; rw [if_neg hh]; omega

theorem received_same {m : AMsg} (h : Transmitted m) (m0 : AMsg) (h0 : m.payload = [] → m0.payload = []) : received true m0 m = m := by
  unfold Transmitted at h
  unfold received
  simp only [if_true]
  by_cases ha : m.action = cmdTimeRequest
  · rw [if_pos ha] at h
    simp only [ha, if_true, true_or]
    rw [h0 h.1, h.2.symm]
    cases m
    simp_all
  · rw [if_neg ha] at h
    simp only [ha, if_false, false_or]
    by_cases hp : m.payload = []
    · rw [if_pos hp, h0 hp]
      cases m
      simp_all
    · rw [if_neg hp]
      cases m
      simp_all

theorem wire_head (le : Bool) (m : AMsg) (tail : List Byte) : (wire le m ++ tail)[0]? = some (if le then 1#8 else 0#8) := by
  unfold wire
  simp [header]

theorem fromByteArray_wire (le le' : Bool) (js : JsonReader) (m0 m : AMsg) (tail : List Byte) (len : Nat) (h : Fits m)
    (hl : serializedByteCount m ≤ len) :
    fromByteArray le' js m0 (wire le m ++ tail) len = some (received (le == le') m0 m, serializedByteCount m) := by
  rw [fromByteArray.eq_def, wire_head]
  have h45 : baseSize ≤ serializedByteCount m := by unfold serializedByteCount; split <;> omega
  rw [if_neg (by omega)]
  simp only
  rw [if_neg (by cases le <;> decide), if_neg (by cases le <;> decide)]
  exact decodeBody_wire le le' m0 m tail len h.two32 (fun _ => h.strings) hl

theorem fromString_wire (le le' : Bool) (js : JsonReader) (m0 m : AMsg) (tail : List Byte) (h : Fits m) :
    fromString le' js m0 (wire le m ++ tail) = some (received (le == le') m0 m, serializedByteCount m) := by
  unfold fromString
  rw [fromByteArray_wire le le' js m0 m tail _ h (by rw [List.length_append, wire_length]; omega)]
  simp only
  have h45 : baseSize ≤ serializedByteCount m := by unfold serializedByteCount; split <;> omega
  rw [baseSize_eq] at h45
  rw [if_neg (by omega)]

/-! ## C20 -/

/-- **C20.** Every message within the limits encodes; the bytes have the advertised length; and reading them
into a fresh message, with anything following them, gives the message back and reports exactly its length. -/
theorem C20_round_trip (le : Bool) (js : JsonReader) (m : AMsg) (hf : Fits m) (ht : Transmitted m) :
    ∃ bytes, toStringInto le m [] = some bytes ∧ bytes.length = serializedByteCount m ∧
      ∀ following, fromString le js {} (bytes ++ following) = some (m, bytes.length) := by
  refine ⟨wire le m, toStringInto_eq le m hf.two32, wire_length le m, fun following => ?_⟩
  rw [fromString_wire le le js {} m following hf, wire_length, BEq.rfl, received_same ht {} (fun _ => rfl)]

/-- Reading into a used message object works too unless the message carries no payload. -/
theorem C20_round_trip_reused (le : Bool) (js : JsonReader) (m m0 : AMsg) (hf : Fits m) (ht : Transmitted m) (hp : m.payload ≠ []) :
    ∃ bytes, toStringInto le m [] = some bytes ∧ ∀ following, fromString le js m0 (bytes ++ following) = some (m, bytes.length) := by
  refine ⟨wire le m, toStringInto_eq le m hf.two32, fun following => ?_⟩
  rw [fromString_wire le le js m0 m following hf, wire_length, BEq.rfl, received_same ht m0 (fun h => absurd h hp)]

/-- In general only the transmitted fields come back: this is what a reader gets, for every message within the limits. -/
theorem C20_what_arrives (le : Bool) (js : JsonReader) (m m0 : AMsg) (hf : Fits m) :
    ∃ bytes, toStringInto le m [] = some bytes ∧ fromString le js m0 bytes =
      some (if m.action = cmdTimeRequest then { m with payload := m0.payload, strings := [] }
        else { m with te := 0#64, tdemin := 0#64, tso := 0#64, payload := if m.payload = [] then m0.payload else m.payload }, bytes.length) := by
  refine ⟨wire le m, toStringInto_eq le m hf.two32, ?_⟩
  have := fromString_wire le le js m0 m [] hf
  rw [List.append_nil] at this
  rw [this, wire_length, BEq.rfl]
  unfold received
  by_cases h : m.action = cmdTimeRequest <;> simp [h]

/-- FINDING: reading a message without payload into a used object leaves the old payload in it. -/
theorem C20_stale_payload_counterexample (le : Bool) (js : JsonReader) :
    ∃ m m0 bytes, Fits m ∧ Transmitted m ∧ toStringInto le m [] = some bytes ∧ ∃ r n, fromString le js m0 bytes = some (r, n) ∧ r ≠ m := by
  refine ⟨{ sample with payload := [] }, { payload := [9#8] }, _, ⟨by decide, by decide⟩, by unfold Transmitted; rw [if_neg (by decide)]; decide,
    toStringInto_eq le _ (by decide), ?_⟩
  have := fromString_wire le le js { payload := [9#8] } { sample with payload := [] } [] ⟨by decide, by decide⟩
  rw [List.append_nil] at this
  exact ⟨_, _, this, by rw [BEq.rfl]; decide⟩

/-- FINDING: the string count is one byte and is not checked: 256 strings arrive as none. -/
theorem C20_string_count_counterexample (le : Bool) (js : JsonReader) :
    ∃ m bytes n, Transmitted m ∧ m.strings.length = 256 ∧ toStringInto le m [] = some bytes ∧
      fromString le js {} bytes = some ({ m with strings := [] }, n) := by
  let m : AMsg := { sample with strings := List.replicate 256 [] }
  have hs : serializedByteCount m < two32 := by
    unfold serializedByteCount
    rw [if_neg (by decide), show m.strings = List.replicate 256 [] from rfl, List.map_replicate, List.sum_replicate_nat]
    decide
  refine ⟨m, wire le m, serializedByteCount { m with strings := [] }, ?_, List.length_replicate .., toStringInto_eq le m hs, ?_⟩
  · unfold Transmitted; rw [if_neg (by decide)]; decide
  · have hcut : wire le m = wire le { m with strings := [] } ++ ((List.replicate 256 ([] : List Byte)).map (strImage le)).flatten := by
      have hsm : ¬ maxPayload ≤ m.payload.length := by decide
      have h1 : wireStrings m = List.replicate 256 [] := by unfold wireStrings; rw [if_neg hsm]
      have h2 : wireStrings { m with strings := [] } = [] := by unfold wireStrings; rw [if_neg (show ¬ maxPayload ≤ m.payload.length by decide)]
      have hm : m.action ≠ cmdTimeRequest := by decide
      unfold wire
      rw [if_neg hm, if_neg (show ¬ ({ m with strings := [] } : AMsg).action = cmdTimeRequest from hm), h1, h2]
      simp only [List.length_replicate, List.length_nil, List.map_nil, List.flatten_nil, List.append_nil]
      rw [← List.append_assoc]
      rfl
    rw [hcut, fromString_wire le le js {} { m with strings := [] } _ ⟨by decide, by decide⟩, BEq.rfl]
    have ht : Transmitted { m with strings := [] } := by unfold Transmitted; rw [if_neg (by decide)]; decide
    rw [received_same ht {} (fun _ => rfl)]

example : Fits sample ∧ Transmitted sample := sample_fits
example : Fits sampleTime ∧ Transmitted sampleTime := sampleTime_fits

/-! ## C21 -/

/-- **C21.** Decoding any bytes into any message stays inside the buffer, ends, and never claims more bytes than it was
given.  (`some` = no out-of-bounds access and no wrapped length.) -/
theorem C21_decode_safe (le : Bool) (js : JsonReader) (m0 : AMsg) (data : List Byte) :
    ∃ m n, fromString le js m0 data = some (m, n) ∧ n ≤ data.length := by
  unfold fromString
  obtain ⟨m, n, h, hn⟩ := fromByteArray_safe le js m0 data data.length (Nat.le_refl _)
  rw [h]
  simp only
  split
  · generalize js m data = x
    obtain ⟨m2, ok⟩ := x
    cases ok
    · exact ⟨m2, n, rfl, hn⟩
    · exact ⟨m2, data.length, rfl, Nat.le_refl _⟩
  · exact ⟨m, n, rfl, hn⟩

/-- The same for a buffer that is a part of a larger storage area: no read beyond the claimed size is needed. -/
theorem C21_decode_claimed (le : Bool) (js : JsonReader) (m0 : AMsg) (storage : List Byte) (len : Nat) (h : len ≤ storage.length) :
    ∃ m n, fromByteArray le js m0 storage len = some (m, n) ∧ n ≤ len := fromByteArray_safe le js m0 storage len h

/-- Taking a frame from any non-empty buffer is safe as well. -/
theorem C21_deframe_safe (le : Bool) (js : JsonReader) (m0 : AMsg) (data : List Byte) (h : data ≠ []) :
    ∃ m n, depacketize le js m0 data data.length = some (m, n) ∧ n ≤ data.length :=
  depacketize_safe le js m0 data data.length (Nat.le_refl _) (List.length_pos_iff.mpr h)

/-- FINDING: on an empty buffer the frame reader looks at the first byte before testing the size. -/
theorem C21_deframe_empty_counterexample (le : Bool) (js : JsonReader) (m0 : AMsg) : depacketize le js m0 [] 0 = none := by
  rw [depacketize.eq_def]; rfl

/-- The receive loop of a network connection never gives the frame reader an empty buffer: it is safe on every input. -/
theorem C21_receive_loop_safe (le : Bool) (js : JsonReader) (fuel : Nat) (data : List Byte) :
    ∃ ms n, dataReceive le js fuel data = some (ms, n) ∧ n ≤ data.length := by
  induction fuel generalizing data with
  | zero => exact ⟨_, _, rfl, by simp⟩
  | succ fuel ih =>
    rw [dataReceive]
    by_cases h : data = []
    · rw [if_pos h]; exact ⟨_, _, rfl, by simp⟩
    · rw [if_neg h]
      obtain ⟨m, n, e, hn⟩ := C21_deframe_safe le js {} data h
      rw [e]
      simp only
      by_cases h0 : n = 0
      · rw [if_pos h0]; exact ⟨_, _, rfl, by simp⟩
      · rw [if_neg h0]
        obtain ⟨ms, k, e2, hk⟩ := ih (data.drop n)
        rw [e2]
        rw [List.length_drop] at hk
        exact ⟨m :: ms, k + n, rfl, by omega⟩

/-- not vacuous: a frame inside a frame, and a frame that lies about its length, are both handled -/
example (le : Bool) (js : JsonReader) : ∃ m n, fromString le js {} ([leading, 0#8, 0#8, 2#8] ++ List.replicate 50 0xF3#8) = some (m, n) :=
  let ⟨m, n, h, _⟩ := C21_decode_safe le js {} ([leading, 0#8, 0#8, 2#8] ++ List.replicate 50 0xF3#8); ⟨m, n, h⟩

/-! ## C22 -/

/-- **C22** (partial: the statement fails for time requests in buffers of 45 to 68 bytes, see the counterexample).
Every other message below 4 GiB, in every buffer: either refused or written entirely inside the buffer. -/
theorem C22_stays_inside_partial (le : Bool) (m : AMsg) (cap : Nat) (h : m.action ≠ cmdTimeRequest) (hs : serializedByteCount m < two32) :
    toByteArray le m cap = .fail ∨ ∃ w, toByteArray le m cap = .ok w ∧ w.length ≤ cap := by
  rw [toByteArray_other le m cap h hs]
  split
  · exact Or.inr ⟨_, rfl, by assumption⟩
  · exact Or.inl rfl

/-- Time requests: inside the buffer exactly when it has fewer than 45 (refused) or at least 69 bytes. -/
theorem C22_time_request_iff (le : Bool) (m : AMsg) (cap : Nat) (h : m.action = cmdTimeRequest) :
    toByteArray le m cap = .overflow ↔ 45 ≤ cap ∧ cap < 69 := by
  rw [toByteArray_time le m cap h]
  split
  · constructor
    · intro hh; exact absurd hh (by simp)
    · omega
  · split
    · constructor
      · intro _; omega
      · intro _; rfl
    · constructor
      · intro hh; exact absurd hh (by simp)
      · omega

/-- FINDING: a time request handed a 45-byte buffer writes 24 bytes past its end. -/
theorem C22_time_request_counterexample : toByteArray true sampleTime 45 = .overflow :=
  (C22_time_request_iff true sampleTime 45 rfl).mpr ⟨by omega, by omega⟩

/-- A buffer of the advertised size is always enough, for every message; so the library's own callers are safe. -/
theorem C22_advertised_size_suffices (le : Bool) (m : AMsg) (hs : serializedByteCount m < two32) :
    ∃ w, toByteArray le m (serializedByteCount m) = .ok w ∧ w.length ≤ serializedByteCount m := by
  by_cases h : m.action = cmdTimeRequest
  · have h69 : serializedByteCount m = 69 := by unfold serializedByteCount; rw [if_pos h]; rfl
    rw [toByteArray_time le m _ h, h69, if_neg (by omega), if_neg (by omega)]
    exact ⟨_, rfl, by rw [wire_length, h69]; omega⟩
  · rw [toByteArray_other le m _ h hs]
    have : (image le m).length ≤ serializedByteCount m := by
      unfold image
      split
      · rw [List.length_take]; omega
      · rw [wire_length]; exact Nat.le_refl _
    rw [if_pos this]
    exact ⟨_, rfl, this⟩

example : sample.action ≠ cmdTimeRequest ∧ serializedByteCount sample < two32 := by decide

/-! ## C23 -/

/-- **C23** (partial: the sequence number is missing, see the counterexample).  Between machines of any byte orders every
transmitted field except the sequence number arrives unchanged; the sequence number does when the orders agree. -/
theorem C23_cross_endian_partial (le le' : Bool) (js : JsonReader) (m : AMsg) (hf : Fits m) (ht : Transmitted m) :
    ∃ bytes seq, toStringInto le m [] = some bytes ∧
      (∀ following, fromString le' js {} (bytes ++ following) = some ({ m with sequenceID := seq }, bytes.length)) ∧
      (le = le' → seq = m.sequenceID) ∧ (m.sequenceID = 0#32 → seq = 0#32) := by
  refine ⟨wire le m, if (le == le') = true then m.sequenceID else BitVec.ofNat 32 (swapBytes 4 m.sequenceID.toNat),
    toStringInto_eq le m hf.two32, fun following => ?_, ?_, ?_⟩
  · rw [fromString_wire le le' js {} m following hf, wire_length]
    have h1 : received (le == le') {} m = { received true {} m with
        sequenceID := if (le == le') = true then m.sequenceID else BitVec.ofNat 32 (swapBytes 4 m.sequenceID.toNat) } := rfl
    rw [h1, received_same ht {} (fun _ => rfl)]
  · intro h; rw [h, BEq.rfl, if_pos rfl]
  · intro h
    rw [h]
    split <;> decide

/-- FINDING: a sequence number 1 sent by a little-endian machine is read as 16777216 by a big-endian one. -/
theorem C23_sequence_counterexample (js : JsonReader) :
    ∃ bytes n, toStringInto true sample [] = some bytes ∧
      fromString false js {} bytes = some ({ sample with sequenceID := 16777216#32 }, n) ∧ sample.sequenceID = 1#32 := by
  refine ⟨_, serializedByteCount sample, toStringInto_eq true sample (by decide), ?_, rfl⟩
  have := fromString_wire true false js {} sample [] sample_fits.1
  rw [List.append_nil] at this
  rw [this]
  have h1 : received (true == false) {} sample = { received true {} sample with sequenceID := 16777216#32 } := rfl
  rw [h1, received_same sample_fits.2 {} (fun _ => rfl)]

/-! ## C24 -/

theorem packetize_eq (le : Bool) (m : AMsg) (hs : serializedByteCount m < two32) :
    packetize le m = some ([leading, BitVec.ofNat 8 ((4 + serializedByteCount m) / 65536),
      BitVec.ofNat 8 ((4 + serializedByteCount m) / 256), BitVec.ofNat 8 (4 + serializedByteCount m)] ++ wire le m ++ [tail1, tail2]) := by
  have h := toStringInto_eq le m hs
  unfold toStringInto at h
  unfold packetize packetizeInto
  simp only at h ⊢
  cases hc : toByteArray le m (serializedByteCount m) with
  | ok w =>
    rw [hc] at h
    simp only [Option.some.injEq] at h ⊢
    have : (resize [] (4 + serializedByteCount m)).drop 4 = resize [] (serializedByteCount m) := by
      simp [resize]
    rw [this, h]
  | fail => rw [hc] at h; simp at h
  | overflow => rw [hc] at h; simp at h

theorem packet_length (le : Bool) (m : AMsg) (p : List Byte) (hs : serializedByteCount m < two32) (h : packetize le m = some p) :
    p.length = serializedByteCount m + 6 := by
  rw [packetize_eq le m hs] at h
  rw [← Option.some.inj h]
  simp only [List.length_append, wire_length, List.length_cons, List.length_nil]
  omega

theorem frameSize_header (n : Nat) (h : n < 16777216) :
    frameSize (BitVec.ofNat 8 (n / 65536)) (BitVec.ofNat 8 (n / 256)) (BitVec.ofNat 8 n) = n := by
  unfold frameSize
  simp only [BitVec.toNat_ofNat]
  omega

theorem depacketize_packet (le le' : Bool) (js : JsonReader) (m0 m : AMsg) (following : List Byte) (p : List Byte) (hf : Fits m)
    (hsz : serializedByteCount m + 4 < 16777216) (hp : packetize le m = some p) :
    depacketize le' js m0 (p ++ following) (p ++ following).length = some (received (le == le') m0 m, p.length) := by
  have hl := packet_length le m p hf.two32 hp
  rw [packetize_eq le m hf.two32] at hp
  have hp' := Option.some.inj hp
  have hw := wire_length le m
  generalize hsize : serializedByteCount m = size at *
  have hfs := frameSize_header (4 + size) (by omega)
  generalize BitVec.ofNat 8 ((4 + size) / 65536) = c1 at *
  generalize BitVec.ofNat 8 ((4 + size) / 256) = c2 at *
  generalize BitVec.ofNat 8 (4 + size) = c3 at *
  rw [depacketize.eq_def]
  have hlen : (p ++ following).length = size + 6 + following.length := by rw [List.length_append, hl]
  have hshape : p ++ following = leading :: c1 :: c2 :: c3 :: (wire le m ++ (tail1 :: tail2 :: following)) := by
    rw [← hp']; simp
  have e0 : (p ++ following)[0]? = some leading := by rw [hshape]; rfl
  have e1 : (p ++ following)[1]? = some c1 := by rw [hshape]; rfl
  have e2 : (p ++ following)[2]? = some c2 := by rw [hshape]; rfl
  have e3 : (p ++ following)[3]? = some c3 := by rw [hshape]; rfl
  have ed : (p ++ following).drop 4 = wire le m ++ (tail1 :: tail2 :: following) := by rw [hshape]; rfl
  have et1 : (p ++ following)[4 + size]? = some tail1 := by
    have : (p ++ following)[4 + size]? = ((p ++ following).drop 4)[size]? := by rw [List.getElem?_drop]
    rw [this, ed, List.getElem?_append_right (by omega), hw, Nat.sub_self]; rfl
  have et2 : (p ++ following)[4 + size + 1]? = some tail2 := by
    have : (p ++ following)[4 + size + 1]? = ((p ++ following).drop 4)[size + 1]? := by rw [List.getElem?_drop]; congr 1
    rw [this, ed, List.getElem?_append_right (by omega), hw, show size + 1 - size = 1 by omega]; rfl
  rw [e0]
  simp only [ne_eq, not_true, if_false]
  rw [if_neg (by omega), e1, e2, e3]
  simp only [hfs]
  rw [if_neg (by omega), et1, et2]
  simp only [not_true, if_false]
  rw [if_neg (by omega), ed]
  have hsub : 4 + size - 4 = size := by omega
  rw [hsub, fromByteArray_wire le le' js m0 m _ size hf (by omega)]
  simp only [hsize]
  have : ¬ size = 0 := by
    rw [← hsize]; unfold serializedByteCount; rw [baseSize_eq]; split <;> omega
  rw [if_neg this]
  congr 2
  omega

/-- **C24.** For every message whose frame fits the 24-bit length field: a frame followed by any bytes is recovered exactly,
reporting exactly the frame's length, and a frame cut anywhere short is not accepted. -/
theorem C24_frame (le : Bool) (js : JsonReader) (m : AMsg) (hf : Fits m) (ht : Transmitted m) (hsz : serializedByteCount m + 4 < 16777216) :
    ∃ p, packetize le m = some p ∧ (∀ following, depacketize le js {} (p ++ following) (p ++ following).length = some (m, p.length)) ∧
      ∀ k, 0 < k → k < p.length → depacketize le js {} (p.take k) k = some ({}, 0) := by
  refine ⟨_, packetize_eq le m hf.two32, fun following => ?_, fun k hk0 hk => ?_⟩
  · have := depacketize_packet le le js {} m following _ hf hsz (packetize_eq le m hf.two32)
    rw [BEq.rfl, received_same ht {} (fun _ => rfl)] at this
    exact this
  · have hl := packet_length le m _ hf.two32 (packetize_eq le m hf.two32)
    generalize hp : [leading, BitVec.ofNat 8 ((4 + serializedByteCount m) / 65536), BitVec.ofNat 8 ((4 + serializedByteCount m) / 256),
      BitVec.ofNat 8 (4 + serializedByteCount m)] ++ wire le m ++ [tail1, tail2] = p at *
    have hfs := frameSize_header (4 + serializedByteCount m) (by omega)
    have e0 : p[0]? = some leading := by rw [← hp]; rfl
    have e1 : p[1]? = some (BitVec.ofNat 8 ((4 + serializedByteCount m) / 65536)) := by rw [← hp]; rfl
    have e2 : p[2]? = some (BitVec.ofNat 8 ((4 + serializedByteCount m) / 256)) := by rw [← hp]; rfl
    have e3 : p[3]? = some (BitVec.ofNat 8 (4 + serializedByteCount m)) := by rw [← hp]; rfl
    have ht : ∀ i, i < k → (p.take k)[i]? = p[i]? := fun i hi => List.getElem?_take_of_lt hi
    rw [depacketize.eq_def, ht 0 hk0, e0]
    simp only [ne_eq, not_true, if_false]
    by_cases h6 : k < 6
    · rw [if_pos h6]
    · rw [if_neg h6, ht 1 (by omega), ht 2 (by omega), ht 3 (by omega), e1, e2, e3]
      simp only [hfs]
      rw [if_pos (by omega)]

/-- The receive loop on a stream of frames followed by an incomplete one: exactly the complete messages, in order, and exactly
their bytes are used, so the rest stays for the next block. -/
theorem C24_stream (le : Bool) (js : JsonReader) (ms : List AMsg)
    (hm : ∀ m ∈ ms, Fits m ∧ Transmitted m ∧ serializedByteCount m + 4 < 16777216) :
    ∃ ps : List (List Byte), ps.length = ms.length ∧ (∀ i (h : i < ms.length) (h' : i < ps.length), packetize le ms[i] = some ps[i]) ∧
      ∀ (m : AMsg) (p : List Byte) (k fuel : Nat), Fits m → serializedByteCount m + 4 < 16777216 → Transmitted m → packetize le m = some p → k < p.length →
        ms.length < fuel →
        dataReceive le js fuel (ps.flatten ++ p.take k) = some (ms, ps.flatten.length) := by
  induction ms with
  | nil =>
    refine ⟨[], rfl, fun i h => absurd h (Nat.not_lt_zero i), fun m p k fuel hf hsz ht hp hk hfuel => ?_⟩
    obtain ⟨fuel, rfl⟩ : ∃ f, fuel = f + 1 := ⟨fuel - 1, by rw [List.length_nil] at hfuel; omega⟩
    rw [List.flatten_nil, List.nil_append, dataReceive]
    by_cases hk0 : k = 0
    · rw [hk0, List.take_zero, if_pos rfl]; rfl
    · obtain ⟨p', hp', _, htr⟩ := C24_frame le js m hf ht hsz
      rw [hp] at hp'
      cases Option.some.inj hp'
      have hne : p.take k ≠ [] := by
        intro h
        have := congrArg List.length h
        rw [List.length_take, List.length_nil] at this
        omega
      rw [if_neg hne, List.length_take, Nat.min_eq_left (by omega), htr k (by omega) hk]
      rfl
  | cons a ms ih =>
    obtain ⟨ps, h1, h2, h3⟩ := ih (fun m hmem => hm m (by simp [hmem]))
    obtain ⟨hfa, hta, hsa⟩ := hm a (by simp)
    obtain ⟨p0, hp0, hrec, _⟩ := C24_frame le js a hfa hta hsa
    refine ⟨p0 :: ps, by simp [h1], ?_, ?_⟩
    · intro i h h'
      cases i with
      | zero => simpa using hp0
      | succ i => simpa using h2 i (by simpa using h) (by simpa using h')
    · intro m p k fuel hf hsz ht hp hk hfuel
      obtain ⟨fuel, rfl⟩ : ∃ f, fuel = f + 1 := ⟨fuel - 1, by omega⟩
      rw [dataReceive]
      have hl0 := packet_length le a p0 hfa.two32 hp0
      have hne : (p0 :: ps).flatten ++ p.take k ≠ [] := by
        intro h
        have := congrArg List.length h
        simp at this
        rw [this.1] at hl0
        simp at hl0
      rw [if_neg hne, List.flatten_cons, List.append_assoc, hrec]
      simp only
      rw [if_neg (by omega), List.drop_left, h3 m p k fuel hf hsz ht hp hk (by simp at hfuel; omega)]
      simp only [Option.map_some, List.length_append]
      congr 2
      omega

/-- FINDING: a longer message is framed with a wrapped length and is lost: no reader accepts the frame of a message with a
payload of 2^24 zero bytes. -/
theorem C24_oversize_counterexample (le : Bool) (js : JsonReader) :
    ∃ m p, Fits m ∧ Transmitted m ∧ packetize le m = some p ∧ depacketize le js {} p p.length = some ({}, 0) := by
  let m : AMsg := { action := 65536#32, payload := List.replicate 16777216 0#8 }
  have ha : m.action ≠ cmdTimeRequest := by decide
  have hpl : m.payload.length = 16777216 := List.length_replicate ..
  have hmp : maxPayload = 16777215 := rfl
  have hsb : serializedByteCount m = 45 + 16777216 + 0 + 4 := by
    unfold serializedByteCount
    rw [if_neg ha, hpl, if_pos (by rw [hmp]; omega), baseSize_eq]
    rfl
  have hf : Fits m := ⟨by rw [hsb]; omega, by rw [hpl, if_pos (by rw [hmp]; omega)]; exact (show (1:Nat) ≤ 255 by omega)⟩
  refine ⟨m, _, hf, by unfold Transmitted; rw [if_neg ha]; exact ⟨rfl, rfl, rfl⟩, packetize_eq le m hf.two32, ?_⟩
  have hl := packet_length le m _ hf.two32 (packetize_eq le m hf.two32)
  rw [hsb] at hl ⊢
  have hw : (wire le m)[49]? = some 0#8 := by
    have hms : mainSize m = 16777215 := by rw [mainSize_other m ha, hpl, if_pos (by rw [hmp]; omega), hmp]
    unfold wire
    rw [if_neg ha, hms, List.getElem?_append_right (by rw [header_length]; omega), header_length, List.append_assoc, List.getElem?_append_left]
    · rw [List.getElem?_take_of_lt (by omega)]
      show (List.replicate 16777216 0#8)[5]? = _
      rw [List.getElem?_replicate, if_pos (by omega)]
    · rw [List.length_take, hpl]; omega
  generalize hp : [leading, BitVec.ofNat 8 ((4 + (45 + 16777216 + 0 + 4)) / 65536), BitVec.ofNat 8 ((4 + (45 + 16777216 + 0 + 4)) / 256),
      BitVec.ofNat 8 (4 + (45 + 16777216 + 0 + 4))] ++ wire le m ++ [tail1, tail2] = p at *
  have e0 : p[0]? = some leading := by rw [← hp]; rfl
  have e1 : p[1]? = some 0#8 := by rw [← hp]; rfl
  have e2 : p[2]? = some 0#8 := by rw [← hp]; rfl
  have e3 : p[3]? = some 53#8 := by rw [← hp]; rfl
  have hwl := wire_length le m
  have e53 : p[53]? = some 0#8 := by
    rw [← hp, List.append_assoc, List.getElem?_append_right (by simp)]
    rw [List.getElem?_append_left]
    · exact hw
    · rw [hwl, hsb]; simp
  have e54 : ∃ b, p[53 + 1]? = some b := getElem?_lt (by omega)
  obtain ⟨b, e54⟩ := e54
  have hfs : frameSize 0#8 0#8 53#8 = 53 := rfl
  rw [depacketize.eq_def, e0]
  simp only [ne_eq, not_true, if_false]
  rw [if_neg (by omega), e1, e2, e3]
  simp only [hfs]
  rw [if_neg (by omega), e53, e54]
  simp only
  rw [if_pos (by decide)]

example : serializedByteCount sample + 4 < 16777216 ∧ serializedByteCount sampleTime + 4 < 16777216 := by decide

/-! ## C31 -/

/-- **C31.** A user message turned into a command and back is unchanged. -/
theorem C31_round_trip (u : UserMsg) : toUser (ofUser u) = u := by cases u; rfl

/-- **C31**, through the bytes: also after encoding, transmission between like machines and decoding. -/
theorem C31_through_wire (le : Bool) (js : JsonReader) (u : UserMsg) (hf : Fits (ofUser u)) :
    ∃ bytes m n, toStringInto le (ofUser u) [] = some bytes ∧ fromString le js {} bytes = some (m, n) ∧ toUser m = u := by
  have ht : Transmitted (ofUser u) := by
    unfold Transmitted
    rw [if_neg (show ¬ (ofUser u).action = cmdTimeRequest from (show ¬ cmdSendMessage = cmdTimeRequest by decide))]
    exact ⟨rfl, rfl, rfl⟩
  obtain ⟨bytes, h1, _, h3⟩ := C20_round_trip le js (ofUser u) hf ht
  have := h3 []
  rw [List.append_nil] at this
  exact ⟨bytes, ofUser u, _, h1, this, C31_round_trip u⟩

/-- The reverse direction keeps the first four names; the others of a command are not part of a user message. -/
theorem C31_fields (m : AMsg) : (toUser m).data = m.payload ∧ (toUser m).time = m.actionTime ∧ (toUser m).flags = m.flags ∧
    (toUser m).messageID = m.messageID ∧ (toUser m).dest = m.strings.getD 0 [] ∧ (toUser m).source = m.strings.getD 1 [] ∧
    (toUser m).originalSource = m.strings.getD 2 [] ∧ (toUser m).originalDest = m.strings.getD 3 [] := by
  unfold toUser
  match m.strings with
  | [] => simp
  | [a] => simp
  | [a, b] => simp
  | [a, b, c] => simp
  | a :: b :: c :: d :: e => simp

example : Fits (ofUser ⟨5#64, 3#16, 1#32, [1#8], [2#8], [3#8], [4#8], [5#8]⟩) := ⟨by decide, by decide⟩

/-! ## C32 -/

/-- a container as its creator and every append leave it: as many strings as its counter says -/
structure Container (c : AMsg) : Prop where
  action : c.action = cmdMulti
  count : c.strings.length = c.counter.toNat
  max : c.counter.toNat ≤ 255

theorem append_ok (le : Bool) (wr : AMsg → List Byte) (c m : AMsg) (bytes : List Byte) (hc : Container c) (hb : toString le wr m = some bytes)
    (hfull : c.counter.toNat < 255) :
    ∃ c', appendMessage le wr c m = some (c', c'.counter.toNat) ∧ Container c' ∧ c'.strings = c.strings ++ [bytes] := by
  have hcnt := hc.count
  unfold appendMessage
  rw [if_pos hc.action, if_pos hfull, hb]
  simp only [setString]
  rw [if_neg (by omega)]
  simp only
  have hlen : c.strings.length ≤ c.counter.toNat := by omega
  have hctr : (c.counter + 1#16).toNat = c.counter.toNat + 1 := by
    rw [BitVec.toNat_add]
    have : (1#16).toNat = 1 := rfl
    omega
  have hstr : (c.strings ++ List.replicate (c.counter.toNat + 1 - c.strings.length) []).set c.counter.toNat bytes = c.strings ++ [bytes] := by
    rw [hcnt, show c.counter.toNat + 1 - c.counter.toNat = 1 by omega, List.set_append_right _ _ (by omega), hcnt, Nat.sub_self]
    rfl
  rw [if_pos hlen, hstr]
  refine ⟨_, rfl, ⟨hc.action, ?_, ?_⟩, rfl⟩
  · simp only [List.length_append, List.length_cons, List.length_nil, hctr]; omega
  · simp only [hctr]; omega

/-- append one after the other -/
def appendAll (le : Bool) (wr : AMsg → List Byte) (c : AMsg) : List AMsg → Option AMsg
  | [] => some c
  | m :: ms => (appendMessage le wr c m).bind fun (c', _) => appendAll le wr c' ms

theorem unpack_strings (le : Bool) (js : JsonReader) (c : AMsg) (hc : Container c) :
    unpack le js c = c.strings.map (fromString le js {}) := by
  unfold unpack
  rw [← hc.count]
  apply List.ext_getElem
  · simp
  · intro i h1 h2
    simp only [List.getElem_map, List.getElem_range, getString]
    congr 1
    have : i < c.strings.length := by simpa using h2
    simp [List.getD, this]

theorem appendAll_ok (le : Bool) (wr : AMsg → List Byte) (ms : List AMsg) : ∀ (c : AMsg) (enc : List (List Byte)), Container c →
    enc.length = ms.length → (∀ i (h : i < ms.length) (h' : i < enc.length), toString le wr ms[i] = some enc[i]) →
    c.counter.toNat + ms.length ≤ 255 → ∃ c', appendAll le wr c ms = some c' ∧ Container c' ∧ c'.strings = c.strings ++ enc := by
  induction ms with
  | nil =>
    intro c enc hc hl _ _
    have : enc = [] := List.length_eq_zero_iff.mp hl
    exact ⟨c, rfl, hc, by simp [this]⟩
  | cons m ms ih =>
    intro c enc hc hl he hle
    match enc, hl with
    | b :: enc, hl =>
      obtain ⟨c1, h1, h2, h3⟩ := append_ok le wr c m b hc (he 0 (by simp) (by simp)) (by simp at hle; omega)
      have hcc : c1.counter.toNat = c.counter.toNat + 1 := by
        rw [← h2.count, h3, List.length_append, hc.count]; rfl
      obtain ⟨c', h4, h5, h6⟩ := ih c1 enc h2 (by simpa using hl) (fun i h h' =>
        he (i + 1) (by simpa using h) (by simpa using h')) (by simp at hle; omega)
      refine ⟨c', ?_, h5, by rw [h6, h3]; simp⟩
      rw [appendAll, h1]
      exact h4

/-- **C32.** Up to 255 messages appended to a fresh container are recovered, in order and unchanged. -/
theorem C32_container (le : Bool) (js : JsonReader) (wr : AMsg → List Byte) (ms : List AMsg) (hlen : ms.length ≤ 255)
    (hm : ∀ m ∈ ms, Fits m ∧ Transmitted m ∧ useJson m = false) :
    ∃ c, appendAll le wr { action := cmdMulti } ms = some c ∧ (unpack le js c).map (Option.map Prod.fst) = ms.map some := by
  have hts : ∀ m ∈ ms, toString le wr m = some (wire le m) := by
    intro m hmem
    obtain ⟨h1, h2, h3⟩ := hm m hmem
    unfold toString
    rw [h3, if_neg (by simp), toStringInto_eq le m h1.two32]
  obtain ⟨c, h1, h2, h3⟩ := appendAll_ok le wr ms { action := cmdMulti } (ms.map (wire le)) ⟨rfl, rfl, by decide⟩ (by simp)
    (fun i h h' => by simpa using hts ms[i] (List.getElem_mem h)) (by simpa using hlen)
  refine ⟨c, h1, ?_⟩
  rw [unpack_strings le js c h2, h3]
  simp only [List.nil_append, List.map_map]
  apply List.map_congr_left
  intro m hmem
  obtain ⟨hf, ht, _⟩ := hm m hmem
  have := fromString_wire le le js {} m [] hf
  rw [List.append_nil] at this
  simp only [Function.comp_apply, this, BEq.rfl, received_same ht {} (fun _ => rfl), Option.map_some]

/-- **C32** (strings).  A string can be stored at the positions 0 to 254 only; it is read back from there, and the others keep theirs. -/
theorem C32_strings (m : AMsg) (index : Nat) (t : List Byte) :
    ((setString m index t).isSome = true ↔ index < 255) ∧
    ∀ m', setString m index t = some m' → getString m' index = t ∧ ∀ j, j ≠ index → getString m' j = getString m j := by
  unfold setString
  constructor
  · split <;> simp <;> omega
  · intro m' h
    split at h
    · cases h
    · injection h with h
      subst h
      unfold getString
      dsimp only
      split
      · rename_i hl
        refine ⟨?_, fun j hj => ?_⟩
        · rw [List.getD_eq_getElem?_getD, List.getElem?_set_self]
          · rfl
          · rw [List.length_append, List.length_replicate]; omega
        · rw [List.getD_eq_getElem?_getD, List.getD_eq_getElem?_getD, List.getElem?_set_ne (Ne.symm hj)]
          by_cases hj' : j < m.strings.length
          · rw [List.getElem?_append_left hj']
          · rw [List.getElem?_append_right (by omega), List.getElem?_eq_none (l := m.strings) (by omega), List.getElem?_replicate]
            split <;> rfl
      · rename_i hl
        refine ⟨?_, fun j hj => ?_⟩
        · rw [List.getD_eq_getElem?_getD, List.getElem?_set_self (by omega)]; rfl
        · rw [List.getD_eq_getElem?_getD, List.getD_eq_getElem?_getD, List.getElem?_set_ne (Ne.symm hj)]

/-- **C32.** A full container, or a message that is not a container, refuses the append and is unchanged. -/
theorem C32_refused (le : Bool) (wr : AMsg → List Byte) (c m : AMsg) (h : c.action ≠ cmdMulti ∨ 255 ≤ c.counter.toNat) :
    appendMessage le wr c m = some (c, -1) := by
  unfold appendMessage
  split
  · rw [if_neg]
    rcases h with h | h
    · contradiction
    · omega
  · rfl

example : ∀ m ∈ [sample, sampleTime], Fits m ∧ Transmitted m ∧ useJson m = false := by
  intro m hm
  rcases List.mem_cons.mp hm with rfl | hm
  · exact ⟨sample_fits.1, sample_fits.2, rfl⟩
  · rcases List.mem_cons.mp hm with rfl | hm
    · exact ⟨sampleTime_fits.1, sampleTime_fits.2, rfl⟩
    · exact absurd hm (by simp)

/-! ## C41 -/

/-- what a container sends out -/
def contents (le : Bool) (js : JsonReader) (cs : List AMsg) : List (Option AMsg) :=
  (cs.map fun c => (unpack le js c).map (Option.map Prod.fst)).flatten

/-- the copies a fan-out produces, in target order; each copy starts from the previous one, as in the code -/
def copies {τ : Type} (dst : τ → AMsg → AMsg) : AMsg → List τ → List AMsg
  | _, [] => []
  | pub, t :: ts => dst t pub :: copies dst (dst t pub) ts

theorem fanOut_ok {τ : Type} (le : Bool) (js : JsonReader) (wr : AMsg → List Byte) (dst : τ → AMsg → AMsg) (empty : AMsg)
    (he : Container empty) (he0 : empty.counter.toNat = 0) (ts : List τ) : ∀ (package pub : AMsg), Container package →
    (∀ m ∈ copies dst pub ts, Fits m ∧ Transmitted m ∧ useJson m = false) →
    ∃ cs, fanOut le wr dst empty package pub ts = some cs ∧
      contents le js cs = (unpack le js package).map (Option.map Prod.fst) ++ (copies dst pub ts).map some ∧ ∀ c ∈ cs, Container c := by
  induction ts with
  | nil =>
    intro package pub hp _
    exact ⟨[package], rfl, by simp [contents, copies], fun c hc => by rw [List.mem_singleton.mp hc]; exact hp⟩
  | cons t ts ih =>
    intro package pub hp hm
    rw [fanOut]
    obtain ⟨hf, htr, hj⟩ := hm (dst t pub) (by simp [copies])
    have hts : toString le wr (dst t pub) = some (wire le (dst t pub)) := by
      unfold toString
      rw [hj, if_neg (by simp), toStringInto_eq le _ hf.two32]
    have hdec : (fromString le js {} (wire le (dst t pub))).map Prod.fst = some (dst t pub) := by
      have := fromString_wire le le js {} (dst t pub) [] hf
      rw [List.append_nil] at this
      rw [this, BEq.rfl, received_same htr {} (fun _ => rfl)]; rfl
    have hm' : ∀ m ∈ copies dst (dst t pub) ts, Fits m ∧ Transmitted m ∧ useJson m = false :=
      fun m h => hm m (by simp [copies, h])
    by_cases hfull : package.counter.toNat < 255
    · obtain ⟨c', h1, h2, h3⟩ := append_ok le wr package (dst t pub) _ hp hts hfull
      rw [h1]
      simp only
      rw [if_neg (by omega)]
      obtain ⟨cs, e1, e2, e3⟩ := ih c' (dst t pub) h2 hm'
      refine ⟨cs, e1, ?_, e3⟩
      rw [e2, unpack_strings le js c' h2, h3, unpack_strings le js package hp]
      simp [copies, hdec]
    · rw [C32_refused le wr package (dst t pub) (Or.inr (by omega))]
      simp only
      rw [if_pos (by omega)]
      obtain ⟨p2, h1, h2, h3⟩ := append_ok le wr empty (dst t pub) _ he hts (by omega)
      rw [h1]
      simp only
      obtain ⟨cs, e1, e2, e3⟩ := ih p2 (dst t pub) h2 hm'
      refine ⟨package :: cs, by rw [e1]; rfl, ?_, ?_⟩
      · have hes : empty.strings = [] := List.length_eq_zero_iff.mp (by rw [he.count, he0])
        have : contents le js (package :: cs) = (unpack le js package).map (Option.map Prod.fst) ++ contents le js cs := by
          simp [contents]
        rw [this, e2, unpack_strings le js p2 h2, h3, hes]
        simp [copies, hdec]
      · intro c hc
        rcases List.mem_cons.mp hc with rfl | hc
        · exact hp
        · exact e3 c hc

/-- **C41.** A publication or message with any number of targets is sent to each of them exactly once, in order, whatever
number of containers that takes; no container holds more than 255. -/
theorem C41_fan_out {τ : Type} (le : Bool) (js : JsonReader) (wr : AMsg → List Byte) (dst : τ → AMsg → AMsg) (empty pub : AMsg) (targets : List τ)
    (he : empty.action = cmdMulti ∧ empty.counter = 0#16 ∧ empty.strings = [])
    (hm : ∀ m ∈ copies dst pub targets, Fits m ∧ Transmitted m ∧ useJson m = false) :
    ∃ cs, fanOut le wr dst empty empty pub targets = some cs ∧ contents le js cs = (copies dst pub targets).map some ∧
      ∀ c ∈ cs, c.action = cmdMulti ∧ c.strings.length ≤ 255 := by
  have hc : Container empty := ⟨he.1, by rw [he.2.1, he.2.2]; rfl, by rw [he.2.1]; decide⟩
  obtain ⟨cs, h1, h2, h3⟩ := fanOut_ok le js wr dst empty hc (by rw [he.2.1]; rfl) targets empty pub hc hm
  refine ⟨cs, h1, ?_, fun c hc => ⟨(h3 c hc).action, by rw [(h3 c hc).count]; exact (h3 c hc).max⟩⟩
  rw [h2, unpack_strings le js empty hc, he.2.2]
  simp

/-- the destinations are the targets when `dst` sets the destination and keeps the rest -/
theorem C41_copies_dest (pub : AMsg) (ts : List (BitVec 32 × BitVec 32)) :
    (copies (fun t m => { m with destId := t.1, destHandle := t.2 }) pub ts) = ts.map fun t => { pub with destId := t.1, destHandle := t.2 } := by
  induction ts generalizing pub with
  | nil => rfl
  | cons t ts ih => rw [copies, ih]; simp

example : ∀ m ∈ copies (fun (t : BitVec 32) (m : AMsg) => { m with destId := t }) { sample with flags := 0#16 } [1#32, 2#32, 3#32],
    Fits m ∧ Transmitted m ∧ useJson m = false := by
  intro m hm
  have h : ∀ d : BitVec 32, Fits { sample with flags := 0#16, destId := d } ∧ Transmitted { sample with flags := 0#16, destId := d } ∧
      useJson { sample with flags := 0#16, destId := d } = false := fun d =>
    ⟨⟨show serializedByteCount sample < _ by decide, show sample.strings.length + (if maxPayload ≤ sample.payload.length then 1 else 0) ≤ 255 by decide⟩,
      by unfold Transmitted; rw [if_neg (show ¬ sample.action = _ by decide)]; exact ⟨rfl, rfl, rfl⟩, (show (0#16).getLsbD 6 = false by decide)⟩
  simp only [copies, List.mem_cons, List.not_mem_nil, or_false] at hm
  rcases hm with rfl | rfl | rfl
  · exact h 1#32
  · exact h 2#32
  · exact h 3#32

end Verif.Wire
