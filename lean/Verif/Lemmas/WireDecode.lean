import Verif.Lemmas.Wire
/-! The decoder: never out of bounds, and inverse to the encoder. -/
namespace Verif.Wire

theorem get_append (n : Nat) (bs rest : List Byte) (h : bs.length = n) : get n (bs ++ rest) = some (bs, rest) := by
  subst h
  simp [get]

theorem getInt_append (le le' : Bool) (n v : Nat) (rest : List Byte) :
    getInt le' n (toBytes le n v ++ rest) = some (ofBytes le' (toBytes le n v), rest) := by
  unfold getInt
  rw [get_append _ _ _ (toBytes_length ..)]
  rfl

theorem get_some {n : Nat} {rest : List Byte} (h : n ≤ rest.length) :
    ∃ bs r, get n rest = some (bs, r) ∧ bs.length = n ∧ r.length = rest.length - n := by
  refine ⟨rest.take n, rest.drop n, if_pos h, ?_, ?_⟩
  · rw [List.length_take]; omega
  · rw [List.length_drop]

theorem getInt_some (le : Bool) {n : Nat} {rest : List Byte} (h : n ≤ rest.length) :
    ∃ v r, getInt le n rest = some (v, r) ∧ r.length = rest.length - n := by
  obtain ⟨bs, r, h1, _, h3⟩ := get_some h
  exact ⟨ofBytes le bs, r, by simp [getInt, h1], h3⟩

theorem getStrings_append (le le' : Bool) (len : Nat) (ss : List (List Byte)) (tail : List Byte) : ∀ (tsize : Nat),
    (∀ s ∈ ss, s.length < two32) → tsize + (ss.map List.length).sum ≤ len →
    getStrings le' (le != le') len ss.length tsize ((ss.map (strImage le)).flatten ++ tail)
      = some (ss, tsize + (ss.map List.length).sum, true) := by
  induction ss with
  | nil => intro tsize _ _; rfl
  | cons s ss ih =>
    intro tsize hs hl
    simp only [List.map_cons, List.sum_cons, List.flatten_cons, List.length_cons] at hl ⊢
    rw [getStrings]
    have h1 : getInt le' 4 (strImage le s ++ (ss.map (strImage le)).flatten ++ tail)
        = some (ofBytes le' (toBytes le 4 s.length), s ++ ((ss.map (strImage le)).flatten ++ tail)) := by
      unfold strImage
      rw [List.append_assoc, List.append_assoc, getInt_append]
    rw [h1]
    simp only [Option.bind_some]
    have hlt : s.length < 256 ^ 4 := by
      have := hs s (by simp)
      rw [show (256:Nat) ^ 4 = two32 from rfl]; exact this
    rw [read_field le le' 4 s.length hlt, if_neg (by omega), get_append _ _ _ rfl]
    simp only [Option.bind_some]
    rw [ih _ (fun x hx => hs x (by simp [hx])) (by omega)]
    simp only [Option.map_some]
    congr 3
    omega

/-- what a decoder sees of a message: fields that do not travel are reset, an empty payload leaves the
receiver's previous payload, and between machines of different byte order the sequence number arrives swapped -/
def received (sameOrder : Bool) (m0 m : AMsg) : AMsg :=
  { m with
    sequenceID := if sameOrder then m.sequenceID else BitVec.ofNat 32 (swapBytes 4 m.sequenceID.toNat)
    te := if m.action = cmdTimeRequest then m.te else 0#64
    tdemin := if m.action = cmdTimeRequest then m.tdemin else 0#64
    tso := if m.action = cmdTimeRequest then m.tso else 0#64
    payload := if m.action = cmdTimeRequest ∨ m.payload = [] then m0.payload else m.payload
    strings := if m.action = cmdTimeRequest then [] else m.strings }

theorem sizeBytes (n : Nat) (h : n ≤ maxPayload) :
    256 * 256 * (BitVec.ofNat 8 (n / 65536)).toNat + 256 * (BitVec.ofNat 8 (n / 256)).toNat + (BitVec.ofNat 8 n).toNat = n := by
  simp only [BitVec.toNat_ofNat]
  have h2 : n ≤ 16777215 := h
  omega

theorem ofLe_lt (bs : List Byte) : ofLe bs < 256 ^ bs.length := by
  induction bs with
  | nil => simp [ofLe]
  | cons b bs ih =>
    have := b.isLt
    simp only [ofLe, List.length_cons, Nat.pow_succ]
    omega

theorem ofBytes_lt (le : Bool) (bs : List Byte) : ofBytes le bs < 256 ^ bs.length := by
  unfold ofBytes
  split
  · exact ofLe_lt bs
  · have := ofLe_lt bs.reverse; rwa [List.length_reverse] at this

/-- an integer as it sits in the reader's memory before any swapping -/
def rawInt (le le' : Bool) (k w : Nat) (v : BitVec w) : BitVec w := BitVec.ofNat w (ofBytes le' (toBytes le k v.toNat))

theorem rawInt_same (le : Bool) (k w : Nat) (v : BitVec w) (h : 256 ^ k = 2 ^ w) : rawInt le le k w v = v := by
  have hv : v.toNat < 256 ^ k := by rw [h]; exact v.isLt
  have := read_field le le k v.toNat hv
  simp only [bne_self_eq_false, Bool.false_eq_true, if_false] at this
  rw [rawInt, this, BitVec.ofNat_toNat, BitVec.setWidth_eq]

theorem rawInt_other (le le' : Bool) (k w : Nat) (v : BitVec w) (h : 256 ^ k = 2 ^ w) (hne : (le != le') = true) :
    BitVec.ofNat w (swapBytes k (rawInt le le' k w v).toNat) = v := by
  have hv : v.toNat < 256 ^ k := by rw [h]; exact v.isLt
  have hr := read_field le le' k v.toNat hv
  rw [if_pos hne] at hr
  have hlt : ofBytes le' (toBytes le k v.toNat) < 2 ^ w := by
    have := ofBytes_lt le' (toBytes le k v.toNat); rw [toBytes_length, h] at this; exact this
  rw [rawInt, BitVec.toNat_ofNat, Nat.mod_eq_of_lt hlt, hr, BitVec.ofNat_toNat, BitVec.setWidth_eq]

theorem rawInt_seq (le le' : Bool) (v : BitVec 32) (hne : (le != le') = true) :
    rawInt le le' 4 32 v = BitVec.ofNat 32 (swapBytes 4 v.toNat) := by
  cases le <;> cases le' <;> simp_all [rawInt, ofBytes, toBytes, swapBytes]

/-- the message before swapping -/
def rawMsg (le le' : Bool) (m0 m : AMsg) : AMsg :=
  { m0 with
    action := m.action, messageID := rawInt le le' 4 32 m.messageID, sourceId := rawInt le le' 4 32 m.sourceId
    sourceHandle := rawInt le le' 4 32 m.sourceHandle, destId := rawInt le le' 4 32 m.destId
    destHandle := rawInt le le' 4 32 m.destHandle, counter := rawInt le le' 2 16 m.counter
    flags := rawInt le le' 2 16 m.flags, sequenceID := rawInt le le' 4 32 m.sequenceID
    actionTime := rawInt le le' 8 64 m.actionTime }

theorem readFixed_wire (le le' : Bool) (m0 m : AMsg) (rest : List Byte) (n : Nat) :
    readFixed le' (le != le') m0 ((header le m n).tail.flatten ++ rest) = some (rawMsg le le' m0 m, rest) := by
  have ha : BitVec.ofNat 32 (if (le != le') = true then swapBytes 4 (ofBytes le' (toBytes le 4 m.action.toNat))
      else ofBytes le' (toBytes le 4 m.action.toNat)) = m.action := by
    rw [read_field le le' 4 _ m.action.isLt, BitVec.ofNat_toNat, BitVec.setWidth_eq]
  simp only [header, List.tail_cons, List.flatten_cons, List.flatten_nil, List.append_nil, List.append_assoc]
  unfold readFixed
  simp only [getInt_append, Option.bind_some, ha]
  rfl

theorem finalSwap_raw (le le' : Bool) (m0 m raw : AMsg)
    (h : ∃ te td ts, raw = { rawMsg le le' m0 m with te := te, tdemin := td, tso := ts, payload := raw.payload } ∧
      (m.action = cmdTimeRequest → te = rawInt le le' 8 64 m.te ∧ td = rawInt le le' 8 64 m.tdemin ∧ ts = rawInt le le' 8 64 m.tso) ∧
      (m.action ≠ cmdTimeRequest → te = 0#64 ∧ td = 0#64 ∧ ts = 0#64)) :
    finalSwap (le != le') raw =
      { m with
        sequenceID := if (le == le') = true then m.sequenceID else BitVec.ofNat 32 (swapBytes 4 m.sequenceID.toNat)
        te := if m.action = cmdTimeRequest then m.te else 0#64
        tdemin := if m.action = cmdTimeRequest then m.tdemin else 0#64
        tso := if m.action = cmdTimeRequest then m.tso else 0#64
        payload := raw.payload, strings := m0.strings } := by
  obtain ⟨te, td, ts, hr, h1, h2⟩ := h
  generalize raw.payload = p at hr ⊢
  subst hr
  by_cases hne : (le != le') = true
  · have he : (le == le') = false := by simpa [bne] using hne
    rw [hne, he, finalSwap, if_pos rfl]
    simp only [rawMsg, rawInt_other le le' 4 32 _ rfl hne, rawInt_other le le' 2 16 _ rfl hne, rawInt_other le le' 8 64 _ rfl hne,
      Bool.false_eq_true, if_false]
    rw [rawInt_seq le le' m.sequenceID hne]
    by_cases ha : m.action = cmdTimeRequest
    · obtain ⟨a, b, c⟩ := h1 ha
      subst a b c
      simp only [if_pos ha, rawInt_other le le' 8 64 _ rfl hne]
    · obtain ⟨a, b, c⟩ := h2 ha
      subst a b c
      simp [ha]
  · have he : le = le' := by simpa [bne] using hne
    subst he
    rw [bne_self_eq_false, finalSwap, if_neg (by simp)]
    simp only [rawMsg, rawInt_same le 4 32 _ rfl, rawInt_same le 2 16 _ rfl, rawInt_same le 8 64 _ rfl, BEq.rfl, if_true]
    by_cases ha : m.action = cmdTimeRequest
    · obtain ⟨a, b, c⟩ := h1 ha
      subst a b c
      simp only [if_pos ha, rawInt_same le 8 64 _ rfl]
    · obtain ⟨a, b, c⟩ := h2 ha
      subst a b c
      simp only [if_neg ha]

theorem swap_flag (le le' : Bool) : ((if le then 1#8 else 0#8 : BitVec 8) != (if le' then 1#8 else 0#8)) = (le != le') := by
  cases le <;> cases le' <;> rfl

theorem baseSize_eq : baseSize = 45 := rfl

theorem sum_strings (ss : List (List Byte)) : (ss.map fun s => 4 + s.length).sum = 4 * ss.length + (ss.map List.length).sum := by
  induction ss with
  | nil => rfl
  | cons s ss ih => simp only [List.map_cons, List.sum_cons, List.length_cons, ih]; omega

theorem mem_le_sum (ss : List (List Byte)) (s : List Byte) (h : s ∈ ss) : s.length ≤ (ss.map List.length).sum := by
  induction ss with
  | nil => simp at h
  | cons a ss ih =>
    simp only [List.map_cons, List.sum_cons]
    rcases List.mem_cons.mp h with h | h
    · subst h; omega
    · have := ih h; omega

theorem readStrings_wire (le le' : Bool) (len tsize : Nat) (ss : List (List Byte)) (tail : List Byte)
    (hn : ss.length ≤ 255) (hs : ∀ s ∈ ss, s.length < two32) (hl : tsize + (ss.map fun s => 4 + s.length).sum ≤ len) :
    readStrings le' (le != le') len tsize ([BitVec.ofNat 8 ss.length] ++ ((ss.map (strImage le)).flatten ++ tail))
      = some (ss, tsize + (ss.map fun s => 4 + s.length).sum, true) := by
  unfold readStrings
  rw [get_append 1 _ _ rfl]
  have hc : (BitVec.ofNat 8 ss.length).toNat = ss.length := by rw [BitVec.toNat_ofNat]; omega
  simp only [Option.bind_some, List.getD_cons_zero, hc]
  rw [sum_strings] at hl ⊢
  by_cases h0 : ss = []
  · subst h0; rfl
  · have : ss.length ≠ 0 := by simpa using h0
    rw [if_pos this, if_neg (by omega), getStrings_append le le' len ss tail _ hs (by omega)]
    congr 3; omega

/-- Decoding the bytes of a message followed by anything. -/
theorem decodeBody_wire (le le' : Bool) (m0 m : AMsg) (tail : List Byte) (len : Nat)
    (hs : serializedByteCount m < two32) (hn : m.action ≠ cmdTimeRequest → (wireStrings m).length ≤ 255)
    (hl : serializedByteCount m ≤ len) :
    decodeBody le' m0 (wire le m ++ tail) len = some (received (le == le') m0 m, serializedByteCount m) := by
  have hms := mainSize_le m
  have hh : ∀ n, (header le m n).flatten = [if le then 1#8 else 0#8, BitVec.ofNat 8 (n / 65536), BitVec.ofNat 8 (n / 256), BitVec.ofNat 8 n]
      ++ (header le m n).tail.flatten := by intro n; rfl
  have hlen1 : ¬ len < baseSize + mainSize m := by
    have : baseSize + mainSize m ≤ serializedByteCount m := by
      unfold serializedByteCount
      split
      · rename_i h; unfold mainSize; rw [if_neg (by simpa using h)]; omega
      · have := hms.2; omega
    omega
  unfold wire
  rw [hh, List.append_assoc, List.append_assoc]
  unfold decodeBody
  rw [get_append 4 _ _ rfl]
  simp only [Option.bind_some, List.getD_cons_zero, List.getD_cons_succ]
  rw [sizeBytes _ hms.1, swap_flag, if_neg hlen1, readFixed_wire]
  simp only [Option.bind_some]
  by_cases h : m.action = cmdTimeRequest
  · have hm0 : mainSize m = 0 := by unfold mainSize; rw [if_neg (by simpa using h)]
    have hsz : serializedByteCount m = 69 := by unfold serializedByteCount; rw [if_pos h]; rfl
    rw [if_pos h, hm0, baseSize_eq]
    have ht : readTimes le' (rawMsg le le' m0 m) (45 + 0) len
        (toBytes le 8 m.te.toNat ++ toBytes le 8 m.tdemin.toNat ++ toBytes le 8 m.tso.toNat ++ [0#8] ++ tail)
        = some ({ rawMsg le le' m0 m with te := rawInt le le' 8 64 m.te, tdemin := rawInt le le' 8 64 m.tdemin, tso := rawInt le le' 8 64 m.tso },
            69, [0#8] ++ tail, true) := by
      unfold readTimes
      rw [if_pos (show (rawMsg le le' m0 m).action = cmdTimeRequest from h), if_neg (by omega)]
      simp only [List.append_assoc, getInt_append, Option.bind_some]
      rfl
    rw [ht]
    simp only [Option.bind_some, Bool.true_eq_false, if_false, readPayload, Nat.lt_irrefl, readStrings]
    rw [get_append 1 [0#8] tail rfl]
    simp only [Option.bind_some, List.getD_cons_zero, BitVec.toNat_ofNat, Nat.zero_mod, ne_eq, not_true, if_false,
      and_false, Bool.true_eq_false]
    rw [finalSwap_raw le le' m0 m _ ⟨_, _, _, rfl, fun _ => ⟨rfl, rfl, rfl⟩, fun hc => absurd h hc⟩, hsz]
    unfold received
    simp only [h, if_true, true_or]
    rfl
  · rw [if_neg h]
    have hmo := mainSize_other m h
    have hsb : serializedByteCount m = baseSize + m.payload.length + (m.strings.map fun s => 4 + s.length).sum
      + (if maxPayload ≤ m.payload.length then 4 else 0) := by unfold serializedByteCount; rw [if_neg h]
    have htot : baseSize + mainSize m + ((wireStrings m).map fun s => 4 + s.length).sum = serializedByteCount m := by
      rw [hsb, wireStrings_sum, hmo]; split <;> omega
    have ht : ∀ r, readTimes le' (rawMsg le le' m0 m) (baseSize + mainSize m) len r
        = some ({ rawMsg le le' m0 m with te := 0#64, tdemin := 0#64, tso := 0#64 }, baseSize + mainSize m, r, true) := by
      intro r
      unfold readTimes
      rw [if_neg (show ¬ (rawMsg le le' m0 m).action = cmdTimeRequest from h)]
    rw [ht]
    simp only [Option.bind_some, Bool.true_eq_false, if_false]
    have hp : ∀ raw r, readPayload raw (mainSize m) (m.payload.take (mainSize m) ++ r)
        = some ({ raw with payload := if m.payload = [] then raw.payload else m.payload.take (mainSize m) }, r) := by
      intro raw r
      unfold readPayload
      by_cases h0 : 0 < mainSize m
      · rw [if_pos h0, get_append _ _ _ (by rw [List.length_take]; omega)]
        have : m.payload ≠ [] := by intro hc; rw [hc] at hms; simp at hms; omega
        simp [this]
      · rw [if_neg h0]
        have hz : mainSize m = 0 := by omega
        have : m.payload = [] := by
          rw [hmo] at hz
          split at hz
          · exact absurd hz (by decide)
          · exact List.length_eq_zero_iff.mp hz
        simp [this]
    rw [List.append_assoc, List.append_assoc, hp]
    simp only [Option.bind_some]
    rw [readStrings_wire le le' len _ _ _ (hn h) _ (by omega)]
    · simp only [Option.bind_some, Bool.true_eq_false, if_false]
      rw [finalSwap_raw le le' m0 m _ ⟨_, _, _, rfl, fun hc => absurd hc h, fun _ => ⟨rfl, rfl, rfl⟩⟩, htot]
      simp only
      by_cases hbig : maxPayload ≤ m.payload.length
      · have hw : wireStrings m = m.strings ++ [m.payload.drop maxPayload] := by unfold wireStrings; rw [if_pos hbig]
        have hml : mainSize m = maxPayload := by rw [hmo, if_pos hbig]
        have hne : m.payload ≠ [] := by
          intro hc; rw [hc] at hbig; exact absurd hbig (by decide)
        rw [if_pos ⟨hml, by rw [hw]; simp⟩, hw, hml]
        unfold received
        simp [h, hne]
      · rw [if_neg (by omega)]
        have hw : wireStrings m = m.strings := by unfold wireStrings; rw [if_neg hbig]
        have hml : mainSize m = m.payload.length := by rw [hmo, if_neg hbig]
        rw [hw, hml]
        unfold received
        simp [h, rawMsg]
    · intro s hs2
      have h1 := mem_le_sum _ s hs2
      have h2 := sum_strings (wireStrings m)
      omega

end Verif.Wire
