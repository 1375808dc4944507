import Verif.Model.Wire
/-! Byte images of integers, the encoder in closed form, and the decoder on it. -/
namespace Verif.Wire

@[simp] theorem leBytes_length (k v : Nat) : (leBytes k v).length = k := by
  induction k generalizing v with
  | zero => rfl
  | succ k ih => simp [leBytes, ih]

@[simp] theorem toBytes_length (le : Bool) (k v : Nat) : (toBytes le k v).length = k := by
  unfold toBytes; split <;> simp

theorem ofLe_leBytes (k v : Nat) : ofLe (leBytes k v) = v % 256 ^ k := by
  induction k generalizing v with
  | zero => simp [leBytes, ofLe, Nat.mod_one]
  | succ k ih =>
    simp only [leBytes, ofLe, ih, BitVec.toNat_ofNat]
    rw [show (256:Nat) ^ (k + 1) = 256 * 256 ^ k by rw [Nat.pow_succ, Nat.mul_comm], Nat.mod_mul]

theorem leBytes_ofLe (bs : List Byte) : leBytes bs.length (ofLe bs) = bs := by
  induction bs with
  | nil => rfl
  | cons b bs ih =>
    have hb := b.isLt
    have h1 : (b.toNat + 256 * ofLe bs) / 256 = ofLe bs := by omega
    simp only [List.length_cons, leBytes, ofLe, h1, ih]
    congr 1
    apply BitVec.eq_of_toNat_eq
    rw [BitVec.toNat_ofNat]
    omega

/-- reading an integer written by another machine, swapping when the byte orders differ -/
theorem read_field (le le' : Bool) (k v : Nat) (h : v < 256 ^ k) :
    (if (le != le') = true then swapBytes k (ofBytes le' (toBytes le k v)) else ofBytes le' (toBytes le k v)) = v := by
  have hv : ofLe (leBytes k v) = v := by rw [ofLe_leBytes, Nat.mod_eq_of_lt h]
  cases le <;> cases le' <;> simp only [bne_self_eq_false, Bool.false_eq_true, if_false, toBytes, ofBytes, if_true]
  · simp [hv]
  · simp only [bne, swapBytes]
    have := leBytes_ofLe (leBytes k v).reverse
    rw [List.length_reverse, leBytes_length] at this
    show ofLe (leBytes k (ofLe (leBytes k v).reverse)).reverse = v
    rw [this, List.reverse_reverse, hv]
  · show swapBytes k (ofLe (leBytes k v).reverse) = v
    have := leBytes_ofLe (leBytes k v).reverse
    rw [List.length_reverse, leBytes_length] at this
    rw [swapBytes, this, List.reverse_reverse, hv]
  · exact hv

theorem put_eq (cap : Nat) (w bs : List Byte) (h : w.length + bs.length ≤ cap) : put cap w bs = some (w ++ bs) := if_pos h

theorem putAll_eq (cap : Nat) (w : List Byte) (cs : List (List Byte)) (h : (w ++ cs.flatten).length ≤ cap) :
    putAll cap w cs = some (w ++ cs.flatten) := by
  induction cs generalizing w with
  | nil => simp [putAll]
  | cons c cs ih =>
    simp only [List.flatten_cons, List.length_append] at h
    rw [putAll, put_eq _ _ _ (by omega)]
    simp only [Option.bind_some]
    rw [ih _ (by simp only [List.length_append]; omega)]
    simp

theorem putAll_none (cap : Nat) (w : List Byte) (cs : List (List Byte)) (h0 : w.length ≤ cap)
    (h : cap < (w ++ cs.flatten).length) : putAll cap w cs = none := by
  induction cs generalizing w with
  | nil => simp at h; omega
  | cons c cs ih =>
    rw [putAll]
    unfold put
    split
    · simp only [Option.bind_some]
      rename_i hh
      apply ih
      · simp only [List.length_append]; omega
      · simpa using h
    · rfl

/-- one string as stored -/
def strImage (le : Bool) (s : List Byte) : List Byte := toBytes le 4 s.length ++ s

@[simp] theorem strImage_length (le : Bool) (s : List Byte) : (strImage le s).length = 4 + s.length := by simp [strImage]

theorem putStrings_spec (le : Bool) (cap : Nat) (ss : List (List Byte)) : ∀ (w : List Byte),
    w.length ≤ cap → w.length + (ss.map fun s => 4 + s.length).sum < two32 →
    putStrings le cap w w.length ss =
        if w.length + (ss.map fun s => 4 + s.length).sum ≤ cap
        then (.ok (w ++ (ss.map (strImage le)).flatten), (w ++ (ss.map (strImage le)).flatten).length)
        else (.fail, (putStrings le cap w w.length ss).2) := by
  induction ss with
  | nil => intro w h0 h; simp [putStrings, h0]
  | cons s ss ih =>
    intro w h0 h
    simp only [List.map_cons, List.sum_cons] at h ⊢
    have hs : s.length % two32 = s.length := Nat.mod_eq_of_lt (by omega)
    have hs2 : (w.length + s.length + 4) % two32 = w.length + s.length + 4 := Nat.mod_eq_of_lt (by omega)
    simp only [putStrings, hs, hs2]
    by_cases hc : cap < w.length + s.length + 4
    · rw [if_pos hc, if_neg (by omega)]
    · rw [if_neg hc]
      have hput : putAll cap w [toBytes le 4 s.length, s] = some (w ++ strImage le s) := by
        rw [putAll_eq]
        · simp [strImage]
        · simp; omega
      simp only [hput]
      have hlen : (w ++ strImage le s).length = w.length + s.length + 4 := by simp; omega
      have := ih (w ++ strImage le s) (by omega) (by omega)
      rw [hlen] at this
      rw [this]
      by_cases hc2 : w.length + s.length + 4 + (ss.map fun s => 4 + s.length).sum ≤ cap
      · rw [if_pos hc2, if_pos (by omega)]
        simp [List.append_assoc]
      · rw [if_neg hc2, if_neg (by omega)]

theorem header_length (le : Bool) (m : AMsg) (n : Nat) : (header le m n).flatten.length = 44 := by
  simp [header]

/-- strings as sent: an over-long payload sends its remainder as one more string -/
def wireStrings (m : AMsg) : List (List Byte) :=
  if maxPayload ≤ m.payload.length then m.strings ++ [m.payload.drop maxPayload] else m.strings

/-- the exact bytes `to_string` produces -/
def wire (le : Bool) (m : AMsg) : List Byte :=
  (header le m (mainSize m)).flatten ++
    (if m.action = cmdTimeRequest then
       toBytes le 8 m.te.toNat ++ toBytes le 8 m.tdemin.toNat ++ toBytes le 8 m.tso.toNat ++ [0#8]
     else
       m.payload.take (mainSize m) ++ [BitVec.ofNat 8 (wireStrings m).length] ++ ((wireStrings m).map (strImage le)).flatten)

theorem flat_strImage_length (le : Bool) (ss : List (List Byte)) :
    ((ss.map (strImage le)).flatten).length = (ss.map fun s => 4 + s.length).sum := by
  induction ss with
  | nil => rfl
  | cons s ss ih => simp [ih]

theorem mainSize_le (m : AMsg) : mainSize m ≤ maxPayload ∧ mainSize m ≤ m.payload.length := by
  unfold mainSize; split
  · split <;> omega
  · omega

theorem mainSize_other (m : AMsg) (h : m.action ≠ cmdTimeRequest) :
    mainSize m = if maxPayload ≤ m.payload.length then maxPayload else m.payload.length := by
  unfold mainSize; rw [if_pos h]

theorem wire_length_arith (M L S W : Nat) (ms wl : Nat) (hms : ms = if M ≤ L then M else L)
    (hw : W = if M ≤ L then S + (4 + (L - M)) else S) (hwl : wl = 1) :
    44 + (min ms L + wl + W) = 45 + L + S + (if M ≤ L then 4 else 0) := by
  subst hms hw hwl
  split <;> omega

theorem wireStrings_sum (m : AMsg) : ((wireStrings m).map fun s => 4 + s.length).sum =
    if maxPayload ≤ m.payload.length then (m.strings.map fun s => 4 + s.length).sum + (4 + (m.payload.length - maxPayload))
    else (m.strings.map fun s => 4 + s.length).sum := by
  unfold wireStrings
  by_cases hM : maxPayload ≤ m.payload.length
  · rw [if_pos hM, if_pos hM, List.map_append, List.sum_append, List.map_singleton, List.length_drop, List.sum_singleton]
  · rw [if_neg hM, if_neg hM]

theorem wire_length (le : Bool) (m : AMsg) : (wire le m).length = serializedByteCount m := by
  unfold wire serializedByteCount
  rw [List.length_append, header_length]
  by_cases h : m.action = cmdTimeRequest
  · rw [if_pos h, if_pos h]
    simp [baseSize]
  · rw [if_neg h, if_neg h, List.length_append, flat_strImage_length, List.length_append, List.length_take]
    exact wire_length_arith maxPayload m.payload.length _ _ _ _ (mainSize_other m h) (wireStrings_sum m) rfl

/-- what the encoder writes: everything of `wire` except the empty remainder of a payload of exactly the
maximal main size -/
def image (le : Bool) (m : AMsg) : List Byte :=
  if m.action ≠ cmdTimeRequest ∧ m.payload.length = maxPayload then (wire le m).take (serializedByteCount m - 4) else wire le m

theorem toBytes_zero (le : Bool) (k : Nat) : toBytes le k 0 = List.replicate k 0#8 := by
  have h : ∀ k, leBytes k 0 = List.replicate k 0#8 := by
    intro k; induction k with
    | zero => rfl
    | succ k ih => rw [leBytes, Nat.zero_div, ih]; rfl
  unfold toBytes; split <;> simp [h]

theorem wire_exact (le : Bool) (m : AMsg) (h : m.action ≠ cmdTimeRequest) (hp : m.payload.length = maxPayload) :
    wire le m = (wire le m).take (serializedByteCount m - 4) ++ List.replicate 4 0#8 := by
  have h1 : ∃ l, wire le m = l ++ List.replicate 4 0#8 := by
    refine ⟨(header le m (mainSize m)).flatten ++ (m.payload.take (mainSize m) ++ [BitVec.ofNat 8 (wireStrings m).length] ++
      ((m.strings).map (strImage le)).flatten), ?_⟩
    unfold wire
    rw [if_neg h]
    have : wireStrings m = m.strings ++ [[]] := by
      unfold wireStrings
      rw [if_pos (by omega), List.drop_of_length_le (by omega)]
    simp [this, strImage, toBytes_zero]
  obtain ⟨l, hl⟩ := h1
  have := wire_length le m
  rw [hl] at this ⊢
  simp at this
  rw [← this]
  simp

/-- The encoder in closed form for everything but time requests, for any buffer. -/
theorem toByteArray_other (le : Bool) (m : AMsg) (cap : Nat) (h : m.action ≠ cmdTimeRequest)
    (hs : serializedByteCount m < two32) :
    toByteArray le m cap = if (image le m).length ≤ cap then .ok (image le m) else .fail := by
  have hms := mainSize_other m h
  have hsb : serializedByteCount m = baseSize + m.payload.length + (m.strings.map fun s => 4 + s.length).sum
      + (if maxPayload ≤ m.payload.length then 4 else 0) := by unfold serializedByteCount; rw [if_neg h]
  have hil : (image le m).length = baseSize + m.payload.length + (m.strings.map fun s => 4 + s.length).sum
      + (if maxPayload < m.payload.length then 4 else 0) := by
    unfold image
    by_cases hp : m.payload.length = maxPayload
    · rw [if_pos ⟨h, hp⟩, List.length_take, wire_length, hsb, if_pos (by omega), if_neg (by omega)]; omega
    · rw [if_neg (fun hh => hp hh.2), wire_length, hsb]
      congr 1
      by_cases h3 : maxPayload < m.payload.length
      · rw [if_pos h3, if_pos (by omega)]
      · rw [if_neg h3, if_neg (by omega)]
  unfold toByteArray
  simp only
  have hle := mainSize_le m
  by_cases hc : cap = 0 ∨ cap < baseSize + mainSize m
  · rw [if_pos hc, if_neg]
    rw [hil]; simp only [baseSize] at *; omega
  · rw [if_neg hc]
    have hcc : baseSize + mainSize m ≤ cap := by omega
    have hhdr : putAll cap [] (header le m (mainSize m)) = some (header le m (mainSize m)).flatten := by
      rw [putAll_eq]
      · simp
      · simp only [List.nil_append, header_length]; simp only [baseSize] at hcc; omega
    rw [hhdr]
    simp only
    rw [if_neg h]
    generalize hw1 : (header le m (mainSize m)).flatten = hd
    have hhd : hd.length = 44 := by rw [← hw1, header_length]
    have htk : (m.payload.take (mainSize m)).length = mainSize m := by rw [List.length_take]; omega
    generalize hcount : (if maxPayload ≤ m.payload.length then m.strings.length + 1 else m.strings.length) = count
    have hcnt : count = (wireStrings m).length := by
      rw [← hcount]; unfold wireStrings; split <;> simp
    have hput2 : putAll cap hd [m.payload.take (mainSize m), [BitVec.ofNat 8 count]] =
        some (hd ++ (m.payload.take (mainSize m) ++ [BitVec.ofNat 8 count])) := by
      rw [putAll_eq]
      · simp
      · simp only [List.flatten_cons, List.flatten_nil, List.append_nil, List.length_append, htk, hhd, List.length_cons, List.length_nil]
        simp only [baseSize] at hcc; omega
    rw [hput2]
    simp only
    generalize hw2 : hd ++ (m.payload.take (mainSize m) ++ [BitVec.ofNat 8 count]) = w2
    have hw2l : w2.length = mainSize m + baseSize := by
      rw [← hw2]; simp only [List.length_append, htk, hhd, List.length_cons, List.length_nil, baseSize]; omega
    have hmod : (mainSize m + baseSize) % two32 = w2.length := by
      rw [hw2l]; apply Nat.mod_eq_of_lt; simp only [two32, baseSize, maxPayload] at *; omega
    rw [hmod, putStrings_spec le cap m.strings w2 (by omega) (by omega)]
    by_cases hfit : w2.length + (m.strings.map fun s => 4 + s.length).sum ≤ cap
    · rw [if_pos hfit]
      simp only
      have hflen : (w2 ++ (m.strings.map (strImage le)).flatten).length = w2.length + (m.strings.map fun s => 4 + s.length).sum := by
        rw [List.length_append, flat_strImage_length]
      by_cases hbig : maxPayload < m.payload.length
      · rw [if_pos hbig]
        have hml : mainSize m = maxPayload := by rw [hms, if_pos (by omega)]
        rw [hflen]
        by_cases hc3 : cap < w2.length + (m.strings.map fun s => 4 + s.length).sum + m.payload.length - maxPayload + 4
        · rw [if_pos hc3, if_neg]
          rw [hil, if_pos hbig]; omega
        · rw [if_neg hc3]
          have hmod2 : (m.payload.length - maxPayload) % two32 = m.payload.length - maxPayload := Nat.mod_eq_of_lt (by
            rw [hsb] at hs; omega)
          rw [hmod2, putAll_eq]
          · simp only
            rw [if_pos (by rw [hil, if_pos hbig]; omega)]
            refine congrArg Enc.ok ?_
            unfold image
            rw [if_neg (by omega)]
            unfold wire
            rw [if_neg h, ← hcnt, hw1, ← hw2]
            have : wireStrings m = m.strings ++ [m.payload.drop maxPayload] := by unfold wireStrings; rw [if_pos (by omega)]
            simp [this, strImage]
          · simp only [List.flatten_cons, List.flatten_nil, List.append_nil, List.length_append, toBytes_length, List.length_drop,
              flat_strImage_length]
            omega
      · rw [if_neg hbig, if_pos (by rw [hil, if_neg hbig]; rw [hms] at hw2l; split at hw2l <;> omega)]
        refine congrArg Enc.ok ?_
        have hwire : wire le m = w2 ++ ((wireStrings m).map (strImage le)).flatten := by
          unfold wire; rw [if_neg h, ← hcnt, hw1, ← hw2]; simp
        unfold image
        by_cases hp : m.payload.length = maxPayload
        · rw [if_pos ⟨h, hp⟩, hwire]
          have : wireStrings m = m.strings ++ [[]] := by
            unfold wireStrings; rw [if_pos (by omega), List.drop_of_length_le (by omega)]
          rw [this, List.map_append, List.flatten_append, ← List.append_assoc, List.take_append_of_le_length]
          · rw [List.take_of_length_le]
            rw [hflen, hw2l, hsb, if_pos (by omega), hms, if_pos (by omega)]; omega
          · rw [hflen, hw2l, hsb, if_pos (by omega), hms, if_pos (by omega)]; omega
        · rw [if_neg (fun hh => hp hh.2), hwire]
          have : wireStrings m = m.strings := by unfold wireStrings; rw [if_neg (by omega)]
          rw [this]
    · rw [if_neg hfit]
      simp only
      rw [if_neg]
      rw [hil]
      rw [hms] at hw2l
      split at hw2l <;> omega

/-- The encoder in closed form for time requests: only 45 bytes are required before writing 69. -/
theorem toByteArray_time (le : Bool) (m : AMsg) (cap : Nat) (h : m.action = cmdTimeRequest) :
    toByteArray le m cap = if cap < 45 then .fail else if cap < 69 then .overflow else .ok (wire le m) := by
  have hms : mainSize m = 0 := by unfold mainSize; rw [if_neg (by simpa using h)]
  unfold toByteArray
  simp only [hms, baseSize, Nat.add_zero]
  by_cases hc : cap < 45
  · rw [if_pos (Or.inr hc), if_pos hc]
  · rw [if_neg (by omega), if_neg hc]
    have hhdr : putAll cap [] (header le m 0) = some (header le m 0).flatten := by
      rw [putAll_eq]
      · simp
      · simp only [List.nil_append, header_length]; omega
    rw [hhdr]
    simp only
    rw [if_pos h]
    by_cases h2 : cap < 69
    · rw [if_pos h2, putAll_none]
      · rw [header_length]; omega
      · simp only [List.length_append, header_length]; simp; omega
    · rw [if_neg h2, putAll_eq]
      · simp only
        congr 1
        unfold wire
        rw [if_pos h, hms]
        simp
      · simp only [List.length_append, header_length]; simp; omega

/-- `to_string` on a fresh string. -/
theorem toStringInto_eq (le : Bool) (m : AMsg) (hs : serializedByteCount m < two32) :
    toStringInto le m [] = some (wire le m) := by
  unfold toStringInto
  simp only
  have hwl := wire_length le m
  by_cases h : m.action = cmdTimeRequest
  · have h69 : serializedByteCount m = 69 := by unfold serializedByteCount; rw [if_pos h]; rfl
    rw [toByteArray_time le m _ h, h69, if_neg (by omega), if_neg (by omega)]
    simp only [overwrite]
    congr 1
    have : (resize [] 69).drop (wire le m).length = [] := by
      apply List.drop_of_length_le; rw [hwl, h69]; simp [resize]
    rw [this, List.append_nil]
  · rw [toByteArray_other le m _ h hs]
    by_cases hp : m.payload.length = maxPayload
    · have hi : image le m = (wire le m).take (serializedByteCount m - 4) := by
        unfold image; rw [if_pos ⟨h, hp⟩]
      have hil : (image le m).length = serializedByteCount m - 4 := by rw [hi, List.length_take]; omega
      have h4 : 4 ≤ serializedByteCount m := by unfold serializedByteCount; rw [if_neg h]; simp only [baseSize]; omega
      rw [if_pos (by omega)]
      simp only [overwrite]
      congr 1
      rw [wire_exact le m h hp, ← hi]
      congr 1
      rw [hil]
      simp only [resize, List.take_nil, List.nil_append, List.length_nil, Nat.sub_zero, List.drop_replicate]
      congr 1
      omega
    · have hi : image le m = wire le m := by unfold image; rw [if_neg (fun hh => hp hh.2)]
      rw [hi, hwl, if_pos (Nat.le_refl _)]
      simp only [overwrite]
      congr 1
      have : (resize [] (serializedByteCount m)).drop (wire le m).length = [] := by
        apply List.drop_of_length_le; rw [hwl]; simp [resize]
      rw [this, List.append_nil]

end Verif.Wire
