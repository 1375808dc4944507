import Verif.Lemmas.WireDecode
/-! The decoder never reads outside its buffer and never claims to have used more than it was given. -/
namespace Verif.Wire

theorem getStrings_safe (le swap : Bool) (len n : Nat) : ∀ (tsize : Nat) (rest : List Byte),
    tsize ≤ len → len + 4 * n ≤ rest.length + tsize →
    ∃ ss t ok, getStrings le swap len n tsize rest = some (ss, t, ok) ∧ (ok = true → tsize ≤ t ∧ t ≤ len ∧ ss.length = n) := by
  induction n with
  | zero => intro tsize rest h1 _; exact ⟨[], tsize, true, rfl, fun _ => ⟨Nat.le_refl _, h1, rfl⟩⟩
  | succ n ih =>
    intro tsize rest h1 h2
    rw [getStrings]
    obtain ⟨v, r, hv, hr⟩ := getInt_some le (n := 4) (rest := rest) (by omega)
    rw [hv]
    simp only [Option.bind_some]
    generalize (if swap = true then swapBytes 4 v else v) = sz
    by_cases hc : len < tsize + sz
    · rw [if_pos hc]; exact ⟨_, _, _, rfl, (nomatch ·)⟩
    · rw [if_neg hc]
      obtain ⟨bs, r2, hg, hb, hr2⟩ := get_some (n := sz) (rest := r) (by omega)
      rw [hg]
      simp only [Option.bind_some]
      obtain ⟨ss, t, ok, h3, h4⟩ := ih (tsize + sz) r2 (by omega) (by omega)
      refine ⟨bs :: ss, t, ok, by rw [h3]; rfl, fun h => ?_⟩
      obtain ⟨a, b, c⟩ := h4 h
      exact ⟨by omega, b, by simp [c]⟩

theorem readFixed_safe (le swap : Bool) (m0 : AMsg) (rest : List Byte) (h : 40 ≤ rest.length) :
    ∃ m r, readFixed le swap m0 rest = some (m, r) ∧ r.length = rest.length - 40 := by
  unfold readFixed
  obtain ⟨_, r1, h1, g1⟩ := getInt_some le (n := 4) (rest := rest) (by omega)
  obtain ⟨_, r2, h2, g2⟩ := getInt_some le (n := 4) (rest := r1) (by omega)
  obtain ⟨_, r3, h3, g3⟩ := getInt_some le (n := 4) (rest := r2) (by omega)
  obtain ⟨_, r4, h4, g4⟩ := getInt_some le (n := 4) (rest := r3) (by omega)
  obtain ⟨_, r5, h5, g5⟩ := getInt_some le (n := 4) (rest := r4) (by omega)
  obtain ⟨_, r6, h6, g6⟩ := getInt_some le (n := 4) (rest := r5) (by omega)
  obtain ⟨_, r7, h7, g7⟩ := getInt_some le (n := 2) (rest := r6) (by omega)
  obtain ⟨_, r8, h8, g8⟩ := getInt_some le (n := 2) (rest := r7) (by omega)
  obtain ⟨_, r9, h9, g9⟩ := getInt_some le (n := 4) (rest := r8) (by omega)
  obtain ⟨_, r10, h10, g10⟩ := getInt_some le (n := 8) (rest := r9) (by omega)
  simp only [h1, h2, h3, h4, h5, h6, h7, h8, h9, h10, Option.bind_some]
  exact ⟨_, r10, rfl, by omega⟩

theorem readTimes_safe (le : Bool) (raw : AMsg) (tsize len : Nat) (rest : List Byte) (h1 : tsize ≤ len)
    (h2 : len < rest.length + tsize) :
    ∃ m t r ok, readTimes le raw tsize len rest = some (m, t, r, ok) ∧
      (ok = true → t ≤ len ∧ tsize ≤ t ∧ rest.length + tsize = r.length + t) := by
  unfold readTimes
  split
  · split
    · exact ⟨_, _, _, _, rfl, (nomatch ·)⟩
    · obtain ⟨_, r1, e1, g1⟩ := getInt_some le (n := 8) (rest := rest) (by omega)
      obtain ⟨_, r2, e2, g2⟩ := getInt_some le (n := 8) (rest := r1) (by omega)
      obtain ⟨_, r3, e3, g3⟩ := getInt_some le (n := 8) (rest := r2) (by omega)
      simp only [e1, e2, e3, Option.bind_some]
      exact ⟨_, _, r3, true, rfl, fun _ => ⟨by omega, by omega, by omega⟩⟩
  · exact ⟨_, _, _, _, rfl, fun _ => ⟨h1, Nat.le_refl _, rfl⟩⟩

theorem decodeBody_safe (le : Bool) (m0 : AMsg) (rest : List Byte) (len : Nat) (h1 : baseSize ≤ len) (h2 : len ≤ rest.length) :
    ∃ m n, decodeBody le m0 rest len = some (m, n) ∧ n ≤ len ∧ (n ≠ 0 → baseSize ≤ n) := by
  rw [baseSize_eq] at h1
  unfold decodeBody
  obtain ⟨h, r0, hg, hh, hr0⟩ := get_some (n := 4) (rest := rest) (by omega)
  rw [hg]
  simp only [Option.bind_some]
  generalize hsz : 256 * 256 * (h.getD 1 0#8).toNat + 256 * (h.getD 2 0#8).toNat + (h.getD 3 0#8).toNat = size
  generalize (h.getD 0 0#8 != (if le = true then 1#8 else 0#8)) = swap
  rw [baseSize_eq]
  by_cases hc : len < 45 + size
  · rw [if_pos hc]; exact ⟨_, 0, rfl, by omega, by omega⟩
  · rw [if_neg hc]
    obtain ⟨raw, r1, e1, g1⟩ := readFixed_safe le swap m0 r0 (by omega)
    rw [e1]
    simp only [Option.bind_some]
    obtain ⟨raw2, t, r2, ok, e2, g2⟩ := readTimes_safe le raw (45 + size) len r1 (by omega) (by omega)
    rw [e2]
    simp only [Option.bind_some]
    cases ok with
    | false => exact ⟨raw2, 0, by simp, by omega, by omega⟩
    | true =>
      obtain ⟨k1, k2, k3⟩ := g2 rfl
      simp only [Bool.true_eq_false, if_false]
      have hp : ∃ raw3 r3, readPayload raw2 size r2 = some (raw3, r3) ∧ r3.length = r2.length - size := by
        unfold readPayload
        split
        · obtain ⟨bs, r3, e3, _, g3⟩ := get_some (n := size) (rest := r2) (by omega)
          exact ⟨_, r3, by rw [e3]; rfl, g3⟩
        · exact ⟨_, _, rfl, by omega⟩
      obtain ⟨raw3, r3, e3, g3⟩ := hp
      rw [e3]
      simp only [Option.bind_some]
      have hs : ∃ ss t2 ok, readStrings le swap len t r3 = some (ss, t2, ok) ∧ (ok = true → t ≤ t2 ∧ t2 ≤ len) := by
        unfold readStrings
        obtain ⟨c, r4, e4, _, g4⟩ := get_some (n := 1) (rest := r3) (by omega)
        rw [e4]
        simp only [Option.bind_some]
        generalize (c.getD 0 0#8).toNat = cnt
        by_cases hz : cnt ≠ 0
        · rw [if_pos hz]
          by_cases hl : len < t + 4 * cnt
          · rw [if_pos hl]; exact ⟨_, _, _, rfl, (nomatch ·)⟩
          · rw [if_neg hl]
            obtain ⟨ss, t2, ok, e5, g5⟩ := getStrings_safe le swap len cnt (t + 4 * cnt) r4 (by omega) (by omega)
            exact ⟨ss, t2, ok, e5, fun h => ⟨by have := (g5 h).1; omega, (g5 h).2.1⟩⟩
        · rw [if_neg hz]; exact ⟨_, _, _, rfl, fun _ => ⟨Nat.le_refl _, k1⟩⟩
      obtain ⟨ss, t2, ok, e4, g4⟩ := hs
      rw [e4]
      simp only [Option.bind_some]
      cases ok with
      | false => exact ⟨_, 0, by simp; rfl, by omega, by omega⟩
      | true =>
        simp only [Bool.true_eq_false, if_false]
        have := g4 rfl
        split
        · exact ⟨_, _, rfl, this.2, by omega⟩
        · exact ⟨_, _, rfl, this.2, by omega⟩

/-- a frame never announces fewer than four bytes when its tail is where it says -/
theorem frame_size (rest : List Byte) (b1 b2 b3 : Byte) (h0 : rest[0]? = some leading) (h1 : rest[1]? = some b1)
    (h2 : rest[2]? = some b2) (h3 : rest[3]? = some b3)
    (ht : rest[frameSize b1 b2 b3]? = some tail1) : 4 ≤ frameSize b1 b2 b3 := by
  generalize hs : frameSize b1 b2 b3 = s at ht
  unfold frameSize at hs
  apply Classical.byContradiction
  intro hc
  have hlt : s < 4 := by omega
  have hb1 : b1 = 0#8 := BitVec.eq_of_toNat_eq (by simp; omega)
  have hb2 : b2 = 0#8 := BitVec.eq_of_toNat_eq (by simp; omega)
  have hb3 : b3.toNat = s := by rw [hb1, hb2] at hs; simpa using hs
  match s, hlt with
  | 0, _ => rw [h0] at ht; exact absurd ht (by decide)
  | 1, _ => rw [h1, hb1] at ht; exact absurd ht (by decide)
  | 2, _ => rw [h2, hb2] at ht; exact absurd ht (by decide)
  | 3, _ =>
    rw [h3] at ht
    have : b3 = tail1 := Option.some.inj ht
    rw [this] at hb3
    exact absurd hb3 (by decide)

theorem getElem?_lt {l : List Byte} {i : Nat} (h : i < l.length) : ∃ b, l[i]? = some b := ⟨l[i], List.getElem?_eq_getElem h⟩

mutual
theorem fromByteArray_safe (le : Bool) (js : JsonReader) (m0 : AMsg) (rest : List Byte) (len : Nat) (h : len ≤ rest.length) :
    ∃ m n, fromByteArray le js m0 rest len = some (m, n) ∧ n ≤ len := by
  rw [fromByteArray.eq_def]
  by_cases h1 : len < baseSize
  · rw [if_pos h1]; exact ⟨_, 0, rfl, by omega⟩
  · rw [if_neg h1]
    have hlen : 0 < rest.length := by rw [baseSize_eq] at h1; omega
    obtain ⟨b0, e0⟩ := getElem?_lt hlen
    rw [e0]
    · have hb := decodeBody_safe le
      simp only
      by_cases hlead : b0 = leading
      · rw [if_pos hlead]
        obtain ⟨m1, n1, e1, g1⟩ := depacketize_safe le js m0 rest len h hlen
        rw [e1]
        simp only
        by_cases hn : 0 < n1
        · rw [if_pos hn]; exact ⟨m1, n1, rfl, g1⟩
        · rw [if_neg hn]
          obtain ⟨m, n, e, g, _⟩ := hb m1 rest len (by omega) h
          exact ⟨m, n, e, g⟩
      · rw [if_neg hlead]
        by_cases hbr : b0 = brace
        · rw [if_pos hbr]; exact ⟨_, 0, rfl, by omega⟩
        · rw [if_neg hbr]
          obtain ⟨m, n, e, g, _⟩ := hb m0 rest len (by omega) h
          exact ⟨m, n, e, g⟩
termination_by (len, 1)
theorem depacketize_safe (le : Bool) (js : JsonReader) (m0 : AMsg) (rest : List Byte) (len : Nat) (h : len ≤ rest.length)
    (hne : 0 < rest.length) : ∃ m n, depacketize le js m0 rest len = some (m, n) ∧ n ≤ len := by
  rw [depacketize.eq_def]
  obtain ⟨b0, e0⟩ := getElem?_lt hne
  rw [e0]
  simp only
  by_cases hl : b0 ≠ leading
  · rw [if_pos hl]; exact ⟨_, 0, rfl, by omega⟩
  · rw [if_neg hl]
    have hl' : b0 = leading := by simpa using hl
    by_cases h6 : len < 6
    · rw [if_pos h6]; exact ⟨_, 0, rfl, by omega⟩
    · rw [if_neg h6]
      obtain ⟨b1, e1⟩ := getElem?_lt (l := rest) (i := 1) (by omega)
      obtain ⟨b2, e2⟩ := getElem?_lt (l := rest) (i := 2) (by omega)
      obtain ⟨b3, e3⟩ := getElem?_lt (l := rest) (i := 3) (by omega)
      rw [e1, e2, e3]
      simp only
      have hfs := frame_size rest b1 b2 b3 (by rw [e0, hl']) e1 e2 e3
      generalize frameSize b1 b2 b3 = size at hfs ⊢
      by_cases hs : len < size + 2
      · rw [if_pos hs]; exact ⟨_, 0, rfl, by omega⟩
      · rw [if_neg hs]
        obtain ⟨t1, et1⟩ := getElem?_lt (l := rest) (i := size) (by omega)
        obtain ⟨t2, et2⟩ := getElem?_lt (l := rest) (i := size + 1) (by omega)
        rw [et1, et2]
        simp only
        by_cases ht1 : t1 ≠ tail1
        · rw [if_pos ht1]; exact ⟨_, 0, rfl, by omega⟩
        · rw [if_neg ht1]
          have ht1' : t1 = tail1 := by simpa using ht1
          by_cases ht2 : t2 ≠ tail2
          · rw [if_pos ht2]; exact ⟨_, 0, rfl, by omega⟩
          · rw [if_neg ht2]
            have h4 := hfs (by rw [et1, ht1'])
            rw [if_neg (by omega)]
            obtain ⟨m1, n1, e, g⟩ := fromByteArray_safe le js m0 (rest.drop 4) (size - 4) (by rw [List.length_drop]; omega)
            rw [e]
            simp only
            split
            · generalize js m1 (List.take (size - 4) (List.drop 4 rest)) = x
              obtain ⟨m2, ok⟩ := x
              cases ok
              · exact ⟨m2, 0, rfl, by omega⟩
              · exact ⟨m2, size + 2, rfl, by omega⟩
            · exact ⟨m1, size + 2, rfl, by omega⟩
termination_by (len, 0)
end

end Verif.Wire
