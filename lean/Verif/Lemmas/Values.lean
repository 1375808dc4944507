import Verif.Model.Values
import Verif.Lemmas.Wire
/-! Byte form of values: what is written is what is read. -/
namespace Verif.Value
open Verif.Wire (Byte leBytes ofLe toBytes ofBytes)

@[simp] theorem Res.bind_ok {α β : Type} (a : α) (f : α → Res β) : (Res.ok a).bind f = f a := rfl
@[simp] theorem Res.map_ok {α β : Type} (a : α) (f : α → β) : (Res.ok a).map f = .ok (f a) := rfl
@[simp] theorem Res.bind_fault {α β : Type} (f : α → Res β) : (Res.fault).bind f = .fault := rfl
@[simp] theorem Res.map_fault {α β : Type} (f : α → β) : (Res.fault : Res α).map f = .fault := rfl
@[simp] theorem Res.bind_throw {α β : Type} (f : α → Res β) : (Res.throw).bind f = .throw := rfl
@[simp] theorem Res.map_throw {α β : Type} (f : α → β) : (Res.throw : Res α).map f = .throw := rfl

@[simp] theorem headerBytes_length (c : Byte) (n : Nat) : (headerBytes c n).length = 8 := rfl
@[simp] theorem word_length (le : Bool) (d : BitVec 64) : (word le d).length = 8 := by simp [word]

theorem dataSize_header (c : Byte) (n : Nat) (x : List Byte) (h : n < 2 ^ 32) :
    dataSize (headerBytes c n ++ x) = .ok n := by
  simp only [headerBytes, dataSize, List.cons_append, Res.ok.injEq, BitVec.toNat_ofNat]
  omega

/-- without the bound: only the low 32 bits of the count are kept -/
theorem dataSize_wraps (c : Byte) (n : Nat) (x : List Byte) : dataSize (headerBytes c n ++ x) = .ok (n % 2 ^ 32) := by
  simp only [headerBytes, dataSize, List.cons_append, Res.ok.injEq, BitVec.toNat_ofNat]
  omega

theorem swapped_header (t : DT) (n : Nat) (x : List Byte) : swapped (headerBytes (codeOf t) n ++ x) = false := by
  cases t <;> rfl

theorem slice_mid (a b c : List Byte) : slice (a ++ (b ++ c)) a.length b.length = .ok b := by
  unfold slice
  rw [if_pos (by simp)]
  simp

theorem wordOf_word (le : Bool) (d : BitVec 64) : wordOf le false (word le d) = d := by
  unfold wordOf word
  rw [if_neg (by decide)]
  have : ofBytes le (toBytes le 8 d.toNat) = d.toNat := by
    unfold ofBytes toBytes
    have h : ofLe (leBytes 8 d.toNat) = d.toNat := by
      rw [Verif.Wire.ofLe_leBytes]
      exact Nat.mod_eq_of_lt (Nat.lt_of_lt_of_le d.isLt (by decide))
    cases le <;> simp [h]
  rw [this]
  simp

theorem readWord_at (le : Bool) (a c : List Byte) (d : BitVec 64) (hs : swapped (a ++ (word le d ++ c)) = false) (n : Nat)
    (hn : a.length = n) : readWord le (a ++ (word le d ++ c)) n = .ok d := by
  subst hn
  unfold readWord
  rw [hs]
  have := slice_mid a (word le d) c
  rw [word_length] at this
  rw [this, Res.map_ok, wordOf_word]

theorem readWords_at (le : Bool) (v : List (BitVec 64)) : ∀ (a c : List Byte) (n : Nat),
    swapped (a ++ (v.flatMap (word le) ++ c)) = false → a.length = n →
    readWords le (a ++ (v.flatMap (word le) ++ c)) n v.length = .ok v := by
  induction v with
  | nil => intros; rfl
  | cons d t ih =>
    intro a c n hs hn
    have e : a ++ ((d :: t).flatMap (word le) ++ c) = a ++ (word le d ++ (t.flatMap (word le) ++ c)) := by simp
    have e' : a ++ ((d :: t).flatMap (word le) ++ c) = (a ++ word le d) ++ (t.flatMap (word le) ++ c) := by simp
    rw [List.length_cons, readWords]
    rw [e] at hs ⊢
    rw [readWord_at le a _ d hs n hn, Res.bind_ok, ← e, e']
    rw [← e, e'] at hs
    rw [ih (a ++ word le d) c (n + 8) hs (by simp; omega)]
    rfl

theorem flat_words (le : Bool) (v : List Cplx) :
    (v.flatMap fun c => word le c.re ++ word le c.im) = (flat v).flatMap (word le) := by
  induction v with
  | nil => rfl
  | cons c t ih =>
    simp only [flat, List.flatMap_cons] at ih ⊢
    simp [ih]

theorem flat_length (v : List Cplx) : (flat v).length = 2 * v.length := by
  induction v with
  | nil => rfl
  | cons c t ih =>
    simp only [flat, List.flatMap_cons, List.length_append, List.length_cons, List.length_nil] at ih ⊢
    omega

theorem pairUp_flat (v : List Cplx) : pairUp (flat v) = v := by
  induction v with
  | nil => rfl
  | cons c t ih =>
    simp only [flat, List.flatMap_cons, List.cons_append, List.nil_append] at ih ⊢
    rw [pairUp, ih]

theorem decDbl_enc (le : Bool) (d : Dbl) : decDbl le (encDbl le d) = .ok d := by
  have := readWord_at le (headerBytes (codeOf .double) 1) [] d (by exact swapped_header _ _ _) 8 rfl
  rw [List.append_nil] at this
  exact this
theorem decInt_enc (le : Bool) (d : Int64) : decInt le (encInt le d) = .ok d := by
  have := readWord_at le (headerBytes (codeOf .int) 1) [] d (by exact swapped_header _ _ _) 8 rfl
  rw [List.append_nil] at this
  exact this
theorem decCplx_enc (le : Bool) (c : Cplx) : decCplx le (encCplx le c) = .ok c := by
  unfold decCplx encCplx
  rw [readWord_at le _ _ c.re (swapped_header _ _ _) 8 rfl, Res.bind_ok]
  have := readWord_at le (headerBytes (codeOf .complex) 2 ++ word le c.re) [] c.im
    (by rw [List.append_assoc]; exact swapped_header _ _ _) 16 (by simp)
  rw [List.append_nil, List.append_assoc] at this
  rw [this]
  rfl
theorem decStr_enc (s : Str) (h : s.length < 2 ^ 32) : decStr (encStr s) = .ok s := by
  unfold decStr encStr
  rw [dataSize_header _ _ _ h, Res.bind_ok]
  have := slice_mid (headerBytes (codeOf .string) s.length) s []
  rw [List.append_nil] at this
  exact this
theorem decNP_enc (le : Bool) (p : NPoint) (h : p.name.length < 2 ^ 32) : decNP le (encNP le p) = .ok p := by
  unfold decNP encNP
  rw [readWord_at le _ _ p.value (swapped_header _ _ _) 8 rfl, Res.bind_ok, dataSize_header _ _ _ h, Res.bind_ok]
  have := slice_mid (headerBytes (codeOf .namedPoint) p.name.length ++ word le p.value) p.name []
  rw [List.append_nil, List.append_assoc] at this
  have h16 : (headerBytes (codeOf .namedPoint) p.name.length ++ word le p.value).length = 16 := by simp
  rw [h16] at this
  rw [this]
  rfl
theorem decVec_enc (le : Bool) (v : List Dbl) (h : v.length < 2 ^ 32) : decVec le (encVec le v) = .ok v := by
  unfold decVec encVec
  rw [dataSize_header _ _ _ h, Res.bind_ok]
  have := readWords_at le v (headerBytes (codeOf .vector) v.length) [] 8 (swapped_header _ _ _) rfl
  rw [List.append_nil] at this
  exact this
theorem decCVec_enc (le : Bool) (v : List Cplx) (h : v.length < 2 ^ 32) : decCVec le (encCVec le v) = .ok v := by
  unfold decCVec encCVec
  rw [dataSize_header _ _ _ h, Res.bind_ok, flat_words]
  have := readWords_at le (flat v) (headerBytes (codeOf .cvector) v.length) [] 8 (swapped_header _ _ _) rfl
  rw [List.append_nil, flat_length] at this
  rw [this, Res.map_ok, pairUp_flat]

theorem detect_header (t : DT) (n : Nat) (x : List Byte)
    (h : t = .double ∨ t = .int ∨ t = .complex ∨ t = .string ∨ t = .vector ∨ t = .namedPoint ∨ t = .cvector ∨ t = .custom) :
    detectType (headerBytes (codeOf t) n ++ x) = .ok t := by
  rcases h with h | h | h | h | h | h | h | h <;> subst h <;> rfl

theorem words_length (le : Bool) (v : List Dbl) : (v.flatMap (word le)).length = 8 * v.length := by
  induction v with
  | nil => rfl
  | cons a t ih => simp only [List.flatMap_cons, List.length_append, word_length, ih, List.length_cons]; omega

/-- exactly the bytes the buffer was sized for are written -/
theorem encVal_length (le : Bool) (v : Val) : (encVal le v).length = binaryLength v := by
  cases v with
  | dbl d => simp [encVal, encDbl, binaryLength]
  | int d => simp [encVal, encInt, binaryLength]
  | str s => simp only [encVal, encStr, binaryLength, List.length_append, headerBytes_length]; omega
  | cplx c => simp [encVal, encCplx, binaryLength]
  | vec v => simp only [encVal, encVec, binaryLength, List.length_append, headerBytes_length, words_length]; omega
  | cvec v =>
    simp only [encVal, encCVec, binaryLength, List.length_append, headerBytes_length, flat_words, words_length, flat_length]
    omega
  | np p => simp only [encVal, encNP, binaryLength, List.length_append, headerBytes_length, word_length]; omega

/-- number in the header -/
def Val.count : Val → Nat
  | .dbl _ | .int _ => 1
  | .cplx _ => 2
  | .str s => s.length
  | .vec v => v.length
  | .cvec v => v.length
  | .np p => p.name.length

/-- type of the block -/
def Val.loc' : Val → DT
  | .dbl _ => .double | .int _ => .int | .str _ => .string | .cplx _ => .complex | .vec _ => .vector
  | .cvec _ => .cvector | .np _ => .namedPoint

theorem encVal_header (le : Bool) (v : Val) : ∃ x, encVal le v = headerBytes (codeOf v.loc') v.count ++ x ∧ v.count ≤ x.length := by
  cases v with
  | dbl d => exact ⟨word le d, rfl, by simp [Val.count]⟩
  | int d => exact ⟨word le d, rfl, by simp [Val.count]⟩
  | str s => exact ⟨s, rfl, Nat.le_refl _⟩
  | cplx c => exact ⟨_, rfl, by simp [Val.count]⟩
  | vec v => exact ⟨_, rfl, by rw [words_length]; simp only [Val.count]; omega⟩
  | cvec v => exact ⟨_, rfl, by rw [flat_words, words_length, flat_length]; simp only [Val.count]; omega⟩
  | np p => exact ⟨_, rfl, by simp [Val.count]⟩

theorem count_le (le : Bool) (v : Val) : v.count ≤ (encVal le v).length := by
  obtain ⟨x, h, hx⟩ := encVal_header le v
  rw [h, List.length_append]
  omega

/-- any stored value's block read as text stays inside the block -/
theorem decStr_encVal (le : Bool) (v : Val) : ∃ s, decStr (encVal le v) = .ok s := by
  obtain ⟨x, h, hx⟩ := encVal_header le v
  rw [h]
  unfold decStr
  rw [dataSize_wraps, Res.bind_ok]
  unfold slice
  rw [if_pos (by
    rw [List.length_append, headerBytes_length]
    have := Nat.mod_le v.count (2 ^ 32)
    omega)]
  exact ⟨_, rfl⟩

theorem detect_encVal (le : Bool) (v : Val) : detectType (encVal le v) = .ok v.loc' := by
  cases v <;> rfl

/-- reading a block as the type it says it has gives the value back -/
theorem rdVal_encVal (L : Lib) (le : Bool) (v : Val) (h : v.count < 2 ^ 32) : rdVal L le (encVal le v) v.loc' = .ok v := by
  cases v with
  | dbl d => simp [rdVal, Val.loc', encVal, decDbl_enc]
  | int d => simp [rdVal, Val.loc', encVal, decInt_enc]
  | str s => simp [rdVal, Val.loc', encVal, decStr_enc s h]
  | cplx c => simp [rdVal, Val.loc', encVal, decCplx_enc]
  | vec v => simp [rdVal, Val.loc', encVal, decVec_enc le v h]
  | cvec v => simp [rdVal, Val.loc', encVal, decCVec_enc le v h]
  | np p => simp [rdVal, Val.loc', encVal, decNP_enc le p h]

theorem rdVal_any (L : Lib) (le : Bool) (v : Val) (h : v.count < 2 ^ 32) : rdVal L le (encVal le v) .any = .ok v := by
  have h1 : rdVal L le (encVal le v) .any = rdVal L le (encVal le v) v.loc' := by
    unfold rdVal
    rw [if_pos (Or.inl rfl), detect_encVal, if_neg (by cases v <;> simp [Val.loc'])]
  rw [h1, rdVal_encVal L le v h]

end Verif.Value
