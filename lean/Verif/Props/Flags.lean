import Verif.Model.Flags
/-!
# Flags are independent bits: property C28

The specification is a set of flag numbers: `BitVec.getLsbD w j` says whether bit `j` of the word is on.
-/
namespace Verif.Flags

theorem mask_bit (i j : Nat) (hj : j < 16) : (mask i).getLsbD j = decide (j = i) := by
  unfold mask
  rw [BitVec.getLsbD_setWidth, BitVec.getLsbD_shiftLeft]
  have : (1#32).getLsbD (j - i) = decide (j - i = 0) := by
    rw [BitVec.getLsbD_one]; simp
  rw [this]
  by_cases h : j = i
  · subst h; simp; omega
  · simp [h]; omega

/-- **C28.** A test reports exactly whether that bit is on. -/
theorem C28_check (w : BitVec 16) (i : Nat) (hi : i < 16) : checkFlag w i = w.getLsbD i := by
  unfold checkFlag
  rw [bne, Bool.eq_iff_iff]
  simp only [Bool.not_eq_true', beq_eq_false_iff_ne, ne_eq]
  constructor
  · intro h
    apply Classical.byContradiction
    intro hc
    apply h
    apply BitVec.eq_of_getLsbD_eq
    intro j hj
    rw [BitVec.getLsbD_and, mask_bit i j hj]
    by_cases hij : j = i
    · subst hij; simp [hc]
    · simp [hij]
  · intro h hz
    have := congrArg (fun v : BitVec 16 => v.getLsbD i) hz
    simp only [BitVec.getLsbD_and, mask_bit i i hi, h, decide_true, Bool.and_true, BitVec.getLsbD_zero] at this
    exact absurd this (by decide)

/-- **C28.** Setting, clearing and toggling flag `i` changes flag `i` as asked and no other flag, for every word. -/
theorem C28_set (w : BitVec 16) (i j : Nat) (hj : j < 16) : (setFlag w i).getLsbD j = if j = i then true else w.getLsbD j := by
  unfold setFlag
  rw [BitVec.getLsbD_or, mask_bit i j hj]
  by_cases h : j = i <;> simp [h]

theorem C28_clear (w : BitVec 16) (i j : Nat) (hj : j < 16) : (clearFlag w i).getLsbD j = if j = i then false else w.getLsbD j := by
  unfold clearFlag
  have := mask_bit i j hj
  unfold mask at this
  rw [BitVec.getLsbD_and, BitVec.getLsbD_setWidth, BitVec.getLsbD_not]
  rw [BitVec.getLsbD_setWidth] at this
  simp only [hj, decide_true, Bool.true_and] at this
  rw [this]
  by_cases h : j = i
  · simp [h]
  · simp [h]; omega

theorem C28_toggle (w : BitVec 16) (i j : Nat) (hi : i < 16) (hj : j < 16) :
    (toggleAction w i).getLsbD j = if j = i then !w.getLsbD j else w.getLsbD j := by
  unfold toggleAction
  rw [C28_check w i hi]
  by_cases h : j = i
  · subst h
    cases hc : w.getLsbD j
    · simp [C28_set w j j hj]
    · simp [C28_clear w j j hj]
  · split
    · rw [C28_clear w i j hj, if_neg h]
    · rw [C28_set w i j hj, if_neg h]

theorem C28_toggle_flag (w : BitVec 16) (i j : Nat) (hj : j < 16) :
    (toggleFlag w i).getLsbD j = if j = i then !w.getLsbD j else w.getLsbD j := by
  unfold toggleFlag make1
  rw [BitVec.getLsbD_xor, mask_bit i j hj]
  by_cases h : j = i <;> simp [h]

theorem C28_make (a b c j : Nat) (hj : j < 16) : (make3 a b c).getLsbD j = decide (j = a ∨ j = b ∨ j = c) := by
  unfold make3 make2 make1
  rw [BitVec.getLsbD_or, BitVec.getLsbD_or, mask_bit a j hj, mask_bit b j hj, mask_bit c j hj]
  by_cases h1 : j = a <;> by_cases h2 : j = b <;> by_cases h3 : j = c <;> simp [h1, h2, h3]

/-- the flag an operation is about -/
def Op.flag : Op → Nat | .set f => f | .clear f => f | .toggle f => f | .xor f => f
/-- the effect of one operation on its flag -/
def Op.effect (old : Bool) : Op → Bool | .set _ => true | .clear _ => false | .toggle _ => !old | .xor _ => !old

/-- **C28**, for every history: after any sequence of flag operations, a flag's value is what the operations on that flag alone
make of it; operations on other flags do not matter. -/
theorem C28_history (ops : List Op) (w : BitVec 16) (j : Nat) (hj : j < 16) (ho : ∀ o ∈ ops, o.flag < 16) :
    (ops.foldl Op.run w).getLsbD j = (ops.filter (fun o => o.flag = j)).foldl Op.effect (w.getLsbD j) := by
  induction ops generalizing w with
  | nil => rfl
  | cons o ops ih =>
    have h1 : (Op.run w o).getLsbD j = if o.flag = j then Op.effect (w.getLsbD j) o else w.getLsbD j := by
      have hf := ho o (by simp)
      have hc : ∀ (a b : Nat) (x y : Bool), (if a = b then x else y) = if b = a then x else y := by
        intro a b x y; by_cases h : a = b <;> simp [h, eq_comm]
      cases o with
      | set f => simp only [Op.run, C28_set w f j hj, Op.flag, Op.effect]; exact hc ..
      | clear f => simp only [Op.run, C28_clear w f j hj, Op.flag, Op.effect]; exact hc ..
      | toggle f => simp only [Op.run, C28_toggle w f j hf hj, Op.flag, Op.effect]; exact hc ..
      | xor f => simp only [Op.run, C28_toggle_flag w f j hj, Op.flag, Op.effect]; exact hc ..
    rw [List.foldl_cons, ih _ (fun o h => ho o (by simp [h])), h1]
    by_cases h : o.flag = j
    · simp [h]
    · simp [h]

example : ∀ o ∈ [Op.set 3, .toggle 6, .clear 15], o.flag < 16 := by decide
end Verif.Flags
