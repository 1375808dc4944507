import Verif.Model.Endpoint
/-!
# Ordering and counting of endpoint queues
-/
namespace Verif.Endpoint

theorem src_asymm {a b : List UInt8} (h : a < b) : ¬ b < a := List.lt_asymm h

theorem src_trans {a b c : List UInt8} (h : a < b) (h' : b < c) : a < c := List.lt_trans h h'

theorem src_tri (a b : List UInt8) : a < b ∨ a = b ∨ b < a := by
  rcases Std.lt_trichotomy a b with h | h | h
  · exact .inl h
  · exact .inr (.inl h)
  · exact .inr (.inr h)

/-- The order of messages, spelled out. -/
theorem msgLt_iff (a b : EMsg) : msgLt a b = true ↔ a.time < b.time ∨ (a.time = b.time ∧ a.source < b.source) := by
  unfold msgLt
  by_cases h : a.time = b.time
  · rw [if_neg (by simpa using h)]
    constructor
    · intro hs; exact .inr ⟨h, by simpa using hs⟩
    · rintro (h1 | ⟨_, h2⟩)
      · omega
      · simpa using h2
  · rw [if_pos h]
    constructor
    · intro hs; exact .inl (by simpa using hs)
    · rintro (h1 | ⟨h1, _⟩)
      · simpa using h1
      · exact absurd h1 h

/-- `a` does not come before `b`. -/
theorem msgLt_false_iff (a b : EMsg) :
    msgLt a b = false ↔ b.time < a.time ∨ (a.time = b.time ∧ (a.source = b.source ∨ b.source < a.source)) := by
  rw [← Bool.not_eq_true, msgLt_iff]
  constructor
  · intro h
    rcases Int.lt_trichotomy a.time b.time with h1 | h1 | h1
    · exact absurd (.inl h1) h
    · refine .inr ⟨h1, ?_⟩
      rcases src_tri a.source b.source with h2 | h2 | h2
      · exact absurd (.inr ⟨h1, h2⟩) h
      · exact .inl h2
      · exact .inr h2
    · exact .inl h1
  · rintro (h | ⟨h, h' | h'⟩) (h2 | ⟨h2, h3⟩)
    · omega
    · omega
    · omega
    · rw [h'] at h3; exact absurd h3 (src_asymm h3)
    · omega
    · exact src_asymm h' h3

theorem msgLt_irrefl (a : EMsg) : msgLt a a = false := (msgLt_false_iff a a).mpr (.inr ⟨rfl, .inl rfl⟩)

theorem msgLt_asymm {a b : EMsg} (h : msgLt a b = true) : msgLt b a = false := by
  rw [msgLt_iff] at h
  rw [msgLt_false_iff]
  rcases h with h | ⟨h, h'⟩
  · exact .inl h
  · exact .inr ⟨h.symm, .inr h'⟩

/-- "Not before" is transitive. -/
theorem notBefore_trans {a b c : EMsg} (h : msgLt a b = false) (h' : msgLt b c = false) : msgLt a c = false := by
  rw [msgLt_false_iff] at *
  rcases h with h | ⟨h, h1⟩ <;> rcases h' with h' | ⟨h', h2⟩
  · exact .inl (by omega)
  · exact .inl (by omega)
  · exact .inl (by omega)
  · refine .inr ⟨by omega, ?_⟩
    rcases h1 with h1 | h1 <;> rcases h2 with h2 | h2
    · exact .inl (h1.trans h2)
    · exact .inr (h1 ▸ h2)
    · exact .inr (h2 ▸ h1)
    · exact .inr (src_trans h2 h1)

/-- No element comes before an earlier one. -/
def Sorted (l : List EMsg) : Prop := l.Pairwise (fun a b => msgLt b a = false)

theorem insertMsg_perm (m : EMsg) (l : List EMsg) : (insertMsg m l).Perm (m :: l) := by
  induction l with
  | nil => exact List.Perm.refl _
  | cons e es ih =>
    unfold insertMsg
    split
    · exact List.Perm.refl _
    · exact (ih.cons e).trans (List.Perm.swap m e es)

theorem mem_insertMsg {m x : EMsg} {l : List EMsg} : x ∈ insertMsg m l ↔ x = m ∨ x ∈ l := by
  rw [(insertMsg_perm m l).mem_iff, List.mem_cons]

theorem insertMsg_sorted {m : EMsg} {l : List EMsg} (h : Sorted l) : Sorted (insertMsg m l) := by
  induction l with
  | nil => exact List.pairwise_singleton _ _
  | cons e es ih =>
    have hc := List.pairwise_cons.mp h
    unfold insertMsg
    split
    · rename_i hlt
      refine List.pairwise_cons.mpr ⟨?_, h⟩
      intro x hx
      rcases List.mem_cons.mp hx with rfl | hx
      · exact msgLt_asymm hlt
      · exact notBefore_trans (hc.1 x hx) (msgLt_asymm hlt)
    · rename_i hlt
      refine List.pairwise_cons.mpr ⟨?_, ih hc.2⟩
      intro x hx
      rcases mem_insertMsg.mp hx with rfl | hx
      · simpa using hlt
      · exact hc.1 x hx

/-- Inserting a message no element of the list comes after puts it at the end. -/
theorem insertMsg_last {m : EMsg} {l : List EMsg} (h : ∀ x ∈ l, msgLt m x = false) : insertMsg m l = l ++ [m] := by
  induction l with
  | nil => rfl
  | cons e es ih =>
    unfold insertMsg
    rw [if_neg (by simp [h e (by simp)]), ih fun x hx => h x (List.mem_cons_of_mem _ hx)]
    rfl

/-- Inserting behind a prefix the message does not come before. -/
theorem insertMsg_append {m : EMsg} {p l : List EMsg} (h : ∀ x ∈ p, msgLt m x = false) :
    insertMsg m (p ++ l) = p ++ insertMsg m l := by
  induction p with
  | nil => rfl
  | cons e es ih =>
    rw [List.cons_append, insertMsg, if_neg (by simp [h e (by simp)]), ih fun x hx => h x (List.mem_cons_of_mem _ hx)]
    rfl

theorem stableSort_snoc (l : List EMsg) (m : EMsg) : stableSort (l ++ [m]) = insertMsg m (stableSort l) := by
  unfold stableSort; rw [List.foldl_append]; rfl

theorem snoc_ind {α : Type} {P : List α → Prop} (h0 : P []) (h1 : ∀ l r, P l → P (l ++ [r])) (l : List α) : P l := by
  have : ∀ l : List α, P l.reverse := by
    intro l
    induction l with
    | nil => exact h0
    | cons a as ih => rw [List.reverse_cons]; exact h1 _ _ ih
  rw [← List.reverse_reverse l]; exact this _

theorem stableSort_sorted (l : List EMsg) : Sorted (stableSort l) :=
  snoc_ind (P := fun l => Sorted (stableSort l)) List.Pairwise.nil
    (fun l r ih => by rw [stableSort_snoc]; exact insertMsg_sorted ih) l

theorem stableSort_perm (l : List EMsg) : (stableSort l).Perm l :=
  snoc_ind (P := fun l => (stableSort l).Perm l) (List.Perm.refl _) (fun l r ih => by
    rw [stableSort_snoc]
    exact ((insertMsg_perm r _).trans (ih.cons r)).trans (List.perm_append_singleton r l).symm) l

theorem stableSort_of_sorted {l : List EMsg} (h : Sorted l) : stableSort l = l :=
  snoc_ind (P := fun l => Sorted l → stableSort l = l) (fun _ => rfl) (fun l r ih h => by
    have h' := List.pairwise_append.mp h
    rw [stableSort_snoc, ih h'.1, insertMsg_last]
    intro x hx
    exact h'.2.2 x hx r (by simp)) l h

/-- On a sorted queue adding a message is insertion. -/
theorem addMessage_queue {e : Endpoint} (h : Sorted e.queue) (m : EMsg) : (e.addMessage m).queue = insertMsg m e.queue := by
  show stableSort (e.queue ++ [m]) = _
  rw [stableSort_snoc, stableSort_of_sorted h]

/-- Messages with the same time and source. -/
def sameKey (t : Time) (s : List UInt8) (m : EMsg) : Bool := decide (m.time = t ∧ m.source = s)

theorem insertMsg_filter_key (t : Time) (s : List UInt8) {m : EMsg} {l : List EMsg} (h : Sorted l) :
    (insertMsg m l).filter (sameKey t s) = l.filter (sameKey t s) ++ [m].filter (sameKey t s) := by
  induction l with
  | nil => rfl
  | cons e es ih =>
    have hc := List.pairwise_cons.mp h
    unfold insertMsg
    split
    · rename_i hlt
      by_cases hm : sameKey t s m = true
      · have hnone : ∀ x ∈ e :: es, sameKey t s x = false := by
          intro x hx
          have h1 : msgLt x e = false := by
            rcases List.mem_cons.mp hx with rfl | hx
            · exact msgLt_irrefl _
            · exact hc.1 x hx
          cases hk : sameKey t s x
          · rfl
          · exfalso
            have hk' : x.time = t ∧ x.source = s := by simpa [sameKey] using hk
            have hm' : m.time = t ∧ m.source = s := by simpa [sameKey] using hm
            have : msgLt x e = true := by
              rw [msgLt_iff, hk'.1, hk'.2, ← hm'.1, ← hm'.2, ← msgLt_iff]; exact hlt
            rw [this] at h1; exact absurd h1 (by decide)
        rw [List.filter_cons, if_pos hm, List.filter_eq_nil_iff.mpr (fun x hx => by simp [hnone x hx])]
        simp [hm]
      · rw [List.filter_cons, if_neg hm]; simp [hm]
    · rw [List.filter_cons, List.filter_cons, ih hc.2]
      split <;> rfl

/-! ## Counting -/

/-- On a sorted queue the counting loop counts all messages that do not stop it. -/
theorem countFront_sorted {stop : Time → Bool} (hmono : ∀ s t, s ≤ t → stop s = true → stop t = true) {l : List EMsg}
    (h : Sorted l) : countFront stop l = (l.countP (fun m => !stop m.time) : Nat) := by
  induction l with
  | nil => rfl
  | cons e es ih =>
    have hc := List.pairwise_cons.mp h
    unfold countFront
    split
    · rename_i hs
      have : (e :: es).countP (fun m => !stop m.time) = 0 := by
        rw [List.countP_eq_zero]
        intro x hx
        rcases List.mem_cons.mp hx with rfl | hx
        · simp [hs]
        · have hle : e.time ≤ x.time := by
            have := (msgLt_false_iff x e).mp (hc.1 x hx)
            rcases this with h1 | ⟨h1, _⟩ <;> omega
          simp [hmono _ _ hle hs]
      rw [this]; rfl
    · rename_i hs
      rw [ih hc.2, List.countP_cons]
      simp only [Bool.not_eq_true] at hs
      simp only [hs, Bool.not_false, if_true]
      omega

theorem countFront_le (stop : Time → Bool) (l : List EMsg) : 0 ≤ countFront stop l ∧ countFront stop l ≤ l.length := by
  induction l with
  | nil => exact ⟨Int.le_refl _, Int.le_refl _⟩
  | cons e es ih =>
    unfold countFront
    split
    · constructor
      · omega
      · simp only [List.length_cons]; omega
    · simp only [List.length_cons]; omega

end Verif.Endpoint
