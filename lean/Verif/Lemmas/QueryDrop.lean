import Verif.Lemmas.QueryRun
/-! A broker learns that a member below it has gone, for C57. -/
namespace Verif.Query

variable {net : Net} {i : Nat} {s : Sys}

/-- the answers of a list of builders go to those who wait for them -/
theorem dropLoop_users {v u : Nat} (js : List Nat) (x : NSt) {q : Nat} {a : Ans} (h : (q, a) ∈ (NSt.dropLoop net v u js x).2.flatMap Out.ans) :
    ∃ j ∈ js, Dest.user q ∈ (x.slot j).reqs := by
  induction js generalizing x with
  | nil => cases h
  | cons j js ih =>
    have key : ∀ (sl : Slot), (∀ e, e ∈ sl.reqs → e ∈ (x.slot j).reqs) →
        (q, a) ∈ (NSt.dropLoop net v u js { x with slot := upd x.slot j sl }).2.flatMap Out.ans → ∃ k ∈ j :: js, Dest.user q ∈ (x.slot k).reqs := by
      intro sl hsl h
      obtain ⟨k, hk, hm⟩ := ih _ h
      simp only at hm
      by_cases hkj : k = j
      · subst hkj; rw [upd_same] at hm; exact ⟨k, List.mem_cons_self .., hsl _ hm⟩
      · rw [upd_ne _ _ hkj] at hm; exact ⟨k, List.mem_cons_of_mem _ hk, hm⟩
    unfold NSt.dropLoop at h
    simp only at h
    split at h
    · cases h
    · split at h
      · simp only [List.flatMap_append] at h
        rcases List.mem_append.1 h with h | h
        · rw [List.mem_flatMap] at h
          obtain ⟨o, ho, h⟩ := h
          obtain ⟨d, hd, rfl⟩ := replies_mem ho
          rw [user_out] at h
          cases d with
          | user q' => have := List.mem_singleton.1 h; cases this; exact ⟨j, List.mem_cons_self .., hd⟩
          | up n => cases h
        · refine key _ ?_ h
          intro e he; cases he
      · refine key _ ?_ h
        intro e he; exact he

/-- the loop reaches the builder `i` if no earlier one is completed -/
theorem dropLoop_reach {v u : Nat} (pre post : List Nat) (x : NSt) (hi : i ∉ pre) (hc : ∀ j ∈ pre, (x.slot j).b.completed = false) (hnd : (pre ++ i :: post).Nodup) :
    ∃ y o, y.slot i = x.slot i ∧ (∀ j, j ∈ post → y.slot j = x.slot j) ∧
      (NSt.dropLoop net v u (pre ++ i :: post) x) = ((NSt.dropLoop net v u (i :: post) y).1, o ++ (NSt.dropLoop net v u (i :: post) y).2) ∧
      (∀ q a, (q, a) ∈ o.flatMap Out.ans → ∃ j ∈ pre, Dest.user q ∈ (x.slot j).reqs) := by
  induction pre generalizing x with
  | nil => exact ⟨x, [], rfl, fun _ _ => rfl, rfl, fun q a h => by cases h⟩
  | cons j pre ih =>
    have hji : j ≠ i := fun e => hi (by rw [e]; exact List.mem_cons_self ..)
    have hnd' : (pre ++ i :: post).Nodup := by
      simp only [List.cons_append, List.nodup_cons] at hnd; exact hnd.2
    have hjn : j ∉ pre ++ i :: post := by
      simp only [List.cons_append, List.nodup_cons] at hnd; exact hnd.1
    have hjpre : ∀ k ∈ pre, k ≠ j := fun k hk e => hjn (by rw [← e]; exact List.mem_append_left _ hk)
    have hjpost : ∀ k ∈ post, k ≠ j := fun k hk e => hjn (by rw [← e]; exact List.mem_append_right _ (List.mem_cons_of_mem _ hk))
    have hcj := hc j (List.mem_cons_self ..)
    have key : ∀ sl : Slot, (∀ e, e ∈ sl.reqs → e ∈ (x.slot j).reqs) →
        ∃ y o, y.slot i = x.slot i ∧ (∀ k, k ∈ post → y.slot k = x.slot k) ∧
          (NSt.dropLoop net v u (pre ++ i :: post) { x with slot := upd x.slot j sl }) =
            ((NSt.dropLoop net v u (i :: post) y).1, o ++ (NSt.dropLoop net v u (i :: post) y).2) ∧
          (∀ q a, (q, a) ∈ o.flatMap Out.ans → ∃ j' ∈ j :: pre, Dest.user q ∈ (x.slot j').reqs) := by
      intro sl hsl
      obtain ⟨y, o, h1, h2, h3, h4⟩ := ih { x with slot := upd x.slot j sl } (fun h => hi (List.mem_cons_of_mem _ h))
        (fun k hk => by simp only; rw [upd_ne _ _ (hjpre k hk)]; exact hc k (List.mem_cons_of_mem _ hk)) hnd'
      refine ⟨y, o, ?_, ?_, h3, ?_⟩
      · rw [h1]; exact upd_ne _ _ (fun e => hji e.symm)
      · intro k hk; rw [h2 k hk]; exact upd_ne _ _ (hjpost k hk)
      · intro q a hq
        obtain ⟨k, hk, hm⟩ := h4 q a hq
        simp only at hm
        rw [upd_ne _ _ (hjpre k hk)] at hm
        exact ⟨k, List.mem_cons_of_mem _ hk, hm⟩
    rw [List.cons_append]
    unfold NSt.dropLoop
    simp only [hcj, Bool.false_eq_true, if_false]
    split
    · obtain ⟨y, o, h1, h2, h3, h4⟩ := key { b := if net.reuse j = true then ((x.slot j).b.clear u).1 else ((x.slot j).b.clear u).1.reset, reqs := [], bad := (x.slot j).bad || (x.slot j).reqs.isEmpty }
        (fun e he => by cases he)
      refine ⟨y, replies .broker j (((x.slot j).b.clear u).1.gen v j) (x.slot j).reqs ++ o, h1, h2, ?_, ?_⟩
      · rw [h3, List.append_assoc]; rfl
      · intro q a hq
        rw [List.flatMap_append] at hq
        rcases List.mem_append.1 hq with hq | hq
        · rw [List.mem_flatMap] at hq
          obtain ⟨o', ho, hq⟩ := hq
          obtain ⟨d, hd, rfl⟩ := replies_mem ho
          rw [user_out] at hq
          cases d with
          | user q' => have := List.mem_singleton.1 hq; cases this; exact ⟨j, List.mem_cons_self .., hd⟩
          | up n => cases hq
        · exact h4 q a hq
    · obtain ⟨y, o, h1, h2, h3, h4⟩ := key { x.slot j with b := ((x.slot j).b.clear u).1 } (fun e he => he)
      refine ⟨y, o, h1, h2, ?_, h4⟩
      rw [h3]; rfl

/-- a builder which awaits somebody else as well goes on waiting -/
theorem dropLoop_keep {v u : Nat} (js : List Nat) (x : NSt) {p : Nat × Kind × Node} (hp : p ∈ (x.slot i).b.missing) (hu : p.2.2 ≠ u) :
    p ∈ ((NSt.dropLoop net v u js x).1.slot i).b.missing ∧
    ∀ q a, (q, a) ∈ (NSt.dropLoop net v u js x).2.flatMap Out.ans → ∃ j, j ≠ i ∧ Dest.user q ∈ (x.slot j).reqs := by
  induction js generalizing x with
  | nil => exact ⟨hp, fun q a h => by cases h⟩
  | cons j js ih =>
    have hclear : ∀ b : Builder, p ∈ b.missing → p ∈ (b.clear u).1.missing ∧ (b.clear u).2 = false := by
      intro b hb
      unfold Builder.clear
      split
      · have hm : p ∈ b.missing.eraseP (fun p => p.2.2 == u) := (List.mem_eraseP_of_neg (by simpa using hu)).2 hb
        refine ⟨hm, ?_⟩
        rw [List.isEmpty_eq_false_iff]
        intro e
        rw [e] at hm; cases hm
      · exact ⟨hb, rfl⟩
    have key : ∀ (sl : Slot), (∀ e, e ∈ sl.reqs → e ∈ (x.slot j).reqs) → (j = i → p ∈ sl.b.missing) →
        p ∈ ((NSt.dropLoop net v u js { x with slot := upd x.slot j sl }).1.slot i).b.missing ∧
        ∀ q a, (q, a) ∈ (NSt.dropLoop net v u js { x with slot := upd x.slot j sl }).2.flatMap Out.ans → ∃ k, k ≠ i ∧ Dest.user q ∈ (x.slot k).reqs := by
      intro sl hsl hpi
      obtain ⟨h1, h2⟩ := ih { x with slot := upd x.slot j sl } (by
        by_cases hij : i = j
        · subst hij; simp only [upd_same]; exact hpi rfl
        · simp only [upd_ne _ _ hij]; exact hp)
      refine ⟨h1, fun q a h => ?_⟩
      obtain ⟨k, hk, hm⟩ := h2 q a h
      refine ⟨k, hk, ?_⟩
      by_cases hkj : k = j
      · subst hkj; simp only [upd_same] at hm; exact hsl _ hm
      · simp only [upd_ne _ _ hkj] at hm; exact hm
    unfold NSt.dropLoop
    simp only
    split
    · exact ⟨hp, fun q a h => by cases h⟩
    · split
      · rename_i hr
        have hji : j ≠ i := by
          intro e
          subst e
          rw [(hclear _ hp).2] at hr; cases hr
        obtain ⟨h1, h2⟩ := key { b := if net.reuse j = true then ((x.slot j).b.clear u).1 else ((x.slot j).b.clear u).1.reset, reqs := [], bad := (x.slot j).bad || (x.slot j).reqs.isEmpty }
          (fun e he => by cases he) (fun e => absurd e hji)
        refine ⟨h1, fun q a h => ?_⟩
        simp only [List.flatMap_append] at h
        rcases List.mem_append.1 h with h | h
        · rw [List.mem_flatMap] at h
          obtain ⟨o, ho, h⟩ := h
          obtain ⟨d, hd, rfl⟩ := replies_mem ho
          rw [user_out] at h
          cases d with
          | user q' => have := List.mem_singleton.1 h; cases this; exact ⟨j, hji, hd⟩
          | up n => cases h
        · exact h2 q a h
      · exact key { (x.slot j) with b := ((x.slot j).b.clear u).1 } (fun e he => he) (fun e => by subst e; exact (hclear _ hp).1)

end Verif.Query
