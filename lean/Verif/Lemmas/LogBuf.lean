import Verif.Lemmas.Logs
/-! The buffer of log messages over a history of calls, and over the steps of several threads. -/
namespace Verif
namespace Logs

theorem bufRun_snoc (c : Nat) (cs : List Call) (x : Call) : bufRun c (cs ++ [x]) = (bufRun c cs).call x := by
  simp [bufRun, List.foldl_append]

theorem capacity_append (c : Nat) (xs ys : List Call) : capacity c (xs ++ ys) = capacity (capacity c xs) ys := by
  induction xs generalizing c with
  | nil => rfl
  | cons x xs ih =>
    cases x with
    | enable on => cases on <;> simp [capacity, ih]
    | _ => simp [capacity, ih]

theorem pushed_append (xs ys : List Call) : pushed (xs ++ ys) = pushed xs ++ pushed ys := by
  induction xs with
  | nil => rfl
  | cons x xs ih => cases x <;> simp [pushed, ih]

theorem kept_nil (c : Nat) (a : List Call) (m : Nat) : Kept c a m [] ↔ 0 < capacity c (a ++ [.push m]) := by
  unfold Kept
  constructor
  · intro h; exact h [] [] rfl
  · intro h b1 b2 hb
    have : b1 = [] := by
      cases b1 with
      | nil => rfl
      | cons => simp at hb
    subst this
    exact h

theorem kept_snoc (c : Nat) (a : List Call) (m : Nat) (b : List Call) (x : Call) :
    Kept c a m (b ++ [x]) ↔ Kept c a m b ∧ (pushed (b ++ [x])).length < capacity c (a ++ .push m :: (b ++ [x])) := by
  unfold Kept
  constructor
  · intro h
    exact ⟨fun b1 b2 hb => h b1 (b2 ++ [x]) (by rw [hb]; simp), h (b ++ [x]) [] (by simp)⟩
  · rintro ⟨h1, h2⟩ b1 b2 hb
    rcases List.eq_nil_or_concat b2 with rfl | ⟨b3, y, rfl⟩
    · have : b1 = b ++ [x] := by simpa using hb.symm
      rw [this]; exact h2
    · have : b ++ [x] = (b1 ++ b3) ++ [y] := by rw [hb]; simp
      exact h1 b1 b3 (List.append_inj' this rfl).1

structure BufOk (c : Nat) (cs : List Call) (b : Buf) : Prop where
  cap : b.cap = capacity c cs
  len : b.items.length ≤ b.cap
  last : ∃ k, k ≤ (pushed cs).length ∧ b.items = (pushed cs).drop k ∧
    ∀ a m r, cs = a ++ .push m :: r → (k ≤ (pushed a).length ↔ Kept c a m r)

theorem bufOk_trim {c : Nat} {cs : List Call} {b : Buf} (h : BufOk c cs b) (x : Call) (n : Nat) (hx : pushed [x] = [])
    (hc : capacity c (cs ++ [x]) = n) (b' : Buf) (h1 : b'.cap = n) (h2 : b'.items = b.items.drop (b.items.length - n)) :
    BufOk c (cs ++ [x]) b' := by
  obtain ⟨k, hk, hi, hs⟩ := h.last
  have hl : b.items.length = (pushed cs).length - k := by rw [hi, List.length_drop]
  have hp : pushed (cs ++ [x]) = pushed cs := by rw [pushed_append, hx, List.append_nil]
  refine ⟨by rw [h1, hc], by rw [h1, h2, List.length_drop]; omega, k + (b.items.length - n), ?_, ?_, ?_⟩
  · rw [hp]; omega
  · rw [h2, hp]
    rw [hl, hi, List.drop_drop]
  · intro a m r he
    rcases snoc_split he with ⟨rfl, rfl, rfl⟩ | ⟨r', rfl, he'⟩
    · simp [pushed] at hx
    · rw [kept_snoc, ← hs a m r' he']
      have e1 : capacity c (a ++ .push m :: (r' ++ [x])) = n := by rw [← hc, he']; simp
      have e2 : pushed (r' ++ [x]) = pushed r' := by rw [pushed_append, hx, List.append_nil]
      have e3 : (pushed cs).length = (pushed a).length + 1 + (pushed r').length := by
        rw [he', pushed_append]; simp [pushed]; omega
      rw [e1, e2]
      omega

theorem bufOk (c : Nat) (cs : List Call) : BufOk c cs (bufRun c cs) := by
  induction cs using snoc_ind with
  | h0 => exact ⟨rfl, Nat.zero_le _, 0, Nat.zero_le _, rfl, by simp⟩
  | h1 cs x ih =>
    rw [bufRun_snoc]
    generalize bufRun c cs = b at ih
    have trim : ∀ n, (if n < b.cap then b.items.drop (b.items.length - n) else b.items) = b.items.drop (b.items.length - n) := by
      intro n
      split
      · rfl
      · have := ih.len
        rw [show b.items.length - n = 0 by omega, List.drop_zero]
    cases x with
    | resize n => exact bufOk_trim ih _ n rfl (by rw [capacity_append]; rfl) _ rfl (trim n)
    | enable on =>
      cases on with
      | false => exact bufOk_trim ih _ 0 rfl (by rw [capacity_append]; rfl) _ rfl (trim 0)
      | true =>
        simp only [Buf.call, Buf.enable, if_true]
        split
        · rename_i h0
          exact bufOk_trim ih _ 10 rfl (by rw [capacity_append, ← ih.cap, h0]; rfl) _ rfl (trim 10)
        · rename_i h0
          refine bufOk_trim ih _ b.cap rfl ?_ _ rfl ?_
          · rw [capacity_append, ← ih.cap]; simp [capacity, h0]
          · have := ih.len
            rw [show b.items.length - b.cap = 0 by omega, List.drop_zero]
    | push m0 =>
      obtain ⟨k, hk, hi, hs⟩ := ih.last
      have hl : b.items.length = (pushed cs).length - k := by rw [hi, List.length_drop]
      have hlen := ih.len
      have hp : pushed (cs ++ [.push m0]) = pushed cs ++ [m0] := by rw [pushed_append]; rfl
      have hcap : capacity c (cs ++ [.push m0]) = b.cap := by rw [capacity_append, ← ih.cap]; rfl
      have hsp : ∀ a m r', cs = a ++ .push m :: r' → (pushed cs).length = (pushed a).length + 1 + (pushed r').length := by
        intro a m r' he'
        rw [he', pushed_append]; simp [pushed]; omega
      have hcap' : ∀ a m r', cs = a ++ .push m :: r' → capacity c (a ++ .push m :: (r' ++ [.push m0])) = b.cap := by
        intro a m r' he'
        rw [← hcap, he']; simp
      have hpr : ∀ r' : List Call, (pushed (r' ++ [.push m0])).length = (pushed r').length + 1 := by
        intro r'; rw [pushed_append]; simp [pushed]
      simp only [Buf.call, Buf.push]
      split
      · rename_i h0
        refine ⟨by rw [hcap], hlen, (pushed cs).length + 1, by rw [hp]; simp, ?_, ?_⟩
        · rw [hp, List.drop_of_length_le (by simp)]
          exact List.eq_nil_of_length_eq_zero (by omega)
        · intro a m r he
          rcases snoc_split he with ⟨rfl, rfl, hm⟩ | ⟨r', rfl, he'⟩
          · cases hm
            rw [kept_nil, hcap]; omega
          · rw [kept_snoc, hcap' a m r' he', hpr]
            have := hsp a m r' he'
            omega
      · rename_i h0
        have key : ∀ k', k' = k + (b.items.length + 1 - b.cap) → ∀ a m r, cs ++ [.push m0] = a ++ .push m :: r →
            (k' ≤ (pushed a).length ↔ Kept c a m r) := by
          intro k' hk' a m r he
          rcases snoc_split he with ⟨rfl, rfl, hm⟩ | ⟨r', rfl, he'⟩
          · cases hm
            rw [kept_nil, hcap]; omega
          · rw [kept_snoc, ← hs a m r' he', hcap' a m r' he', hpr]
            have := hsp a m r' he'
            omega
        split
        · rename_i hfull
          refine ⟨by rw [hcap], by simp; omega, k + 1, by rw [hp]; simp; omega, ?_, key _ (by omega)⟩
          rw [hp, List.drop_append_of_le_length (by omega)]
          simp only [hi, List.drop_drop]
        · rename_i hfull
          refine ⟨by rw [hcap], by simp; omega, k, by rw [hp]; simp; omega, ?_, key _ (by omega)⟩
          rw [hp, List.drop_append_of_le_length hk, ← hi]

/-! ### threads -/

theorem concRun_snoc (c : Nat) (ss : List Step) (x : Step) : concRun c (ss ++ [x]) = (concRun c ss).step x := by
  simp [concRun, List.foldl_append]

structure ConcOk (c : Nat) (s : Conc) : Prop where
  cap : s.cap = c
  len : s.items.length ≤ c
  fine : s.broken = false
  pcs : ∀ t, s.pc t = .idle ∨ ∃ m, s.pc t = .pushing m ∧ c ≠ 0

theorem concOk (c : Nat) (ss : List Step) (h : ∀ x ∈ ss, isPush x) : ConcOk c (concRun c ss) := by
  induction ss using snoc_ind with
  | h0 => exact ⟨rfl, Nat.zero_le _, rfl, fun _ => .inl rfl⟩
  | h1 ss x ih =>
    rw [concRun_snoc]
    have ih := ih fun y hy => h y (by simp [hy])
    have hx := h x (by simp)
    generalize concRun c ss = s at ih
    cases x with
    | pushTest t m =>
      simp only [Conc.step]
      split
      · rename_i hc
        refine ⟨ih.cap, ih.len, ih.fine, fun u => ?_⟩
        simp only [Conc.at]
        split
        · exact .inr ⟨m, rfl, by rw [← ih.cap]; exact hc.2⟩
        · exact ih.pcs u
      · exact ih
    | pushRest t =>
      simp only [Conc.step]
      have pcs : ∀ u, (s.at t .idle).pc u = .idle ∨ ∃ m, (s.at t .idle).pc u = .pushing m ∧ c ≠ 0 := by
        intro u
        simp only [Conc.at]
        split
        · exact .inl rfl
        · exact ih.pcs u
      have hl := ih.len
      have hcap := ih.cap
      split
      · rename_i m hpc
        have h0 : c ≠ 0 := by
          rcases ih.pcs t with h | ⟨m', h, h'⟩
          · rw [h] at hpc; cases hpc
          · exact h'
        split
        · rename_i he
          have he : s.items.length = s.cap := he
          refine ⟨hcap, ?_, ?_, pcs⟩
          · simp only [Conc.at, List.length_append, List.length_drop, List.length_cons, List.length_nil]
            omega
          · have : s.items.isEmpty = false := by
              cases hi : s.items with
              | nil => rw [hi] at he; simp at he; omega
              | cons => rfl
            simp only [Conc.at, this, ih.fine, Bool.or_self]
        · rename_i he
          have he : ¬ s.items.length = s.cap := he
          refine ⟨hcap, ?_, ih.fine, pcs⟩
          simp only [Conc.at, List.length_append, List.length_cons, List.length_nil]
          omega
      · exact ih
    | _ => exact hx.elim

theorem race_grow (s : Conc) (hp : s.pc 0 = .idle) (h0 : s.cap ≠ 0) (hl : s.cap < s.items.length) (n : Nat) :
    ∃ ss : List Step, (ss.foldl Conc.step s).cap = s.cap ∧ (ss.foldl Conc.step s).pc 0 = .idle ∧
      (ss.foldl Conc.step s).items.length = s.items.length + n := by
  induction n with
  | zero => exact ⟨[], rfl, hp, rfl⟩
  | succ k ihk =>
    obtain ⟨ss, e1, e2, e3⟩ := ihk
    refine ⟨ss ++ [.pushTest 0 0, .pushRest 0], ?_⟩
    rw [List.foldl_append]
    generalize ss.foldl Conc.step s = u at e1 e2 e3
    have hu : u.cap ≠ 0 := by omega
    have hne : ¬ u.items.length = u.cap := by omega
    have h0' : ¬ s.cap = 0 := h0
    simp [Conc.step, e2, Conc.at, e1, e3, h0']
    have : ¬ s.items.length + k = s.cap := by omega
    simp [this, e3, e1]
    omega

end Logs
end Verif
