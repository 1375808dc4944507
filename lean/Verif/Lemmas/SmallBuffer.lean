import Verif.Model.SmallBuffer
/-! # Lemmas about buffers and their memory -/
namespace Verif
namespace SB
namespace World

/-! ## Byte lists -/

theorem over_length (l : List Byte) (off : Nat) (d : List Byte) (h : off + d.length ≤ l.length) :
    (over l off d).length = l.length := by
  simp [over]; omega

theorem over_take (l : List Byte) (off : Nat) (d : List Byte) (h : off + d.length ≤ l.length) :
    (over l off d).take (off + d.length) = l.take off ++ d := by
  have : (l.take off ++ d).length = off + d.length := by simp; omega
  rw [over, List.take_append_of_le_length (by omega), ← this, List.take_length]

theorem over_take_lt (l : List Byte) (off : Nat) (d : List Byte) (n : Nat) (h : off + d.length ≤ l.length) (hn : n ≤ off) :
    (over l off d).take n = l.take n := by
  rw [over, List.append_assoc, List.take_append_of_le_length (by simp; omega), List.take_take, Nat.min_eq_left hn]

theorem over_mid (l : List Byte) (off : Nat) (d : List Byte) (h : off + d.length ≤ l.length) :
    ((over l off d).drop off).take d.length = d := by
  have h1 : (l.take off).length = off := by simp; omega
  rw [over, List.append_assoc]
  conv => lhs; arg 2; arg 1; rw [← h1]
  rw [List.drop_left, List.take_left]

/-! ## The invariant -/

/-- A buffer object and its memory fit together. -/
def BufOk (w : World) (b : Nat) (s : Buf) : Prop :=
  s.store.length = 64 ∧ s.size ≤ s.cap ∧
    ((s.alloc = false ∧ s.ptr = .inl b ∧ s.cap = 64) ∨
     (s.alloc = true ∧ ∃ n l, s.ptr = .blk n ∧ w.blk n = some l ∧ s.cap ≤ l.length))

structure WF (w : World) : Prop where
  ok : ∀ b s, w.buf b = some s → BufOk w b s
  sep : ∀ b c s t n, b ≠ c → w.buf b = some s → w.buf c = some t → s.ptr = .blk n → t.ptr ≠ .blk n
  fresh : ∀ n, w.fresh ≤ n → w.blk n = none

/-- Block `n` is alive and no buffer will give it back. -/
def Loose (w : World) (n : Nat) : Prop :=
  (w.blk n).isSome = true ∧ ∀ b s, w.buf b = some s → s.ptr = .blk n → s.nonOwning = true

theorem WF.region {w : World} (h : w.WF) {b s} (hb : w.buf b = some s) :
    ∃ l, w.region s.ptr = some l ∧ s.cap ≤ l.length := by
  obtain ⟨h1, h2, h3 | ⟨_, n, l, h4, h5, h6⟩⟩ := h.ok b s hb
  · exact ⟨s.store, by simp [World.region, h3.2.1, hb], by omega⟩
  · exact ⟨l, by simp [World.region, h4, h5], h6⟩

theorem WF.view {w : World} (h : w.WF) {b s} (hb : w.buf b = some s) {l} (hl : w.region s.ptr = some l) :
    w.view b = some (l.take s.size) := by
  obtain ⟨l', h1, h2⟩ := h.region hb
  rw [hl] at h1; cases h1
  have := (h.ok b s hb).2.1
  simp only [World.view, hb, World.read, hl]
  rw [if_pos (by omega)]; simp

/-- The buffers outside `S`, and what they hold, are untouched. -/
structure Keep (S : Nat → Prop) (w w' : World) : Prop where
  buf : ∀ k, ¬ S k → w'.buf k = w.buf k
  mem : ∀ k t, ¬ S k → w.buf k = some t → w'.region t.ptr = w.region t.ptr
  wf : w'.WF

theorem Keep.view {S w w'} (h : Keep S w w') {k} (hk : ¬ S k) : w'.view k = w.view k := by
  unfold World.view
  rw [h.buf k hk]
  cases hb : w.buf k with
  | none => rfl
  | some t => simp only [World.read]; rw [h.mem k t hk hb]

theorem Keep.trans {S w w' w''} (h : Keep S w w') (h' : Keep S w' w'') : Keep S w w'' :=
  ⟨fun k hk => (h'.buf k hk).trans (h.buf k hk),
   fun k t hk hb => (h'.mem k t hk (by rw [h.buf k hk]; exact hb)).trans (h.mem k t hk hb), h'.wf⟩

theorem Keep.refl {S} {w : World} (h : w.WF) : Keep S w w := ⟨fun _ _ => rfl, fun _ _ _ _ => rfl, h⟩

/-! ## Primitive steps -/

/-- A step that touches only the buffers of `S` and the blocks no other buffer uses. -/
theorem keep_of {S : Nat → Prop} {w w' : World} (h : w.WF)
    (hbuf : ∀ k, ¬ S k → w'.buf k = w.buf k)
    (hnew : ∀ k s, S k → w'.buf k = some s → BufOk w' k s ∧
      ∀ n, s.ptr = .blk n → ∀ c t, c ≠ k → w'.buf c = some t → t.ptr ≠ .blk n)
    (hblk : ∀ k t m, ¬ S k → w.buf k = some t → t.ptr = .blk m → w'.blk m = w.blk m)
    (hfresh : ∀ n, w'.fresh ≤ n → w'.blk n = none) : Keep S w w' := by
  refine ⟨hbuf, ?_, ?_, ?_, hfresh⟩
  · intro k t hk ht
    cases hp : t.ptr with
    | blk m => exact hblk k t m hk ht hp
    | inl c =>
      obtain ⟨_, _, h8 | ⟨_, n, _, h9, _⟩⟩ := h.ok k t ht
      · have : c = k := by have := h8.2.1; rw [hp] at this; cases this; rfl
        subst this
        simp [World.region, hbuf c hk]
      · rw [hp] at h9; cases h9
  · intro k t ht
    by_cases hk : S k
    · exact (hnew k t hk ht).1
    · rw [hbuf k hk] at ht
      obtain ⟨g1, g2, g3⟩ := h.ok k t ht
      refine ⟨g1, g2, g3.imp id ?_⟩
      rintro ⟨g4, m, lm, g5, g6, g7⟩
      exact ⟨g4, m, lm, g5, (hblk k t m hk ht g5).trans g6, g7⟩
  · intro b c s t n hbc hb hc hp hq
    by_cases h1 : S b
    · exact (hnew b s h1 hb).2 n hp c t (fun e => hbc e.symm) hc hq
    · by_cases h2 : S c
      · exact (hnew c t h2 hc).2 n hq b s hbc hb hp
      · exact h.sep b c s t n hbc (by rw [← hbuf b h1]; exact hb) (by rw [← hbuf c h2]; exact hc) hp hq

/-- As `keep_of`, for one buffer. -/
theorem keep_one {b : Nat} {w w' : World} (h : w.WF) (s' : Option Buf)
    (hbuf : ∀ k, w'.buf k = if k = b then s' else w.buf k)
    (hnew : ∀ s, s' = some s → BufOk w' b s)
    (hnb : ∀ s n k t, s' = some s → s.ptr = .blk n → k ≠ b → w.buf k = some t → t.ptr ≠ .blk n)
    (hblk : ∀ k t m, k ≠ b → w.buf k = some t → t.ptr = .blk m → w'.blk m = w.blk m)
    (hfresh : ∀ n, w'.fresh ≤ n → w'.blk n = none) : Keep (· = b) w w' := by
  refine keep_of h (fun k hk => by rw [hbuf, if_neg hk]) ?_ hblk hfresh
  rintro k s rfl hs
  rw [hbuf, if_pos rfl] at hs
  refine ⟨hnew s hs, fun n hn c t hc ht => ?_⟩
  rw [hbuf, if_neg hc] at ht
  exact hnb s n c t hs hn hc ht

/-- Looseness depends only on which blocks live and on where the buffers point. -/
theorem loose_congr {w w' : World} {n : Nat} (h1 : (w'.blk n).isSome = (w.blk n).isSome)
    (h2 : ∀ k, (∀ s, w.buf k = some s → s.ptr = .blk n → s.nonOwning = true) ↔
      (∀ s, w'.buf k = some s → s.ptr = .blk n → s.nonOwning = true)) : Loose w' n ↔ Loose w n := by
  unfold Loose
  rw [h1]
  exact and_congr Iff.rfl ⟨fun g k => (h2 k).mpr (g k), fun g k => (h2 k).mp (g k)⟩

/-- Writing inside the memory of a buffer. -/
theorem write_ok {w : World} (h : w.WF) {b s} (hb : w.buf b = some s) {l} (hl : w.region s.ptr = some l) {off : Nat}
    {d : List Byte} (hd : off + d.length ≤ s.cap) :
    ∃ w' st, w.write s.ptr off d = some w' ∧ Keep (· = b) w w' ∧ w'.buf b = some { s with store := st } ∧
      w'.region s.ptr = some (over l off d) ∧ (∀ n, Loose w' n ↔ Loose w n) := by
  obtain ⟨h1, h2, h3⟩ := h.ok b s hb
  rcases h3 with ⟨h3, h4, h5⟩ | ⟨h3, n, l', h4, h5, h6⟩
  · have hl' : l = s.store := by simpa [World.region, h4, hb] using hl.symm
    subst hl'
    have hov := over_length s.store off d (by omega)
    refine ⟨w.setBuf b (some { s with store := over s.store off d }), over s.store off d, ?_, ?_, ?_, ?_, ?_⟩
    · simp only [World.write, h4, hb]; rw [if_pos (by omega)]
    · refine keep_one h _ (fun k => rfl) ?_ ?_ (fun _ _ _ _ _ _ => rfl) h.fresh
      · intro t ht; cases ht; exact ⟨hov.trans h1, h2, .inl ⟨h3, h4, h5⟩⟩
      · intro t n k t' ht hp; cases ht; simp [h4] at hp
    · simp [World.setBuf]
    · simp [World.region, h4, World.setBuf]
    · intro n
      refine loose_congr rfl fun k => ?_
      by_cases e : k = b
      · subst e; simp [World.setBuf, hb, h4]
      · simp [World.setBuf, e]
  · have hl' : l = l' := by simpa [World.region, h4, h5] using hl.symm
    subst hl'
    have hov := over_length l off d (by omega)
    refine ⟨w.setBlk n (some (over l off d)), s.store, ?_, ?_, hb, ?_, ?_⟩
    · simp only [World.write, h4, h5]; rw [if_pos (by omega)]
    · refine keep_one h (some s) (fun k => ?_) ?_ ?_ ?_ ?_
      · split
        · next e => subst e; exact hb
        · rfl
      · intro t ht; cases ht
        exact ⟨h1, h2, .inr ⟨h3, n, over l off d, h4, by simp [World.setBlk], by omega⟩⟩
      · intro t m k t' ht hp hk hk'; cases ht; exact h.sep b k s t' m (fun e => hk e.symm) hb hk' hp
      · intro k t m hk ht hp
        have : m ≠ n := fun e => h.sep b k s t n (fun e => hk e.symm) hb ht h4 (by rw [hp, e])
        simp [World.setBlk, this]
      · intro k hk
        have e : k ≠ n := fun e => by subst e; rw [h.fresh k hk] at h5; cases h5
        simp only [World.setBlk, if_neg e]; exact h.fresh k hk
    · simp [World.region, h4, World.setBlk]
    · intro k
      refine loose_congr ?_ fun _ => Iff.rfl
      by_cases e : k = n
      · subst e; simp [World.setBlk, h5]
      · simp [World.setBlk, e]

/-- Changing fields of a buffer that say nothing about its memory. -/
theorem setBuf_ok {w : World} (h : w.WF) {b s} (hb : w.buf b = some s) {s' : Buf} (h1 : s'.store = s.store)
    (h2 : s'.size ≤ s.cap) (h3 : s'.cap = s.cap) (h4 : s'.ptr = s.ptr) (h5 : s'.nonOwning = s.nonOwning)
    (h6 : s'.alloc = s.alloc) :
    Keep (· = b) w (w.setBuf b (some s')) ∧ (∀ p, (w.setBuf b (some s')).region p = w.region p) ∧
      (∀ n, Loose (w.setBuf b (some s')) n ↔ Loose w n) := by
  obtain ⟨g1, g2, g3⟩ := h.ok b s hb
  refine ⟨keep_one h _ (fun k => rfl) ?_ ?_ (fun _ _ _ _ _ _ => rfl) h.fresh, ?_, ?_⟩
  · intro t ht; cases ht
    unfold BufOk
    rw [h1, h3, h4, h6]
    exact ⟨g1, h2, g3⟩
  · intro t m k t' ht hp hk hk'; cases ht; exact h.sep b k s t' m (fun e => hk e.symm) hb hk' (h4 ▸ hp)
  · intro p; cases p with
    | blk m => rfl
    | inl c => by_cases e : c = b
               · subst e; simp [World.region, World.setBuf, hb, h1]
               · simp [World.region, World.setBuf, e]
  · intro n
    refine loose_congr rfl fun k => ?_
    by_cases e : k = b
    · subst e; simp [World.setBuf, hb, h4, h5]
    · simp [World.setBuf, e]

theorem setSize_ok {w : World} (h : w.WF) {b s} (hb : w.buf b = some s) {n : Nat} (hn : n ≤ s.cap) :
    ∃ w', w.setSize b n = .done w' ∧ Keep (· = b) w w' ∧ w'.buf b = some { s with size := n } ∧
      w'.region s.ptr = w.region s.ptr ∧ (∀ n, Loose w' n ↔ Loose w n) := by
  obtain ⟨g1, g2, g3⟩ := setBuf_ok h hb (s' := { s with size := n }) rfl hn rfl rfl rfl rfl
  exact ⟨_, by simp [World.setSize, hb], g1, by simp [World.setBuf], g2 _, g3⟩

/-- `delete[]` of the memory a buffer owns, the buffer itself being replaced at once. -/
theorem drop_ok {w : World} (h : w.WF) {b s} (hb : w.buf b = some s) :
    ∃ w', w.drop s = .done w' ∧ w'.buf = w.buf ∧ w'.fresh = w.fresh ∧ w'.junk = w.junk ∧
      ∀ n, w'.blk n = if s.alloc = true ∧ s.nonOwning = false ∧ s.ptr = .blk n then none else w.blk n := by
  obtain ⟨h1, h2, h3⟩ := h.ok b s hb
  unfold World.drop
  by_cases e : s.alloc = true ∧ s.nonOwning = false
  · rcases h3 with ⟨h3, h4, h5⟩ | ⟨h3, n, l', h4, h5, h6⟩
    · rw [h3] at e; cases e.1
    · rw [if_pos (by simp [e.1, e.2])]
      refine ⟨w.setBlk n none, by simp [World.delete, h4, h5], rfl, rfl, rfl, fun k => ?_⟩
      by_cases ek : k = n
      · subst ek; simp [World.setBlk, h4, e.1, e.2]
      · have : ¬ n = k := fun e => ek e.symm
        simp [World.setBlk, h4, this, ek]
  · rw [if_neg (by cases ha : s.alloc <;> cases hn : s.nonOwning <;> simp_all)]
    refine ⟨w, rfl, rfl, rfl, rfl, fun n => ?_⟩
    rw [if_neg (fun g => e ⟨g.1, g.2.1⟩)]

/-- The refusal of `reserve`. -/
def TooBig (s : Buf) (n : Nat) : Prop := s.cap < n ∧ (bigSize < n ∨ s.locked = true)

theorem reserve_no {w : World} {b s n} (hb : w.buf b = some s) (hn : TooBig s n) : w.reserve b n = .threw w := by
  simp only [World.reserve, hb]
  rw [if_neg (by have := hn.1; omega), if_pos hn.2]

theorem reserve_ok {w : World} (h : w.WF) {b s} (hb : w.buf b = some s) {l} (hl : w.region s.ptr = some l) {n : Nat}
    (hn : ¬ TooBig s n) :
    ∃ w' s' l', w.reserve b n = .done w' ∧ Keep (· = b) w w' ∧ w'.buf b = some s' ∧ w'.region s'.ptr = some l' ∧
      l'.take s.size = l.take s.size ∧ s'.size = s.size ∧ n ≤ s'.cap ∧ s.cap ≤ s'.cap ∧ s'.locked = s.locked ∧
      (s'.cap = s.cap ∨ s'.cap = n + 8) ∧ (∀ n, Loose w' n ↔ Loose w n) := by
  obtain ⟨h1, h2, h3⟩ := h.ok b s hb
  simp only [World.reserve, hb]
  by_cases hc : n ≤ s.cap
  · rw [if_pos hc]
    exact ⟨w, s, l, rfl, Keep.refl h, hb, hl, rfl, rfl, hc, Nat.le_refl _, rfl, .inl rfl, fun _ => Iff.rfl⟩
  rw [if_neg hc]
  have hn' : ¬ (bigSize < n ∨ s.locked = true) := fun g => hn ⟨by omega, g⟩
  rw [if_neg hn']
  obtain ⟨l1, hl1, hcap⟩ := h.region hb
  rw [hl] at hl1; cases hl1
  have hdead : w.blk w.fresh = none := h.fresh _ (Nat.le_refl _)
  have hnf : s.ptr ≠ .blk w.fresh := by
    intro e
    rcases h3 with ⟨_, h4, _⟩ | ⟨_, m, lm, h4, h5, _⟩
    · rw [e] at h4; cases h4
    · rw [e] at h4; cases h4; rw [hdead] at h5; cases h5
  generalize hj : ((List.range (n + 8)).map (w.junk w.fresh)) = junk
  have hjl : junk.length = n + 8 := by rw [← hj]; simp
  -- the copy
  have hcopy : ∃ l', ({ w.setBlk w.fresh (some junk) with fresh := w.fresh + 1 } : World).memcpy (.blk w.fresh) 0 s.ptr 0 s.size
      = .done { w.setBlk w.fresh (some l') with fresh := w.fresh + 1 } ∧ l'.length = n + 8 ∧
        l'.take s.size = l.take s.size := by
    unfold World.memcpy
    by_cases h0 : s.size = 0
    · exact ⟨junk, by rw [if_pos h0], hjl, by simp [h0]⟩
    rw [if_neg h0, if_neg (fun g => hnf g.1.symm)]
    have hr : ({ w.setBlk w.fresh (some junk) with fresh := w.fresh + 1 } : World).region s.ptr = some l := by
      cases hp : s.ptr with
      | inl c => rw [← hl, hp]; rfl
      | blk m =>
        have : m ≠ w.fresh := fun e => hnf (by rw [hp, e])
        rw [← hl, hp]; simp [World.region, World.setBlk, this]
    have hread : ({ w.setBlk w.fresh (some junk) with fresh := w.fresh + 1 } : World).read s.ptr 0 s.size = some (l.take s.size) := by
      simp only [World.read, hr]; rw [if_pos (by omega)]; simp
    rw [hread]
    have hlen : (l.take s.size).length = s.size := by simp; omega
    refine ⟨over junk 0 (l.take s.size), ?_, ?_, ?_⟩
    · simp only [World.write, World.setBlk, if_pos, hlen]
      rw [if_pos (by omega)]
      simp only
      congr 2
      funext k
      split <;> rfl
    · rw [over_length _ _ _ (by omega), hjl]
    · have := over_take junk 0 (l.take s.size) (by omega)
      rw [hlen] at this; simpa using this
  obtain ⟨l', hc1, hc2, hc3⟩ := hcopy
  rw [hc1]
  simp only [Out.bind]
  -- the deletion
  have hdrop : ∃ w3, World.drop { w.setBlk w.fresh (some l') with fresh := w.fresh + 1 } s = .done w3 ∧ w3.buf = w.buf ∧
      w3.fresh = w.fresh + 1 ∧ ∀ k, w3.blk k = if k = w.fresh then some l' else
        if s.alloc = true ∧ s.nonOwning = false ∧ s.ptr = .blk k then none else w.blk k := by
    obtain ⟨w0, d1, d2, d3, d4, d5⟩ := drop_ok h hb
    unfold World.drop at d1 ⊢
    by_cases e : (s.alloc && !s.nonOwning) = true
    · rw [if_pos e] at d1 ⊢
      simp only [Bool.and_eq_true, Bool.not_eq_true'] at e
      cases hp : s.ptr with
      | inl c => rw [hp] at d1; cases d1
      | blk m =>
        have hm : m ≠ w.fresh := fun e => hnf (by rw [hp, e])
        rw [hp] at d1
        simp only [World.delete, World.setBlk, if_neg hm] at d1 ⊢
        by_cases hs : (w.blk m).isSome = true
        · rw [if_pos hs]
          refine ⟨_, rfl, rfl, rfl, fun k => ?_⟩
          simp only
          by_cases ek : k = m
          · subst ek; simp [e.1, e.2, hm]
          · have : ¬ m = k := fun e => ek e.symm
            simp [ek, this]
        · rw [if_neg hs] at d1; cases d1
    · rw [if_neg e]
      refine ⟨_, rfl, rfl, rfl, fun k => ?_⟩
      have : ¬ (s.alloc = true ∧ s.nonOwning = false ∧ s.ptr = .blk k) := by
        intro g; apply e; simp [g.1, g.2.1]
      rw [if_neg this]; rfl
  obtain ⟨w3, d1, d2, d3, d4⟩ := hdrop
  rw [d1]
  simp only
  refine ⟨_, { s with ptr := .blk w.fresh, nonOwning := false, alloc := true, cap := n + 8 }, l', rfl, ?_,
    by simp [World.setBuf], ?_, hc3, rfl, by simp only; omega, by simp only; omega, rfl, .inr rfl, ?_⟩
  · refine keep_one h _ (fun k => by simp only [World.setBuf, d2]; rfl) ?_ ?_ ?_ ?_
    · intro t ht; cases ht
      exact ⟨h1, by simp only; omega, .inr ⟨rfl, w.fresh, l', rfl, by simp [World.setBuf, d4], by simp only; omega⟩⟩
    · intro t m k t' ht hp hk hk' hp'; cases ht; cases hp
      obtain ⟨_, _, g | ⟨_, m, lm, g1, g2, _⟩⟩ := h.ok k t' hk'
      · rw [hp'] at g; cases g.2.1
      · rw [hp'] at g1; cases g1; rw [hdead] at g2; cases g2
    · intro k t m hk ht hp
      have e1 : m ≠ w.fresh := by
        rintro rfl
        obtain ⟨_, _, g | ⟨_, m, lm, g1, g2, _⟩⟩ := h.ok k t ht
        · rw [hp] at g; cases g.2.1
        · rw [hp] at g1; cases g1; rw [hdead] at g2; cases g2
      have e2 : s.ptr ≠ .blk m := fun e => h.sep b k s t m (fun e => hk e.symm) hb ht e hp
      simp [World.setBuf, d4, e1, e2]
    · intro m hm
      have : w.fresh + 1 ≤ m := by rw [← d3]; exact hm
      have e1 : m ≠ w.fresh := by omega
      simp [World.setBuf, d4, e1, h.fresh m (by omega)]
  · simp [World.region, World.setBuf, d4]
  · intro m
    by_cases em : m = w.fresh
    · subst em
      constructor
      · intro g
        have := g.2 b _ (by simp only [World.setBuf, if_pos]; rfl) rfl
        cases this
      · intro g; have := g.1; rw [hdead] at this; cases this
    · by_cases eo : s.alloc = true ∧ s.nonOwning = false ∧ s.ptr = .blk m
      · constructor
        · intro g
          have := g.1
          simp [World.setBuf, d4, em, eo] at this
        · intro g
          have := g.2 b s hb eo.2.2
          rw [eo.2.1] at this; cases this
      · refine loose_congr ?_ fun k => ?_
        · simp only [World.setBuf, d4, if_neg em, if_neg eo]
        · by_cases e : k = b
          · subst e
            simp only [World.setBuf, if_pos, hb]
            have : ¬ w.fresh = m := fun e => em e.symm
            constructor
            · intro _ t ht hp; cases ht; cases hp; exact absurd rfl em
            · intro _ t ht hp; cases ht
              rcases h3 with ⟨_, h4, _⟩ | ⟨ha, _⟩
              · rw [hp] at h4; cases h4
              · cases hno : s.nonOwning
                · exact absurd ⟨ha, hno, hp⟩ eo
                · rfl
          · simp [World.setBuf, e, d2]

/-! ## Calls on one buffer -/

theorem resize_no {w : World} {b s n} (hb : w.buf b = some s) (hn : TooBig s n) : w.resize b n = .threw w := by
  simp only [World.resize, reserve_no hb hn, Out.bind]

theorem resize_ok {w : World} (h : w.WF) {b s} (hb : w.buf b = some s) {l} (hl : w.region s.ptr = some l) {n : Nat}
    (hn : ¬ TooBig s n) :
    ∃ w' s' l', w.resize b n = .done w' ∧ Keep (· = b) w w' ∧ w'.buf b = some s' ∧ w'.region s'.ptr = some l' ∧
      l'.take s.size = l.take s.size ∧ s'.size = n ∧ n ≤ s'.cap ∧ s.cap ≤ s'.cap ∧ (∀ n, Loose w' n ↔ Loose w n) := by
  obtain ⟨w1, s1, l1, r1, r2, r3, r4, r5, r6, r7, r8, r9, r10, r11⟩ := reserve_ok h hb hl hn
  obtain ⟨w2, q1, q2, q3, q4, q5⟩ := setSize_ok r2.wf r3 r7
  refine ⟨w2, { s1 with size := n }, l1, ?_, r2.trans q2, q3, by rw [← r4]; exact q4, r5, rfl, r7, r8, fun n => (q5 n).trans (r11 n)⟩
  simp only [World.resize, r1, Out.bind, q1]

/-- The bytes `d` of an argument are where its pointer leads, outside the memory of `b`. -/
def ArgOk (w : World) (b : Nat) (p : List Byte ⊕ (Ptr × Nat)) (d : List Byte) : Prop :=
  p = .inl d ∨ ∃ c t off lt, c ≠ b ∧ p = .inr (t.ptr, off) ∧ w.buf c = some t ∧ w.region t.ptr = some lt ∧
    off + d.length ≤ lt.length ∧ d = (lt.drop off).take d.length

theorem ArgOk.keep {w w' : World} {b p d} (h : ArgOk w b p d) (hk : Keep (· = b) w w') : ArgOk w' b p d := by
  rcases h with h | ⟨c, t, off, lt, h1, h2, h3, h4, h5, h6⟩
  · exact .inl h
  · exact .inr ⟨c, t, off, lt, h1, h2, by rw [hk.buf c h1, h3], by rw [hk.mem c t h1 h3, h4], h5, h6⟩

theorem WF.apart {w : World} (h : w.WF) {b c s t} (hbc : b ≠ c) (hb : w.buf b = some s) (hc : w.buf c = some t) :
    s.ptr ≠ t.ptr := by
  intro e
  obtain ⟨_, _, h1 | ⟨_, n, _, h1, _⟩⟩ := h.ok b s hb
  · obtain ⟨_, _, h2 | ⟨_, n, _, h2, _⟩⟩ := h.ok c t hc
    · rw [h1.2.1, h2.2.1] at e; cases e; exact hbc rfl
    · rw [h1.2.1, h2] at e; cases e
  · exact h.sep b c s t n hbc hb hc h1 (by rw [← e, h1])

theorem copyIn_ok {w : World} (h : w.WF) {b s} (hb : w.buf b = some s) {l} (hl : w.region s.ptr = some l) {off : Nat}
    {p d} (hp : ArgOk w b p d) (hd : off + d.length ≤ s.cap) :
    ∃ w' st, w.copyIn b off p d.length = .done w' ∧ Keep (· = b) w w' ∧ w'.buf b = some { s with store := st } ∧
      w'.region s.ptr = some (over l off d) ∧ (∀ n, Loose w' n ↔ Loose w n) := by
  obtain ⟨w', st, q1, q2⟩ := write_ok h hb hl hd
  simp only [World.copyIn, hb]
  rcases hp with rfl | ⟨c, t, o, lt, h1, rfl, h3, h4, h5, h6⟩
  · refine ⟨w', st, ?_, q2⟩
    simp only [q1]
  · simp only [World.memcpy]
    by_cases h0 : d.length = 0
    · have : d = [] := List.eq_nil_of_length_eq_zero h0
      subst this
      refine ⟨w, s.store, by simp, Keep.refl h, hb, ?_, fun _ => Iff.rfl⟩
      rw [hl]; simp [over]
    · rw [if_neg h0, if_neg (fun g => h.apart (fun e => h1 e.symm) hb h3 g.1)]
      refine ⟨w', st, ?_, q2⟩
      simp only [World.read, h4]
      rw [if_pos h5, ← h6]
      simp only [q1]

theorem assignTo_ok {w : World} (h : w.WF) {b s} (hb : w.buf b = some s) {p d} (hp : ArgOk w b p d) (hn : ¬ TooBig s d.length) :
    ∃ w', ((w.resize b d.length).bind fun w => w.copyIn b 0 p d.length) = .done w' ∧ Keep (· = b) w w' ∧
      w'.view b = some d ∧ (∀ n, Loose w' n ↔ Loose w n) := by
  obtain ⟨l, hl, hcap⟩ := h.region hb
  obtain ⟨w1, s1, l1, r1, r2, r3, r4, r5, r6, r7, r8, r9⟩ := resize_ok h hb hl hn
  obtain ⟨w2, st, q1, q2, q3, q4, q5⟩ := copyIn_ok r2.wf r3 r4 (hp.keep r2) (off := 0) (by omega)
  refine ⟨w2, by simp only [r1, Out.bind, q1], r2.trans q2, ?_, fun n => (q5 n).trans (r9 n)⟩
  rw [q2.wf.view q3 q4]
  obtain ⟨l2, e1, e2⟩ := r2.wf.region r3
  rw [r4] at e1; cases e1
  have := over_take l1 0 d (by omega)
  simp only [r6]
  simpa using this

/-- The bytes an argument denotes. -/
def srcBytes (w : World) : Src → Option (List Byte)
  | .bytes l => some l
  | .part c off len => match w.view c with
    | none => none
    | some v => if off + len ≤ v.length then some ((v.drop off).take len) else none

theorem arg_ok {w : World} (h : w.WF) {b} {src : Src} {d} (hs : w.srcBytes src = some d)
    (hb : ∀ c off len, src = .part c off len → c ≠ b) :
    ∃ p, w.srcPtr src = some p ∧ ArgOk w b p d ∧ src.len = d.length := by
  cases src with
  | bytes l => cases hs; exact ⟨_, rfl, .inl rfl, rfl⟩
  | part c off len =>
    simp only [World.srcBytes] at hs
    have hv : w.view c = (w.view c) := rfl
    cases hc : w.buf c with
    | none => simp [World.view, hc] at hs
    | some t =>
      obtain ⟨lt, hlt, hcap⟩ := h.region hc
      rw [h.view hc hlt] at hs
      simp only at hs
      split at hs
      · next hle =>
        cases hs
        have hts := (h.ok c t hc).2.1
        have : (lt.take t.size).length = t.size := by simp; omega
        rw [this] at hle
        have hlen : ((List.drop off (lt.take t.size)).take len).length = len := by simp; omega
        refine ⟨_, by simp [World.srcPtr, hc], .inr ⟨c, t, off, lt, hb c off len rfl, rfl, hc, hlt, by omega, ?_⟩, hlen.symm⟩
        rw [hlen, List.drop_take, List.take_take, Nat.min_eq_left (by omega)]
      · cases hs

theorem assign_ok {w : World} (h : w.WF) {b s} (hb : w.buf b = some s) {src d} (hs : w.srcBytes src = some d)
    (hne : ∀ c off len, src = .part c off len → c ≠ b) (hn : ¬ TooBig s d.length) :
    ∃ w', w.assign b src = .done w' ∧ Keep (· = b) w w' ∧ w'.view b = some d ∧ (∀ n, Loose w' n ↔ Loose w n) := by
  obtain ⟨p, hp1, hp2, hp3⟩ := arg_ok h hs hne
  obtain ⟨w', q⟩ := assignTo_ok h hb hp2 hn
  refine ⟨w', ?_⟩
  simp only [World.assign, hp1, hp3]
  exact q

theorem assign_no {w : World} (h : w.WF) {b s} (hb : w.buf b = some s) {src d} (hs : w.srcBytes src = some d)
    (hne : ∀ c off len, src = .part c off len → c ≠ b) (hn : TooBig s d.length) : w.assign b src = .threw w := by
  obtain ⟨p, hp1, hp2, hp3⟩ := arg_ok h hs hne
  simp only [World.assign, hp1, hp3, resize_no hb hn, Out.bind]

theorem append_ok {w : World} (h : w.WF) {b s} (hb : w.buf b = some s) {src d v} (hs : w.srcBytes src = some d)
    (hv : w.view b = some v) (hne : ∀ c off len, src = .part c off len → c ≠ b) (hn : ¬ TooBig s (s.size + d.length)) :
    ∃ w', w.append b src = .done w' ∧ Keep (· = b) w w' ∧ w'.view b = some (v ++ d) ∧ (∀ n, Loose w' n ↔ Loose w n) ∧
      ∃ s', w'.buf b = some s' ∧ s'.size = s.size + d.length := by
  obtain ⟨p, hp1, hp2, hp3⟩ := arg_ok h hs hne
  obtain ⟨l, hl, hcap⟩ := h.region hb
  have hsz := (h.ok b s hb).2.1
  obtain ⟨w1, s1, l1, r1, r2, r3, r4, r5, r6, r7, r8, r9⟩ := resize_ok h hb hl hn
  obtain ⟨w2, st, q1, q2, q3, q4, q5⟩ := copyIn_ok r2.wf r3 r4 (hp2.keep r2) (off := s.size) (by omega)
  refine ⟨w2, ?_, r2.trans q2, ?_, fun n => (q5 n).trans (r9 n), _, q3, r6⟩
  · simp only [World.append, hp1, hb, hp3, r1, Out.bind, q1]
  · rw [q2.wf.view q3 q4]
    obtain ⟨l2, e1, e2⟩ := r2.wf.region r3
    rw [r4] at e1; cases e1
    rw [h.view hb hl] at hv; cases hv
    simp only [r6]
    rw [over_take l1 s.size d (by omega), r5]

theorem append_no {w : World} (h : w.WF) {b s} (hb : w.buf b = some s) {src d} (hs : w.srcBytes src = some d)
    (hne : ∀ c off len, src = .part c off len → c ≠ b) (hn : TooBig s (s.size + d.length)) : w.append b src = .threw w := by
  obtain ⟨p, hp1, hp2, hp3⟩ := arg_ok h hs hne
  simp only [World.append, hp1, hb, hp3, resize_no hb hn, Out.bind]

theorem assignView_ok {w : World} (h : w.WF) {b s} (hb : w.buf b = some s) {src d} (hs : w.srcBytes src = some d)
    (hne : ∀ c off len, src = .part c off len → c = b → off = 0) (hn : ¬ TooBig s d.length) :
    ∃ w', w.assignView b src = .done w' ∧ Keep (· = b) w w' ∧ w'.view b = some d ∧ (∀ n, Loose w' n ↔ Loose w n) := by
  by_cases hself : ∃ c off len, src = .part c off len ∧ c = b
  · obtain ⟨c, off, len, rfl, rfl⟩ := hself
    have := hne c off len rfl rfl; subst this
    obtain ⟨l, hl, hcap⟩ := h.region hb
    have hsz := (h.ok c s hb).2.1
    simp only [World.srcBytes, h.view hb hl] at hs
    split at hs
    · next hle =>
      cases hs
      have : (l.take s.size).length = s.size := by simp; omega
      rw [this] at hle
      obtain ⟨w', q1, q2, q3, q4, q5⟩ := setSize_ok h hb (n := len) (by omega)
      refine ⟨w', ?_, q2, ?_, q5⟩
      · simp only [World.assignView, World.srcPtr, hb, Option.map, Src.len]
        simp [q1]
      · rw [q2.wf.view q3 (q4.trans hl), List.drop_zero, List.take_take, Nat.min_eq_left (by omega)]
    · cases hs
  · have hne' : ∀ c off len, src = .part c off len → c ≠ b := fun c off len e1 e2 => hself ⟨c, off, len, e1, e2⟩
    obtain ⟨p, hp1, hp2, hp3⟩ := arg_ok h hs hne'
    obtain ⟨w', q⟩ := assignTo_ok h hb hp2 hn
    refine ⟨w', ?_⟩
    rw [World.assignView, hp1, hb]
    split
    · next q0 s0 heq heq2 =>
      cases heq; cases heq2
      rcases hp2 with e | ⟨c, t, off, lt, g1, g2, g3, _⟩
      · cases e
      · cases g2
        rw [if_neg (fun e => h.apart g1 g3 hb e), hp3]
        exact q
    · next _ heq heq2 => cases heq; cases heq2; rw [hp3]; exact q
    · next hx => exact (hx p s rfl rfl).elim

theorem assignView_no {w : World} (h : w.WF) {b s} (hb : w.buf b = some s) {src d} (hs : w.srcBytes src = some d)
    (hne : ∀ c off len, src = .part c off len → c ≠ b) (hn : TooBig s d.length) : w.assignView b src = .threw w := by
  obtain ⟨p, hp1, hp2, hp3⟩ := arg_ok h hs hne
  rw [World.assignView, hp1, hb]
  split
  · next q0 s0 heq heq2 =>
    cases heq; cases heq2
    rcases hp2 with e | ⟨c, t, off, lt, g1, g2, g3, _⟩
    · cases e
    · cases g2
      rw [if_neg (fun e => h.apart g1 g3 hb e), hp3, resize_no hb hn]; rfl
  · next _ heq heq2 => cases heq; cases heq2; rw [hp3, resize_no hb hn]; rfl
  · next hx => exact (hx p s rfl rfl).elim

theorem resizeWith_ok {w : World} (h : w.WF) {b s} (hb : w.buf b = some s) {v} (hv : w.view b = some v) {n : Nat} {x : Byte}
    (hn : ¬ TooBig s n) :
    ∃ w', w.resizeWith b n x = .done w' ∧ Keep (· = b) w w' ∧
      w'.view b = some (v.take n ++ List.replicate (n - v.length) x) ∧ (∀ n, Loose w' n ↔ Loose w n) := by
  obtain ⟨l, hl, hcap⟩ := h.region hb
  have hsz := (h.ok b s hb).2.1
  obtain ⟨w1, s1, l1, r1, r2, r3, r4, r5, r6, r7, r8, r9, r10, r11⟩ := reserve_ok h hb hl hn
  obtain ⟨l2, e1, e2⟩ := r2.wf.region r3
  rw [r4] at e1; cases e1
  rw [h.view hb hl] at hv; cases hv
  have hlen : (l.take s.size).length = s.size := by simp; omega
  simp only [World.resizeWith, r1, Out.bind, r3]
  by_cases hlt : s1.size < n
  · rw [if_pos hlt]
    obtain ⟨w2, st, q1, q2, q3, q4, q5⟩ := write_ok r2.wf r3 r4 (off := s1.size) (d := List.replicate (n - s1.size) x)
      (by simp; omega)
    obtain ⟨w3, p1, p2, p3, p4, p5⟩ := setSize_ok q2.wf q3 (n := n) r7
    simp only [q1]
    refine ⟨w3, p1, (r2.trans q2).trans p2, ?_, fun n => (p5 n).trans ((q5 n).trans (r11 n))⟩
    rw [p2.wf.view p3 (p4.trans q4)]
    have ho := over_take l1 s1.size (List.replicate (n - s1.size) x) (by simp; omega)
    rw [List.length_replicate, show s1.size + (n - s1.size) = n by omega] at ho
    simp only
    rw [ho, r6, r5, hlen, List.take_of_length_le (i := n) (by omega)]
  · rw [if_neg hlt]
    obtain ⟨w3, p1, p2, p3, p4, p5⟩ := setSize_ok r2.wf r3 (n := n) r7
    refine ⟨w3, p1, r2.trans p2, ?_, fun n => (p5 n).trans (r11 n)⟩
    rw [p2.wf.view p3 (p4.trans r4)]
    simp only
    rw [hlen, show n - s.size = 0 by omega]
    have hq := congrArg (List.take n) r5
    rw [List.take_take, Nat.min_eq_left (by omega)] at hq
    rw [hq]; simp

theorem resizeWith_no {w : World} {b s n x} (hb : w.buf b = some s) (hn : TooBig s n) : w.resizeWith b n x = .threw w := by
  simp only [World.resizeWith, reserve_no hb hn, Out.bind]

theorem construct_ok {w : World} (h : w.WF) {b} (hb : w.buf b = none) :
    Keep (· = b) w (w.construct b) ∧ (w.construct b).buf b = some { ptr := .inl b } ∧ (w.construct b).view b = some [] ∧
      (∀ n, Loose (w.construct b) n ↔ Loose w n) := by
  have hk : Keep (· = b) w (w.construct b) := by
    refine keep_one h (some { ptr := .inl b }) (fun k => rfl) ?_ ?_ (fun _ _ _ _ _ _ => rfl) h.fresh
    · intro t ht; cases ht; exact ⟨by simp, by simp, .inl ⟨rfl, rfl, rfl⟩⟩
    · intro t n k t' ht hp; cases ht; cases hp
  refine ⟨hk, by simp [World.construct, World.setBuf], ?_, fun n => loose_congr rfl fun k => ?_⟩
  · simp [World.view, World.construct, World.setBuf, World.read, World.region]
  · by_cases e : k = b
    · subst e; simp [World.construct, World.setBuf, hb]
    · simp [World.construct, World.setBuf, e]

theorem unconstruct {w : World} {b} (hb : w.buf b = none) : (w.construct b).setBuf b none = w := by
  have : (fun k => if k = b then none else if k = b then some ({ ptr := .inl b } : Buf) else w.buf k) = w.buf := by
    funext k
    by_cases e : k = b
    · subst e; simp [hb]
    · simp [e]
  simp only [World.construct, World.setBuf]
  rw [this]

theorem srcBytes_keep {w w' : World} {b} (h : Keep (· = b) w w') {src d} (hs : w.srcBytes src = some d)
    (hne : ∀ c off len, src = .part c off len → c ≠ b) : w'.srcBytes src = some d := by
  cases src with
  | bytes l => exact hs
  | part c off len => simpa only [World.srcBytes, h.view (hne c off len rfl)] using hs

theorem constructFrom_ok {w : World} (h : w.WF) {b} (hb : w.buf b = none) {src d} (hs : w.srcBytes src = some d)
    (hn : ¬ bigSize < d.length) :
    ∃ w', w.constructFrom b src = .done w' ∧ Keep (· = b) w w' ∧ w'.view b = some d ∧ (∀ n, Loose w' n ↔ Loose w n) := by
  obtain ⟨c1, c2, c3, c4⟩ := construct_ok h hb
  have hne : ∀ c off len, src = .part c off len → c ≠ b := by
    rintro c off len rfl rfl; simp [World.srcBytes, World.view, hb] at hs
  obtain ⟨w', q1, q2, q3, q4⟩ := assign_ok c1.wf c2 (srcBytes_keep c1 hs hne) hne
    (fun g => hn (g.2.resolve_right (by simp)))
  exact ⟨w', by simp only [World.constructFrom, q1], c1.trans q2, q3, fun n => (q4 n).trans (c4 n)⟩

theorem constructFrom_no {w : World} (h : w.WF) {b} (hb : w.buf b = none) {src d} (hs : w.srcBytes src = some d)
    (hn : bigSize < d.length) : w.constructFrom b src = .threw w := by
  obtain ⟨c1, c2, c3, c4⟩ := construct_ok h hb
  have hne : ∀ c off len, src = .part c off len → c ≠ b := by
    rintro c off len rfl rfl; simp [World.srcBytes, World.view, hb] at hs
  have := assign_no c1.wf c2 (srcBytes_keep c1 hs hne) hne ⟨by simp [bigSize] at *; omega, .inl hn⟩
  simp only [World.constructFrom, this, unconstruct hb]

theorem constructSize_ok {w : World} (h : w.WF) {b} (hb : w.buf b = none) {n : Nat} {v} (hn : ¬ bigSize < n) :
    ∃ w' d, w.constructSize b n v = .done w' ∧ Keep (· = b) w w' ∧ w'.view b = some d ∧ d.length = n ∧
      (∀ x, v = some x → d = List.replicate n x) ∧ (∀ n, Loose w' n ↔ Loose w n) := by
  obtain ⟨c1, c2, c3, c4⟩ := construct_ok h hb
  have hn' : ¬ TooBig { ptr := .inl b } n := fun g => hn (g.2.resolve_right (by simp))
  cases v with
  | none =>
    obtain ⟨l, hl, hcap⟩ := c1.wf.region c2
    obtain ⟨w1, s1, l1, r1, r2, r3, r4, r5, r6, r7, r8, r9⟩ := resize_ok c1.wf c2 hl hn'
    obtain ⟨l2, e1, e2⟩ := r2.wf.region r3
    rw [r4] at e1; cases e1
    refine ⟨w1, _, by simp only [World.constructSize, r1], c1.trans r2, r2.wf.view r3 r4, ?_, ?_, fun n => (r9 n).trans (c4 n)⟩
    · simp; omega
    · intro x hx; cases hx
  | some x =>
    obtain ⟨w1, r1, r2, r3, r4⟩ := resizeWith_ok c1.wf c2 c3 (x := x) hn'
    refine ⟨w1, _, by simp only [World.constructSize, r1], c1.trans r2, r3, by simp, ?_, fun n => (r4 n).trans (c4 n)⟩
    intro y hy; cases hy; simp

theorem constructSize_no {w : World} (h : w.WF) {b} (hb : w.buf b = none) {n : Nat} {v} (hn : bigSize < n) :
    w.constructSize b n v = .threw w := by
  obtain ⟨c1, c2, c3, c4⟩ := construct_ok h hb
  have hn' : TooBig { ptr := .inl b } n := ⟨by simp [bigSize] at *; omega, .inl hn⟩
  cases v with
  | none => simp only [World.constructSize, resize_no c2 hn', unconstruct hb]
  | some x => simp only [World.constructSize, resizeWith_no c2 hn', unconstruct hb]

/-- The memory of `s` is given up and buffer `b` gets something else. -/
theorem drop_set {w : World} (h : w.WF) {b s} (hb : w.buf b = some s) (s' : Option Buf)
    (hok : ∀ t w', w'.blk = (fun n => if s.alloc = true ∧ s.nonOwning = false ∧ s.ptr = .blk n then none else w.blk n) →
      s' = some t → BufOk w' b t)
    (hnb : ∀ t n k t', s' = some t → t.ptr = .blk n → k ≠ b → w.buf k = some t' → t'.ptr ≠ .blk n) :
    ∃ w', ((w.drop s).bind fun w => .done (w.setBuf b s')) = .done w' ∧ Keep (· = b) w w' ∧ w'.buf b = s' ∧
      (∀ n, w'.blk n = if s.alloc = true ∧ s.nonOwning = false ∧ s.ptr = .blk n then none else w.blk n) ∧
      (∀ n, (∀ t, s' = some t → t.ptr = .blk n → t.nonOwning = true) → (Loose w' n ↔ Loose w n)) := by
  obtain ⟨w1, d1, d2, d3, d4, d5⟩ := drop_ok h hb
  have hblk : ∀ n, (w1.setBuf b s').blk n = if s.alloc = true ∧ s.nonOwning = false ∧ s.ptr = .blk n then none else w.blk n :=
    fun n => d5 n
  refine ⟨w1.setBuf b s', by simp only [d1, Out.bind], ?_, by simp [World.setBuf], hblk, ?_⟩
  · refine keep_one h s' (fun k => by simp only [World.setBuf, d2]) ?_ hnb ?_ ?_
    · intro t ht; exact hok t _ (funext hblk) ht
    · intro k t m hk ht hp
      rw [hblk, if_neg]
      intro g
      exact h.sep b k s t m (fun e => hk e.symm) hb ht g.2.2 hp
    · intro n hn
      rw [hblk, h.fresh n (by rw [← d3]; exact hn)]
      simp
  · intro n hnn
    by_cases eo : s.alloc = true ∧ s.nonOwning = false ∧ s.ptr = .blk n
    · constructor
      · intro g
        have := g.1
        rw [hblk, if_pos eo] at this; cases this
      · intro g
        have := g.2 b s hb eo.2.2
        rw [eo.2.1] at this; cases this
    · refine loose_congr ?_ fun k => ?_
      · rw [hblk, if_neg eo]
      · by_cases e : k = b
        · subst e
          simp only [World.setBuf, if_pos, hb]
          constructor
          · intro _ t ht hp; exact hnn t ht hp
          · intro _ t ht hp; cases ht
            obtain ⟨_, _, h3⟩ := h.ok k s hb
            rcases h3 with ⟨_, h4, _⟩ | ⟨ha, _⟩
            · rw [hp] at h4; cases h4
            · cases hno : s.nonOwning
              · exact absurd ⟨ha, hno, hp⟩ eo
              · rfl
        · simp [World.setBuf, e, d2]

theorem destroy_ok {w : World} (h : w.WF) {b s} (hb : w.buf b = some s) :
    ∃ w', w.destroy b = .done w' ∧ Keep (· = b) w w' ∧ w'.buf b = none ∧ (∀ n, Loose w' n ↔ Loose w n) := by
  obtain ⟨w', q1, q2, q3, q4, q5⟩ := drop_set h hb none (fun t _ _ (e : none = some t) => nomatch e)
    (fun t _ _ _ (e : none = some t) _ _ _ => nomatch e)
  exact ⟨w', by simp only [World.destroy, hb]; exact q1, q2, q3, fun n => q5 n (fun t (e : none = some t) => nomatch e)⟩

theorem put_ok {w : World} (h : w.WF) {b s} (hb : w.buf b = some s) {v} (hv : w.view b = some v) {i : Nat} {x k}
    (hi : i < v.length) :
    ∃ w', w.put b i x k = .done w' ∧ Keep (· = b) w w' ∧ w'.view b = some (v.set i x) ∧ (∀ n, Loose w' n ↔ Loose w n) := by
  obtain ⟨l, hl, hcap⟩ := h.region hb
  have hsz := (h.ok b s hb).2.1
  rw [h.view hb hl] at hv; cases hv
  have hlen : (l.take s.size).length = s.size := by simp; omega
  rw [hlen] at hi
  obtain ⟨w', st, q1, q2, q3, q4, q5⟩ := write_ok h hb hl (off := i) (d := [x]) (by simp; omega)
  refine ⟨w', ?_, q2, ?_, q5⟩
  · simp only [World.put, hb]
    rw [if_neg (by simp; intro _; omega)]
    simp only [q1]
  · rw [q2.wf.view q3 q4]
    simp only
    congr 1
    apply List.ext_getElem
    · simp [over]; omega
    · intro j h1 h2
      simp only [over, List.getElem_take, List.getElem_set, List.getElem_append, List.getElem_drop, List.length_append,
        List.length_take, List.length_singleton]
      have : min i l.length = i := by omega
      simp only [this]
      split <;> split <;> first | rfl | omega | (simp_all; done) | skip
      all_goals (try (split <;> first | rfl | omega | (simp_all; done) | skip))
      all_goals (try simp only [List.getElem_singleton])
      all_goals (congr 1; omega)

theorem put_no {w : World} (h : w.WF) {b s} (hb : w.buf b = some s) {v} (hv : w.view b = some v) {i : Nat} {x}
    (hi : ¬ i < v.length) : w.put b i x true = .threw w := by
  obtain ⟨l, hl, hcap⟩ := h.region hb
  have hsz := (h.ok b s hb).2.1
  rw [h.view hb hl] at hv; cases hv
  have hlen : (l.take s.size).length = s.size := by simp; omega
  rw [hlen] at hi
  simp only [World.put, hb]
  rw [if_pos (by simp; omega)]

theorem view_size {w : World} (h : w.WF) {b s} (hb : w.buf b = some s) {v} (hv : w.view b = some v) : v.length = s.size := by
  obtain ⟨l, hl, hcap⟩ := h.region hb
  have hsz := (h.ok b s hb).2.1
  rw [h.view hb hl] at hv; cases hv
  simp; omega

theorem popBack_ok {w : World} (h : w.WF) {b s} (hb : w.buf b = some s) {v} (hv : w.view b = some v) :
    ∃ w', w.popBack b = .done w' ∧ Keep (· = b) w w' ∧ w'.view b = some v.dropLast ∧ (∀ n, Loose w' n ↔ Loose w n) ∧
      w'.buf b = some { s with size := s.size - 1 } ∧ w'.region s.ptr = w.region s.ptr := by
  obtain ⟨l, hl, hcap⟩ := h.region hb
  have hsz := (h.ok b s hb).2.1
  rw [h.view hb hl] at hv; cases hv
  obtain ⟨w', q1, q2, q3, q4, q5⟩ := setSize_ok h hb (n := s.size - 1) (by omega)
  refine ⟨w', by simp only [World.popBack, hb, q1], q2, ?_, q5, q3, q4⟩
  rw [q2.wf.view q3 (q4.trans hl), List.dropLast_eq_take, List.take_take]
  simp only [List.length_take]
  congr 2; omega

theorem clear_ok {w : World} (h : w.WF) {b s} (hb : w.buf b = some s) :
    ∃ w', w.clear b = .done w' ∧ Keep (· = b) w w' ∧ w'.view b = some [] ∧ (∀ n, Loose w' n ↔ Loose w n) := by
  obtain ⟨l, hl, hcap⟩ := h.region hb
  obtain ⟨w', q1, q2, q3, q4, q5⟩ := setSize_ok h hb (n := 0) (by omega)
  refine ⟨w', q1, q2, ?_, q5⟩
  rw [q2.wf.view q3 (q4.trans hl)]; rfl

/-- The byte after the data is there and is zero. -/
def Terminated (w : World) (b : Nat) : Prop := ∃ s, w.buf b = some s ∧ w.read s.ptr s.size 1 = some [0]

theorem nullTerminate_ok {w : World} (h : w.WF) {b s} (hb : w.buf b = some s)
    (hn : ¬ (s.cap = s.size ∧ TooBig s (s.size + 1))) :
    ∃ w', w.nullTerminate b = .done w' ∧ Keep (· = b) w w' ∧ w'.view b = w.view b ∧ Terminated w' b ∧
      (∀ n, Loose w' n ↔ Loose w n) := by
  obtain ⟨l, hl, hcap⟩ := h.region hb
  have hsz := (h.ok b s hb).2.1
  simp only [World.nullTerminate, hb]
  by_cases hlt : s.size < s.cap
  · rw [if_pos hlt]
    obtain ⟨w', st, q1, q2, q3, q4, q5⟩ := write_ok h hb hl (off := s.size) (d := [0]) (by simp; omega)
    simp only [q1]
    refine ⟨w', rfl, q2, ?_, ⟨_, q3, ?_⟩, q5⟩
    · rw [q2.wf.view q3 q4, h.view hb hl]
      simp only
      rw [over_take_lt _ _ _ _ (by simp; omega) (Nat.le_refl _)]
    · simp only [World.read, q4]
      have hm := over_mid l s.size [0] (by simp; omega)
      rw [if_pos (by rw [over_length _ _ _ (by simp; omega)]; omega)]
      simpa using hm
  · rw [if_neg hlt]
    have hv := h.view hb hl
    have hn' : ¬ TooBig s (s.size + 1) := fun g => hn ⟨by omega, g⟩
    obtain ⟨w1, q1, q2, q3, q4, s1, q5, q6⟩ := append_ok h hb (src := .bytes [0]) (d := [0]) rfl hv (fun _ _ _ e => nomatch e) hn'
    obtain ⟨w2, p1, p2, p3, p4, p5, p6⟩ := popBack_ok q2.wf q5 q3
    rw [q1]
    simp only [Out.bind]
    refine ⟨w2, p1, q2.trans p2, ?_, ⟨_, p5, ?_⟩, fun n => (p4 n).trans (q4 n)⟩
    · rw [p3, hv]; simp
    · obtain ⟨l1, e1, e2⟩ := q2.wf.region q5
      have hs1 := (q2.wf.ok b s1 q5).2.1
      rw [q2.wf.view q5 e1] at q3
      simp only [World.read, p6, e1]
      simp only [List.length_singleton] at q6
      rw [if_pos (by omega)]
      have e3 := Option.some.inj q3
      rw [q6] at e3
      have e4 := congrArg (List.drop s.size) e3
      rw [List.drop_left' (by simp; omega), List.drop_take] at e4
      rw [q6]
      simpa using e4

theorem nullTerminate_no {w : World} (h : w.WF) {b s} (hb : w.buf b = some s) (hn : s.cap = s.size ∧ TooBig s (s.size + 1)) :
    w.nullTerminate b = .threw w := by
  simp only [World.nullTerminate, hb]
  rw [if_neg (by omega), append_no h hb (src := .bytes [0]) (d := [0]) rfl (fun _ _ _ e => nomatch e) hn.2]
  rfl

theorem lock_ok {w : World} (h : w.WF) {b s} (hb : w.buf b = some s) {x} :
    ∃ w', w.lock b x = .done w' ∧ Keep (· = b) w w' ∧ w'.view b = w.view b ∧
      (∃ s', w'.buf b = some s' ∧ s'.locked = x) ∧ (∀ n, Loose w' n ↔ Loose w n) := by
  obtain ⟨l, hl, hcap⟩ := h.region hb
  have hsz := (h.ok b s hb).2.1
  obtain ⟨g1, g2, g3⟩ := setBuf_ok h hb (s' := { s with locked := x }) rfl hsz rfl rfl rfl rfl
  have hb' : (w.setBuf b (some { s with locked := x })).buf b = some { s with locked := x } := by simp [World.setBuf]
  refine ⟨_, by simp only [World.lock, hb], g1, ?_, ⟨_, hb', rfl⟩, g3⟩
  rw [g1.wf.view hb' ((g2 _).trans hl), h.view hb hl]

theorem adopt_ok {w : World} (h : w.WF) {b s} (hb : w.buf b = some s) {n size cap l} (hl : w.blk n = some l)
    (h1 : size ≤ cap) (h2 : cap ≤ l.length) (hno : ∀ c t, c ≠ b → w.buf c = some t → t.ptr ≠ .blk n) :
    ∃ w', w.adopt b n size cap = .done w' ∧ Keep (· = b) w w' ∧ w'.view b = some (l.take size) ∧
      (∀ m, Loose w' m ↔ Loose w m ∧ m ≠ n) := by
  simp only [World.adopt, hb]
  generalize hs' : ({ s with ptr := .blk n, cap := cap, size := size, nonOwning := false, alloc := true, locked := false } : Buf) = s'
  have hst : s'.store.length = 64 := by rw [← hs']; exact (h.ok b s hb).1
  have hp' : s'.ptr = .blk n := by rw [← hs']
  have hcap' : s'.cap = cap := by rw [← hs']
  have hsz' : s'.size = size := by rw [← hs']
  have hno' : s'.nonOwning = false := by rw [← hs']
  have hal' : s'.alloc = true := by rw [← hs']
  clear hs'
  by_cases e : Ptr.blk n = s.ptr
  · -- the same block again
    rw [if_neg (by simp [e])]
    simp only [Out.bind]
    have hk : Keep (· = b) w (w.setBuf b (some s')) := by
      refine keep_one h _ (fun k => rfl) ?_ ?_ (fun _ _ _ _ _ _ => rfl) h.fresh
      · intro t ht; cases ht; exact ⟨hst, by omega, .inr ⟨hal', n, l, hp', hl, by omega⟩⟩
      · intro t m k t' ht hp hk hk'; cases ht; rw [hp'] at hp; cases hp; exact hno k t' hk hk'
    refine ⟨_, rfl, hk, ?_, ?_⟩
    · rw [hk.wf.view (s := s') (by simp [World.setBuf]) (by rw [hp']; exact hl), hsz']
    · intro m
      by_cases em : m = n
      · subst em
        refine ⟨fun g => ?_, fun g => absurd rfl g.2⟩
        have := g.2 b s' (by simp [World.setBuf]) hp'
        rw [hno'] at this; cases this
      · have : Loose (w.setBuf b (some s')) m ↔ Loose w m := by
          refine loose_congr rfl fun k => ?_
          have e1 : ¬ n = m := fun e => em e.symm
          by_cases ek : k = b
          · subst ek; simp [World.setBuf, hb, ← e, hp', e1]
          · simp [World.setBuf, ek]
        rw [this]; exact ⟨fun g => ⟨g, em⟩, fun g => g.1⟩
  · have hd := drop_set h hb (some s')
      (by
        intro t w' hw' ht; cases ht
        refine ⟨hst, by omega, .inr ⟨hal', n, l, hp', ?_, by omega⟩⟩
        rw [hw']; simp only
        rw [if_neg (fun g => e g.2.2.symm), hl])
      (by intro t m k t' ht hp hk hk'; cases ht; rw [hp'] at hp; cases hp; exact hno k t' hk hk')
    obtain ⟨w', q1, q2, q3, q4, q5⟩ := hd
    refine ⟨w', ?_, q2, ?_, ?_⟩
    · rw [← q1, World.drop]
      simp [e]
    · rw [q2.wf.view q3 (l := l) (by rw [hp', World.region, q4, if_neg (fun g => e g.2.2.symm), hl]), hsz']
    · intro m
      by_cases em : m = n
      · subst em
        refine ⟨fun g => ?_, fun g => absurd rfl g.2⟩
        have := g.2 b s' q3 hp'
        rw [hno'] at this; cases this
      · have : Loose w' m ↔ Loose w m := by
          refine q5 m ?_
          intro t ht hp; cases ht; rw [hp'] at hp; cases hp; exact absurd rfl em
        rw [this]; exact ⟨fun g => ⟨g, em⟩, fun g => g.1⟩

theorem span_ok {w : World} (h : w.WF) {b s} (hb : w.buf b = some s) {n size cap l} (hl : w.blk n = some l)
    (h1 : size ≤ cap) (h2 : cap ≤ l.length) (hno : ∀ c t, c ≠ b → w.buf c = some t → t.ptr ≠ .blk n) :
    ∃ w', w.span b n size cap = .done w' ∧ Keep (· = b) w w' ∧ w'.view b = some (l.take size) ∧
      (∀ m, Loose w' m ↔ Loose w m) := by
  obtain ⟨hst, hsz, hrest⟩ := h.ok b s hb
  simp only [World.span, hb]
  by_cases e : s.alloc = true ∧ s.nonOwning = false ∧ Ptr.blk n = s.ptr
  · rw [if_pos (by simp [e.1, e.2.1, e.2.2])]
    have hk : Keep (· = b) w (w.setBuf b (some { s with size := size, cap := cap })) := by
      refine keep_one h _ (fun k => rfl) ?_ ?_ (fun _ _ _ _ _ _ => rfl) h.fresh
      · intro t ht; cases ht; exact ⟨hst, h1, .inr ⟨e.1, n, l, e.2.2.symm, hl, h2⟩⟩
      · intro t m k t' ht hp hk hk'; cases ht
        have : m = n := by rw [← e.2.2] at hp; cases hp; rfl
        subst this; exact hno k t' hk hk'
    refine ⟨_, rfl, hk, ?_, ?_⟩
    · rw [hk.wf.view (s := { s with size := size, cap := cap }) (l := l) (by simp [World.setBuf]) (by simp only [← e.2.2]; exact hl)]
    · intro m
      refine loose_congr rfl fun k => ?_
      by_cases ek : k = b
      · subst ek; simp [World.setBuf, hb]
      · simp [World.setBuf, ek]
  · rw [if_neg (by simp only [Bool.and_eq_true, Bool.not_eq_true', decide_eq_true_eq]; rintro ⟨⟨a, b⟩, c⟩; exact e ⟨a, b, c⟩)]
    have hd := drop_set h hb (some { s with locked := false, ptr := .blk n, cap := cap, size := size, nonOwning := true, alloc := true })
      (by
        intro t w' hw' ht; cases ht
        refine ⟨hst, h1, .inr ⟨rfl, n, l, rfl, ?_, h2⟩⟩
        rw [hw']; simp only
        rw [if_neg (fun g => e ⟨g.1, g.2.1, g.2.2.symm⟩), hl])
      (by intro t m k t' ht hp hk hk'; cases ht; cases hp; exact hno k t' hk hk')
    obtain ⟨w', q1, q2, q3, q4, q5⟩ := hd
    refine ⟨w', q1, q2, ?_, ?_⟩
    · rw [q2.wf.view q3 (l := l) (by
        simp only [World.region, q4]
        rw [if_neg (fun g => e ⟨g.1, g.2.1, g.2.2.symm⟩), hl])]
    · intro m
      exact q5 m (by intro t ht _; cases ht; rfl)

theorem release_ok {w : World} (h : w.WF) {b s} (hb : w.buf b = some s) :
    ∃ w', w.release b = .done w' ∧ Keep (· = b) w w' ∧ w'.view b = (if s.alloc = true then some [] else w.view b) ∧
      (∀ m, Loose w' m ↔ Loose w m ∨ s.ptr = .blk m) := by
  obtain ⟨hst, hsz, hrest⟩ := h.ok b s hb
  simp only [World.release, hb]
  rcases hrest with ⟨ha, hp, hc⟩ | ⟨ha, n, l, hp, hl, hc⟩
  · rw [if_pos (by simp [ha])]
    refine ⟨w, rfl, Keep.refl h, by simp [ha], fun m => ?_⟩
    simp [hp]
  · rw [if_neg (by simp [ha])]
    have hk : Keep (· = b) w (w.setBuf b (some { s with ptr := .inl b, alloc := false, nonOwning := false, locked := false, cap := 64, size := 0 })) := by
      refine keep_one h _ (fun k => rfl) ?_ ?_ (fun _ _ _ _ _ _ => rfl) h.fresh
      · intro t ht; cases ht; exact ⟨hst, by simp, .inl ⟨rfl, rfl, rfl⟩⟩
      · intro t m k t' ht hp; cases ht; cases hp
    refine ⟨_, rfl, hk, ?_, fun m => ?_⟩
    · rw [if_pos ha]
      simp [World.view, World.setBuf, World.read, World.region]
    · by_cases em : n = m
      · subst em
        refine ⟨fun _ => .inr hp, fun _ => ⟨by rw [World.setBuf]; simp [hl], fun k t ht hpt => ?_⟩⟩
        by_cases ek : k = b
        · subst ek
          simp only [World.setBuf, if_pos] at ht; cases ht; cases hpt
        · exact absurd hpt (h.sep b k s t n (fun e => ek e.symm) hb (by simpa [World.setBuf, ek] using ht) hp)
      · have : Loose (w.setBuf b (some { s with ptr := .inl b, alloc := false, nonOwning := false, locked := false, cap := 64, size := 0 })) m ↔ Loose w m := by
          refine loose_congr rfl fun k => ?_
          by_cases ek : k = b
          · subst ek; simp [World.setBuf, hb, hp, em]
          · simp [World.setBuf, ek]
        rw [this, hp]
        exact ⟨.inl, fun g => g.resolve_right (fun e => em (by cases e; rfl))⟩

theorem user_ok {w : World} (h : w.WF) {l} :
    Keep (fun _ => False) w { w.setBlk w.fresh (some l) with fresh := w.fresh + 1 } ∧
      (∀ m, Loose { w.setBlk w.fresh (some l) with fresh := w.fresh + 1 } m ↔ Loose w m ∨ m = w.fresh) := by
  have hdead : w.blk w.fresh = none := h.fresh _ (Nat.le_refl _)
  have hnp : ∀ k t, w.buf k = some t → t.ptr ≠ .blk w.fresh := by
    intro k t ht hp
    obtain ⟨_, _, g | ⟨_, m, lm, g1, g2, _⟩⟩ := h.ok k t ht
    · rw [hp] at g; cases g.2.1
    · rw [hp] at g1; cases g1; rw [hdead] at g2; cases g2
  refine ⟨keep_of h (fun _ _ => rfl) (fun _ _ e => e.elim) ?_ ?_, ?_⟩
  · intro k t m _ ht hp
    have : m ≠ w.fresh := fun e => hnp k t ht (by rw [hp, e])
    simp [World.setBlk, this]
  · intro n hn
    simp only at hn
    have : n ≠ w.fresh := by omega
    simp only [World.setBlk, if_neg this]; exact h.fresh n (by omega)
  · intro m
    by_cases em : m = w.fresh
    · subst em
      exact ⟨fun _ => .inr rfl, fun _ => ⟨by simp [World.setBlk], fun k t ht hp => absurd hp (hnp k t ht)⟩⟩
    · simp only [em, or_false]
      exact loose_congr (by simp [World.setBlk, em]) fun _ => Iff.rfl

theorem free_ok {w : World} (h : w.WF) {n} (hl : (w.blk n).isSome = true) (hno : ∀ c t, w.buf c = some t → t.ptr ≠ .blk n) :
    ∃ w', w.delete (.blk n) = .done w' ∧ Keep (fun _ => False) w w' ∧ (∀ m, Loose w' m ↔ Loose w m ∧ m ≠ n) := by
  refine ⟨w.setBlk n none, by simp [World.delete, hl], keep_of h (fun _ _ => rfl) (fun _ _ e => e.elim) ?_ ?_, ?_⟩
  · intro k t m _ ht hp
    have : m ≠ n := fun e => hno k t ht (by rw [hp, e])
    simp [World.setBlk, this]
  · intro k hk
    simp only [World.setBlk]; split
    · rfl
    · exact h.fresh k hk
  · intro m
    by_cases em : m = n
    · subst em
      refine ⟨fun g => ?_, fun g => absurd rfl g.2⟩
      have := g.1; simp [World.setBlk] at this
    · have : Loose (w.setBlk n none) m ↔ Loose w m := loose_congr (by simp [World.setBlk, em]) fun _ => Iff.rfl
      rw [this]; exact ⟨fun g => ⟨g, em⟩, fun g => g.1⟩

/-! ## Calls on two buffers -/

theorem keep_two {b c : Nat} {w w' : World} (h : w.WF) (hbc : b ≠ c) (s' t' : Buf)
    (hbuf : ∀ k, w'.buf k = if k = b then some s' else if k = c then some t' else w.buf k)
    (hs : BufOk w' b s') (ht : BufOk w' c t') (hst : s'.ptr ≠ t'.ptr)
    (hnb : ∀ n k t, (s'.ptr = .blk n ∨ t'.ptr = .blk n) → k ≠ b → k ≠ c → w.buf k = some t → t.ptr ≠ .blk n)
    (hblk : ∀ k t m, k ≠ b → k ≠ c → w.buf k = some t → t.ptr = .blk m → w'.blk m = w.blk m)
    (hfresh : ∀ n, w'.fresh ≤ n → w'.blk n = none) : Keep (fun k => k = b ∨ k = c) w w' := by
  have hcb : ¬ c = b := fun e => hbc e.symm
  refine keep_of h ?_ ?_ ?_ hfresh
  · intro k hk; rw [hbuf, if_neg (fun e => hk (.inl e)), if_neg (fun e => hk (.inr e))]
  · rintro k u (rfl | rfl) hu
    · rw [hbuf, if_pos rfl] at hu; cases hu
      refine ⟨hs, fun n hn d t hd htd => ?_⟩
      rw [hbuf, if_neg hd] at htd
      by_cases e : d = c
      · rw [if_pos e] at htd; cases htd; exact fun e => hst (hn.trans e.symm)
      · rw [if_neg e] at htd; exact hnb n d t (.inl hn) hd e htd
    · rw [hbuf, if_neg hcb, if_pos rfl] at hu; cases hu
      refine ⟨ht, fun n hn d t hd htd => ?_⟩
      rw [hbuf] at htd
      by_cases e : d = b
      · rw [if_pos e] at htd; cases htd; exact fun e => hst (e.trans hn.symm)
      · rw [if_neg e, if_neg hd] at htd; exact hnb n d t (.inr hn) e hd htd
  · intro k t m hk; exact hblk k t m (fun e => hk (.inl e)) (fun e => hk (.inr e))

theorem loose_two {b c : Nat} {w w' : World} (s s' t t' : Option Buf) (hb : w.buf b = s) (hc : w.buf c = t)
    (hbuf : ∀ k, w'.buf k = if k = b then s' else if k = c then t' else w.buf k) {n : Nat}
    (hblk : (w'.blk n).isSome = (w.blk n).isSome)
    (h : ((∀ u, s' = some u → u.ptr = .blk n → u.nonOwning = true) ∧ (∀ u, t' = some u → u.ptr = .blk n → u.nonOwning = true)) ↔
      ((∀ u, s = some u → u.ptr = .blk n → u.nonOwning = true) ∧ (∀ u, t = some u → u.ptr = .blk n → u.nonOwning = true)))
    (hbc : b ≠ c) : Loose w' n ↔ Loose w n := by
  have hcb : ¬ c = b := fun e => hbc e.symm
  unfold Loose
  rw [hblk]
  refine and_congr Iff.rfl ⟨fun g => ?_, fun g => ?_⟩
  · have g1 := h.mp ⟨fun u hu => g b u (by rw [hbuf, if_pos rfl, hu]), fun u hu => g c u (by rw [hbuf, if_neg hcb, if_pos rfl, hu])⟩
    intro k u hu
    by_cases e1 : k = b
    · subst e1; exact g1.1 u (hb ▸ hu)
    · by_cases e2 : k = c
      · subst e2; exact g1.2 u (hc ▸ hu)
      · exact g k u (by rw [hbuf, if_neg e1, if_neg e2, hu])
  · have g1 := h.mpr ⟨fun u hu => g b u (hb ▸ hu), fun u hu => g c u (hc ▸ hu)⟩
    intro k u hu
    rw [hbuf] at hu
    split at hu
    · exact g1.1 u hu
    · split at hu
      · exact g1.2 u hu
      · exact g k u hu

/-- The data of an inline buffer copied to another one. -/
theorem memcpy_inl {w : World} {b c : Nat} {s t : Buf} (hbc : b ≠ c) (hb : w.buf b = some s) (hc : w.buf c = some t)
    (h1 : s.store.length = 64) (h2 : t.store.length = 64) {n : Nat} (hn : n ≤ 64) :
    ∃ st, w.memcpy (.inl b) 0 (.inl c) 0 n = .done (w.setBuf b (some { s with store := st })) ∧ st.length = 64 ∧
      st.take n = t.store.take n := by
  unfold World.memcpy
  by_cases h0 : n = 0
  · refine ⟨s.store, ?_, h1, by simp [h0]⟩
    rw [if_pos h0]
    have : (fun k => if k = b then some s else w.buf k) = w.buf := by
      funext k; split
      · next e => subst e; exact hb.symm
      · rfl
    simp only [World.setBuf]
    rw [this]
  · rw [if_neg h0, if_neg (by rintro ⟨e, _⟩; cases e; exact hbc rfl)]
    have hr : w.read (.inl c) 0 n = some (t.store.take n) := by
      simp only [World.read, World.region, hc, Option.map]
      rw [if_pos (by omega)]; simp
    have hlen : (t.store.take n).length = n := by simp; omega
    rw [hr]
    simp only [World.write, hb]
    rw [if_pos (by omega)]
    refine ⟨_, rfl, by rw [over_length _ _ _ (by omega), h1], ?_⟩
    have := over_take s.store 0 (t.store.take n) (by omega)
    rw [hlen] at this; simpa using this

theorem moveConstruct_ok {w : World} (h : w.WF) {b c t} (hb : w.buf b = none) (hc : w.buf c = some t) :
    ∃ w', w.moveConstruct b c = .done w' ∧ Keep (fun k => k = b ∨ k = c) w w' ∧ w'.view b = w.view c ∧ w'.view c = some [] ∧
      (∀ n, Loose w' n ↔ Loose w n) := by
  have hbc : b ≠ c := fun e => by subst e; rw [hb] at hc; cases hc
  have hcb : ¬ c = b := fun e => hbc e.symm
  obtain ⟨hst, hsz, hrest⟩ := h.ok c t hc
  simp only [World.moveConstruct, hc]
  rcases hrest with ⟨ha, hp, hcap⟩ | ⟨ha, n, l, hp, hl, hcap⟩
  · rw [if_neg (by simp [ha])]
    obtain ⟨st, m1, m2, m3⟩ := memcpy_inl (w := w.construct b) (s := { ptr := .inl b }) (t := t) hbc
      (by simp [World.construct, World.setBuf]) (by simp [World.construct, World.setBuf, hcb, hc]) (by simp) hst (n := t.size) (by omega)
    rw [hp, m1]
    simp only [Out.bind]
    have e1 : ((w.construct b).setBuf b (some { ptr := .inl b, store := st })).buf b = some { ptr := .inl b, store := st } := by
      simp [World.setBuf]
    have e2 : ((w.construct b).setBuf b (some { ptr := .inl b, store := st })).buf c = some t := by
      simp [World.construct, World.setBuf, hcb, hc]
    rw [e1, e2]
    simp only
    refine ⟨_, rfl, ?_, ?_, ?_, ?_⟩
    · refine keep_two h hbc { ptr := .inl b, store := st, size := t.size } { t with ptr := .inl c, cap := 64, size := 0, alloc := false } ?_ ?_ ?_ ?_ ?_ ?_ ?_
      · intro k
        simp only [World.construct, World.setBuf]
        by_cases k1 : k = b
        · simp [k1, hbc]
        · by_cases k2 : k = c <;> simp [k1, k2, hcb]
      · exact ⟨m2, by simp only; omega, .inl ⟨rfl, rfl, rfl⟩⟩
      · exact ⟨hst, by simp, .inl ⟨rfl, rfl, rfl⟩⟩
      · simp [hbc]
      · intro n k t hh; simp at hh
      · intros; rfl
      · exact h.fresh
    · have : w.view c = some (t.store.take t.size) := by rw [h.view hc (l := t.store)]; simp [World.region, hp, hc]
      rw [this]
      simp [World.view, World.setBuf, World.construct, World.read, World.region, hbc]
      constructor
      · omega
      · exact m3
    · simp [World.view, World.setBuf, World.construct, World.read, World.region]
    · intro n
      refine loose_two (w' := _) none (some { ptr := .inl b, store := st, size := t.size }) (some t)
        (some { t with ptr := .inl c, cap := 64, size := 0, alloc := false }) hb hc ?_ rfl ?_ hbc
      · intro k
        simp only [World.construct, World.setBuf]
        by_cases k1 : k = b
        · simp [k1, hbc]
        · by_cases k2 : k = c <;> simp [k1, k2, hcb]
      · simp [hp]
  · rw [if_pos ha]
    have hbuf : ∀ k, (((w.construct b).setBuf b (some { ptr := t.ptr, cap := t.cap, alloc := true, nonOwning := t.nonOwning, size := t.size })).setBuf c
        (some { t with ptr := Ptr.inl c, cap := 64, size := 0, alloc := false })).buf k =
        if k = b then some { ptr := t.ptr, cap := t.cap, alloc := true, nonOwning := t.nonOwning, size := t.size } else
          if k = c then some { t with ptr := Ptr.inl c, cap := 64, size := 0, alloc := false } else w.buf k := by
      intro k
      simp only [World.construct, World.setBuf]
      by_cases k1 : k = b
      · simp [k1, hbc]
      · by_cases k2 : k = c <;> simp [k1, k2, hcb]
    have hk := keep_two h hbc _ _ hbuf ⟨by simp, hsz, .inr ⟨rfl, n, l, hp, hl, hcap⟩⟩ ⟨hst, by simp, .inl ⟨rfl, rfl, rfl⟩⟩ (by simp [hp])
        (by
          intro m k t' hh k1 k2 hk'
          simp only [hp] at hh
          have : m = n := by rcases hh with hh | hh <;> cases hh; rfl
          subst this
          exact h.sep c k t t' m (fun e => k2 e.symm) hc hk' hp)
        (fun _ _ _ _ _ _ _ => rfl) h.fresh
    refine ⟨_, rfl, hk, ?_, ?_, ?_⟩
    · rw [hk.wf.view (b := b) (l := l) (by rw [hbuf, if_pos rfl]) (by simp only [hp]; exact hl),
        h.view hc (l := l) (by rw [hp]; exact hl)]
    · simp [World.view, World.setBuf, World.read, World.region]
    · intro m
      exact loose_two none _ (some t) _ hb hc hbuf rfl (by simp) hbc

theorem steal_ok {w w0 : World} (h : w0.WF) {b c s t} (hbc : b ≠ c) (hb : w0.buf b = some s) (hc : w0.buf c = some t)
    (hw : w.buf = w0.buf) (hf : w.fresh = w0.fresh)
    (hblk : ∀ n, w.blk n = if s.alloc = true ∧ s.nonOwning = false ∧ s.ptr = .blk n then none else w0.blk n) :
    ∃ w', w.steal b c = .done w' ∧ Keep (fun k => k = b ∨ k = c) w0 w' ∧ w'.view b = w0.view c ∧ w'.view c = some [] ∧
      (∀ n, Loose w' n ↔ Loose w0 n) := by
  have hcb : ¬ c = b := fun e => hbc e.symm
  obtain ⟨hst, hsz, hrest⟩ := h.ok c t hc
  obtain ⟨hst1, hsz1, hrest1⟩ := h.ok b s hb
  have hb' : w.buf b = some s := by rw [hw, hb]
  have hc' : w.buf c = some t := by rw [hw, hc]
  have hother : ∀ k u m, k ≠ b → w0.buf k = some u → u.ptr = .blk m → w.blk m = w0.blk m := by
    intro k u m hk hu hp
    rw [hblk, if_neg (fun g => h.sep b k s u m (fun e => hk e.symm) hb hu g.2.2 hp)]
  have hfresh : ∀ n, w.fresh ≤ n → w.blk n = none := by
    intro n hn; rw [hblk, h.fresh n (by omega)]; simp
  -- looseness, given where the buffers point afterwards
  have hloose : ∀ (w' : World) (s' t' : Buf) (hbuf : ∀ k, w'.buf k = if k = b then some s' else if k = c then some t' else w0.buf k),
      w'.blk = w.blk → (∀ m, (s'.ptr = .blk m → s'.nonOwning = true) ↔ (t.ptr = .blk m → t.nonOwning = true)) →
      (∀ m, t'.ptr ≠ .blk m) → ∀ n, Loose w' n ↔ Loose w0 n := by
    intro w' s' t' hbuf hb2 hpp htt n
    by_cases eo : s.alloc = true ∧ s.nonOwning = false ∧ s.ptr = .blk n
    · constructor
      · intro g
        have := g.1
        rw [hb2, hblk, if_pos eo] at this; cases this
      · intro g
        have := g.2 b s hb eo.2.2
        rw [eo.2.1] at this; cases this
    · refine loose_two (some s) (some s') (some t) (some t') hb hc hbuf (by rw [hb2, hblk, if_neg eo]) ?_ hbc
      have e1 : ∀ u, some s = some u → u.ptr = .blk n → u.nonOwning = true := by
        intro u hu hp; cases hu
        rcases hrest1 with ⟨_, h4, _⟩ | ⟨ha, _⟩
        · rw [hp] at h4; cases h4
        · cases hno : s.nonOwning
          · exact absurd ⟨ha, hno, hp⟩ eo
          · rfl
      refine ⟨fun g => ⟨e1, ?_⟩, fun g => ⟨?_, ?_⟩⟩
      · intro u hu; cases hu; exact (hpp n).mp (g.1 s' rfl)
      · intro u hu; cases hu; exact (hpp n).mpr (g.2 t rfl)
      · intro u hu hp; cases hu; exact absurd hp (htt n)
  simp only [World.steal, hb', hc']
  rcases hrest with ⟨ha, hp, hcap⟩ | ⟨ha, n, l, hp, hl, hcap⟩
  · rw [if_neg (by simp [ha])]
    obtain ⟨st, m1, m2, m3⟩ := memcpy_inl hbc hb' hc' hst1 hst (n := t.size) (by omega)
    rw [hp, m1]
    simp only [Out.bind]
    have e1 : (w.setBuf b (some { s with store := st })).buf b = some { s with store := st } := by simp [World.setBuf]
    have e2 : (w.setBuf b (some { s with store := st })).buf c = some t := by simp [World.setBuf, hcb, hc']
    rw [e1, e2]
    simp only
    have e3 : ∀ s0, ((w.setBuf b (some { s with store := st })).setBuf b s0).buf c = some t := by
      intro s0; simp [World.setBuf, hcb, hc']
    rw [e3]
    simp only
    refine ⟨_, rfl, ?_, ?_, ?_, ?_⟩
    · refine keep_two h hbc { s with store := st, alloc := false, nonOwning := false, ptr := .inl b, cap := 64, locked := t.locked, size := t.size }
        { t with ptr := Ptr.inl c, cap := 64, size := 0, alloc := false, locked := false } ?_ ?_ ?_ ?_ ?_ ?_ ?_
      · intro k
        simp only [World.setBuf]
        by_cases k1 : k = b
        · simp [k1, hbc]
        · by_cases k2 : k = c
          · simp [k2, hcb]
          · simp [k1, k2, hw]
      · exact ⟨m2, by simp only; omega, .inl ⟨rfl, rfl, rfl⟩⟩
      · exact ⟨hst, by simp, .inl ⟨rfl, rfl, rfl⟩⟩
      · simp [hbc]
      · intro n k t hh; simp at hh
      · intro k u m k1 k2 hu hpu; exact hother k u m k1 hu hpu
      · exact hfresh
    · have : w0.view c = some (t.store.take t.size) := by rw [h.view hc (l := t.store)]; simp [World.region, hp, hc]
      rw [this]
      simp [World.view, World.setBuf, World.read, World.region, hbc]
      constructor
      · omega
      · exact m3
    · simp [World.view, World.setBuf, World.read, World.region]
    · refine hloose _ { s with store := st, alloc := false, nonOwning := false, ptr := .inl b, cap := 64, locked := t.locked, size := t.size }
        { t with ptr := Ptr.inl c, cap := 64, size := 0, alloc := false, locked := false } ?_ rfl ?_ ?_
      · intro k
        simp only [World.setBuf]
        by_cases k1 : k = b
        · simp [k1, hbc]
        · by_cases k2 : k = c
          · simp [k2, hcb]
          · simp [k1, k2, hw]
      · intro m; simp [hp]
      · intro m; simp
  · rw [if_pos ha]
    have e2 : ∀ s0, (w.setBuf b s0).buf c = some t := by intro s0; simp [World.setBuf, hcb, hc']
    rw [e2]
    simp only
    have hbuf : ∀ k, ((w.setBuf b (some { s with ptr := t.ptr, cap := t.cap, alloc := true, nonOwning := t.nonOwning, locked := t.locked, size := t.size })).setBuf c
        (some { t with ptr := Ptr.inl c, cap := 64, size := 0, alloc := false, locked := false })).buf k =
        if k = b then some { s with ptr := t.ptr, cap := t.cap, alloc := true, nonOwning := t.nonOwning, locked := t.locked, size := t.size } else
          if k = c then some { t with ptr := Ptr.inl c, cap := 64, size := 0, alloc := false, locked := false } else w0.buf k := by
      intro k
      simp only [World.setBuf]
      by_cases k1 : k = b
      · simp [k1, hbc]
      · by_cases k2 : k = c
        · simp [k2, hcb]
        · simp [k1, k2, hw]
    have hl' : w.blk n = some l := by rw [hother c t n hcb hc hp, hl]
    have hk := keep_two h hbc _ _ hbuf ⟨hst1, hsz, .inr ⟨rfl, n, l, hp, hl', hcap⟩⟩ ⟨hst, by simp, .inl ⟨rfl, rfl, rfl⟩⟩ (by simp [hp])
        (by
          intro m k t' hh k1 k2 hk'
          simp only [hp] at hh
          have : m = n := by rcases hh with hh | hh <;> cases hh; rfl
          subst this
          exact h.sep c k t t' m (fun e => k2 e.symm) hc hk' hp)
        (fun k u m k1 _ hu hpu => hother k u m k1 hu hpu) hfresh
    refine ⟨_, rfl, hk, ?_, ?_, ?_⟩
    · rw [hk.wf.view (b := b) (l := l) (by rw [hbuf, if_pos rfl]) (by simp only [hp]; exact hl'),
        h.view hc (l := l) (by rw [hp]; exact hl)]
    · simp [World.view, World.setBuf, World.read, World.region]
    · exact hloose _ _ _ hbuf rfl (fun m => Iff.rfl) (fun m => by simp)

theorem copyAssign_ok {w : World} (h : w.WF) {b c s v} (hb : w.buf b = some s) (hv : w.view c = some v)
    (hn : b = c ∨ ¬ TooBig s v.length) :
    ∃ w', w.copyAssign b c = .done w' ∧ Keep (· = b) w w' ∧ w'.view b = some v ∧ (∀ n, Loose w' n ↔ Loose w n) := by
  unfold World.copyAssign
  by_cases e : b = c
  · subst e
    rw [if_pos rfl, if_pos (by simp [hb])]
    exact ⟨w, rfl, Keep.refl h, hv, fun _ => Iff.rfl⟩
  · rw [if_neg e]
    have hn := hn.resolve_left e
    cases hc : w.buf c with
    | none => simp [World.view, hc] at hv
    | some t =>
      simp only
      have hlen := view_size h hc hv
      exact assign_ok h hb (by simp [World.srcBytes, hv, ← hlen]) (by rintro _ _ _ g rfl; cases g; exact e rfl) hn

theorem copyAssign_no {w : World} (h : w.WF) {b c s v} (hb : w.buf b = some s) (hv : w.view c = some v) (e : b ≠ c)
    (hn : TooBig s v.length) : w.copyAssign b c = .threw w := by
  unfold World.copyAssign
  rw [if_neg e]
  cases hc : w.buf c with
  | none => simp [World.view, hc] at hv
  | some t =>
    simp only
    have hlen := view_size h hc hv
    exact assign_no h hb (d := v) (by simp [World.srcBytes, hv, ← hlen]) (by rintro _ _ _ g rfl; cases g; exact e rfl) hn

theorem Keep.mono {S T : Nat → Prop} {w w'} (h : Keep S w w') (hst : ∀ k, S k → T k) : Keep T w w' :=
  ⟨fun k hk => h.buf k (fun e => hk (hst k e)), fun k t hk => h.mem k t (fun e => hk (hst k e)), h.wf⟩

theorem moveAssign_ok {w : World} (h : w.WF) {b c s t} (hbc : b ≠ c) (hb : w.buf b = some s) (hc : w.buf c = some t)
    (hl : s.locked = false) :
    ∃ w', w.moveAssign b c = .done w' ∧ Keep (fun k => k = b ∨ k = c) w w' ∧ w'.view b = w.view c ∧ w'.view c = some [] ∧
      (∀ n, Loose w' n ↔ Loose w n) := by
  simp only [World.moveAssign, hb, hc]
  rw [if_neg (by simp [hl])]
  by_cases ha : s.alloc = true
  · rw [if_pos ha, if_neg (fun e => h.apart hbc hb hc e.symm)]
    obtain ⟨w1, d1, d2, d3, d4, d5⟩ := drop_ok h hb
    rw [d1]
    exact steal_ok h hbc hb hc d2 d3 d5
  · rw [if_neg ha]
    exact steal_ok h hbc hb hc rfl rfl (fun n => by rw [if_neg (fun g => ha g.1)])

theorem moveAssign_locked {w : World} (h : w.WF) {b c s v} (hbc : b ≠ c) (hb : w.buf b = some s) (hv : w.view c = some v)
    (hl : s.locked = true) :
    ∃ w', w.moveAssign b c = .done w' ∧ Keep (· = b) w w' ∧
      (∀ n, Loose w' n ↔ Loose w n) ∧
      ((s.cap < v.length ∧ w'.view b = w.view b ∧ ∃ s', w'.buf b = some s' ∧ s'.err = 2) ∨
       (v.length ≤ s.cap ∧ w'.view b = some v)) := by
  cases hc : w.buf c with
  | none => simp [World.view, hc] at hv
  | some t =>
  simp only [World.moveAssign, hb, hc]
  rw [if_pos hl]
  by_cases hn : TooBig s v.length
  · rw [copyAssign_no h hb hv hbc hn]
    simp only [hb]
    obtain ⟨l, hl, hcap⟩ := h.region hb
    have hsz := (h.ok b s hb).2.1
    obtain ⟨g1, g2, g3⟩ := setBuf_ok h hb (s' := { s with err := 2 }) rfl hsz rfl rfl rfl rfl
    have hb' : (w.setBuf b (some { s with err := 2 })).buf b = some { s with err := 2 } := by simp [World.setBuf]
    refine ⟨_, rfl, g1, g3, .inl ⟨hn.1, ?_, _, hb', rfl⟩⟩
    rw [g1.wf.view hb' ((g2 _).trans hl), h.view hb hl]
  · obtain ⟨w', q1, q2, q3, q4⟩ := copyAssign_ok h hb hv (.inr hn)
    rw [q1]
    refine ⟨w', rfl, q2, q4, .inr ⟨?_, q3⟩⟩
    apply Decidable.byContradiction
    intro g
    exact hn ⟨by omega, .inr hl⟩

theorem swap_ok {w : World} (h : w.WF) {b c s t} (hbc : b ≠ c) (hb : w.buf b = some s) (hc : w.buf c = some t)
    (hno : ¬ (s.alloc = false ∧ t.alloc = true)) :
    ∃ w', w.swap b c = .done w' ∧ Keep (fun k => k = b ∨ k = c) w w' ∧ w'.view b = w.view c ∧ w'.view c = w.view b ∧
      (∀ n, Loose w' n ↔ Loose w n) := by
  have hcb : ¬ c = b := fun e => hbc e.symm
  obtain ⟨hst, hsz, hrest⟩ := h.ok c t hc
  obtain ⟨hst1, hsz1, hrest1⟩ := h.ok b s hb
  simp only [World.swap, hb, hc, if_neg hbc]
  rcases hrest1 with ⟨ha1, hp1, hcap1⟩ | ⟨ha1, n1, l1, hp1, hl1, hcap1⟩
  · rcases hrest with ⟨ha, hp, hcap⟩ | ⟨ha, n, l, hp, hl, hcap⟩
    · -- both inline
      rw [if_neg (by simp [ha]), if_neg (by simp [ha1]), if_neg (by simp [ha])]
      have hbuf : ∀ k, ((w.setBuf b (some { s with store := t.store, size := t.size })).setBuf c
          (some { t with store := s.store, size := s.size })).buf k =
          if k = b then some { s with store := t.store, size := t.size } else
            if k = c then some { t with store := s.store, size := s.size } else w.buf k := by
        intro k
        simp only [World.setBuf]
        by_cases k1 : k = b
        · simp [k1, hbc]
        · by_cases k2 : k = c <;> simp [k1, k2, hcb]
      have hk := keep_two h hbc _ _ hbuf ⟨hst, by simp only; omega, .inl ⟨ha1, hp1, hcap1⟩⟩ ⟨hst1, by simp only; omega, .inl ⟨ha, hp, hcap⟩⟩
        (by simp [hp, hp1, hbc]) (by intro n k u hh; simp [hp, hp1] at hh) (fun _ _ _ _ _ _ _ => rfl) h.fresh
      refine ⟨_, rfl, hk, ?_, ?_, ?_⟩
      · rw [hk.wf.view (b := b) (l := t.store) (by rw [hbuf, if_pos rfl]) (by simp [hp1, World.region, World.setBuf, hbc]),
          h.view hc (l := t.store) (by simp [World.region, hp, hc])]
      · rw [hk.wf.view (b := c) (l := s.store) (by rw [hbuf, if_neg hcb, if_pos rfl]) (by simp [hp, World.region, World.setBuf]),
          h.view hb (l := s.store) (by simp [World.region, hp1, hb])]
      · intro m
        exact loose_two (some s) _ (some t) _ hb hc hbuf rfl (by simp [hp, hp1]) hbc
    · exact absurd ⟨ha1, ha⟩ hno
  · rcases hrest with ⟨ha, hp, hcap⟩ | ⟨ha, n, l, hp, hl, hcap⟩
    · -- the first one is allocated
      rw [if_neg (by simp [ha]), if_pos ha1]
      obtain ⟨st, m1, m2, m3⟩ := memcpy_inl
        (w := (w.setBuf c (some { t with ptr := s.ptr, cap := s.cap, alloc := true, nonOwning := s.nonOwning, size := s.size })).setBuf b
          (some { s with alloc := false, nonOwning := false, ptr := .inl b, cap := 64, size := t.size }))
        (s := { s with alloc := false, nonOwning := false, ptr := .inl b, cap := 64, size := t.size })
        (t := { t with ptr := s.ptr, cap := s.cap, alloc := true, nonOwning := s.nonOwning, size := s.size }) hbc
        (by simp [World.setBuf]) (by simp [World.setBuf, hcb]) hst1 hst (n := t.size) (by omega)
      rw [m1]
      have hbuf : ∀ k, (((w.setBuf c (some { t with ptr := s.ptr, cap := s.cap, alloc := true, nonOwning := s.nonOwning, size := s.size })).setBuf b
          (some { s with alloc := false, nonOwning := false, ptr := .inl b, cap := 64, size := t.size })).setBuf b
          (some { s with store := st, alloc := false, nonOwning := false, ptr := .inl b, cap := 64, size := t.size })).buf k =
          if k = b then some { s with store := st, alloc := false, nonOwning := false, ptr := .inl b, cap := 64, size := t.size } else
            if k = c then some { t with ptr := s.ptr, cap := s.cap, alloc := true, nonOwning := s.nonOwning, size := s.size } else w.buf k := by
        intro k
        simp only [World.setBuf]
        by_cases k1 : k = b
        · simp [k1]
        · by_cases k2 : k = c <;> simp [k1, k2, hcb]
      have hk := keep_two h hbc _ _ hbuf ⟨m2, by simp only; omega, .inl ⟨rfl, rfl, rfl⟩⟩ ⟨hst, hsz1, .inr ⟨rfl, n1, l1, hp1, hl1, hcap1⟩⟩
        (by simp [hp1])
        (by
          intro m k t' hh k1 k2 hk'
          simp only [hp1] at hh
          have : m = n1 := by rcases hh with hh | hh <;> cases hh; rfl
          subst this
          exact h.sep b k s t' m (fun e => k1 e.symm) hb hk' hp1)
        (fun _ _ _ _ _ _ _ => rfl) h.fresh
      refine ⟨_, rfl, hk, ?_, ?_, ?_⟩
      · rw [hk.wf.view (b := b) (l := st) (by rw [hbuf, if_pos rfl]) (by simp [World.region, World.setBuf]),
          h.view hc (l := t.store) (by simp [World.region, hp, hc])]
        simp only [m3]
      · rw [hk.wf.view (b := c) (l := l1) (by rw [hbuf, if_neg hcb, if_pos rfl]) (by simp only [hp1]; exact hl1),
          h.view hb (l := l1) (by rw [hp1]; exact hl1)]
      · intro m
        exact loose_two (some s) _ (some t) _ hb hc hbuf rfl (by simp [hp, hp1]) hbc
    · -- both allocated
      rw [if_pos (by simp [ha, ha1])]
      have hbuf : ∀ k, ((w.setBuf b (some { s with ptr := t.ptr, nonOwning := t.nonOwning, cap := t.cap, size := t.size })).setBuf c
          (some { t with ptr := s.ptr, nonOwning := s.nonOwning, cap := s.cap, size := s.size })).buf k =
          if k = b then some { s with ptr := t.ptr, nonOwning := t.nonOwning, cap := t.cap, size := t.size } else
            if k = c then some { t with ptr := s.ptr, nonOwning := s.nonOwning, cap := s.cap, size := s.size } else w.buf k := by
        intro k
        simp only [World.setBuf]
        by_cases k1 : k = b
        · simp [k1, hbc]
        · by_cases k2 : k = c <;> simp [k1, k2, hcb]
      have hk := keep_two h hbc _ _ hbuf ⟨hst1, hsz, .inr ⟨ha1, n, l, hp, hl, hcap⟩⟩ ⟨hst, hsz1, .inr ⟨ha, n1, l1, hp1, hl1, hcap1⟩⟩
        (by simp only; exact fun e => h.apart hbc hb hc e.symm)
        (by
          intro m k t' hh k1 k2 hk'
          rcases hh with hh | hh
          · exact h.sep c k t t' m (fun e => k2 e.symm) hc hk' hh
          · exact h.sep b k s t' m (fun e => k1 e.symm) hb hk' hh)
        (fun _ _ _ _ _ _ _ => rfl) h.fresh
      refine ⟨_, rfl, hk, ?_, ?_, ?_⟩
      · rw [hk.wf.view (b := b) (l := l) (by rw [hbuf, if_pos rfl]) (by simp only [hp]; exact hl),
          h.view hc (l := l) (by rw [hp]; exact hl)]
      · rw [hk.wf.view (b := c) (l := l1) (by rw [hbuf, if_neg hcb, if_pos rfl]) (by simp only [hp1]; exact hl1),
          h.view hb (l := l1) (by rw [hp1]; exact hl1)]
      · intro m
        refine loose_two (some s) _ (some t) _ hb hc hbuf rfl ?_ hbc
        simp only [Option.some.injEq, forall_eq']
        exact and_comm

theorem swap_self {w : World} {b s} (hb : w.buf b = some s) : w.swap b b = .done w := by
  have e : ∀ s0, (w.setBuf b s0).setBuf b (some s) = w := by
    intro s0
    have : (fun k => if k = b then some s else if k = b then s0 else w.buf k) = w.buf := by
      funext k
      by_cases e : k = b
      · subst e; simp [hb]
      · simp [e]
    simp only [World.setBuf]
    rw [this]
  simp only [World.swap, hb, if_pos]
  cases ha : s.alloc
  · simp [e]
  · simp [e]

end World
end SB
end Verif
