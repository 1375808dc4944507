import Verif.Lemmas.Player
/-!
# C68: a player sends everything once, in order, and on time
-/
namespace Verif.Player
open Verif

variable {env : Time → Time → Time → Prop} {ps : List Point} {ms : List Msg}

theorem begin_values (qs : List Point) (ns : List Msg) : values (begin_ qs ns).out ++ (begin_ qs ns).pts = qs := by
  unfold begin_; rw [send_values, send_values]; rfl
theorem begin_messages (qs : List Point) (ns : List Msg) : messages (begin_ qs ns).out ++ (begin_ qs ns).msgs = ns := by
  unfold begin_; rw [send_messages, send_messages]; rfl

theorem step_pts {stop : Time} {s s' : St} (h : Step env stop s s') :
    values s'.out ++ s'.pts = values s.out ++ s.pts ∧ messages s'.out ++ s'.msgs = messages s.out ++ s.msgs := by
  cases h with
  | ask t g h1 h2 => exact ⟨send_values _ _ _ _, send_messages _ _ _ _⟩
  | iterate t h1 => exact ⟨send_values _ _ _ _, send_messages _ _ _ _⟩
  | wait g h1 h2 h3 => exact ⟨rfl, rfl⟩

/-- Nothing is sent twice or out of order. -/
theorem run_sub {s : St} {stop : Time} (h : Run env ps ms s stop) :
    (∃ qs, qs.Perm ps ∧ qs.Pairwise pointLe ∧ (values s.out ++ s.pts).Sublist qs) ∧
    (∃ ns, ns.Perm ms ∧ ns.Pairwise msgLe ∧ (messages s.out ++ s.msgs).Sublist ns) := by
  induction h with
  | start qs ns stop h1 h2 h3 h4 _ =>
    exact ⟨⟨qs, h1, h2, by rw [begin_values]; exact .refl _⟩, ⟨ns, h3, h4, by rw [begin_messages]; exact .refl _⟩⟩
  | step s s' stop _ hs ih => rw [(step_pts hs).1, (step_pts hs).2]; exact ih
  | again s stop stop' _ _ _ ih =>
    obtain ⟨⟨qs, a, b, c⟩, ns, a', b', c'⟩ := ih
    exact ⟨⟨qs, a, b, ((List.Sublist.refl _).append (List.dropWhile_sublist _)).trans c⟩,
      ns, a', b', ((List.Sublist.refl _).append (List.dropWhile_sublist _)).trans c'⟩

/-- C68: whatever the grants, what a player has sent is a part of what it was given, each entry at most once, the values ordered by time and
iteration and the messages by time. -/
theorem C68_once {s : St} {stop : Time} (h : Run env ps ms s stop) :
    (∃ qs, qs.Perm ps ∧ qs.Pairwise pointLe ∧ (values s.out).Sublist qs) ∧
    (∃ ns, ns.Perm ms ∧ ns.Pairwise msgLe ∧ (messages s.out).Sublist ns) := by
  obtain ⟨⟨qs, a, b, c⟩, ns, a', b', c'⟩ := run_sub h
  exact ⟨⟨qs, a, b, (List.sublist_append_left _ _).trans c⟩, ns, a', b', (List.sublist_append_left _ _).trans c'⟩

theorem run_sorted {s : St} {stop : Time} (h : Run env ps ms s stop) : s.pts.Pairwise pointLe ∧ s.msgs.Pairwise msgLe := by
  obtain ⟨⟨qs, _, b, c⟩, ns, _, b', c'⟩ := run_sub h
  exact ⟨b.sublist ((List.sublist_append_right _ _).trans c), b'.sublist ((List.sublist_append_right _ _).trans c')⟩

theorem run_mem {s : St} {stop : Time} (h : Run env ps ms s stop) : (∀ p ∈ s.pts, p ∈ ps) ∧ ∀ m ∈ s.msgs, m ∈ ms := by
  obtain ⟨⟨qs, a, _, c⟩, ns, a', _, c'⟩ := run_sub h
  exact ⟨fun p hp => a.subset (((List.sublist_append_right _ _).trans c).subset hp),
    fun p hp => a'.subset (((List.sublist_append_right _ _).trans c').subset hp)⟩

/-- Not before its time. -/
def NotEarly : Out → Prop
  | .value p none _ => p.time < 0
  | .value p (some t) _ => p.time ≤ t
  | .message m none => m.sendTime < 0
  | .message m (some t) => m.sendTime ≤ t

theorem send_notEarly {s : St} {t : Time} {k : Int} {c : Time} (hs : ∀ o ∈ s.out, NotEarly o) (ht : t ≤ c) :
    ∀ o ∈ (send s t k (some c)).out, NotEarly o := by
  intro o ho
  rcases send_out ho with h | ⟨p, _, rfl, h⟩ | ⟨m, _, rfl, h⟩
  · exact hs o h
  · change p.time ≤ c
    rcases h with h | ⟨h, _⟩ <;> omega
  · change m.sendTime ≤ c; omega

/-- C68: whatever the grants, a value or message is sent in initializing mode only if its time is negative, and otherwise at its time or later,
never earlier. -/
theorem C68_not_early {s : St} {stop : Time} (h : Run env ps ms s stop) : ∀ o ∈ s.out, NotEarly o := by
  induction h with
  | start qs ns stop h1 h2 h3 h4 _ =>
    unfold begin_
    refine send_notEarly ?_ (Int.le_refl _)
    intro o ho
    rcases send_out ho with h | ⟨p, _, rfl, h⟩ | ⟨m, _, rfl, h⟩
    · cases h
    · change p.time < 0
      rcases h with h | ⟨h, _⟩ <;> omega
    · change m.sendTime < 0; omega
  | step s s' stop _ hs ih =>
    cases hs with
    | ask t g h1 h2 => exact send_notEarly ih (Int.le_refl _)
    | iterate t h1 => exact send_notEarly ih (next_iterate h1).2.1
    | wait g h1 h2 h3 => exact ih
  | again s stop stop' _ _ _ ih => exact ih

/-! ## Nothing is forgotten -/

/-- Where a player whose input is plain stands: everything not sent yet is still to come. -/
structure Ahead (s : St) : Prop where
  pts : ∀ p ∈ s.pts, s.cur < p.time ∨ (p.time = s.cur ∧ s.iter < p.iteration)
  msgs : ∀ m ∈ s.msgs, s.cur < m.sendTime
  iter : 0 ≤ s.iter

theorem begin_ahead {qs : List Point} {ns : List Msg} (h2 : qs.Pairwise pointLe) (h4 : ns.Pairwise msgLe)
    (hi : ∀ p ∈ qs, 0 ≤ p.iteration) : Ahead (begin_ qs ns) := by
  have sub := send_sub { pts := qs, msgs := ns } (-1) 0 none
  refine ⟨?_, ?_, Int.le_refl _⟩
  · exact send_left (h2.sublist sub.1) (fun p hp _ => hi p (sub.1.subset hp))
  · exact send_left_msgs (h4.sublist sub.2)

theorem ask_later (hin : PlainInput ps ms) {s : St} {stop t : Time} (h : Run env ps ms s stop) (ha : Ahead s)
    (hn : next stop s = .ask t) : s.cur < t := by
  obtain ⟨mp, mm⟩ := run_mem h
  obtain ⟨_, _, _, _, hx⟩ := next_ask hn
  rcases hx with ⟨p, hp, rfl, hi⟩ | ⟨m, hm, rfl⟩
  · rcases ha.pts p hp with h | ⟨h1, h2⟩
    · exact h
    · have h3 := ha.iter
      rcases hin.2 with he | he
      · have : s.msgs = [] := by
          rw [List.eq_nil_iff_forall_not_mem]
          intro m hm
          have := mm m hm
          rw [he] at this; cases this
        rcases hi this with h4 | h4
        · omega
        · exact h4
      · have := he p (mp p hp); omega
  · exact ha.msgs m hm

theorem drop_nothing {α : Type} {P : α → Bool} {l : List α} (h : ∀ x ∈ l, P x = false) : l.dropWhile P = l := by
  cases l with
  | nil => rfl
  | cons x xs => rw [List.dropWhile_cons, h x (by simp)]; simp

/-- With plain input and no grant past the time asked for, everything stays ahead and nothing is lost. -/
theorem run_ahead (hf : Forward env) (hno : NoOvershoot env) (hin : PlainInput ps ms) {s : St} {stop : Time}
    (h : Run env ps ms s stop) (hmax : stop < maxVal) :
    Ahead s ∧ s.cur ≤ stop ∧ (values s.out ++ s.pts).Perm ps ∧ (messages s.out ++ s.msgs).Perm ms := by
  induction h with
  | start qs ns stop h1 h2 h3 h4 h5 =>
    exact ⟨begin_ahead h2 h4 fun p hp => hin.1 p (h1.subset hp), h5, by rw [begin_values]; exact h1, by rw [begin_messages]; exact h3⟩
  | step s s' stop hr hs ih =>
    obtain ⟨ih, hc, hv, hm⟩ := ih hmax
    obtain ⟨sp, sm⟩ := run_sorted hr
    obtain ⟨mp, mm⟩ := run_mem hr
    refine ⟨?_, ?_, by rw [(step_pts hs).1]; exact hv, by rw [(step_pts hs).2]; exact hm⟩
    · cases hs with
      | ask t g h1 h2 =>
        exact ⟨send_left sp (fun p hp _ => hin.1 p (mp p hp)), send_left_msgs sm, Int.le_refl _⟩
      | iterate t h1 =>
        obtain ⟨_, a2, a3, p, a4, a5, a6⟩ := next_iterate h1
        have hp : p ∈ s.pts := List.mem_of_mem_head? (by rw [a4]; rfl)
        have ht : t = s.cur := by
          rcases ih.pts p hp with h | ⟨h, _⟩ <;> omega
        subst ht
        refine ⟨?_, ?_, Int.le_trans ih.iter (by exact Int.le.intro 1 rfl)⟩
        · refine send_left sp fun q hq he => ?_
          change q.time = s.cur at he
          rcases ih.pts q hq with h | ⟨_, h⟩ <;> omega
        · exact send_left_msgs sm
      | wait g h1 h2 h3 =>
        have hg := hno _ _ _ h3 h2
        obtain ⟨l1, l2⟩ := next_leave h1 hmax sp sm
        exact ⟨fun p hp => .inl (Int.lt_of_le_of_lt hg (l1 p hp)), fun m hm => Int.lt_of_le_of_lt hg (l2 m hm), Int.le_refl _⟩
    · cases hs with
      | ask t g h1 h2 =>
        exact Int.le_trans (hno _ _ _ h2 (ask_later hin hr ih h1)) (next_ask h1).1
      | iterate t h1 => exact hc
      | wait g h1 h2 h3 => exact hno _ _ _ h3 h2
  | again s stop stop' hr hfin hle ih =>
    obtain ⟨ih, hc, hv, hm⟩ := ih (Int.lt_of_le_of_lt hle hmax)
    obtain ⟨sp, sm⟩ := run_sorted hr
    obtain ⟨l1, l2⟩ := next_leave hfin.1 (Int.lt_of_le_of_lt hle hmax) sp sm
    have e1 : (reenter s).pts = s.pts := drop_nothing fun p hp => by
      have := l1 p hp
      simp only [decide_eq_false_iff_not]; omega
    have e2 : (reenter s).msgs = s.msgs := drop_nothing fun p hp => by
      have := l2 p hp
      simp only [decide_eq_false_iff_not]; omega
    refine ⟨⟨?_, ?_, Int.le_refl _⟩, Int.le_trans hc hle, by rw [e1]; exact hv, by rw [e2]; exact hm⟩
    · intro p hp
      rw [e1] at hp
      exact .inl (Int.lt_of_le_of_lt hc (l1 p hp))
    · intro m hm
      rw [e2] at hm
      exact Int.lt_of_le_of_lt hc (l2 m hm)

theorem mem_values {os : List Out} {p : Point} : p ∈ values os ↔ ∃ a k, Out.value p a k ∈ os := by
  induction os with
  | nil => simp [values]
  | cons x xs ih =>
    cases x with
    | value q a k =>
      simp only [values, List.mem_cons, ih, Out.value.injEq]
      constructor
      · rintro (rfl | ⟨b, c, h⟩)
        · exact ⟨a, k, .inl ⟨rfl, rfl, rfl⟩⟩
        · exact ⟨b, c, .inr h⟩
      · rintro ⟨b, c, ⟨rfl, _⟩ | h⟩
        · exact .inl rfl
        · exact .inr ⟨b, c, h⟩
    | message q a => simp [values, ih]

theorem mem_messages {os : List Out} {p : Msg} : p ∈ messages os ↔ ∃ a, Out.message p a ∈ os := by
  induction os with
  | nil => simp [messages]
  | cons x xs ih =>
    cases x with
    | message q a =>
      simp only [messages, List.mem_cons, ih, Out.message.injEq]
      constructor
      · rintro (rfl | ⟨b, h⟩)
        · exact ⟨a, .inl ⟨rfl, rfl⟩⟩
        · exact ⟨b, .inr h⟩
      · rintro ⟨b, ⟨rfl, _⟩ | h⟩
        · exact .inl rfl
        · exact .inr ⟨b, h⟩
    | value q a k => simp [messages, ih]

/-- The time of a call, if any, is not later than `c`. -/
def SentBy (c : Time) : Out → Prop
  | .value _ (some t) _ => t ≤ c
  | .message _ (some t) => t ≤ c
  | _ => True

theorem SentBy.mono {c d : Time} (h : c ≤ d) {o : Out} (ho : SentBy c o) : SentBy d o := by
  unfold SentBy at *
  split <;> first | trivial | (simp at ho; omega)

theorem run_sentBy (hf : Forward env) {s : St} {stop : Time} (h : Run env ps ms s stop) : 0 ≤ s.cur ∧ ∀ o ∈ s.out, SentBy s.cur o := by
  have key : ∀ (s : St) (t : Time) (k : Int) (c : Time), (∀ o ∈ s.out, SentBy c o) → ∀ o ∈ (send s t k (some c)).out, SentBy c o := by
    intro s t k c hs o ho
    rcases send_out ho with h | ⟨p, _, rfl, h⟩ | ⟨m, _, rfl, h⟩
    · exact hs o h
    · exact Int.le_refl _
    · exact Int.le_refl _
  induction h with
  | start qs ns stop h1 h2 h3 h4 _ =>
    refine ⟨Int.le_refl _, key _ _ _ _ ?_⟩
    intro o ho
    rcases send_out ho with h | ⟨p, _, rfl, h⟩ | ⟨m, _, rfl, h⟩
    · cases h
    · trivial
    · trivial
  | step s s' stop _ hs ih =>
    cases hs with
    | ask t g h1 h2 =>
      have := hf _ _ _ h2
      exact ⟨by change (0 : Int) ≤ g; have := ih.1; omega, key _ _ _ _ fun o ho => (ih.2 o ho).mono (by omega)⟩
    | iterate t h1 => exact ⟨ih.1, key _ _ _ _ ih.2⟩
    | wait g h1 h2 h3 =>
      have := hf _ _ _ h3
      exact ⟨by change (0 : Int) ≤ g; have := ih.1; omega, fun o ho => (ih.2 o ho).mono (by change s.cur ≤ g; omega)⟩
  | again s stop stop' _ _ _ ih => exact ih

theorem perm_filter_split {α : Type} {P : α → Bool} {a b c : List α} (h : (a ++ b).Perm c) (ha : ∀ x ∈ a, P x = true)
    (hb : ∀ x ∈ b, P x = false) : a.Perm (c.filter P) := by
  have h1 := h.filter P
  rw [List.filter_append, List.filter_eq_self.2 ha] at h1
  have : b.filter P = [] := by
    rw [List.filter_eq_nil_iff]; intro x hx; simp [hb x hx]
  rw [this, List.append_nil] at h1
  exact h1

/-- C68: when a call `runTo(stop)` is over, everything due by then has been sent, exactly once, and nothing else, however the grants come, so
long as no grant is past the time asked for. -/
theorem C68_complete (hf : Forward env) (hno : NoOvershoot env) (hin : PlainInput ps ms) {s : St} {stop : Time}
    (h : Run env ps ms s stop) (hmax : stop < maxVal) (hfin : Finished stop s) :
    (values s.out).Perm (ps.filter fun p => decide (p.time ≤ stop)) ∧
    (messages s.out).Perm (ms.filter fun m => decide (m.sendTime ≤ stop)) := by
  obtain ⟨_, hc, hv, hm⟩ := run_ahead hf hno hin h hmax
  obtain ⟨sp, sm⟩ := run_sorted h
  obtain ⟨l1, l2⟩ := next_leave hfin.1 hmax sp sm
  have hE := C68_not_early h
  obtain ⟨h0, hS⟩ := run_sentBy hf h
  refine ⟨perm_filter_split hv ?_ ?_, perm_filter_split hm ?_ ?_⟩
  · intro p hp
    obtain ⟨a, k, ho⟩ := mem_values.1 hp
    have e := hE _ ho
    have sb := hS _ ho
    rw [decide_eq_true_eq]
    cases a with
    | none => change p.time < 0 at e; omega
    | some t => change p.time ≤ t at e; change t ≤ s.cur at sb; omega
  · intro p hp; have := l1 p hp; simp only [decide_eq_false_iff_not]; omega
  · intro p hp
    obtain ⟨a, ho⟩ := mem_messages.1 hp
    have e := hE _ ho
    have sb := hS _ ho
    rw [decide_eq_true_eq]
    cases a with
    | none => change p.sendTime < 0 at e; omega
    | some t => change p.sendTime ≤ t at e; change t ≤ s.cur at sb; omega
  · intro p hp; have := l2 p hp; simp only [decide_eq_false_iff_not]; omega

/-! ## It comes to an end -/

/-- What is left to do. -/
def work (stop : Time) (s : St) : Nat × Nat × Nat :=
  ((stop - s.cur).toNat, s.pts.length, match s.pts.head? with | some p => (p.iteration - s.iter).toNat | none => 0)

theorem step_work (hf : Forward env) (hno : NoOvershoot env) (hin : PlainInput ps ms) {s s' : St} {stop : Time}
    (h : Run env ps ms s stop) (hmax : stop < maxVal) (hs : Step env stop s s') :
    Prod.Lex (· < ·) (Prod.Lex (· < ·) (· < ·)) (work stop s') (work stop s) := by
  obtain ⟨ha, hc, _, _⟩ := run_ahead hf hno hin h hmax
  cases hs with
  | ask t g h1 h2 =>
    have h3 := ask_later hin h ha h1
    have h4 := (next_ask h1).1
    have h5 := hf _ _ _ h2
    refine Prod.Lex.left _ _ ?_
    change (stop - g).toNat < (stop - s.cur).toNat
    omega
  | iterate t h1 =>
    obtain ⟨_, a2, a3, p, a4, a5, a6⟩ := next_iterate h1
    have hp : p ∈ s.pts := List.mem_of_mem_head? (by rw [a4]; rfl)
    have sub := (send_sub { s with iter := s.iter + 1 } t (s.iter + 1) (some s.cur)).1
    refine Prod.Lex.right _ ?_
    by_cases hl : (send { s with iter := s.iter + 1 } t (s.iter + 1) (some s.cur)).pts.length = s.pts.length
    · have he := sub.eq_of_length hl
      rw [hl]
      refine Prod.Lex.right _ ?_
      rw [he]
      change (match s.pts.head? with | some p => (p.iteration - (s.iter + 1)).toNat | none => 0) <
        (match s.pts.head? with | some p => (p.iteration - s.iter).toNat | none => 0)
      rw [a4]
      dsimp only
      rcases ha.pts p hp with h | ⟨_, h⟩ <;> omega
    · exact Prod.Lex.left _ _ (Nat.lt_of_le_of_ne sub.length_le hl)
  | wait g h1 h2 h3 =>
    have h5 := hf _ _ _ h3
    refine Prod.Lex.left _ _ ?_
    change (stop - g).toNat < (stop - s.cur).toNat
    omega

/-- C68: a call of `runTo` ends: there is no endless series of rounds. -/
theorem C68_ends (hf : Forward env) (hno : NoOvershoot env) (hin : PlainInput ps ms) {stop : Time} (hmax : stop < maxVal) (f : Nat → St)
    (h0 : Run env ps ms (f 0) stop) : ¬ ∀ n, Step env stop (f n) (f (n + 1)) := by
  intro hall
  have hr : ∀ n, Run env ps ms (f n) stop := by
    intro n
    induction n with
    | zero => exact h0
    | succ n ih => exact .step _ _ _ ih (hall n)
  have wf : WellFounded (Prod.Lex (· < ·) (Prod.Lex (· < ·) (· < ·)) : Nat × Nat × Nat → Nat × Nat × Nat → Prop) :=
    (Prod.lex Nat.lt_wfRel (Prod.lex Nat.lt_wfRel Nat.lt_wfRel)).wf
  have : ∀ x : Nat × Nat × Nat, ∀ n, work stop (f n) = x → False := by
    intro x
    induction x using wf.induction with
    | _ x ih =>
      intro n e
      exact ih _ (e ▸ step_work hf hno hin (hr n) hmax (hall n)) (n + 1) rfl
  exact this _ 0 rfl

/-- C68: until it is over there is always a next round, if requests are granted at all. -/
theorem C68_goes_on (hg : ∀ c t, ∃ g, env c t g) (stop : Time) (s : St) (h : ¬ Finished stop s) : ∃ s', Step env stop s s' := by
  cases hn : next stop s with
  | ask t => obtain ⟨g, hg⟩ := hg s.cur t; exact ⟨_, .ask s t g hn hg⟩
  | iterate t => exact ⟨_, .iterate s t hn⟩
  | leave =>
    obtain ⟨g, hg⟩ := hg s.cur stop
    exact ⟨_, .wait s g hn (Int.not_le.1 fun x => h ⟨hn, x⟩) hg⟩

/-! ## On time -/

/-- Exactly at its time and, for a value, in its iteration; negative times are sent in initializing mode. -/
def OnTime : Out → Prop
  | .value p none _ => p.time < 0
  | .value p (some t) k => p.time = t ∧ p.iteration = k
  | .message m none => m.sendTime < 0
  | .message m (some t) => m.sendTime = t

/-- C68: when the player is granted the times it asks for, every value is published at its time and in its iteration and every message is sent at
its time.  (A value one nanosecond before zero with an iteration of its own is published at zero.) -/
theorem C68_on_time (hf : Forward env) (hex : Exact env) (hin : PlainInput ps ms) (hneg : ∀ p ∈ ps, p.time = -1 → p.iteration = 0)
    {s : St} {stop : Time} (h : Run env ps ms s stop) (hmax : stop < maxVal) : ∀ o ∈ s.out, OnTime o := by
  have hno : NoOvershoot env := fun c t g h1 h2 => Int.le_of_eq (hex c t g h1 h2)
  induction h with
  | start qs ns stop h1 h2 h3 h4 _ =>
    have sub := send_sub { pts := qs, msgs := ns } (-1) 0 none
    have left := send_left (s := { pts := qs, msgs := ns }) (t := -1) (k := 0) (a := none) h2
      (fun p hp _ => hin.1 p (h1.subset hp))
    have leftm := send_left_msgs (s := { pts := qs, msgs := ns }) (t := -1) (k := 0) (a := none) h4
    intro o ho
    rcases send_out ho with h | ⟨p, hp, rfl, h⟩ | ⟨m, hm, rfl, h⟩
    · rcases send_out h with h3 | ⟨p, hp, rfl, h3⟩ | ⟨m, _, rfl, h3⟩
      · cases h3
      · change p.time < 0; rcases h3 with h3 | ⟨h3, _⟩ <;> omega
      · change m.sendTime < 0; omega
    · change p.time = 0 ∧ p.iteration = 0
      have := hneg p (h1.subset (sub.1.subset hp))
      rcases left p hp with a | ⟨a, b⟩
      · rcases h with h | h
        · omega
        · exact h
      · have := this a; omega
    · change m.sendTime = 0
      have := leftm m hm; omega
  | step s s' stop hr hs ih =>
    have ih := ih hmax
    obtain ⟨ha, hc, _, _⟩ := run_ahead hf hno hin hr hmax
    obtain ⟨sp, sm⟩ := run_sorted hr
    cases hs with
    | ask t g h1 h2 =>
      have hg := hex _ _ _ h2 (ask_later hin hr ha h1)
      subst hg
      obtain ⟨_, _, b1, b2, _⟩ := next_ask h1
      have hP : ∀ p ∈ s.pts, g ≤ p.time := by
        intro p hp
        rcases b1 with ⟨q, hq, hle⟩ | he
        · cases hl : s.pts with
          | nil => rw [hl] at hp; cases hp
          | cons x xs =>
            rw [hl] at hq hp sp
            cases hq
            rw [List.pairwise_cons] at sp
            rcases List.mem_cons.1 hp with rfl | hp
            · exact hle
            · rcases sp.1 p hp with h | ⟨h, _⟩
              · exact Int.le_trans hle (Int.le_of_lt h)
              · exact h ▸ hle
        · rw [he] at hp; cases hp
      have hM : ∀ p ∈ s.msgs, g ≤ p.sendTime := by
        intro p hp
        rcases b2 with ⟨q, hq, hle⟩ | he
        · cases hl : s.msgs with
          | nil => rw [hl] at hp; cases hp
          | cons x xs =>
            rw [hl] at hq hp sm
            cases hq
            rw [List.pairwise_cons] at sm
            rcases List.mem_cons.1 hp with rfl | hp
            · exact hle
            · exact Int.le_trans hle (sm.1 p hp)
        · rw [he] at hp; cases hp
      intro o ho
      rcases send_out ho with h | ⟨p, hp, rfl, h⟩ | ⟨m, hm, rfl, h⟩
      · exact ih o h
      · change p.time = g ∧ p.iteration = 0
        have := hP p hp
        rcases h with h | h
        · omega
        · exact h
      · change m.sendTime = g
        have := hM m hm; omega
    | iterate t h1 =>
      obtain ⟨_, a2, a3, p, a4, a5, a6⟩ := next_iterate h1
      have hp : p ∈ s.pts := List.mem_of_mem_head? (by rw [a4]; rfl)
      have ht : t = s.cur := by
        rcases ha.pts p hp with h | ⟨h, _⟩ <;> omega
      intro o ho
      rcases send_out ho with h | ⟨p, hp, rfl, h⟩ | ⟨m, hm, rfl, h⟩
      · exact ih o h
      · change p.time = s.cur ∧ p.iteration = s.iter + 1
        rcases h with h | h
        · rcases ha.pts p hp with h' | ⟨h', _⟩ <;> omega
        · exact ⟨h.1.trans ht, h.2⟩
      · change m ∈ s.msgs at hm
        rw [a3] at hm; cases hm
    | wait g h1 h2 h3 => exact ih
  | again s stop stop' _ _ hle ih => exact ih (Int.lt_of_le_of_lt hle hmax)

end Verif.Player
