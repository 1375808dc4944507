import Verif.Lemmas.CallbackMode
import Verif.Lemmas.CallbackIter
/-! C60: callback federates. -/
namespace Verif
namespace Callback
open Cb

theorem after_command (w : Call) (h : w.isWork = true) : after w = w.command := by
  cases w with
  | init m a => cases a with
    | none => rfl
    | some i => cases i <;> rfl
  | operate t i m a => cases a with
    | none => rfl
    | some p => obtain ⟨t, i⟩ := p; cases i <;> rfl
  | stop t => rfl
  | finalize => cases h
  | error => cases h

/-- The functions are called in order: those of initializing mode, then those of executing mode, then the end, which
is at most one report of an error followed by at most one finalize; nothing is called before initializing mode, and
executing mode is never entered without a call in initializing mode. -/
theorem C60_order (c : Cb) (es : List Ev) (h : Fresh c) (hs : Sane c es) :
    ∃ I O T, (run c es).told = I ++ O ++ T ∧ (∀ x ∈ I, x.isInit = true) ∧ (∀ x ∈ O, x.isOperate = true) ∧ (O ≠ [] → I ≠ []) ∧
      (T = [] ∨ T = [.error] ∨ T = [.finalize] ∨ T = [.error, .finalize]) ∧
      ((run c es).fed.state = .created → I = [] ∧ O = [] ∧ T = []) ∧
      ((run c es).fed.state = .initializing → I ≠ [] ∧ O = [] ∧ T = []) ∧
      ((run c es).fed.state = .executing → O ≠ [] ∧ T = []) ∧
      ((run c es).fed.state = .errored → T = [.error]) ∧
      ((run c es).fed.state = .finished → T ≠ []) := by
  obtain ⟨I, O, T, g⟩ := good_run (good_fresh h) es hs
  refine ⟨I, O, T, by rw [g.told, List.append_assoc], g.shape.hI, g.shape.hO, g.shape.hOI, ?_⟩
  cases g.at_ with
  | created e _ a b d => simp [e, a, b, d]
  | init e _ a b d => simp [e, a, b, d]
  | exec e _ _ a d => simp [e, a, d]
  | err e _ a => simp [e, a]
  | term e _ a => rcases a with ⟨a, _⟩ | a <;> simp [e, a]
  | fin e _ a => rcases a with a | a | a <;> simp [e, a]

/-- The times at which the functions of executing mode are called never decrease. -/
theorem C60_times (c : Cb) (es : List Ev) (h : Fresh c) (hs : Sane c es) : (times (run c es).told).Pairwise (· ≤ ·) := by
  obtain ⟨I, O, T, g⟩ := good_run (good_fresh h) es hs
  have hT : times T = [] := by
    cases g.at_ with
    | created _ _ _ _ e => rw [e]; rfl
    | init _ _ _ _ e => rw [e]; rfl
    | exec _ _ _ _ e => rw [e]; rfl
    | err _ _ e => rw [e]; rfl
    | term _ _ e => rcases e with ⟨e, _⟩ | e <;> rw [e] <;> rfl
    | fin _ _ e => rcases e with e | e | e <;> rw [e] <;> rfl
  rw [g.told, times_append, times_append, times_init I g.shape.hI, hT, List.append_nil]
  exact g.shape.sorted

/-- No call without a request: after the first, every call of the user's functions is paid for by a request of the user's
that the core has processed. -/
theorem C60_no_spurious (c : Cb) (es : List Ev) (h : Fresh c) (hs : Sane c es) :
    ((run c es).told.filter Call.isWork).length ≤ (run c es).done + 1 := by
  obtain ⟨I, O, T, g⟩ := good_run (good_fresh h) es hs
  have hT : T.filter Call.isWork = [] := by
    cases g.at_ with
    | created _ _ _ _ e => rw [e]; rfl
    | init _ _ _ _ e => rw [e]; rfl
    | exec _ _ _ _ e => rw [e]; rfl
    | err _ _ e => rw [e]; rfl
    | term _ _ e => rcases e with ⟨e, _⟩ | e <;> rw [e] <;> rfl
    | fin _ _ e => rcases e with e | e | e <;> rw [e] <;> rfl
  rw [g.told, List.filter_append, List.filter_append, hT, List.append_nil, ← List.filter_append]
  exact Nat.le_trans (List.length_filter_le _ _) g.shape.cnt

/-- Every answer is sent to the core once: while the federate initializes or executes, the calls so far are the requests
processed and at most one command under way, which is the one that carries the last answer; and a federate that is not
waiting for the core has such a command under way, unless everybody else has ended and its last request was granted the
end of time. -/
theorem C60_answered (c : Cb) (es : List Ev) (h : Fresh c) (hs : Sane c es)
    (hr : (run c es).fed.state = .initializing ∨ (run c es).fed.state = .executing) :
    (run c es).told.length = (run c es).done + (run c es).pend.length ∧
    ((run c es).pend = [] ∨ ∃ l x, (run c es).told = l ++ [x] ∧ (run c es).pend = [x.command]) ∧
    ((run c es).fed.mode = true → (run c es).pend = [] →
      (run c es).fed.state = .executing ∧ (run c es).fed.tc.granted = maxVal) := by
  obtain ⟨I, O, T, g⟩ := good_run (good_fresh h) es hs
  have key : ∀ x, Acc (I ++ O) (run c es).fed.mode (run c es).pend (run c es).done x → (run c es).told = I ++ O →
      (run c es).told.length = (run c es).done + (run c es).pend.length ∧
      ((run c es).pend = [] ∨ ∃ l x, (run c es).told = l ++ [x] ∧ (run c es).pend = [x.command]) ∧
      (x = false → (run c es).fed.mode = true → (run c es).pend ≠ []) := by
    intro x ha ht
    rcases ha with ⟨a, b, d, _⟩ | ⟨a, W', w, b, d, e, _⟩ | ⟨a, b, d, e, _⟩
    · exact ⟨by rw [ht, b, d]; rfl, Or.inl b, fun _ k => by rw [a] at k; cases k⟩
    · have hw : w.isWork = true := by
        have : w ∈ I ++ O := by rw [b]; simp
        rcases List.mem_append.1 this with k | k
        · simp [Call.isWork, g.shape.hI w k]
        · simp [Call.isWork, g.shape.hO w k]
      exact ⟨by rw [ht, b, d, e]; simp, Or.inr ⟨W', w, by rw [ht, b], by rw [d, after_command w hw]⟩, fun _ _ k => by rw [d] at k; cases k⟩
    · exact ⟨by rw [ht, d, e]; rfl, Or.inl d, fun k => by rw [a] at k; cases k⟩
  cases g.at_ with
  | init e _ _ hO hT ha =>
    subst hO; subst hT
    obtain ⟨a, b, d⟩ := key false (by simpa using ha) (by simpa using g.told)
    exact ⟨a, b, fun k k' => absurd k' (d rfl k)⟩
  | exec e _ _ _ hT ha hh =>
    subst hT
    obtain ⟨a, b, d⟩ := key true ha (by simpa using g.told)
    exact ⟨a, b, fun k k' => ⟨e, hh k k'⟩⟩
  | created e => rw [e] at hr; rcases hr with k | k <;> cases k
  | err e => rw [e] at hr; rcases hr with k | k <;> cases k
  | term e => rw [e] at hr; rcases hr with k | k <;> cases k
  | fin e => rw [e] at hr; rcases hr with k | k <;> cases k

/-- After an answer that does not ask for more (a halt, an error, an exception, the stop time) the user's functions are
called no more; only the end is reported. -/
theorem C60_stop (c : Cb) (es : List Ev) (h : Fresh c) (hs : Sane c es) (a b : List Call) (x : Call)
    (ht : (run c es).told = a ++ x :: b) (hw : x.isWork = true) (hn : x.asks = false) : ∀ y ∈ b, y.isWork = false := by
  obtain ⟨I, O, T, g⟩ := good_run (good_fresh h) es hs
  have hT : ∀ y ∈ T, y.isWork = false := by
    cases g.at_ with
    | created _ _ _ _ e => rw [e]; intro y hy; cases hy
    | init _ _ _ _ e => rw [e]; intro y hy; cases hy
    | exec _ _ _ _ e => rw [e]; intro y hy; cases hy
    | err _ _ e => rw [e]; intro y hy; simp at hy; rw [hy]; rfl
    | term _ _ e =>
      rcases e with ⟨e, _⟩ | e
      · rw [e]; intro y hy; cases hy
      · rw [e]; intro y hy; simp at hy; rw [hy]; rfl
    | fin _ _ e =>
      rcases e with e | e | e <;> rw [e] <;> intro y hy <;> simp at hy
      · rw [hy]; rfl
      · rw [hy]; rfl
      · rcases hy with hy | hy <;> rw [hy] <;> rfl
  have e : (I ++ O) ++ T = a ++ x :: b := by rw [List.append_assoc, ← g.told, ht]
  rw [List.append_eq_append_iff] at e
  rcases e with ⟨a', e1, e2⟩ | ⟨c', e1, e2⟩
  · -- the call is in `T`
    have := hT x (by rw [e2]; simp)
    rw [this] at hw; cases hw
  · cases c' with
    | nil =>
      have := hT x (by rw [← (by simpa using e2 : x :: b = T)]; simp)
      rw [this] at hw; cases hw
    | cons x' c' =>
      have e3 : x = x' ∧ b = c' ++ T := by simpa using e2
      obtain ⟨e3, e4⟩ := e3
      subst e3
      cases c' with
      | nil => rw [e4]; exact hT
      | cons z c' =>
        have hm : x ∈ (I ++ O).dropLast := by
          rw [e1, List.dropLast_append_of_ne_nil (by simp)]
          rw [List.dropLast_cons_of_ne_nil (by simp)]
          simp
        rw [g.shape.ask x hm] at hn; cases hn

/-- A federate that does not join a running federation reports the right mode in every call, and the first call in
executing mode is at time zero. -/
theorem C60_mode (c : Cb) (es : List Ev) (h : Fresh c) (hs : Sane c es) (hj : NotJoining es) :
    (∀ x ∈ (run c es).told, (x.isInit = true → x.mode = some .initializing) ∧ (∀ t it m a, x = .operate t it m a → m = .executing)) ∧
    ∀ t l, times (run c es).told = t :: l → t = 0 := by
  have m := moded_run (good_fresh h) (moded_fresh h) es hs hj
  refine ⟨fun x hx => ⟨?_, ?_⟩, ?_⟩
  · intro k
    have := m.modes x hx
    cases x with
    | init mo a => rw [show mo = .initializing from this]; rfl
    | _ => cases k
  · intro t it mo a e
    have := m.modes x hx
    subst e
    exact this
  · intro t l e
    rcases m.first with k | ⟨l', k⟩
    · rw [k] at e; cases e
    · rw [k] at e; cases e; rfl

/-- A federate that has finished has been told so, by finalize or by an error, and one in the error state by an error. -/
theorem C60_end (c : Cb) (es : List Ev) (h : Fresh c) (hs : Sane c es) :
    ((run c es).fed.state = .finished → .finalize ∈ (run c es).told ∨ .error ∈ (run c es).told) ∧
    ((run c es).fed.state = .errored → .error ∈ (run c es).told) ∧
    (.finalize ∈ (run c es).told → (run c es).fed.state = .finished) ∧
    (.error ∈ (run c es).told → (run c es).fed.state = .errored ∨ (run c es).fed.state = .terminating ∨ (run c es).fed.state = .finished) := by
  obtain ⟨I, O, T, g⟩ := good_run (good_fresh h) es hs
  have hno : ∀ x : Call, x.isWork = false → (x ∈ (run c es).told ↔ x ∈ T) := by
    intro x hx
    rw [g.told]
    constructor
    · intro k
      rcases List.mem_append.1 k with k | k
      · have := g.shape.hI x k; simp [Call.isWork, this] at hx
      · rcases List.mem_append.1 k with k | k
        · have := g.shape.hO x k; simp [Call.isWork, this] at hx
        · exact k
    · intro k; simp [k]
  rw [hno .finalize rfl, hno .error rfl]
  cases g.at_ with
  | created e _ _ _ d => simp [e, d]
  | init e _ _ _ d => simp [e, d]
  | exec e _ _ _ d => simp [e, d]
  | err e _ a => simp [e, a]
  | term e _ a => rcases a with ⟨a, _⟩ | a <;> simp [e, a]
  | fin e _ a => rcases a with a | a | a <;> simp [e, a]

/-- one turn keeps the stop time and adds at most one call, which respects it -/
theorem turn_stop (ie : Bool) (last : FedState) (c : Cb) (i : Item) :
    (turn ie (last, c) i).2.stop = c.stop ∧ ∃ l, (turn ie (last, c) i).2.told = c.told ++ l ∧
      ∀ x ∈ l, (∀ t it m a, x = .operate t it m a → t < c.stop) ∧ ∀ t, x = .stop t → c.stop ≤ t := by
  have htake : (c.take i).1.stop = c.stop ∧ (c.take i).1.told = c.told := by
    cases i with
    | other o a => exact ⟨rfl, rfl⟩
    | own k nv nm a =>
      unfold take
      dsimp only
      split <;> exact ⟨rfl, rfl⟩
  rw [turn_eq]
  dsimp only
  generalize (c.take i).1 = d at htake
  generalize (if ie then MPR.errorResult else (c.take i).2) = p
  generalize i.ans = a
  obtain ⟨h1, h2⟩ := htake
  have none' : d.stop = c.stop ∧ ∃ l, d.told = c.told ++ l ∧
      ∀ x ∈ l, (∀ t it m a, x = .operate t it m a → t < c.stop) ∧ ∀ t, x = .stop t → c.stop ≤ t :=
    ⟨h1, [], by simp [h2], fun x hx => by cases hx⟩
  have one : ∀ (y : Call) (e : Cb), e.stop = c.stop → e.told = d.told ++ [y] →
      ((∀ t it m a, y = .operate t it m a → t < c.stop) ∧ ∀ t, y = .stop t → c.stop ≤ t) →
      e.stop = c.stop ∧ ∃ l, e.told = c.told ++ l ∧
      ∀ x ∈ l, (∀ t it m a, x = .operate t it m a → t < c.stop) ∧ ∀ t, x = .stop t → c.stop ≤ t := by
    intro y e e1 e2 e3
    refine ⟨e1, [y], by rw [e2, h2], fun x hx => ?_⟩
    have : x = y := by simpa using hx
    rw [this]; exact e3
  have hinit := one (.init .initializing a.init) (d.initCall a) h1 rfl ⟨(fun _ _ _ _ k => nomatch k), (fun _ k => nomatch k)⟩
  have hop : ∀ it, (d.opCall it a).stop = c.stop ∧ ∃ l, (d.opCall it a).told = c.told ++ l ∧
      ∀ x ∈ l, (∀ t it m a, x = .operate t it m a → t < c.stop) ∧ ∀ t, x = .stop t → c.stop ≤ t := by
    intro it
    unfold opCall
    dsimp only
    split
    · rename_i hk
      exact one (.stop d.fed.tc.granted) _ h1 rfl ⟨(fun _ _ _ _ k => nomatch k), (fun t k => by cases k; rw [← h1]; exact hk)⟩
    · rename_i hk
      refine one _ _ h1 rfl ⟨(fun t _ _ _ k => ?_), (fun _ k => nomatch k)⟩
      have e : d.fed.tc.granted = t := by injection k
      rw [← e, ← h1]
      exact Int.not_le.1 hk
  unfold conclude returnResult proceed
  repeat' split
  all_goals first
    | exact none'
    | exact hinit
    | exact hop _
    | exact one .finalize _ h1 rfl ⟨(fun _ _ _ _ k => nomatch k), (fun _ k => nomatch k)⟩
    | exact one .error _ h1 rfl ⟨(fun _ _ _ _ k => nomatch k), (fun _ k => nomatch k)⟩

theorem step_stop (c : Cb) (e : Ev) :
    (step c e).stop = c.stop ∧ ∃ l, (step c e).told = c.told ++ l ∧
      ∀ x ∈ l, (∀ t it m a, x = .operate t it m a → t < c.stop) ∧ ∀ t, x = .stop t → c.stop ≤ t := by
  cases e with
  | enterInit => exact ⟨rfl, [], by simp [step], fun x hx => by cases hx⟩
  | commands is =>
    unfold step processing
    dsimp only
    split
    · exact ⟨rfl, [], by simp, fun x hx => by cases hx⟩
    · generalize (decide (c.fed.state = .errored)) = ie
      generalize c.fed.state = last
      have : ∀ (last : FedState) (d : Cb), d.stop = c.stop → (∃ l, d.told = c.told ++ l ∧
          ∀ x ∈ l, (∀ t it m a, x = .operate t it m a → t < c.stop) ∧ ∀ t, x = .stop t → c.stop ≤ t) →
          (is.foldl (turn ie) (last, d)).2.stop = c.stop ∧ ∃ l, (is.foldl (turn ie) (last, d)).2.told = c.told ++ l ∧
          ∀ x ∈ l, (∀ t it m a, x = .operate t it m a → t < c.stop) ∧ ∀ t, x = .stop t → c.stop ≤ t := by
        induction is with
        | nil => intro last d h1 h2; exact ⟨h1, h2⟩
        | cons i is ih =>
          intro last d h1 ⟨l, h2, h3⟩
          obtain ⟨k1, l', k2, k3⟩ := turn_stop ie last d i
          rw [h1] at k1 k3
          refine ih (turn ie (last, d) i).1 (turn ie (last, d) i).2 k1 ⟨l ++ l', k2.trans (by rw [h2, List.append_assoc]), fun x hx => ?_⟩
          rcases List.mem_append.1 hx with hx | hx
          · exact h3 x hx
          · exact k3 x hx
      exact this last c rfl ⟨[], by simp, fun x hx => by cases hx⟩

/-- What was told is never taken back: the calls of a history are the first calls of every longer one. -/
theorem C60_record (c : Cb) (es es' : List Ev) : ∃ l, (run c (es ++ es')).told = (run c es).told ++ l := by
  unfold run
  rw [List.foldl_append]
  generalize es.foldl step c = d
  induction es' generalizing d with
  | nil => exact ⟨[], by simp⟩
  | cons e es ih =>
    obtain ⟨l, h⟩ := ih (step d e)
    obtain ⟨_, l', h', _⟩ := step_stop d e
    exact ⟨l' ++ l, by rw [List.foldl_cons, h, h', List.append_assoc]⟩

/-- The user's function of executing mode is called only before the stop time; the first grant at or after it ends the
federate without a call. -/
theorem C60_stop_time (c : Cb) (es : List Ev) (h : Fresh c) :
    ∀ x ∈ (run c es).told, (∀ t it m a, x = .operate t it m a → t < c.stop) ∧ ∀ t, x = .stop t → c.stop ≤ t := by
  have : ∀ d : Cb, d.stop = c.stop →
      (∀ x ∈ d.told, (∀ t it m a, x = .operate t it m a → t < c.stop) ∧ ∀ t, x = .stop t → c.stop ≤ t) →
      ∀ x ∈ (run d es).told, (∀ t it m a, x = .operate t it m a → t < c.stop) ∧ ∀ t, x = .stop t → c.stop ≤ t := by
    induction es with
    | nil => intro d _ h2; exact h2
    | cons e es ih =>
      intro d h1 h2
      obtain ⟨k1, l, k2, k3⟩ := step_stop d e
      rw [h1] at k1 k3
      refine ih _ k1 (fun x hx => ?_)
      rw [k2] at hx
      rcases List.mem_append.1 hx with hx | hx
      · exact h2 x hx
      · exact k3 x hx
  refine this c rfl ?_
  rw [h.2.2.2.1]
  intro x hx; cases hx

/-- Nothing is called before the application enters initializing mode. -/
theorem C60_not_started (c : Cb) (es : List Ev) (h : Fresh c) (hn : .enterInit ∉ es) : (run c es).told = [] := by
  have : run c es = c := by
    unfold run
    have hs := h.2.1
    clear h
    induction es with
    | nil => rfl
    | cons e es ih =>
      have : step c e = c := by
        cases e with
        | enterInit => exact absurd (List.mem_cons_self ..) hn
        | commands is => simp [step, processing, hs]
      rw [List.foldl_cons, this]
      exact ih (fun k => hn (List.mem_cons_of_mem _ k))
  rw [this]; exact h.2.2.2.1

/-- A call that reports an iteration comes right after a call in executing mode that asked to iterate. -/
theorem C60_iterating (c : Cb) (es : List Ev) (h : Fresh c) (hs : Sane c es) (l r : List Call) (t : Time) (m : Mode)
    (a : Option (Time × IterReq)) (ht : (run c es).told = l ++ .operate t true m a :: r) : ∃ l' x, l = l' ++ [x] ∧ wantsIter x := by
  have g := iterated_run (good_fresh h) (iterated_fresh h) es hs
  rcases List.eq_nil_or_concat l with e | ⟨l', x, e⟩
  · subst e
    exact absurd rfl (g.first _ _ ht t m a)
  · refine ⟨l', x, by simp [e], ?_⟩
    have := g.ok
    rw [ht, e] at this
    simp only [List.concat_eq_append, List.append_assoc, List.cons_append, List.nil_append] at this
    exact iterOk_split l' r x _ this t m a rfl

end Callback
end Verif
