import Verif.Props.GlobalRound
/-!
# Examples and counterexamples for C58

A root broker (id 1) with a master clock and two federates, started by the commands the federates send.
-/
namespace Verif
namespace Glob
namespace Cases

def idA : FedId := 131072
def idB : FedId := 131073
def join (f : FedId) : Msg := { action := .addInterdependency, source := f, dest := 1, child := true, counter := 1 }
def execReq (f : FedId) : Msg := { action := .execRequest, source := f, dest := 1, extraData := 1, extraDestData := 0 }
def execGr (f : FedId) : Msg := { action := .execGrant, source := f, dest := 1 }
/-- `f` asks for the time `t`; the last number it has been sent is `n` -/
def ask (f : FedId) (t : Time) (n : Int) : Msg :=
  { action := .timeRequest, source := f, dest := 1, actionTime := t, Te := t, Tdemin := t, extraData := 1, extraDestData := n }
def grant (f : FedId) (t : Time) : Msg := { action := .timeGrant, source := f, dest := 1, actionTime := t }

/-- the broker once both federates have asked to enter executing mode -/
def g1 : Glob := run (start (run { base := { self := 1, core := false } } [join idA, join idB])) [execReq idA, execReq idB]

theorem g1_started : Started g1 := by unfold Started; decide +kernel

/-! Checking the conditions on histories by computation. -/

def honestB (g : Glob) : List Msg → Bool
  | [] => true
  | x :: xs => (!(x.action == .timeRequest || x.action == .execRequest) || decide (x.extraDestData ≤ 0) ||
      g.base.out.any (fun p => match p with
        | .single q => q.dest == x.source && q.counter == x.extraDestData
        | _ => false)) && honestB (handle g x) xs

theorem honest_of {es : List Msg} : ∀ {g : Glob}, honestB g es = true → Honest g es := by
  induction es with
  | nil => intro g _ pre x post e; cases pre <;> cases e
  | cons y ys ih =>
    intro g h pre x post e hx
    rw [honestB, Bool.and_eq_true] at h
    cases pre with
    | cons z zs =>
      simp only [List.cons_append, List.cons.injEq] at e
      obtain ⟨rfl, e⟩ := e
      exact ih h.2 zs x post e hx
    | nil =>
      simp only [List.nil_append, List.cons.injEq] at e
      obtain ⟨rfl, rfl⟩ := e
      have h1 := h.1
      rw [Bool.or_eq_true, Bool.or_eq_true] at h1
      rcases h1 with (h1 | h1) | h1
      · rcases hx with k | k <;> rw [k] at h1 <;> cases h1
      · exact Or.inl (of_decide_eq_true h1)
      · rw [List.any_eq_true] at h1
        obtain ⟨p, hp, k⟩ := h1
        split at k
        · rename_i q
          rw [Bool.and_eq_true] at k
          exact Or.inr ⟨q, hp, by simpa using k.1, by simpa using k.2⟩
        · cases k

def noStepBackB (g : Glob) : List Msg → Bool
  | [] => true
  | x :: xs => (g.base.deps.all fun d => d.fedID != x.source ||
      ((!(x.action == .timeRequest || x.action == .timeGrant) || decide (d.next ≤ x.actionTime)) &&
        (!(x.action == .execGrant) || decide (d.next ≤ 0)))) && noStepBackB (handle g x) xs

theorem noStepBack_of {es : List Msg} : ∀ {g : Glob}, noStepBackB g es = true → NoStepBack g es := by
  induction es with
  | nil => intro g _ pre x post e; cases pre <;> cases e
  | cons y ys ih =>
    intro g h pre x post e d hd hs
    rw [noStepBackB, Bool.and_eq_true] at h
    cases pre with
    | cons z zs =>
      simp only [List.cons_append, List.cons.injEq] at e
      obtain ⟨rfl, e⟩ := e
      exact ih h.2 zs x post e d hd hs
    | nil =>
      simp only [List.nil_append, List.cons.injEq] at e
      obtain ⟨rfl, rfl⟩ := e
      have h1 := List.all_eq_true.1 h.1 d hd
      rw [Bool.or_eq_true, Bool.and_eq_true] at h1
      rcases h1 with k | ⟨k1, k2⟩
      · simp [hs] at k
      · constructor
        · intro j
          rcases j with j | j <;> simpa [j] using k1
        · intro j
          simpa [j] using k2

def timingB (m : Msg) : Bool :=
  m.action != .addDependency && m.action != .removeDependency && m.action != .addDependent && m.action != .removeDependent &&
    m.action != .addInterdependency && m.action != .removeInterdependency

theorem timing_of {es : List Msg} (h : es.all timingB = true) : ∀ m ∈ es, Timing m := by
  intro m hm
  have := List.all_eq_true.1 h m hm
  unfold timingB at this
  unfold Timing
  simp only [Bool.and_eq_true, bne_iff_ne] at this
  obtain ⟨⟨⟨⟨⟨a, b⟩, c⟩, d⟩, e⟩, f⟩ := this
  exact ⟨a, b, c, d, e, f⟩

/-! ## A round of questions, and the announcement -/

/-- both have entered executing mode and asked: A for time 10, B for time 30 -/
def before : List Msg := [execGr idA, execGr idB, ask idA 10 0, ask idB 30 0]

/-- A confirms -/
def yes : Msg := ask idA 10 1

theorem told_A : Announced 11 idA (sent (run g1 before) yes) :=
  ⟨{ action := .timeRequest, source := 1, dest := idA, actionTime := 11, Te := 11, Tdemin := 11, counter := 2, extraDestData := 0 },
    by decide +kernel, rfl, rfl, rfl⟩

theorem before_reuse : NoReuse g1 before :=
  C58_numbers g1 g1_started (by decide +kernel) (by decide +kernel)
    (fun q hq => by
      have : ∀ p ∈ g1.base.out, (match p with | .single q => decide (q.counter ≤ 0) | _ => true) = true := by decide +kernel
      exact of_decide_eq_true (this _ hq))
    before (timing_of (by decide +kernel)) (honest_of (by decide +kernel)) (by decide +kernel)

/-- `C58_announce`, `C58_told`: A is told the time 11 (10 and one nanosecond), B, which waits for 30, nothing -/
example := C58_announce g1 g1_started (by decide +kernel) before yes (timing_of (by decide +kernel)) before_reuse 11 idA told_A

example : ¬ Announced 11 idB (sent (run g1 before) yes) := by
  rw [(C58_told g1 g1_started before yes (timing_of (by decide +kernel)) 11 idA told_A).1 11 idB]
  rintro ⟨_, d, h1, h2, h3, h4⟩
  have : ∀ d ∈ (run g1 (before ++ [yes])).base.deps, d.fedID = idB → ¬ d.next ≤ 11 := by decide +kernel
  exact this d h1 h2 h3

/-- `C58_asked`: B's request opens round 1 -/
theorem asked_A : Asked 1 idA (sent (run g1 (before.take 3)) (ask idB 30 0)) :=
  ⟨{ action := .requestCurrentTime, source := 1, dest := idA, counter := 1, extraDestData := 0 }, by decide +kernel, rfl, rfl, rfl⟩

example := C58_asked g1 g1_started (before.take 3) (ask idB 30 0) (timing_of (by decide +kernel)) 1 idA asked_A

/-- `C58_confirmed` -/
example : ∃ T s, Announced T s (sent (run g1 (before.take 3 ++ ask idB 30 0 :: [])) yes) :=
  C58_confirmed g1 g1_started (before.take 3) (ask idB 30 0) [] yes (timing_of (by decide +kernel)) (Or.inl rfl)
    (by decide +kernel) (by unfold AllAsking Asking; decide +kernel) 1 idA asked_A (by decide +kernel) (by decide +kernel)
    (by
      intro a x b e
      have : a = [] ∧ x = yes := by
        cases a with
        | nil => simp only [List.nil_append, List.cons.injEq] at e; exact ⟨rfl, e.1.symm⟩
        | cons y ys => simp only [List.nil_append, List.cons_append, List.cons.injEq] at e; cases ys <;> cases e.2
      obtain ⟨rfl, rfl⟩ := this
      rintro ⟨_, d, h1, _, h2, _⟩
      have : ∀ d, (run g1 (before.take 3 ++ ask idB 30 0 :: [])).base.deps.find idA = some d → d.state ≠ .granted := by
        decide +kernel
      exact this d h1 h2)
    (by decide +kernel) (by decide +kernel) (by decide +kernel)

/-- `C58_progress`: while A's confirmation is missing, B may repeat itself as often as it likes -/
example := C58_progress g1 g1_started before (ask idB 30 0) (timing_of (by decide +kernel)) (noStepBack_of (by decide +kernel))
  (Or.inl rfl) (by decide +kernel) (by unfold AllAsking Asking; decide +kernel)

example : ∀ n s, ¬ Asked n s (sent (run g1 before) (ask idB 30 0)) := by
  rintro n s ⟨q, h, _⟩
  have : sent (run g1 before) (ask idB 30 0) = [] := by decide +kernel
  rw [this] at h; cases h

/-- `C58_record_own` -/
example := C58_record_own g1 g1_started before yes (timing_of (by decide +kernel)) rfl (by decide +kernel)

example := C58_record g1 g1_started before yes (timing_of (by decide +kernel)) _ (List.mem_of_getElem? (i := 0) rfl)

/-! ## Why the conditions are needed -/

/-- If the federate whose confirmation is awaited fails, the broker sends nothing: the rest of the federation waits
until something else makes the broker decide (src/helics/core/CoreBroker.cpp:3317-3331); were it to disconnect instead,
the others are asked at once (src/helics/core/CoreBroker.cpp:3348-3366). -/
theorem C58_error_stall_counterexample :
    Nothing (sent (run g1 before) { action := .localError, source := idA, dest := 1 }) ∧
      (∀ d ∈ (run g1 (before ++ [{ action := .localError, source := idA, dest := 1 }])).base.deps,
        d.next < cTerm → d.fedID = idB ∧ Asking d.state) ∧
      Asked 2 idB (sent (run g1 before) { action := .disconnect, source := idA, dest := 1 }) := by
  refine ⟨?_, by unfold Asking; decide +kernel, ?_⟩
  · have e : sent (run g1 before) { action := .localError, source := idA, dest := 1 } = [] := by decide +kernel
    rw [e]
    exact ⟨fun n s ⟨q, h, _⟩ => (by cases h), fun T s ⟨q, h, _⟩ => (by cases h)⟩
  · exact ⟨{ action := .requestCurrentTime, source := 1, dest := idB, counter := 2, extraDestData := 0 },
      by decide +kernel, rfl, rfl, rfl⟩

/-- If B steps back below the time the round is about, it would have to answer but is never asked
(src/helics/core/GlobalTimeCoordinator.cpp:142-161): everybody waits, everybody who was asked has answered, and nothing is sent.
So `C58_progress` needs `NoStepBack`. -/
theorem C58_stepBack_counterexample :
    Nothing (sent (run g1 (before ++ [ask idB 5 0])) yes) ∧ AllAsking (run g1 (before ++ [ask idB 5 0, yes])) ∧
      (∀ d ∈ (run g1 (before ++ [ask idB 5 0, yes])).base.deps, d.updateRequested = true → False) := by
  refine ⟨?_, by unfold AllAsking Asking; decide +kernel, by decide +kernel⟩
  have e : sent (run g1 (before ++ [ask idB 5 0])) yes = [] := by decide +kernel
  rw [e]
  exact ⟨fun n s ⟨q, h, _⟩ => (by cases h), fun T s ⟨q, h, _⟩ => (by cases h)⟩

/-- The numbers start again at 1 after 32767.  A federate whose last answer was to a round 1 long ago counts as having
answered the new round 1 before it has: the announcement is made at B's repeated request.  So `C58_announce` needs
`NoReuse`. -/
theorem C58_reuse_counterexample :
    let w := (run g1 (before.take 3)).base
    let g := { run g1 (before.take 3) with base := { w with seq := 32767, deps := w.deps.modify idA (fun d => { d with responseSequenceCounter := 1 }) } }
    Started g ∧ Asked 1 idA (sent g (ask idB 30 0)) ∧ Announced 11 idA (sent (run g [ask idB 30 0]) (ask idB 30 0)) := by
  refine ⟨by unfold Started; decide +kernel, ?_, ?_⟩
  · exact ⟨{ action := .requestCurrentTime, source := 1, dest := idA, counter := 1, extraDestData := 0 }, by decide +kernel, rfl, rfl, rfl⟩
  · exact ⟨{ action := .timeRequest, source := 1, dest := idA, actionTime := 11, Te := 11, Tdemin := 11, counter := 2, extraDestData := 0 },
      by decide +kernel, rfl, rfl, rfl⟩

end Cases
end Glob
end Verif
