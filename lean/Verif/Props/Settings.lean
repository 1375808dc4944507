import Verif.Model.Settings
/-!
# C30: settings read back

For every readable flag, time and integer property of a federate and every option of inputs, publications and endpoints: what was
set is what is read, and setting one thing leaves every other reading alone.
-/
namespace Verif

namespace FedSettings

/-- The flags a user can read (everything else throws). -/
def readable : FFlag → Bool
  | .profiling | .allowRemoteControl | .disableRemoteControl | .profilingMarker | .localProfilingCapture | .bufferData | .other => false
  | _ => true

/-- The flags that can be set to `v` in state `st`: the roles of a federate are fixed once it leaves the created state, real time
can be switched on only before execution, and "interruptible" has no setter. -/
def settable (st : FedState) (v : Bool) : FFlag → Prop
  | .sourceOnly | .observer | .reentrant | .callbackFederate => st = .created
  | .realtime => v = false ∨ st = .created ∨ st = .initializing
  | .interruptible => False
  | _ => True

/-- Flags which are two names of one setting, or which exclude or negate each other. -/
def related : FFlag → FFlag → Bool
  | .onlyTransmitOnChange, .handleOnlyTransmitOnChange | .handleOnlyTransmitOnChange, .onlyTransmitOnChange => true
  | .onlyUpdateOnChange, .handleOnlyUpdateOnChange | .handleOnlyUpdateOnChange, .onlyUpdateOnChange => true
  | .slowResponding, .debugging | .debugging, .slowResponding => true
  | .sourceOnly, .observer | .observer, .sourceOnly => true
  | .uninterruptible, .interruptible => true
  | a, b => decide (a = b)

/-- C30: a readable flag that can be set reads back as set. -/
theorem C30_flag_reads_back (s : FedSettings) (f : FFlag) (v : Bool) (hr : readable f = true) (hs : settable s.state v f) :
    (s.setFlag f v).getFlag f = some v := by
  cases f <;> simp only [readable, settable, Bool.false_eq_true] at hr hs <;>
    simp only [setFlag, getFlag, TC.setOptionFlag, TC.getOptionFlag]
  case realtime => cases v <;> simp_all
  case logBuffer => cases v <;> simp; split <;> omega
  all_goals simp [hs]

/-- C30: setting a flag leaves the reading of every unrelated flag alone, and every time and integer property
(the log buffer's flag is its capacity). -/
theorem C30_flag_isolated (s : FedSettings) (f g : FFlag) (v : Bool) (h : related f g = false) :
    (s.setFlag f v).getFlag g = s.getFlag g ∧ (∀ p, (s.setFlag f v).getTime p = s.getTime p) ∧
    (∀ p, (p ≠ .logBuffer ∨ f ≠ .logBuffer) → (s.setFlag f v).getInt p = s.getInt p) := by
  refine ⟨?_, fun p => ?_, fun p hp => ?_⟩
  · cases f <;> simp only [setFlag] <;> (try split) <;> (try split) <;> cases g <;> first
      | rfl
      | (exact absurd h (by decide))
  · cases f <;> simp only [setFlag] <;> (try split) <;> (try split) <;> cases p <;> rfl
  · cases f <;> simp only [setFlag] <;> (try split) <;> (try split) <;> cases p <;> first
      | (simp only [getInt, TC.setOptionFlag]; done)
      | (simp at hp)

/-- C30: a time property reads back as set; a time delta of zero reads back as the smallest time step. -/
theorem C30_time_reads_back (s : FedSettings) (p : TProp) (v : Time) (hv : 0 ≤ v) (hp : p ≠ .other) :
    ∃ s', s.setTime p v = some s' ∧ s'.getTime p = if p = .timeDelta ∧ v = 0 then timeEpsilon else v := by
  refine ⟨_, by unfold setTime; rw [if_neg (by omega)], ?_⟩
  cases p <;> simp [getTime, TC.setTimeProperty, TC.getTimeProperty, TProp.coord] at *
  · by_cases h : v = 0
    · simp [h]
    · rw [if_neg (by omega), if_neg h]

/-- C30: negative times are refused. -/
theorem C30_negative_time_refused (s : FedSettings) (p : TProp) (v : Time) : s.setTime p v = none ↔ v < 0 := by
  unfold setTime
  by_cases h : v < 0 <;> simp [h]

/-- C30: setting one time property leaves the others, every flag and every integer property alone (the real-time tolerance is
both the lag and the lead). -/
theorem C30_time_isolated (s s' : FedSettings) (p q : TProp) (v : Time) (h : s.setTime p v = some s')
    (hpq : p ≠ q) (ht : p = .rtTolerance → q ≠ .rtLag ∧ q ≠ .rtLead) (hl : p = .rtLag → q ≠ .rtTolerance) :
    s'.getTime q = s.getTime q ∧ (∀ f, s'.getFlag f = s.getFlag f) ∧ (∀ i, s'.getInt i = s.getInt i) := by
  unfold setTime at h
  split at h
  · cases h
  · cases h
    refine ⟨?_, fun f => ?_, fun i => ?_⟩
    · cases p <;> cases q <;> simp_all [getTime, TC.setTimeProperty, TC.getTimeProperty, TProp.coord]
    · cases p <;> cases f <;> rfl
    · cases p <;> cases i <;> rfl

/-- What an integer property can hold: the index group is limited to 0..16, sizes are not negative, the reading is 16 bits. -/
def intOk : IProp → Int → Prop
  | .indexGroup, v => 0 ≤ v ∧ v ≤ 16
  | .logBuffer, v | .valueBufferWarning, v => 0 ≤ v ∧ v < 32768
  | _, v => -32768 ≤ v ∧ v < 32768

/-- C30: an integer property reads back as set. -/
theorem C30_int_reads_back (s : FedSettings) (p : IProp) (v : Int) (h : intOk p v) : (s.setInt p v).getInt p = v := by
  cases p <;> simp only [intOk] at h <;> simp only [setInt, getInt, TC.setMaxIterations]
  · omega
  · omega
  · split <;> omega
  · split <;> omega
  · omega

/-- C30: setting an integer property leaves the other readings alone. -/
theorem C30_int_isolated (s : FedSettings) (p q : IProp) (v : Int) (h : p ≠ q) :
    (s.setInt p v).getInt q = s.getInt q ∧ (∀ t, (s.setInt p v).getTime t = s.getTime t) ∧
    (∀ f, (p = .logBuffer → f ≠ .logBuffer) → (s.setInt p v).getFlag f = s.getFlag f) := by
  refine ⟨?_, fun t => ?_, fun f hf => ?_⟩
  · cases p <;> cases q <;> first | (exact absurd rfl h) | (simp only [setInt, getInt, TC.setMaxIterations]; done)
  · cases p <;> simp only [setInt] <;> cases t <;> rfl
  · cases p <;> simp only [setInt] <;> cases f <;> first | rfl | exact absurd rfl (hf rfl)

/-- The last setting of flag `f` or of a flag related to it in a history of settings. -/
def touches (f : FFlag) : Set → Bool
  | .flag g _ => related g f
  | .int .logBuffer _ => decide (f = .logBuffer)
  | _ => false

/-- C30 over histories: after setting a flag and any further settings not concerning it, it still reads as set. -/
theorem C30_flag_history (s : FedSettings) (f : FFlag) (v : Bool) (hr : readable f = true) (hs : settable s.state v f) (more : List Set)
    (hm : ∀ x ∈ more, touches f x = false) : (more.foldl step (s.setFlag f v)).getFlag f = some v := by
  have h0 := C30_flag_reads_back s f v hr hs
  generalize s.setFlag f v = t at h0
  clear hs
  induction more generalizing t with
  | nil => exact h0
  | cons x xs ih =>
    refine ih (fun y hy => hm y (by simp [hy])) _ ?_
    have hx := hm x (by simp)
    cases x with
    | flag g w => simp only [step]; rw [(C30_flag_isolated t g f w hx).1]; exact h0
    | time p w =>
      simp only [step]
      cases ht : t.setTime p w with
      | none => exact h0
      | some t' =>
        have : t'.getFlag f = t.getFlag f := by
          unfold setTime at ht
          split at ht
          · cases ht
          · cases ht; cases p <;> cases f <;> rfl
        simpa [this] using h0
    | int p w =>
      simp only [step]
      have : (t.setInt p w).getFlag f = t.getFlag f := by
        cases p <;> simp only [setInt] <;> cases f <;> first | rfl | simp [touches] at hx
      rw [this]; exact h0

example : settable ({} : FedSettings).state true .observer ∧ readable .observer = true := ⟨rfl, rfl⟩
example : (([Set.flag .realtime true, .time .period 5, .flag .observer true] : List Set).foldl step {}).getFlag .realtime = some true := by decide

/-- C30: a federate is never both source-only and observer, whatever was set in whatever order. -/
theorem C30_roles_exclusive (ops : List Set) : ¬ ((ops.foldl step {}).getFlag .sourceOnly = some true ∧
    (ops.foldl step {}).getFlag .observer = some true) := by
  suffices h : ∀ s : FedSettings, ¬ (s.sourceOnly = true ∧ s.observer = true) →
      ¬ ((ops.foldl step s).sourceOnly = true ∧ (ops.foldl step s).observer = true) by
    have := h {} (by simp)
    simpa [getFlag] using this
  induction ops with
  | nil => exact fun s h => h
  | cons o os ih =>
    intro s h
    refine ih _ ?_
    cases o with
    | flag f v =>
      simp only [step]
      cases f <;> simp only [setFlag] <;> (try exact h)
      all_goals
        (repeat' split)
        all_goals (try exact h)
        all_goals (cases v <;> simp_all)
    | time p v =>
      simp only [step, setTime]
      split
      · exact h
      · cases p <;> exact h
    | int p v => simp only [step]; cases p <;> exact h

example : (([Set.flag .sourceOnly true, .flag .observer true] : List Set).foldl step {}).getFlag .observer = some true := by decide

/-- C30: the index group is held within 0 and 16. -/
theorem C30_index_group (s : FedSettings) (v : Int) :
    (s.setInt .indexGroup v).getInt .indexGroup = if v < 0 then 0 else if 16 < v then 16 else v := by
  simp only [setInt, getInt]
  split
  · omega
  · split <;> omega

/-- C30: the real-time tolerance sets both the lag and the lead. -/
theorem C30_tolerance (s s' : FedSettings) (v : Time) (h : s.setTime .rtTolerance v = some s') :
    s'.getTime .rtLag = v ∧ s'.getTime .rtLead = v := by
  unfold setTime at h
  split at h
  · cases h
  · cases h; exact ⟨rfl, rfl⟩

/-- C30: whether a federate accepts remote control is what the last of the two opposite flags said. -/
theorem C30_remote_control (s : FedSettings) (f : FFlag) (v : Bool) : (s.setFlag f v).remote =
    if f = .allowRemoteControl then v else if f = .disableRemoteControl then !v else s.remote := by
  cases f <;> simp only [setFlag] <;> (repeat' split) <;> simp_all

/-- "Interruptible" can be read but not set. -/
theorem C30_interruptible_counterexample : (({} : FedSettings).setFlag .interruptible false).getFlag .interruptible = some true := by decide

/-- Reading "profiling" throws although it can be set. -/
theorem C30_profiling_counterexample : (({} : FedSettings).setFlag .profiling true).getFlag .profiling = none := by decide

end FedSettings

/-! ## Interface options -/

/-- The value an on/off option reads back as. -/
def onOff (v : Int) : Int := if v ≠ 0 then 1 else 0

/-- 32-bit values. -/
def Int32 (v : Int) : Prop := -2147483648 ≤ v ∧ v < 2147483648

theorem toInt32_of {v : Int} (h : Int32 v) : Input.toInt32 v = v := by
  unfold Input.toInt32; unfold Int32 at h; omega

theorem gap_ms (v : Int) : Int.tdiv (v * 1000000) 1000000 = v := Int.mul_tdiv_cancel v (by decide)

namespace Input

/-- What reading option `o` after setting it to `v` gives, for the options an input both stores and reports. -/
def expected (v : Int) : Opt → Option Int
  | .ignoreInterrupts | .onlyUpdateOnChange | .connectionRequired | .connectionOptional | .singleConnectionOnly
  | .multipleConnectionsAllowed | .strictTypeChecking => some (onOff v)
  | .inputPriorityLocation | .timeRestricted => some v
  | .clearPriorityList => some 1
  | _ => none

/-- C30 (inputs): every such option reads back as set. -/
theorem C30_input_reads_back (i : Input) (o : Opt) (v w : Int) (hv : Int32 v) (h : expected v o = some w) :
    (i.setProperty o v).getProperty o = w := by
  cases o <;> simp only [expected, Option.some.injEq, reduceCtorEq] at h <;> subst h <;>
    simp only [setProperty, getProperty, onOff]
  case timeRestricted => rw [gap_ms, toInt32_of hv]
  case inputPriorityLocation => simp
  case clearPriorityList => simp
  all_goals (by_cases hz : v = 0 <;> simp [hz])

/-- Options of an input sharing one stored value. -/
def group : Opt → Nat
  | .connectionRequired | .connectionOptional => 1
  | .singleConnectionOnly | .multipleConnectionsAllowed | .connections => 2
  | .inputPriorityLocation | .clearPriorityList => 3
  | .ignoreInterrupts => 4
  | .onlyUpdateOnChange => 5
  | .strictTypeChecking => 6
  | .timeRestricted => 7
  | .ignoreUnitMismatch => 8
  | _ => 0

/-- C30 (inputs): setting an option leaves the options of other groups alone, and no connection or value. -/
theorem C30_input_isolated (i : Input) (o q : Opt) (v : Int) (h : group o ≠ group q) :
    (i.setProperty o v).getProperty q = i.getProperty q ∧ (i.setProperty o v).srcs = i.srcs := by
  cases o <;> cases q <;> first | exact ⟨rfl, rfl⟩ | exact absurd rfl h

/-- "Ignore unit mismatch" is stored but never reported. -/
theorem C30_input_unit_mismatch_counterexample : (({} : Input).setProperty .ignoreUnitMismatch 1).getProperty .ignoreUnitMismatch = 0 := by decide

/-- The required number of connections is stored, but reading it gives the present number of connections. -/
theorem C30_input_connections_counterexample : (({} : Input).setProperty .connections 3).getProperty .connections = 0 := by decide

end Input

namespace Pub

/-- What reading option `o` after setting it to `v` gives, for the options a publication both stores and reports, except
"multiple connections allowed". -/
def expected (v : Int) : Input.Opt → Option Int
  | .onlyTransmitOnChange | .connectionRequired | .connectionOptional | .singleConnectionOnly | .bufferData => some (onOff v)
  | .timeRestricted => some v
  | _ => none

/-- C30 (publications). -/
theorem C30_publication_reads_back (p : Pub) (o : Input.Opt) (v w : Int) (hv : Int32 v) (h : expected v o = some w) :
    (p.setProperty o v).getProperty o = w := by
  cases o <;> simp only [expected, Option.some.injEq, reduceCtorEq] at h <;> subst h <;>
    simp only [setProperty, getProperty, onOff]
  case timeRestricted => rw [gap_ms, toInt32_of hv]
  all_goals (by_cases hz : v = 0 <;> simp [hz])

/-- Options of a publication sharing one stored value. -/
def group : Input.Opt → Nat
  | .connectionRequired | .connectionOptional => 1
  | .singleConnectionOnly | .multipleConnectionsAllowed | .connections => 2
  | .onlyTransmitOnChange => 3
  | .bufferData => 4
  | .timeRestricted => 5
  | _ => 0

/-- C30 (publications): setting an option leaves the options of other groups and the subscribers alone. -/
theorem C30_publication_isolated (p : Pub) (o q : Input.Opt) (v : Int) (h : group o ≠ group q) :
    (p.setProperty o v).getProperty q = p.getProperty q ∧ (p.setProperty o v).subscribers = p.subscribers := by
  cases o <;> cases q <;> first | exact ⟨rfl, rfl⟩ | exact absurd rfl h

/-- "Multiple connections allowed" does the opposite of what was asked, whatever the value: reading it back gives the negation. -/
theorem C30_publication_multiple_counterexample (p : Pub) (v : Int) :
    (p.setProperty .multipleConnectionsAllowed v).getProperty .multipleConnectionsAllowed = 1 - onOff v := by
  simp only [setProperty, getProperty, onOff]; by_cases hz : v = 0 <;> simp [hz]

end Pub

namespace Endpoint

/-- What reading option `o` after setting it to `v` gives, for the options an endpoint both stores and reports, except
"multiple connections allowed". -/
def expected (v : Int) : Input.Opt → Option Int
  | .connectionRequired | .connectionOptional | .singleConnectionOnly | .sendOnly | .receiveOnly => some (onOff v)
  | _ => none

/-- C30 (endpoints). -/
theorem C30_endpoint_reads_back (e : Endpoint) (o : Input.Opt) (v w : Int) (h : expected v o = some w) :
    (e.setProperty o v).getProperty o = w := by
  cases o <;> simp only [expected, Option.some.injEq, reduceCtorEq] at h <;> subst h <;>
    simp only [setProperty, getProperty, onOff]
  all_goals (by_cases hz : v = 0 <;> simp [hz])

/-- Options of an endpoint sharing one stored value. -/
def group : Input.Opt → Nat
  | .connectionRequired | .connectionOptional => 1
  | .singleConnectionOnly | .multipleConnectionsAllowed | .connections => 2
  | .sendOnly => 3
  | .receiveOnly => 4
  | _ => 0

/-- C30 (endpoints): setting an option leaves the options of other groups, the queue and the connections alone. -/
theorem C30_endpoint_isolated (e : Endpoint) (o q : Input.Opt) (v : Int) (h : group o ≠ group q) :
    (e.setProperty o v).getProperty q = e.getProperty q ∧ (e.setProperty o v).queue = e.queue ∧
      (e.setProperty o v).targetInfo = e.targetInfo ∧ (e.setProperty o v).sources = e.sources := by
  cases o <;> cases q <;> first | exact ⟨rfl, rfl, rfl, rfl⟩ | exact absurd rfl h

/-- "Multiple connections allowed" reads back negated. -/
theorem C30_endpoint_multiple_counterexample (e : Endpoint) (v : Int) :
    (e.setProperty .multipleConnectionsAllowed v).getProperty .multipleConnectionsAllowed = 1 - onOff v := by
  simp only [setProperty, getProperty, onOff]; by_cases hz : v = 0 <;> simp [hz]

end Endpoint

namespace HInput

/-- C30 (through the handle): required and optional read back as set; setting one on switches the other off. -/
theorem C30_handle_reads_back (h : HInput) (o : Input.Opt) (v w : Int) (hv : Int32 v) (he : Input.expected v o = some w) :
    (h.set o v).get o = w ∧
    (v ≠ 0 → o = .connectionRequired → (h.set o v).get .connectionOptional = 0) ∧
    (v ≠ 0 → o = .connectionOptional → (h.set o v).get .connectionRequired = 0) := by
  refine ⟨?_, ?_, ?_⟩
  · by_cases h1 : o = .connectionRequired
    · subst h1; simp only [Input.expected, Option.some.injEq] at he; subst he
      by_cases hz : v = 0 <;> simp [set, get, HandleFlags.set, onOff, hz]
    · by_cases h2 : o = .connectionOptional
      · subst h2; simp only [Input.expected, Option.some.injEq] at he; subst he
        by_cases hz : v = 0 <;> simp [set, get, HandleFlags.set, onOff, hz]
      · have : (h.set o v).get o = (h.input.setProperty o v).getProperty o := by
          cases o <;> simp_all [set, get]
        rw [this]; exact Input.C30_input_reads_back _ _ _ _ hv he
  · rintro hz rfl; simp [set, get, HandleFlags.set, hz]
  · rintro hz rfl; simp [set, get, HandleFlags.set, hz]

/-- The handle and the interface can disagree: clearing "connection optional" makes the interface's own connection check treat the
input as required, while reading "connection required" gives 0. -/
theorem C30_handle_disagrees_counterexample :
    (({} : HInput).set .connectionOptional 0).get .connectionRequired = 0 ∧ (({} : HInput).set .connectionOptional 0).input.required = true := by
  decide

end HInput
end Verif
