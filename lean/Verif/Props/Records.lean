import Verif.Props.DepTable
/-!
# C11: what the dependency table remembers about a federate

The entry of a dependency holds exactly what its most recent announcement said, and the questions the coordinator asks about the
whole table are answered exactly.
-/
namespace Verif
namespace DepTable
open Deps

/-! ### Specification -/

/-- The times (next possible, next event, next dependent event) a message announces, if it announces any. -/
def announced (m : Msg) : Option (Time × Time × Time) :=
  match m.action with
  | .timeRequest => some (m.actionTime, m.Te, min m.Te m.Tdemin)
  | .timeGrant => some (m.actionTime, m.actionTime, m.actionTime)
  | .execGrant => if m.iterationRequested then none else some (0, 0, 0)
  | .disconnect | .priorityDisconnect | .broadcastDisconnect | .disconnectCore | .disconnectBroker | .disconnectFed
  | .localError | .globalError => some (maxVal, maxVal, maxVal)
  | _ => none

/-- The phase a message announces, if it announces any. -/
def phase (m : Msg) : Option TimeState :=
  match m.action with
  | .execRequest => some (if m.iterationRequested then (if m.required then .execReqRequireIter else .execReqIter) else .execReq)
  | .timeRequest => some (if m.iterationRequested then (if m.required then .timeReqRequireIter else .timeReqIter) else .timeReq)
  | .timeGrant => some .granted
  | .execGrant => some (if m.iterationRequested then .initialized else .granted)
  | .disconnect | .priorityDisconnect | .broadcastDisconnect | .disconnectCore | .disconnectBroker | .disconnectFed => some .granted
  | .localError | .globalError => some .error
  | _ => none

/-- Whether the federate can be woken before the time it asked for, if a message says so. -/
def wakeable (m : Msg) : Option Bool :=
  match m.action with
  | .timeRequest => some m.interrupted
  | .timeGrant => some false
  | _ => none

/-- The request neither registers nor removes `g` as a dependency, and is not a message of `g` that says something on the
subject at hand. -/
def Silent {α : Type} (says : Msg → Option α) (g : FedId) : DepOp → Prop
  | .addDependency h => h ≠ g
  | .removeDependency h => h ≠ g
  | .removeBoth h => h ≠ g
  | .message m => m.source = g → says m = none
  | .addDependent _ => True
  | .removeDependent _ => True

/-! ### Proof -/

/-- a field of an entry that follows the messages and nothing else -/
structure Follows {α : Type} (φ : DepInfo → α) (says : Msg → Option α) : Prop where
  say : ∀ (d : DepInfo) m a, says m = some a → φ (d.process m).1 = a
  keep : ∀ (d : DepInfo) m, says m = none → φ (d.process m).1 = φ d
  flag : ∀ (d : DepInfo) b, φ { d with dependent := b } = φ d

theorem follows {α : Type} {φ : DepInfo → α} {says : Msg → Option α} (hφ : Follows φ says) (older : List DepOp) (m : Msg) (a : α)
    (hdep : wantDependency m.source older = true) (ha : says m = some a) :
    ∀ newer : List DepOp, (∀ op ∈ newer, Silent says m.source op) →
    ∃ d, (table (newer ++ .message m :: older)).find m.source = some d ∧ d.dependency = true ∧ φ d = a := by
  intro newer
  induction newer with
  | nil =>
    intro _
    obtain ⟨hs, h⟩ := table_spec older
    have h := h m.source
    rw [hdep] at h
    simp only [Bool.true_or, if_true] at h
    cases hf : (table older).find m.source with
    | none => rw [hf] at h; cases h
    | some d =>
      rw [hf] at h
      simp only [Option.map_some, Option.some.injEq, Prod.mk.injEq] at h
      refine ⟨(d.process m).1, ?_, ?_, hφ.say d m a ha⟩
      · simp only [List.nil_append, table, DepOp.run]
        rw [updateTime_eq_upd hs, find_upd hs, if_pos rfl, hf]
        · simp [h.1]
        · rintro (_ | o) d' hd' he
          · cases hd'
          · simp only [Option.map_some, Option.some.injEq] at hd'
            subst hd'
            split
            · rw [process_fedID]; exact he o rfl
            · exact he o rfl
      · rw [(process_flags m d).1]; exact h.1
  | cons op newer ih =>
    intro hk
    obtain ⟨d, h1, h2, h3⟩ := ih (fun o ho => hk o (List.mem_cons_of_mem _ ho))
    have hop := hk op List.mem_cons_self
    obtain ⟨hs, _⟩ := table_spec (newer ++ .message m :: older)
    simp only [List.cons_append, table]
    generalize table (newer ++ .message m :: older) = ds at h1 hs
    cases op with
    | addDependency k =>
      refine ⟨d, ?_, h2, h3⟩
      simp only [DepOp.run, addDependency_eq_upd hs]
      rw [find_upd hs, if_neg (Ne.symm hop)]
      · exact h1
      · rintro (_ | o) d hd he <;> simp only [Option.some.injEq] at hd <;> subst hd
        · rfl
        · have := he o rfl; split <;> simpa using this
    | removeDependency k =>
      refine ⟨d, ?_, h2, h3⟩
      simp only [DepOp.run, removeDependency_eq_upd hs]
      rw [find_upd hs, if_neg (Ne.symm hop)]
      · exact h1
      · rintro (_ | o) d hd he
        · cases hd
        · simp only [Option.bind_some] at hd
          split at hd
          · cases hd
          · injection hd with hd; subst hd; exact he o rfl
    | removeBoth k =>
      refine ⟨d, ?_, h2, h3⟩
      simp only [DepOp.run, removeInterdependence_eq_upd hs]
      rw [find_upd hs, if_neg (Ne.symm hop)]
      · exact h1
      · intro o d hd; cases hd
    | addDependent k =>
      simp only [DepOp.run, addDependent_eq_upd hs]
      rw [find_upd hs]
      · by_cases e : m.source = k
        · subst e
          rw [if_pos rfl, h1]
          exact ⟨_, rfl, h2, (hφ.flag d true).trans h3⟩
        · rw [if_neg e]; exact ⟨d, h1, h2, h3⟩
      · rintro (_ | o) d hd he <;> simp only [Option.some.injEq] at hd <;> subst hd
        · rfl
        · exact he o rfl
    | removeDependent k =>
      simp only [DepOp.run, removeDependent_eq_upd hs]
      rw [find_upd hs]
      · by_cases e : m.source = k
        · subst e
          rw [if_pos rfl, h1]
          exact ⟨{ d with dependent := false }, by simp [h2], h2, (hφ.flag d false).trans h3⟩
        · rw [if_neg e]; exact ⟨d, h1, h2, h3⟩
      · rintro (_ | o) d hd he
        · cases hd
        · simp only [Option.bind_some] at hd
          split at hd
          · cases hd
          · injection hd with hd; subst hd; exact he o rfl
    | message k =>
      simp only [DepOp.run, updateTime_eq_upd hs]
      rw [find_upd hs]
      · by_cases e : m.source = k.source
        · rw [if_pos e, ← e, h1]
          simp only [Option.map_some, h2, if_true]
          exact ⟨_, rfl, by rw [(process_flags k d).1]; exact h2, (hφ.keep d k (hop e.symm)).trans h3⟩
        · rw [if_neg e]; exact ⟨d, h1, h2, h3⟩
      · rintro (_ | o) d' hd' he
        · cases hd'
        · simp only [Option.map_some, Option.some.injEq] at hd'
          subst hd'
          split
          · rw [process_fedID]; exact he o rfl
          · exact he o rfl

theorem follows_times : Follows (fun d => (d.next, d.Te, d.minDe)) announced := by
  constructor
  · intro d m a h
    unfold announced at h
    unfold DepInfo.process
    cases hm : m.action <;> rw [hm] at h <;> simp_all <;> grind
  · intro d m h
    unfold announced at h
    unfold DepInfo.process
    cases hm : m.action <;> rw [hm] at h <;> simp_all
  · intro d b; rfl

theorem follows_phase : Follows (fun d => d.state) phase := by
  constructor
  · intro d m a h
    unfold phase at h
    unfold DepInfo.process
    cases hm : m.action <;> rw [hm] at h <;> simp_all <;> grind
  · intro d m h
    unfold phase at h
    unfold DepInfo.process
    cases hm : m.action <;> rw [hm] at h <;> simp_all
  · intro d b; rfl

theorem follows_wakeable : Follows (fun d => d.interrupted) wakeable := by
  constructor
  · intro d m a h
    unfold wakeable at h
    unfold DepInfo.process
    cases hm : m.action <;> rw [hm] at h <;> simp_all
  · intro d m h
    unfold wakeable at h
    unfold DepInfo.process
    cases hm : m.action <;> rw [hm] at h <;> simp_all <;> split <;> rfl
  · intro d b; rfl

/-! ### Properties -/

/-- **C11** (the last word).  If a registered dependency announces times and after that, among arbitrary registrations and
messages, it is neither removed nor re-registered and announces no other times, then its entry holds exactly these times. -/
theorem C11_last_times (older newer : List DepOp) (m : Msg) (n te de : Time)
    (hdep : wantDependency m.source older = true) (ha : announced m = some (n, te, de))
    (hk : ∀ op ∈ newer, Silent announced m.source op) :
    ∃ d ∈ table (newer ++ .message m :: older), d.fedID = m.source ∧ d.dependency = true ∧ d.next = n ∧ d.Te = te ∧ d.minDe = de := by
  obtain ⟨d, h1, h2, h3⟩ := follows follows_times older m _ hdep ha newer hk
  obtain ⟨h4, h5⟩ := (find_eq_some_iff (table_spec _).1).1 h1
  simp only [Prod.mk.injEq] at h3
  exact ⟨d, h4, h5, h2, h3.1, h3.2.1, h3.2.2⟩

/-- **C11** (the last phase).  Likewise for the phase (asked for entry, running at a time, asked for a time, iterating, failed). -/
theorem C11_last_phase (older newer : List DepOp) (m : Msg) (s : TimeState)
    (hdep : wantDependency m.source older = true) (ha : phase m = some s)
    (hk : ∀ op ∈ newer, Silent phase m.source op) :
    ∃ d ∈ table (newer ++ .message m :: older), d.fedID = m.source ∧ d.dependency = true ∧ d.state = s := by
  obtain ⟨d, h1, h2, h3⟩ := follows follows_phase older m _ hdep ha newer hk
  obtain ⟨h4, h5⟩ := (find_eq_some_iff (table_spec _).1).1 h1
  exact ⟨d, h4, h5, h2, h3⟩

/-- **C11** (interruptibility).  Likewise for whether it can be woken early. -/
theorem C11_last_wakeable (older newer : List DepOp) (m : Msg) (b : Bool)
    (hdep : wantDependency m.source older = true) (ha : wakeable m = some b)
    (hk : ∀ op ∈ newer, Silent wakeable m.source op) :
    ∃ d ∈ table (newer ++ .message m :: older), d.fedID = m.source ∧ d.dependency = true ∧ d.interrupted = b := by
  obtain ⟨d, h1, h2, h3⟩ := follows follows_wakeable older m _ hdep ha newer hk
  obtain ⟨h4, h5⟩ := (find_eq_some_iff (table_spec _).1).1 h1
  exact ⟨d, h4, h5, h2, h3⟩

/-- The hypotheses are met: 8 is registered, asks for 10 expecting an event at 12 (dependent events from 11), after which 3
joins and 8 is also made a dependent and publishes. -/
example : let m : Msg := { action := .timeRequest, source := 8, actionTime := 10, Te := 12, Tdemin := 11 }
    let older := [DepOp.addDependency 8]
    let newer := [DepOp.message { action := .pub, source := 8 }, .addDependent 8, .addDependency 3]
    wantDependency m.source older = true ∧ announced m = some (10, 12, 11) ∧ phase m = some .timeReq ∧
    (∀ op ∈ newer, Silent announced m.source op) ∧
    (table (newer ++ .message m :: older)).map (fun d => (d.fedID, d.next, d.Te, d.minDe)) =
      [(3, -1, 0, 0), (8, 10, 12, 11)] := by
  refine ⟨by decide, by decide, by decide, ?_, by decide⟩
  intro op ho
  simp only [List.mem_cons, List.not_mem_nil, or_false] at ho
  rcases ho with rfl | rfl | rfl <;> simp [Silent, announced]

/-! ### Questions about the whole table -/

/-- A federate (not a broker or core) that is waited for and has not finished. -/
def Live (d : DepInfo) : Prop := d.dependency = true ∧ FedId.isFederate d.fedID = true ∧ d.next < cTerm

theorem active_iff (d : DepInfo) : active d = true ↔ Live d := by
  unfold active Live; simp [and_assoc]

instance (d : DepInfo) : Decidable (Live d) := decidable_of_iff _ (active_iff d)

/-- **C11** (live dependencies).  The table reports active dependencies exactly if there is a live one, and counts them. -/
theorem C11_live (ds : Deps) :
    (ds.hasActive = true ↔ ∃ d ∈ ds, Live d) ∧ ds.activeCount = (ds.filter (fun d => decide (Live d))).length ∧
    (0 < ds.activeCount ↔ ∃ d ∈ ds, Live d) := by
  have e : (fun d => decide (Live d)) = active := by
    funext d
    cases h : active d
    · simp [← active_iff, h]
    · simp [← active_iff, h]
  refine ⟨?_, ?_, ?_⟩
  · simp [hasActive, List.any_eq_true, active_iff]
  · rw [e]; unfold activeCount; rw [List.countP_eq_length_filter]
  · unfold activeCount; rw [List.countP_pos_iff]; simp only [active_iff]

theorem minDep_fold (ds : Deps) : ∀ (acc : FedId × Time),
    let r := ds.foldl (fun (acc : FedId × Time) d => if active d then (if d.next < acc.2 then (d.fedID, d.next) else acc) else acc) acc
    (r = acc ∨ ∃ d ∈ ds, Live d ∧ r = (d.fedID, d.next)) ∧ (∀ d ∈ ds, Live d → r.2 ≤ d.next) ∧ r.2 ≤ acc.2 := by
  induction ds with
  | nil => intro acc; simp
  | cons d ds ih =>
    intro acc
    simp only [List.foldl_cons]
    obtain ⟨h1, h2, h3⟩ := ih (if active d then (if d.next < acc.2 then (d.fedID, d.next) else acc) else acc)
    generalize List.foldl _ _ ds = r at h1 h2 h3
    have ha := active_iff d
    by_cases hl : active d = true
    · rw [if_pos hl] at h1 h3
      by_cases hlt : d.next < acc.2
      · rw [if_pos hlt] at h1 h3
        refine ⟨?_, ?_, by dsimp only at h3; omega⟩
        · rcases h1 with h1 | ⟨e, he, h1⟩
          · exact Or.inr ⟨d, List.mem_cons_self, ha.mp hl, h1⟩
          · exact Or.inr ⟨e, List.mem_cons_of_mem _ he, h1⟩
        · intro e he hle
          rcases List.mem_cons.mp he with rfl | he
          · exact h3
          · exact h2 e he hle
      · rw [if_neg hlt] at h1 h3
        refine ⟨?_, ?_, h3⟩
        · rcases h1 with h1 | ⟨e, he, h1⟩
          · exact Or.inl h1
          · exact Or.inr ⟨e, List.mem_cons_of_mem _ he, h1⟩
        · intro e he hle
          rcases List.mem_cons.mp he with rfl | he
          · omega
          · exact h2 e he hle
    · rw [if_neg hl] at h1 h3
      refine ⟨?_, ?_, h3⟩
      · rcases h1 with h1 | ⟨e, he, h1⟩
        · exact Or.inl h1
        · exact Or.inr ⟨e, List.mem_cons_of_mem _ he, h1⟩
      · intro e he hle
        rcases List.mem_cons.mp he with rfl | he
        · exact absurd (ha.mpr hle) hl
        · exact h2 e he hle

/-- **C11** (slowest dependency).  The federate named as the slowest dependency is a live one, and none has announced an earlier time; none is
named exactly if there is no live one. -/
theorem C11_slowest (ds : Deps) (hid : ∀ d ∈ ds, d.fedID ≠ invalidFed) :
    (ds.getMinDependency = invalidFed ↔ ¬ ∃ d ∈ ds, Live d) ∧
    ((∃ d ∈ ds, Live d) → ∃ d ∈ ds, Live d ∧ d.fedID = ds.getMinDependency ∧ ∀ e ∈ ds, Live e → d.next ≤ e.next) := by
  obtain ⟨h1, h2, h3⟩ := minDep_fold ds (invalidFed, maxVal)
  unfold getMinDependency
  generalize List.foldl _ _ ds = r at h1 h2 h3
  have key : (∃ d ∈ ds, Live d) → ∃ d ∈ ds, Live d ∧ r = (d.fedID, d.next) := by
    rintro ⟨d, hd, hl⟩
    rcases h1 with h1 | h1
    · have := h2 d hd hl
      rw [h1] at this
      have h4 := hl.2.2
      have : cTerm < maxVal := by decide
      dsimp only at *
      omega
    · exact h1
  constructor
  · constructor
    · intro h hex
      obtain ⟨d, hd, _, e⟩ := key hex
      rw [e] at h
      exact hid d hd h
    · intro h
      rcases h1 with h1 | ⟨d, hd, hl, _⟩
      · rw [h1]
      · exact absurd ⟨d, hd, hl⟩ h
  · intro hex
    obtain ⟨d, hd, hl, e⟩ := key hex
    refine ⟨d, hd, hl, by rw [e], fun x hx hlx => ?_⟩
    have := h2 x hx hlx
    rw [e] at this
    exact this

/-- **C11** (same round).  The sequence check passes exactly if every federate that is both waited for and waiting, speaks the
numbered protocol, has not finished and is not past the given time has answered with this number. -/
theorem C11_same_round (ds : Deps) (t : Time) (sq : Int) :
    ds.verifySeq t sq = true ↔ ∀ d ∈ ds, d.dependency = true → d.dependent = true → 0 < d.timingVersion → d.next ≤ t → d.next < cTerm →
      d.responseSequenceCounter = sq := by
  unfold verifySeq checkSeq
  simp only [List.all_eq_true]
  apply forall_congr'; intro d
  apply forall_congr'; intro _
  cases d.dependency <;> cases d.dependent <;> grind

example : let d : DepInfo := { DepInfo.ofId 200001 with dependency := true, next := 5 }
    let e : DepInfo := { DepInfo.ofId 200002 with dependency := true, next := 3, dependent := true, timingVersion := 1, responseSequenceCounter := 4 }
    Deps.activeCount [d, e] = 2 ∧ Deps.getMinDependency [d, e] = 200002 ∧ Deps.verifySeq [d, e] 3 4 = true ∧ Deps.verifySeq [d, e] 3 5 = false := by
  decide

end DepTable
end Verif
