import Verif.Lemmas.Deps
/-! # Properties of the dependency table (C11, C12) -/
namespace Verif
namespace DepTable
open Deps

/-! ## C11: dependency registration is a keyed set -/

/-- The registration requests a time coordinator applies to its table, plus arbitrary timing messages. -/
inductive DepOp
  | addDependency (g : FedId) | removeDependency (g : FedId)
  | addDependent (g : FedId) | removeDependent (g : FedId)
  | removeBoth (g : FedId) | message (m : Msg)

/-- How the code applies one request. -/
def DepOp.run (ds : Deps) : DepOp → Deps
  | .addDependency g => (ds.addDependency g).1
  | .removeDependency g => ds.removeDependency g
  | .addDependent g => (ds.addDependent g).1
  | .removeDependent g => ds.removeDependent g
  | .removeBoth g => ds.removeInterdependence g
  | .message m => (ds.updateTime m).1

/-- Specification: is `g` a dependency after the requests (newest first)?  Decided by the newest request
that concerns it. -/
def wantDependency (g : FedId) : List DepOp → Bool
  | [] => false
  | .addDependency h :: ops => if h = g then true else wantDependency g ops
  | .removeDependency h :: ops => if h = g then false else wantDependency g ops
  | .removeBoth h :: ops => if h = g then false else wantDependency g ops
  | _ :: ops => wantDependency g ops

/-- Specification: is `g` a dependent after the requests (newest first)? -/
def wantDependent (g : FedId) : List DepOp → Bool
  | [] => false
  | .addDependent h :: ops => if h = g then true else wantDependent g ops
  | .removeDependent h :: ops => if h = g then false else wantDependent g ops
  | .removeBoth h :: ops => if h = g then false else wantDependent g ops
  | _ :: ops => wantDependent g ops

/-- The table after a list of requests, newest first. -/
def table : List DepOp → Deps
  | [] => []
  | op :: ops => op.run (table ops)

private theorem isDependency_eq {ds : Deps} (g : FedId) :
    ds.isDependency g = ((ds.find g).map (·.dependency)).getD false := by
  unfold isDependency find; split <;> (try split) <;> simp_all
private theorem isDependent_eq {ds : Deps} (g : FedId) :
    ds.isDependent g = ((ds.find g).map (·.dependent)).getD false := by
  unfold isDependent find; split <;> (try split) <;> simp_all

private theorem run_step (ops : List DepOp) (op : DepOp)
    (hs : Sorted (table ops))
    (h : ∀ g, ((table ops).find g).map (fun d => (d.dependency, d.dependent)) =
      if wantDependency g ops || wantDependent g ops then
        some (wantDependency g ops, wantDependent g ops) else none) :
    Sorted (table (op :: ops)) ∧ ∀ g, ((table (op :: ops)).find g).map (fun d => (d.dependency, d.dependent)) =
      if wantDependency g (op :: ops) || wantDependent g (op :: ops) then
        some (wantDependency g (op :: ops), wantDependent g (op :: ops)) else none := by
  cases op with
  | addDependency k =>
    simp only [table, DepOp.run, addDependency_eq_upd hs, wantDependency, wantDependent]
    refine ⟨upd_sorted hs _ _ ?_, fun g => ?_⟩
    · rintro (_ | o) d hd he <;> simp only [Option.some.injEq] at hd <;> subst hd
      · rfl
      · have := he o rfl; split <;> simpa using this
    · rw [find_upd hs]
      · by_cases e : g = k
        · subst e
          have := h g
          simp only [if_true, Bool.true_or]
          cases hf : (table ops).find g with
          | none => rw [hf] at this; simp at this; simp [DepInfo.ofId, this]
          | some d =>
            rw [hf] at this
            simp only [Option.map_some] at this ⊢
            split at this
            · injection this with this; injection this with h1 h2
              split <;> simp [h2]
            · cases this
        · simp only [e, if_false, Ne.symm e]; exact h g
      · rintro (_ | o) d hd he <;> simp only [Option.some.injEq] at hd <;> subst hd
        · rfl
        · have := he o rfl; split <;> simpa using this
  | addDependent k =>
    simp only [table, DepOp.run, addDependent_eq_upd hs, wantDependency, wantDependent]
    refine ⟨upd_sorted hs _ _ ?_, fun g => ?_⟩
    · rintro (_ | o) d hd he <;> simp only [Option.some.injEq] at hd <;> subst hd
      · rfl
      · exact he o rfl
    rw [find_upd hs]
    rotate_left
    · rintro (_ | o) d hd he <;> simp only [Option.some.injEq] at hd <;> subst hd
      · rfl
      · exact he o rfl
    by_cases e : g = k
    · subst e
      have := h g
      simp only [if_true, Bool.or_true]
      cases hf : (table ops).find g with
      | none => rw [hf] at this; simp at this; simp [DepInfo.ofId, this]
      | some d =>
        rw [hf] at this
        simp only [Option.map_some] at this ⊢
        split at this
        · injection this with this; injection this with h1 h2; simp [h1]
        · cases this
    · simp only [e, if_false, Ne.symm e]; exact h g
  | removeDependency k =>
    simp only [table, DepOp.run, removeDependency_eq_upd hs, wantDependency, wantDependent]
    have hF : ∀ (o : Option DepInfo) d, (o.bind fun d =>
      if !d.dependent then none else some { d with dependency := false }) = some d →
      (∀ e, o = some e → e.fedID = k) → d.fedID = k := by
      rintro (_ | o) d hd he
      · cases hd
      · simp only [Option.bind_some] at hd
        split at hd
        · cases hd
        · injection hd with hd; subst hd; exact he o rfl
    refine ⟨upd_sorted hs _ _ hF, fun g => ?_⟩
    rw [find_upd hs _ _ _ hF]
    by_cases e : g = k
    · subst e
      have := h g
      simp only [if_true, Bool.false_or]
      cases hf : (table ops).find g with
      | none => rw [hf] at this; simp at this; simp [this]
      | some d =>
        rw [hf] at this
        simp only [Option.map_some, Option.bind_some] at this ⊢
        split at this
        · injection this with this; injection this with h1 h2
          cases hd : d.dependent <;> simp_all
        · cases this
    · simp only [e, if_false, Ne.symm e]; exact h g
  | removeDependent k =>
    simp only [table, DepOp.run, removeDependent_eq_upd hs, wantDependency, wantDependent]
    have hF : ∀ (o : Option DepInfo) d, (o.bind fun d =>
      if !d.dependency then none else some { d with dependent := false }) = some d →
      (∀ e, o = some e → e.fedID = k) → d.fedID = k := by
      rintro (_ | o) d hd he
      · cases hd
      · simp only [Option.bind_some] at hd
        split at hd
        · cases hd
        · injection hd with hd; subst hd; exact he o rfl
    refine ⟨upd_sorted hs _ _ hF, fun g => ?_⟩
    rw [find_upd hs _ _ _ hF]
    by_cases e : g = k
    · subst e
      have := h g
      simp only [if_true, Bool.or_false]
      cases hf : (table ops).find g with
      | none => rw [hf] at this; simp at this; simp [this]
      | some d =>
        rw [hf] at this
        simp only [Option.map_some, Option.bind_some] at this ⊢
        split at this
        · injection this with this; injection this with h1 h2
          cases hd : d.dependency <;> simp_all
        · cases this
    · simp only [e, if_false, Ne.symm e]; exact h g
  | removeBoth k =>
    simp only [table, DepOp.run, removeInterdependence_eq_upd hs, wantDependency, wantDependent]
    have hF : ∀ (o : Option DepInfo) d, (none : Option DepInfo) = some d →
      (∀ e, o = some e → e.fedID = k) → d.fedID = k := by
      intro o d hd; cases hd
    refine ⟨upd_sorted hs _ _ hF, fun g => ?_⟩
    rw [find_upd hs _ _ _ hF]
    by_cases e : g = k
    · subst e; simp
    · simp only [e, if_false, Ne.symm e]; exact h g
  | message m =>
    simp only [table, DepOp.run, updateTime_eq_upd hs, wantDependency, wantDependent]
    have hF : ∀ (o : Option DepInfo) d, (o.map fun d =>
      if d.dependency then (d.process m).1 else d) = some d →
      (∀ e, o = some e → e.fedID = m.source) → d.fedID = m.source := by
      rintro (_ | o) d hd he
      · cases hd
      · simp only [Option.map_some, Option.some.injEq] at hd
        subst hd
        have := he o rfl
        split
        · rw [process_fedID]; exact this
        · exact this
    refine ⟨upd_sorted hs _ _ hF, fun g => ?_⟩
    rw [find_upd hs _ _ _ hF]
    by_cases e : g = m.source
    · subst e
      rw [if_pos rfl]
      refine Eq.trans ?_ (h m.source)
      rw [Option.map_map]
      congr 1
      funext d
      simp only [Function.comp]
      split
      · simp [process_flags]
      · rfl
    · rw [if_neg e]; exact h g

/-- Invariant behind C11. -/
theorem table_spec (ops : List DepOp) : Sorted (table ops) ∧
    ∀ g, ((table ops).find g).map (fun d => (d.dependency, d.dependent)) =
      if wantDependency g ops || wantDependent g ops then
        some (wantDependency g ops, wantDependent g ops) else none := by
  induction ops with
  | nil => exact ⟨Sorted.nil, fun g => by simp [table, find, fromLB, wantDependency, wantDependent]⟩
  | cons op ops ih => exact run_step ops op ih.1 ih.2

/-- **C11.** After any sequence of registrations, removals and timing messages, a federate is reported as
dependency (dependent) exactly if it was last added and not removed since, it has an entry exactly if it is
one of the two, and no federate has two entries. -/
theorem C11_keyed_set (ops : List DepOp) :
    (∀ g, (table ops).isDependency g = wantDependency g ops) ∧
    (∀ g, (table ops).isDependent g = wantDependent g ops) ∧
    (∀ g, g ∈ (table ops).map (·.fedID) ↔ (wantDependency g ops = true ∨ wantDependent g ops = true)) ∧
    ((table ops).map (·.fedID)).Nodup := by
  obtain ⟨hs, h⟩ := table_spec ops
  refine ⟨fun g => ?_, fun g => ?_, fun g => ?_, ?_⟩
  · rw [isDependency_eq]
    have := congrArg (fun o => (o.map Prod.fst).getD false) (h g)
    simp only [Option.map_map, Function.comp_def] at this
    rw [this]
    cases wantDependency g ops <;> cases wantDependent g ops <;> simp
  · rw [isDependent_eq]
    have := congrArg (fun o => (o.map Prod.snd).getD false) (h g)
    simp only [Option.map_map, Function.comp_def] at this
    rw [this]
    cases wantDependency g ops <;> cases wantDependent g ops <;> simp
  · have h1 : g ∈ (table ops).map (·.fedID) ↔ ((table ops).find g).isSome := by
      rw [Option.isSome_iff_exists]
      simp only [List.mem_map, find_eq_some_iff hs]
    have := congrArg Option.isSome (h g)
    rw [Option.isSome_map] at this
    rw [h1, this]
    cases wantDependency g ops <;> cases wantDependent g ops <;> simp
  · have : ((table ops).map (·.fedID)).Pairwise (· < ·) := List.pairwise_map.2 hs
    exact this.imp (fun hab => Int.ne_of_lt hab)

/-- A history in which a federate is added in both roles, sends a message, is removed in one role, while a
second federate with a smaller id is inserted before it. -/
example : let ops := [DepOp.removeDependent 7, .addDependency 3, .message { action := .timeRequest, source := 7, actionTime := 4 },
      .addDependent 7, .addDependency 7]
    (table ops).map (fun d => (d.fedID, d.dependency, d.dependent)) = [(3, true, false), (7, true, false)] ∧
    (table ops).isDependency 7 = true ∧ (table ops).isDependent 7 = false := by decide

/-- **C11 (return value).** Registering a dependency reports "new" exactly if it was not one already, or had
finished (its declared time is past the termination time) and is revived. -/
theorem C11_add_reports_new (ops : List DepOp) (g : FedId) :
    ((table ops).addDependency g).2 = true ↔
      wantDependency g ops = false ∨ ∃ d ∈ table ops, d.fedID = g ∧ d.next > cTerm := by
  obtain ⟨hs, _⟩ := table_spec ops
  have hd := (C11_keyed_set ops).1 g
  rw [isDependency_eq] at hd
  rw [← hd]
  unfold addDependency
  have hex : (∃ d ∈ table ops, d.fedID = g ∧ d.next > cTerm) ↔
      ∃ d, (table ops).find g = some d ∧ d.next > cTerm := by
    constructor
    · rintro ⟨d, h1, h2, h3⟩; exact ⟨d, (find_eq_some_iff hs).2 ⟨h1, h2⟩, h3⟩
    · rintro ⟨d, h1, h3⟩
      obtain ⟨h1, h2⟩ := (find_eq_some_iff hs).1 h1
      exact ⟨d, h1, h2, h3⟩
  rw [hex]
  rcases fromLB_cases hs g with ⟨h1, h2, h3, h4⟩ | ⟨d, r, h1, h2, h3, h4⟩ | ⟨d, r, h1, h2, h3, h4⟩
  · rw [h1, h2]; simp
  · rw [h1, h3]
    simp only [h2, if_true, Option.map_some, Option.getD_some, Option.some.injEq, exists_eq_left']
    by_cases hn : d.next > cTerm
    · simp [hn]
    · simp only [hn, if_false, or_false, Bool.not_eq_true']
  · rw [h1, h3]; simp [h2]

/-! ## C12: conflicting wait-for-current-time flags -/

private theorem checkForIssues_fold (ds : Deps) : ∀ (a : Bool),
    (ds.foldl (fun (acc : Bool × Bool) d =>
      if acc.2 then acc
      else if delayedMutual d then (if acc.1 then (acc.1, true) else (true, false))
      else acc) (a, false)).2 = decide (2 ≤ (if a then 1 else 0) + ds.countP delayedMutual) := by
  have stuck : ∀ (ds : Deps) (a : Bool), (ds.foldl (fun (acc : Bool × Bool) d =>
      if acc.2 then acc
      else if delayedMutual d then (if acc.1 then (acc.1, true) else (true, false))
      else acc) (a, true)).2 = true := by
    intro ds; induction ds with
    | nil => intro a; rfl
    | cons d ds ih => intro a; simp only [List.foldl_cons, if_true]; exact ih a
  induction ds with
  | nil => intro a; cases a <;> rfl
  | cons d ds ih =>
    intro a
    simp only [List.foldl_cons, Bool.false_eq_true, if_false, List.countP_cons]
    cases hd : delayedMutual d with
    | false => simp only [Bool.false_eq_true, if_false]; rw [ih]; rfl
    | true =>
      cases a with
      | false =>
        simp only [Bool.false_eq_true, if_false, if_true]; rw [ih]
        simp only [if_true, Nat.zero_add]; congr 2; omega
      | true =>
        simp only [if_true]; rw [stuck]; symm; rw [decide_eq_true_eq]; omega

/-- Specification: the federates involved in a mutual dependency with this one (excluding itself) that declared
wait-for-current-time. -/
def mutualWaiters (ds : Deps) : List FedId :=
  (ds.filter fun d => d.dependency ∧ d.dependent ∧ d.delayedTiming ∧ d.connection ≠ .self).map (·.fedID)

/-- **C12.** The conflict is reported exactly if, counting the federate itself and the federates it is mutually
dependent with, at least two use wait-for-current-time. -/
theorem C12_conflict_iff (ds : Deps) (waiting : Bool) :
    ds.checkForIssues waiting = true ↔
      2 ≤ (if waiting then 1 else 0) + (mutualWaiters ds).length := by
  unfold checkForIssues
  rw [checkForIssues_fold]
  have : (mutualWaiters ds).length = ds.countP delayedMutual := by
    unfold mutualWaiters
    rw [List.length_map, List.countP_eq_length_filter]
    congr 2
    funext d
    unfold delayedMutual
    cases d.dependency <;> cases d.dependent <;> cases d.delayedTiming <;>
      cases d.connection <;> decide
  rw [this, decide_eq_true_eq]

example : let ds : Deps := [{ fedID := 3, dependency := true, dependent := true, delayedTiming := true },
      { fedID := 5, dependency := true, dependent := false, delayedTiming := true }]
    ds.checkForIssues true = true ∧ ds.checkForIssues false = false ∧ mutualWaiters ds = [3] := by decide

end DepTable
end Verif
