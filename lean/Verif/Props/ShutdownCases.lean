import Verif.Props.ShutdownProps
/-! # C56: concrete histories, and where a federation does not end as one might expect -/
namespace Verif.Down

/-- the root broker 0, a broker 1 below it with the core 2, a core 3 directly below the root; the federates 4 and 5 at core 2 and 6
at core 3 -/
def exNet (g : Bool) : Net where
  size := 7
  par := fun n => match n with | 2 => 1 | 4 => 2 | 5 => 2 | 6 => 3 | _ => 0
  kind := fun n => match n with | 0 => .broker | 1 => .broker | 2 => .core | 3 => .core | _ => .fed
  glob := fun _ => g
  tied := fun _ => true

theorem below7 {P : Nat → Prop} (h : ∀ n, n ∈ List.range 7 → P n) : ∀ n, n < 7 → P n := fun n hn => h n (List.mem_range.2 hn)

theorem exNet_ok (g : Bool) : (exNet g).Ok where
  root := rfl
  below := by
    intro n h0
    unfold exNet
    simp only
    split <;> omega
  size := by show 0 < 7; omega
  rootKind := rfl
  fed := by
    have : ∀ n, n ∈ List.range 7 → n ≠ 0 → ((exNet g).kind n = .fed ↔ (exNet g).kind ((exNet g).par n) = .core) := by
      cases g <;> decide
    intro n h0 hn; exact this n (List.mem_range.2 hn) h0
  leaf := by
    have : ∀ n, n ∈ List.range 7 → n ≠ 0 → (exNet g).kind ((exNet g).par n) ≠ .fed := by
      cases g <;> decide
    intro n h0 hn; exact this n (List.mem_range.2 hn) h0

theorem exNet_full (g : Bool) : (exNet g).Full := by
  have : ∀ n, n ∈ List.range 7 → (exNet g).kind n ≠ .fed → (exNet g).kids n ≠ [] := by cases g <;> decide
  intro n hn; exact this n (List.mem_range.2 hn)

/-- everybody takes what there is from everybody, `k` times -/
def sweep (n k : Nat) : List Ev :=
  (List.range k).flatMap (fun _ => (List.range n).flatMap (fun u => (List.range n).map (fun v => Ev.take u v)))

theorem noKill_sweep (n k : Nat) : NoKill (sweep n k) := by
  intro m hm
  unfold sweep at hm
  simp only [List.mem_flatMap, List.mem_map] at hm
  obtain ⟨_, _, _, _, _, _, e⟩ := hm
  cases e

theorem noKill_append {a b : List Ev} (ha : NoKill a) (hb : NoKill b) : NoKill (a ++ b) :=
  fun n hn => (List.mem_append.1 hn).elim (ha n) (hb n)

/-- what can be seen of a state of `n` members -/
def phases (s : Sys) (n : Nat) : List Phase := (List.range n).map (fun v => (s.node v).phase)
def empty (s : Sys) (n : Nat) : Bool := (List.range n).all (fun u => (List.range n).all (fun v => (s.link u v).isEmpty))

/-- nothing is on its way between others than the members -/
theorem quiet_of {net : Net} (h : net.Ok) {s : Sys} (I : InvA net s) (he : empty s net.size = true) : Quiet s := by
  intro u v
  cases hl : s.link u v with
  | nil => rfl
  | cons c cs =>
    exfalso
    have g := I.links u v c (by rw [hl]; exact List.mem_cons_self ..)
    have hu := good_from h g
    have hv := good_member h g
    unfold empty at he
    simp only [List.all_eq_true, List.mem_range] at he
    have := he u hu v hv
    rw [hl] at this; cases this

/-! ### Everybody leaves -/

def exAll : List Ev := [.finalize 4, .take 4 2, .finalize 6, .finalize 5] ++ sweep 7 12

theorem exAll_noKill : NoKill exAll :=
  noKill_append (by intro n hn; simp at hn) (noKill_sweep 7 12)

theorem exAll_runs : ∀ g o, empty ((Sys.start (exNet g) o).run (exNet g) exAll) 7 = true ∧
    phases ((Sys.start (exNet g) o).run (exNet g) exAll) 7 = List.replicate 7 .stopped ∧
    (((Sys.start (exNet g) o).run (exNet g) exAll).node 4).called = true ∧
    (((Sys.start (exNet g) o).run (exNet g) exAll).node 5).called = true ∧
    (((Sys.start (exNet g) o).run (exNet g) exAll).node 6).called = true := by
  intro g o; cases g <;> cases o <;> decide +kernel

theorem exNet_feds (g : Bool) {f : Node} (hf : (exNet g).IsFed f) : f = 4 ∨ f = 5 ∨ f = 6 := by
  have : ∀ n, n ∈ List.range 7 → (exNet g).kind n = .fed → n = 4 ∨ n = 5 ∨ n = 6 := by cases g <;> decide
  exact this f (List.mem_range.2 hf.1) hf.2

/-- the hypotheses of `C56_all_end` hold after this history -/
theorem exAll_meets (g o : Bool) : (exNet g).Ok ∧ (exNet g).Full ∧ NoKill exAll ∧
    (∀ f, (exNet g).IsFed f → Called ((Sys.start (exNet g) o).run (exNet g) exAll) f) ∧
    Quiet ((Sys.start (exNet g) o).run (exNet g) exAll) := by
  obtain ⟨h1, _, h4, h5, h6⟩ := exAll_runs g o
  refine ⟨exNet_ok g, exNet_full g, exAll_noKill, ?_, quiet_of (exNet_ok g) (InvA.run (exNet_ok g) exAll_noKill o) h1⟩
  intro f hf
  rcases exNet_feds g hf with e | e | e <;> subst e
  · exact h4
  · exact h5
  · exact h6

/-- those of `C56_ends` hold as soon as the last one has called -/
theorem exCalled (g : Bool) : ∀ f, (exNet g).IsFed f →
    Called ((Sys.start (exNet g) true).run (exNet g) [.finalize 4, .take 4 2, .finalize 6, .finalize 5]) f := by
  intro f hf
  rcases exNet_feds g hf with e | e | e <;> subst e <;> (unfold Called; cases g <;> decide +kernel)

/-- the broker 1 ends before the federate 6 has called anything; both its federates have (`C56_not_before`) -/
def exSome : List Ev := [.finalize 4, .finalize 5] ++ sweep 7 12

theorem exSome_noKill : NoKill exSome := noKill_append (by intro n hn; simp at hn) (noKill_sweep 7 12)

theorem exSome_runs :
    empty ((Sys.start (exNet false) true).run (exNet false) exSome) 7 = true ∧
    phases ((Sys.start (exNet false) true).run (exNet false) exSome) 7 =
      [.running, .stopped, .stopped, .running, .stopped, .stopped, .running] := by decide +kernel

theorem exSome_above : Above (exNet false) 1 4 ∧ Above (exNet false) 1 5 :=
  ⟨.step (by decide) (.step (by decide) .refl), .step (by decide) (.step (by decide) .refl)⟩

/-- with the global disconnect option nobody gets back: `C56_global` -/
theorem exSome_global :
    empty ((Sys.start (exNet true) true).run (exNet true) exSome) 7 = true ∧
    phases ((Sys.start (exNet true) true).run (exNet true) exSome) 7 =
      [.running, .running, .terminating, .running, .terminating, .terminating, .running] := by decide +kernel

/-- one federate alone gets back at once without the option (`C56_returns`), and its core goes on -/
def exOne : List Ev := [.finalize 4] ++ sweep 7 12

theorem exOne_runs :
    empty ((Sys.start (exNet false) true).run (exNet false) exOne) 7 = true ∧
    phases ((Sys.start (exNet false) true).run (exNet false) exOne) 7 =
      [.running, .running, .running, .running, .stopped, .running, .running] := by decide +kernel

/-! ### Where it does not -/

/-- Before the operating state the global disconnect option does not keep its promise: brokers pay no attention to goodbyes of time
coordinators until they operate (CoreBroker.cpp:3348-3366), so a broker that leaves says goodbye to its cores, and a core takes that
for a confirmation (CommonCore.cpp:5187-5206).  Here the calls of 4 and 5 return and 6 has not called. -/
theorem C56_global_early_counterexample :
    Returned ((Sys.start (exNet true) false).run (exNet true) exSome) 4 ∧
    Returned ((Sys.start (exNet true) false).run (exNet true) exSome) 5 ∧
    ¬ Called ((Sys.start (exNet true) false).run (exNet true) exSome) 6 := by
  unfold Returned Called; decide +kernel

/-- A broker in the middle which is disconnected by hand does not tell the broker above it: it marks all below as disconnected first
(CoreBroker.cpp:1061-1093) and then, in CMD_STOP, has nobody left for whom it would send a CMD_DISCONNECT
(CoreBroker.cpp:1327-1339).  All federates have called and their calls have returned, nothing is on its way, and the
root broker goes on for ever. -/
theorem C56_kill_counterexample :
    empty ((Sys.start (exNet false) true).run (exNet false) ([.kill 1, .finalize 4, .finalize 5, .finalize 6] ++ sweep 7 12)) 7 = true ∧
    phases ((Sys.start (exNet false) true).run (exNet false) ([.kill 1, .finalize 4, .finalize 5, .finalize 6] ++ sweep 7 12)) 7 =
      [.running, .stopped, .stopped, .stopped, .stopped, .stopped, .stopped] := by decide +kernel

/-- the root 0 with the core 1 that has no federate and the core 2 with the federate 3 -/
def exBare : Net where
  size := 4
  par := fun n => match n with | 3 => 2 | _ => 0
  kind := fun n => match n with | 0 => .broker | 1 => .core | 2 => .core | _ => .fed
  glob := fun _ => false
  tied := fun _ => true

/-- A core without federates keeps an operating federation from ending (`Full` is needed in `C56_ends`) ... -/
theorem C56_empty_core_counterexample :
    empty ((Sys.start exBare true).run exBare ([.finalize 3] ++ sweep 4 10)) 4 = true ∧
    phases ((Sys.start exBare true).run exBare ([.finalize 3] ++ sweep 4 10)) 4 = [.running, .running, .stopped, .stopped] := by
  decide +kernel

/-- ... and before the operating state it ends, because the root lets everybody know that somebody has left
(CoreBroker.cpp:3547-3566) and a core looks then whether it has anybody left (CommonCore.cpp:4794-4798). -/
theorem exBare_early :
    phases ((Sys.start exBare false).run exBare ([.finalize 3] ++ sweep 4 10)) 4 = [.stopped, .stopped, .stopped, .stopped] := by
  decide +kernel

end Verif.Down
