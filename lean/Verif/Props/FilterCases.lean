import Verif.Lemmas.FilterReturn
import Verif.Props.Filters
/-!
# C36: a concrete federation, and what happens outside the conditions

First a case which meets the hypotheses of the theorems in `Filters.lean`: an endpoint with a cloning filter,
a filter of another core, a local filter and another filter of the other core, and an endpoint with a
destination filter of the other core and two cloning ones.

Then the `bug_…` theorems: small federations which do not meet one of the conditions, and what the code does
with them.
-/
namespace Verif.Filt

/-- an operator which adds a number to the data -/
def opAdd (n : Nat) : Op := ⟨fun m => some { m with data := m.data ++ [n] }, fun _ => []⟩
/-- an operator which drops everything -/
def opDrop : Op := ⟨fun _ => none, fun _ => []⟩
/-- an operator which sends everything elsewhere -/
def opMove (d : String) : Op := ⟨fun m => some { m with dest := d }, fun _ => []⟩
/-- an operator which makes a copy for another endpoint -/
def opCopy (d : String) : Op := ⟨some, fun m => [{ m with dest := d }]⟩

def ept1 : Ept :=
  { fed := 101, key := "a",
    chain := [{ core := 200, handle := 10, cloning := true }, { core := 300, handle := 20 },
      { core := 200, handle := 11 }, { core := 300, handle := 21 }] }

def ept2 : Ept :=
  { fed := 102, key := "b", dest := some { core := 300, handle := 22 },
    clones := [{ core := 200, handle := 10, cloning := true }, { core := 300, handle := 23, cloning := true }] }

def demoOps : Int → Option Op
  | 10 => some (opCopy "c")
  | 11 => some (opAdd 11)
  | 12 => some (opAdd 12)
  | 13 => some opDrop
  | 14 => some (opMove "z")
  | _ => none

def demoHome : Int → Int → Option Home
  | 300, 20 => some { op := some (opAdd 20) }
  | 300, 21 => some { op := some (opAdd 21) }
  | 300, 22 => some { op := some (opAdd 22) }
  | 300, 23 => some { op := some (opCopy "d"), cloning := true }
  | 300, 24 => some { op := none, cloning := true }
  | 300, 25 => some { op := some opDrop }
  | _, _ => none

/-- a federation with one endpoint or two -/
def demo (e1 e2 : Ept) : Sys :=
  { ff := { fed := 200, epts := fun h => if h = 1 then some e1 else if h = 2 then some e2 else none, ops := demoOps },
    home := demoHome, resolve := fun _ => some (103, 5) }

theorem demo_fresh (e1 e2 : Ept) : (demo e1 e2).Fresh := ⟨rfl, rfl, rfl, rfl, rfl, rfl, rfl, rfl, rfl, rfl⟩

theorem ept1_good : (demo ept1 ept2).env.GoodEpt ept1 := by
  refine ⟨by decide, ⟨?_, by decide, ?_, ?_⟩, by simp [ept1], by simp [ept1]⟩
  · intro f hf
    simp only [ept1, List.mem_cons, List.not_mem_nil, or_false] at hf
    rcases hf with rfl | rfl | rfl | rfl
    · exact ⟨rfl, _, rfl⟩
    · exact ⟨rfl, _, rfl, rfl, rfl, (nomatch ·)⟩
    · exact ⟨rfl, _, rfl⟩
    · exact ⟨rfl, _, rfl, rfl, rfl, (nomatch ·)⟩
  · intro pre f post h hf g hg
    rcases pre with _ | ⟨a, _ | ⟨b, _ | ⟨c, _ | ⟨d, pre⟩⟩⟩⟩
    · cases hg
    all_goals simp only [ept1, List.nil_append, List.cons_append, List.cons.injEq] at h
    · obtain ⟨rfl, rfl, -⟩ := h; cases hf
    · obtain ⟨rfl, rfl, rfl, -⟩ := h; cases hf
    · obtain ⟨rfl, rfl, rfl, rfl, -⟩ := h; cases hf
    · simp at h
  · intro pre f post h hp hl hf hrem g hg
    rcases pre with _ | ⟨a, _ | ⟨b, _ | ⟨c, _ | ⟨d, pre⟩⟩⟩⟩
    · cases hg
    all_goals simp only [ept1, List.nil_append, List.cons_append, List.cons.injEq] at h
    · obtain ⟨rfl, -⟩ := h
      rw [List.mem_singleton] at hg; subst hg; rfl
    · obtain ⟨rfl, rfl, rfl, -⟩ := h
      exact absurd rfl hl
    · obtain ⟨rfl, rfl, rfl, rfl, rfl⟩ := h
      exact absurd rfl hp
    · simp at h

theorem ept2_good : (demo ept1 ept2).env.GoodEpt ept2 := by
  refine ⟨by decide, ⟨by simp [ept2], by decide, ?_, ?_⟩, ?_, ?_⟩
  · intro pre f post h; simp [ept2] at h
  · intro pre f post h; simp [ept2] at h
  · intro f hf
    cases hf
    refine ⟨⟨rfl, _, rfl, rfl, rfl, (nomatch ·)⟩, rfl, ?_⟩
    intro h; exact absurd h (by decide)
  · intro f hf
    simp only [ept2, List.mem_cons, List.not_mem_nil, or_false] at hf
    rcases hf with rfl | rfl
    · exact ⟨⟨rfl, _, rfl⟩, rfl⟩
    · exact ⟨⟨rfl, _, rfl, rfl, rfl, fun _ => ⟨_, rfl⟩⟩, rfl⟩

theorem demo_good : (demo ept1 ept2).env.Good := by
  intro h e he
  have he' : (if h = 1 then some ept1 else if h = 2 then some ept2 else none) = some e := he
  split at he'
  · cases he'; exact ept1_good
  · split at he'
    · cases he'; exact ept2_good
    · cases he'

/-- two messages of one endpoint, one to the other, time requests in between, answers out of order -/
def demoEvents : List Ev :=
  [.post 1 { dest := "x", data := [1], time := 7 } byName, .time 101 1, .post 1 { dest := "y", data := [2] } (103, 5),
    .time 102 5, .home 1, .arrive 2 { dest := "b", data := [3] } (102, 2), .home 2, .back 1, .time 101 2,
    .home 0, .back 1, .back 1]

/-- the hypotheses hold for this run, in the middle of which a federate is held -/
theorem demo_ok : ∀ e ∈ demoEvents, (demo ept1 ept2).env.EvOk e := by
  intro e he
  simp only [demoEvents, List.mem_cons, List.not_mem_nil, or_false] at he
  rcases he with rfl | rfl | rfl | rfl | rfl | rfl | rfl | rfl | rfl | rfl | rfl | rfl <;> try trivial
  right
  intro e f op m' h1 h2 h3
  have : e = ept2 := by
    have h1' : (if (2 : Int) = 1 then some ept1 else if (2 : Int) = 2 then some ept2 else none) = some e := h1
    rw [if_neg (by decide), if_pos rfl] at h1'
    exact (Option.some.inj h1').symm
  subst this
  cases h2
  exact absurd h3 (by decide)

/-- messages are under way and the sender is held, the other federate too -/
theorem demo_middle : ((demo ept1 ept2).run (demoEvents.take 7)).wire.length = 3 ∧
    ((demo ept1 ept2).run (demoEvents.take 7)).hasBlock 101 = true ∧
    ((demo ept1 ept2).run (demoEvents.take 7)).hasBlock 102 = false ∧
    ((demo ept1 ept2).run (demoEvents.take 7)).held = [102] ∧
    ((demo ept1 ept2).run (demoEvents.take 7)).delayed = [(101, 1)] ∧
    ((demo ept1 ept2).run (demoEvents.take 7)).timing = [(102, 5)] := by decide +kernel

/-- the theorems apply to this run -/
theorem demo_held : ((demo ept1 ept2).run (demoEvents.take 7)).wire.any ((demo ept1 ept2).env.isOut 101) = true := by
  rw [← held_exactly_while_out (demo_fresh _ _) demo_good _
    (fun e he => demo_ok e ((List.take_sublist 7 demoEvents).mem he))]
  exact demo_middle.2.1

/-- the rest of the deliveries -/
def demoRest : List Ev := [.back 2, .home 2, .home 1, .back 0, .home 0]

theorem demo_end : ((demo ept1 ept2).run (demoEvents ++ demoRest)).wire = [] ∧
    ((demo ept1 ept2).run (demoEvents ++ demoRest)).handed.map (fun c => (c.msg.dest, c.msg.data, c.dst)) =
      [("c", [1], byName), ("c", [2], byName), ("x", [1, 20, 11, 21], byName), ("y", [2, 20, 11, 21], byName),
        ("c", [3, 22], byName), ("d", [3, 22], byName)] ∧
    ((demo ept1 ept2).run (demoEvents ++ demoRest)).received.map (fun c => (c.1, c.2.dest, c.2.data)) =
      [(2, "b", [3, 22])] ∧
    ((demo ept1 ept2).run (demoEvents ++ demoRest)).timing = [(102, 5), (101, 1), (101, 2)] := by decide +kernel


/-- a case for the order of the filters -/
theorem demo_ordered : organize (fun a b => a == b || a == "") "m"
    [⟨{ core := 1, handle := 1 }, "n", "o"⟩, ⟨{ core := 1, handle := 2, cloning := true }, "z", "z"⟩,
      ⟨{ core := 1, handle := 3 }, "m", "n"⟩, ⟨{ core := 1, handle := 4 }, "q", "q"⟩] =
    ([⟨{ core := 1, handle := 2, cloning := true }, "z", "z"⟩, ⟨{ core := 1, handle := 3 }, "m", "n"⟩,
      ⟨{ core := 1, handle := 1 }, "n", "o"⟩], [⟨{ core := 1, handle := 4 }, "q", "q"⟩]) := by decide +kernel

/-! ## Outside the conditions -/

/-- an endpoint without filters -/
def noFilters : Ept := { fed := 102, key := "b" }

/-- **a local filter followed by a filter of another core which is not the last**: the local filter makes the
command forget its source, so the answer has nowhere to go: the message is lost and the federate is held for
ever, as nothing is under way any more -/
theorem bug_lost_return :
    let y := (demo { fed := 101, key := "a", chain := [{ core := 200, handle := 11 }, { core := 300, handle := 20 },
      { core := 200, handle := 12 }] } noFilters).run [.post 1 { dest := "x" } byName, .home 0, .back 0, .time 101 1]
    y.wire = [] ∧ y.handed = [] ∧ y.hasBlock 101 = true ∧ y.delayed = [(101, 1)] ∧ y.timing = [] := by
  decide +kernel

/-- **a local destination filter dropping a message**: a null pointer is read, FilterFederate.cpp:441 -/
theorem bug_dest_drop_crashes :
    ((demo noFilters { fed := 102, key := "b", dest := some { core := 200, handle := 13 } }).run
      [.arrive 2 { dest := "b" } byName]).crashed = true := by decide +kernel

/-- **a local destination filter sending a message elsewhere**: if the sender had filled in the destination,
the command handed on still names the old endpoint -/
theorem bug_dest_reroute_ignored :
    ((demo noFilters { fed := 102, key := "b", dest := some { core := 200, handle := 14 } }).run
      [.arrive 2 { dest := "b" } (102, 2)]).handed.map (fun c => (c.msg.dest, c.dst)) = [("z", (102, 2))] := by
  decide +kernel

/-- **a closed filter in front**: it is skipped without being counted, so after the answer the chain is taken
up again at the filter just passed, which acts a second time -/
theorem bug_closed_filter_repeats :
    ((demo { fed := 101, key := "a", chain := [{ core := 200, handle := 11, off := true },
      { core := 300, handle := 20 }, { core := 300, handle := 21 }] } noFilters).run
      [.post 1 { dest := "x" } byName, .home 0, .back 0, .home 0, .back 0, .home 0]).handed.map
        (fun c => (c.msg.dest, c.msg.data)) = [("x", [20, 20, 21])] := by decide +kernel

/-- **only closed filters behind a filter of another core**: the answer is sent on as it came, addressed to
the endpoint which sent the message -/
theorem bug_closed_tail_returns_to_sender :
    ((demo { fed := 101, key := "a", chain := [{ core := 300, handle := 20 },
      { core := 200, handle := 11, off := true }] } noFilters).run
      [.post 1 { dest := "x" } byName, .home 0, .back 0]).handed.map (fun c => (c.msg.dest, c.msg.data, c.dst)) =
        [("x", [20], (101, 1))] := by decide +kernel

/-- **a cloning filter of another core without operator**: the request is turned into the message itself, which
is delivered twice -/
theorem bug_clone_without_operator_duplicates :
    ((demo { fed := 101, key := "a", chain := [{ core := 300, handle := 24, cloning := true }] } noFilters).run
      [.post 1 { dest := "x" } byName, .home 0]).handed.map (fun c => (c.msg.dest, c.msg.data, c.dst)) =
        [("x", [], byName), ("x", [], byName)] := by decide +kernel

/-- **a local filter without operator**: a null pointer is used, FilterFederate.cpp:337 and 347 -/
theorem bug_local_without_operator_crashes :
    ((demo { fed := 101, key := "a", chain := [{ core := 200, handle := 99 }] } noFilters).run
      [.post 1 { dest := "x" } byName]).crashed = true := by decide +kernel

/-- **answers out of order**: only the oldest entry of the list of expected answers is looked at, so the
filter federate keeps announcing the time of a message which came back long ago -/
theorem bug_return_time_stuck :
    let y := (demo { fed := 101, key := "a", chain := [{ core := 300, handle := 20 }, { core := 200, handle := 11 }] }
      noFilters).run [.post 1 { dest := "x", time := 9 } byName, .post 1 { dest := "y", time := 5 } byName,
        .home 1, .back 1, .home 0, .back 0]
    y.wire = [] ∧ y.ff.ongoing = [] ∧ y.ff.returns = [(55, 5)] ∧ y.ff.minReturn = 5 := by decide +kernel

/-- **one number for two messages**: a destination filter takes the next number, a source filter the
current one, so both can use the same; the answer to one ends the wait for the other -/
theorem bug_shared_number :
    let y := (demo { fed := 101, key := "a", chain := [{ core := 300, handle := 20 }, { core := 200, handle := 11 }] }
      { fed := 102, key := "b", dest := some { core := 300, handle := 22 } }).run
        [.arrive 2 { dest := "b", time := 5 } byName, .post 1 { dest := "x", time := 9 } byName, .home 1, .back 1]
    y.wire.map (fun c => (c.act, c.seq, c.msg.time)) = [(.forDestRet, 55, 5)] ∧ y.ff.returns = [(55, 9)] ∧
      y.ff.minReturn = 9 := by decide +kernel

/-- **while an answer of a remote filter is expected, the time announced for the filter federate is not
after the time of the message being filtered**, whatever happened before: no run from a start without
expected answers makes the announced minimum overshoot one of them -/
theorem expected_answers_bound (y : Sys) (h0 : y.ff.returns = []) (es : List Ev) (id t : Int)
    (hp : (id, t) ∈ (y.run es).ff.returns) : (y.run es).ff.minReturn ≤ t :=
  early_run es (y := y) (by intro p hp; rw [h0] at hp; cases hp) (id, t) hp

/-- a run with two expected answers, the earlier one asked for last -/
example :
    let y := (demo { fed := 101, key := "a", chain := [{ core := 300, handle := 20 }, { core := 200, handle := 11 }] }
      noFilters).run [.post 1 { dest := "x", time := 9 } byName, .post 1 { dest := "y", time := 5 } byName,
        .post 1 { dest := "y", time := 7 } byName]
    y.ff.returns = [(54, 9), (55, 5), (56, 7)] ∧ y.ff.minReturn = 5 := by decide +kernel

end Verif.Filt
