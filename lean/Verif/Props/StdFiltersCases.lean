import Verif.Props.StdFiltersProps
/-! Concrete cases for C64. -/
namespace Verif
namespace StdF

/-- a library that reads two times and searches for the expression itself -/
def lib : Ext where
  time s := if s = "5s" then some 5000000000 else if s = "-1s" then some (-1000000000) else none
  valid s := s ≠ "("
  search r s := r = s
  draw _ p1 _ u := p1 + u

def mess : Filt.Msg := { dest := "sink", source := "pump", time := 10, data := [1, 2], id := 7 }

/-- the last accepted delay counts: the negative number is refused in silence, the text that is no time loudly -/
example : ((newDelay (-3)).calls lib [.set "delay" 4, .setString "delay" "5s", .set "delay" (-1),
      .setString "delay" "soon", .set "dealy" 9]).proc lib 0 mess = some { mess with time := 5000000010 } ∧
    ((newDelay 2).call lib (.setString "delay" "soon")).2 = true ∧
    (newDelay (-3)).proc lib 0 mess = some mess := by decide +kernel

/-- a negative time as a string is taken -/
example : ((newDelay 3).calls lib [.setString "delay" "-1s"]).proc lib 0 mess =
    some { mess with time := -999999990 } := by decide +kernel

example : (newDrop.calls lib [.set "prob" 300000000]).proc lib 650000000 mess = some mess ∧
    (newDrop.calls lib [.set "prob" 300000000]).proc lib 700000000 mess = none ∧
    (newDrop.calls lib [.setString "prob" "1"]).proc lib 999999999 mess = some mess := by decide +kernel

/-- with a condition that is not met the message keeps its destination, but is marked -/
example : ((newReroute.calls lib [.setString "newdestination" "mirror/${source}-${dest}"]).proc lib 0 mess).map
      (fun m => (m.dest, m.odest)) = some ("mirror/pump-sink", "sink") ∧
    ((newReroute.calls lib [.setString "newdestination" "x", .setString "condition" "tank"]).proc lib 0 mess).map
      (fun m => (m.dest, m.odest)) = some ("sink", "sink") ∧
    ((newReroute.calls lib [.setString "newdestination" "x", .setString "condition" "tank",
      .setString "condition" "sink"]).proc lib 0 mess).map (fun m => (m.dest, m.odest)) = some ("x", "sink") ∧
    (newReroute.call lib (.setString "condition" "(")).2 = true := by decide +kernel

/-- the hypotheses of `C64_formula` -/
example : [Piece.lit "mirror/".toList, .source, .lit "-".toList, .dest].flatMap Piece.text =
      "mirror/${source}-${dest}".toList ∧
    (∀ p ∈ [Piece.lit "mirror/".toList, .source, .lit "-".toList, .dest], p.Plain) := by
  refine ⟨by decide +kernel, ?_⟩
  intro p hp
  simp only [List.mem_cons, List.not_mem_nil, or_false] at hp
  rcases hp with rfl | rfl | rfl | rfl
  · show '$' ∉ "mirror/".toList; decide +kernel
  · trivial
  · show '$' ∉ "-".toList; decide +kernel
  · trivial

def cloneCalls : List Call := [.setString "delivery" "a", .setString "add delivery" "b",
  .setString "add delivery" "a", .setString "add delivery" "c", .setString "remove delivery" "b", .set "delivery" 1]

example : ((newClone.calls lib cloneCalls).vec lib 0 mess).map (fun m => (m.dest, m.odest, m.time)) =
    [("a", "sink", 10), ("c", "sink", 10)] := by decide +kernel

example : Wanted "a" cloneCalls ∧ ¬Wanted "b" cloneCalls := by
  refine ⟨by unfold Wanted; decide +kernel, by unfold Wanted; decide +kernel⟩

/-- a filter that delays, one that copies, one that drops, one never reached -/
example : through lib [(false, .delay 5, 0), (true, .clone ["spy"], 0), (false, .drop one, 0), (true, .clone ["x"], 0)] mess =
    (none, [{ mess with dest := "spy", odest := "sink", time := 15 }]) := by decide +kernel

/-- an endpoint with such a row: the hypotheses of `C64_row` -/
def ffd : Filt.FF where
  fed := 3
  epts h := if h = 1 then some { fed := 131072, key := "pump", chain := [⟨3, 10, false, false⟩, ⟨3, 11, true, false⟩] } else none
  ops h := some ((if h = 10 then FOp.delay 5 else .clone ["spy"]).op lib 0)

example : (ffd.process 1 { act := .send, msg := mess }).2.1.msg = { mess with time := 15 } ∧
    (ffd.process 1 { act := .send, msg := mess }).2.2 =
      [.deliver (Filt.Cmd.ofMsg { mess with dest := "spy", odest := "sink", time := 15 })] := by decide +kernel

example : ∀ h, ffd.ops h = some (((fun h => ((if h = 10 then FOp.delay 5 else .clone ["spy"]), (0 : Int))) h).1.op lib
    ((fun h : Int => ((if h = 10 then FOp.delay 5 else .clone ["spy"]), (0 : Int))) h).2) := fun _ => rfl

example : listing ["a", "c"] = "[\"a\",\"c\"]" := by decide +kernel

end StdF
end Verif
