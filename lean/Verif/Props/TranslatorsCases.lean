import Verif.Props.TranslatorsProps
/-! Concrete cases for C65. -/
namespace Verif
namespace Trans

def g : GHandle := ⟨100, 1⟩
def inA : GHandle := ⟨131072, 0⟩
def inB : GHandle := ⟨131073, 0⟩
def pubA : GHandle := ⟨131072, 5⟩
def eptA : GHandle := ⟨131074, 0⟩
def eptB : GHandle := ⟨131074, 1⟩

/-- made; an operator; two inputs, one twice, one removed and connected again; two endpoints, one removed -/
def setup : List Ev :=
  [.create g "tr", .cmd g (.setOp (some binaryOp)), .cmd g (.addSubscriber inA "a"), .cmd g (.addSubscriber inB "b"),
    .cmd g (.addSubscriber inA "a"), .cmd g (.removeSubscriber inA), .cmd g (.addSubscriber inA "a"),
    .cmd g (.addPublisher pubA "pub" "double" "V"), .cmd g (.addEndpoint eptA "eA" "" true),
    .cmd g (.addEndpoint eptB "eB" "" true), .cmd g (.addEndpoint eptB "eB" "" false), .cmd g (.removeEndpoint eptA)]

example : (run none' (setup ++ [.cmd g (.message { dest := "tr", source := "x", time := 10, data := [1, 2] })])).2 =
    [.pub g inB 11 [1, 2], .pub g inA 11 [1, 2]] := by decide +kernel

example : (run none' (setup ++ [.cmd g (.publish pubA 20 [3])])).2 =
    [.send pubA eptB { dest := "eB", source := "tr", osrc := "pub", data := [3], time := 21 }] := by decide +kernel

/-- a message without content, and one before there is an operator, come to nothing -/
example : (run none' (setup ++ [.cmd g (.message { dest := "tr" })])).2 = [] ∧
    (run none' [.create g "tr", .cmd g (.addSubscriber inA "a"), .cmd g (.message { dest := "tr", data := [1] })]).2 = [] := by
  decide +kernel

example : Subscribed inA (hist g setup) ∧ ¬Subscribed pubA (hist g setup) ∧ Target eptB "eB" (hist g setup) ∧
    ¬Target eptA "eA" (hist g setup) := by
  refine ⟨?_, ?_, ?_, ?_⟩ <;> (first | unfold Subscribed | unfold Target) <;> decide +kernel

/-- after it was closed, and for a publication that was never connected, it goes on -/
example : (run none' (setup ++ [.cmd g .close, .cmd g (.publish inA 20 [3])])).2 =
    [.send inA eptB { dest := "eB", source := "tr", osrc := "", data := [3], time := 21 }] := by decide +kernel

end Trans
end Verif
