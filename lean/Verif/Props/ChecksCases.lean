import Verif.Props.ChecksProps
/-! Concrete cases for C66, and what the code does that a user would not expect. -/
namespace Verif.Checks

def src1 : GHandle := ⟨131072, 1⟩
def src2 : GHandle := ⟨131073, 4⟩

/-- metres and feet convert -/
def conv (a b : String) : Bool := [("m", "ft"), ("ft", "m")].contains (a, b)

/-- a required input in metres with a source in feet, a publication that demands two subscribers and has them, an endpoint with one
destination -/
def fine : Ifs :=
  { inputs := [{ key := "in", type := "double", units := "m", flags := { required := true },
                 calls := [.addSource src1 "p" "int32" "ft", .set .singleConnectionOnly 1, .addSource src1 "p" "int32" "ft"] }]
    pubs := [{ key := "out", calls := [.set .connections 2, .subscribe src1 "a", .subscribe src2 "b", .subscribe src1 "a"] }]
    epts := [{ key := "ept", flags := { required := true, targeted := true },
               calls := [.addDestination src1 "d" "", .addSource src2 "s" "", .remove src2] }] }

example : enterInit conv fine = .initializing := by decide +kernel

theorem fine_met : fine.Met conv := (C66_enters_iff conv fine).1 (by decide +kernel)

example : enterInit conv { fine with pubs := [{ key := "out", calls := [.set .connections 2, .subscribe src1 "a"] }] } =
    .errored (-2) "Publication out requires 2 connections but only 1 are made" := by decide +kernel

example : enterInit conv { fine with inputs := [{ key := "in", type := "double", units := "m", calls := [.addSource src1 "p" "int32" "kg"] }], pubs := [{ key := "o", flags := { required := true } }] } =
    .errored (-2) "Input \"in\" source has incompatible unit: kg is not convertible to m" := by decide +kernel

example : enterInit conv { epts := [{ key := "e", flags := { single := true, targeted := true }, calls := [.addDestination src1 "a" "", .addDestination src2 "b" ""] }] } =
    .errored (-2) "Endpoint e is single source only but has more than one connection" := by decide +kernel

example : enterInit conv { epts := [{ key := "e", flags := { targeted := true }, calls := [.set .connections 3, .addDestination src1 "a" "", .addSource src2 "b" ""] }] } =
    .errored (-2) "Endpoint e requires 3 connections but has only 2" := by decide +kernel

/-- The option "multiple connections allowed" of a publication or endpoint is the wrong way round (PublicationInfo.cpp:88-90,
EndpointInfo.cpp:370-372): switched on, it refuses a federate whose publication has two subscribers. -/
theorem C66_multiple_inverted :
    enterInit conv { pubs := [{ key := "out", calls := [.set .multipleConnectionsAllowed 1, .subscribe src1 "a", .subscribe src2 "b"] }] } =
      .errored (-2) "Publication out is single source only but has more than one connection" ∧
    enterInit conv { inputs := [{ key := "in", calls := [.set .multipleConnectionsAllowed 1, .addSource src1 "a" "" "", .addSource src2 "b" "" ""] }] } =
      .initializing := by
  decide +kernel

/-- An input counts the sources ever connected (InterfaceInfo.cpp:240, 248): a required input whose only source was removed is accepted,
and an input for a single source whose source was replaced is refused. -/
theorem C66_removed_source_counts :
    enterInit conv { inputs := [{ key := "in", flags := { required := true }, calls := [.addSource src1 "a" "" "", .remove src1 0] }] } =
      .initializing ∧
    enterInit conv { inputs := [{ key := "in", flags := { single := true }, calls := [.addSource src1 "a" "" "", .remove src1 0, .addSource src2 "b" "" ""] }] } =
      .errored (-2) "Input in is single source only but has more than one connection" := by
  decide +kernel

/-- An interface for a single connection that has none is refused as having more than one (InterfaceInfo.cpp:249-254). -/
theorem C66_single_without_any :
    enterInit conv { inputs := [{ key := "in", flags := { single := true } }] } =
      .errored (-2) "Input in is single source only but has more than one connection" := by
  decide +kernel

/-- A source connected again after its removal has its units for a type (InputInfo.cpp:194-195), and the types no longer match. -/
theorem C66_retyped :
    enterInit conv { inputs := [{ key := "in", type := "double", calls := [.addSource src1 "a" "double" "m", .remove src1 0, .addSource src1 "a" "double" "m"] }] } =
      .errored (-2) "Input \"in\" source has mismatched types: double is not compatible with m" := by
  decide +kernel

/-- One partner in both directions satisfies a demand for one connection and a demand for two (EndpointInfo.cpp:312-347). -/
theorem C66_one_is_two :
    ∀ n ∈ [1, 2], enterInit conv { epts := [{ key := "e", flags := { targeted := true }, calls := [.set .connections n, .addDestination src1 "a" "", .addSource src1 "a" ""] }] } = .initializing := by
  decide +kernel

/-- An endpoint that is not targeted is never checked (EndpointInfo.cpp:302-304), and an interface registered as both required and optional
is optional. -/
theorem C66_not_checked :
    enterInit conv { epts := [{ key := "e", flags := { required := true, single := true } }] } = .initializing ∧
    enterInit conv { inputs := [{ key := "in", flags := { required := true, optional := true } }] } = .initializing := by
  decide +kernel

/-- The type rule is not symmetric: raw data is refused by an input of a standard type, and JSON by one of a user's own type. -/
theorem C66_types_not_symmetric :
    checkTypeMatch "double" "raw" false = false ∧ checkTypeMatch "raw" "double" false = true ∧
    checkTypeMatch "mine" "json" false = false ∧ checkTypeMatch "json" "mine" false = true := by
  decide +kernel

end Verif.Checks
