/-!
# Numbered names for federates

src/helics/core/CoreBroker.cpp:528-543 and src/helics/core/CommonCore.cpp:782-830.
-/
namespace Verif.Rename

/-- `std::string` (src/helics/core/CoreBroker.cpp:530). -/
abbrev Text := List Char

/-- The text that is replaced (src/helics/core/CoreBroker.cpp:531). -/
def marker : Text := ['$', '{', '#', '}']

/-- `std::string::find` for a text that is not empty (src/helics/core/CoreBroker.cpp:531, src/helics/core/CommonCore.cpp:782). -/
def find (pat : Text) : Text → Option Nat
  | [] => none
  | c :: cs => if pat.isPrefixOf (c :: cs) then some 0 else (find pat cs).map (· + 1)

/-- `std::string::replace` with a length of 4 (src/helics/core/CoreBroker.cpp:535, 538). -/
def replace4 (s : Text) (pos : Nat) (r : Text) : Text := s.take pos ++ r ++ s.drop (pos + 4)

/-- `renamers` (src/helics/core/CoreBroker.hpp:129).  Simplification: the 64-bit numbers are natural numbers. -/
abbrev Renamers := List (Text × Nat)

/-- `CoreBroker::generateRename` (src/helics/core/CoreBroker.cpp:528-543), which answers the query `rename:` (src/helics/core/CoreBroker.cpp:3856-3858). -/
def generateRename (r : Renamers) (name : Text) : Text × Renamers :=
  match find marker name with
  | some loc =>
    match r.lookup name with
    | some n => (replace4 name loc (Nat.toDigits 10 (n + 1)), r.map fun e => if e.1 = name then (e.1, e.2 + 1) else e)
    | none => (replace4 name loc ['1'], (name, 1) :: r)
  | none => (name, r)

/-- The text looked for in the answer (src/helics/core/CommonCore.cpp:790). -/
def errorWord : Text := ['e', 'r', 'r', 'o', 'r']

/-- The text that starts a name to be generated (src/helics/core/CommonCore.cpp:782). -/
def dollar : Text := ['$', '{']

/-- The federates of a federation as far as their names go: the root broker's numbers and the names in use
(src/helics/core/CoreBroker.hpp:129, src/helics/core/CoreBroker.cpp:587-591). -/
structure Fed where
  renamers : Renamers := []
  names : List Text := []

/-- What registering a federate ends in (src/helics/core/CommonCore.cpp:788-830). -/
inductive Answer
  | joined (name : Text)
  | badNaming
  | duplicate
  deriving DecidableEq, Repr

/-- `CommonCore::registerFederate` from the name on (src/helics/core/CommonCore.cpp:782-830) and `CoreBroker::fedRegistration`
(src/helics/core/CoreBroker.cpp:587-596).  Simplification: the root broker answers the query, no limit on federates is met, the federation
is not dynamic, and the test at the core and the test at the broker for a name in use are one. -/
def register (s : Fed) (name : Text) : Fed × Answer :=
  let (nname, r) :=
    match find dollar name with
    | some _ => generateRename s.renamers name
    | none => (name, s.renamers)
  let bad : Bool :=
    match find dollar name with
    | some iloc => decide (name ≠ nname) && decide (name.take iloc ≠ nname) && (find errorWord nname).isSome
    | none => false
  if bad then ({ s with renamers := r }, .badNaming)
  else if nname ∈ s.names then ({ s with renamers := r }, .duplicate)
  else ({ renamers := r, names := nname :: s.names }, .joined nname)

/-- The answers to a series of rename queries (src/helics/core/CoreBroker.cpp:3856-3858). -/
def renameAll (r : Renamers) : List Text → List Text × Renamers
  | [] => ([], r)
  | t :: ts =>
    let (a, r1) := generateRename r t
    let (as, r2) := renameAll r1 ts
    (a :: as, r2)

/-- The answers to a series of registrations (src/helics/core/CommonCore.cpp:782-830). -/
def registerAll (s : Fed) : List Text → List Answer × Fed
  | [] => ([], s)
  | t :: ts =>
    let (s1, a) := register s t
    let (as, s2) := registerAll s1 ts
    (a :: as, s2)

end Verif.Rename
