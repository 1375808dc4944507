import Verif.Model.Tags
/-!
# C69: tags
-/
namespace Verif.Tags

/-- The last operation of a history that writes something decides. -/
def lastWrite (writes : Op → Option String) (ops : List Op) : Option String := ops.reverse.findSome? writes

/-- What an operation writes to tag `t` of interface `h`, for the calls that read it.  An empty value is "true". -/
def onInterface (h : Nat) (t : String) : Op → Option String
  | .setInterface h' t' v => if t' ≠ "" ∧ h' = h ∧ t' = t then some (if v = "" then "true" else v) else none
  | .setInfo h' i => if h' = h ∧ t = "local_info_" then some i else none
  | _ => none

/-- What an operation writes to tag `t` of interface `h`, for queries: the value given. -/
def onInterfaceQuery (h : Nat) (t : String) : Op → Option String
  | .setInterface h' t' v => if t' ≠ "" ∧ h' = h ∧ t' = t then some v else none
  | _ => none

/-- What an operation writes to tag `t` of federate `f`. -/
def onFederate (f : Nat) (t : String) : Op → Option String
  | .setFederate f' t' v => if t' ≠ "" ∧ f' = f ∧ t' = t then some v else none
  | _ => none

/-- What an operation writes to tag `t` of the core. -/
def onCore (t : String) : Op → Option String
  | .setCore t' v => if t' ≠ "" ∧ t' = t then some v else none
  | _ => none

/-- `l` has every tag once, with the value written last. -/
def Reports (l : Tags) (writes : String → Op → Option String) (ops : List Op) : Prop :=
  (l.map (·.1)).Nodup ∧ ∀ t v, (t, v) ∈ l ↔ lastWrite (writes t) ops = some v

/-- The operations that set a tag of the core. -/
def coreSets : Op → Bool
  | .setCore t _ => t ≠ ""
  | _ => false

end Verif.Tags
