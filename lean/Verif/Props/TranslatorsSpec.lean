import Verif.Model.Translators
/-! What is said about translators: the words used in the statements of C65. -/
namespace Verif
namespace Trans

/-- a core without translators -/
def none' : Fed := fun _ => none

/-- one more event: was the translator `g` made, and which commands came for it since -/
def note (g : GHandle) (p : Bool × List Cmd) : Ev → Bool × List Cmd
  | .create g' _ => if g' = g then (true, p.2) else p
  | .cmd g' c => if g' = g ∧ p.1 = true then (true, p.2 ++ [c]) else p

/-- the commands among the events that are for the translator `g` and come after it was made -/
def hist (g : GHandle) (es : List Ev) : List Cmd := (es.foldl (note g) (false, [])).2

/-- is `h` an input the translator publishes to, after a command, if `w` says whether it was one before -/
def subs (h : GHandle) (w : Bool) : Cmd → Bool
  | .addSubscriber h' _ => w || h' == h
  | .removeSubscriber h' => w && h' != h
  | _ => w

/-- the inputs connected after these commands -/
def Subscribed (h : GHandle) (l : List Cmd) : Prop := l.foldl (subs h) false = true

/-- the name under which `h` is an endpoint the translator sends to, after a command -/
def dests (h : GHandle) (w : Option String) : Cmd → Option String
  | .addEndpoint h' n _ d => if h' = h ∧ d = true then some (w.getD n) else w
  | .removeEndpoint h' => if h' = h then none else w
  | _ => w

/-- the endpoint `h` is connected under the name `n` after these commands -/
def Target (h : GHandle) (n : String) (l : List Cmd) : Prop := l.foldl (dests h) none = some n

/-- the name a publication was first connected with -/
def pubName (h : GHandle) (w : Option String) : Cmd → Option String
  | .addPublisher h' n _ _ => if h' = h then some (w.getD n) else w
  | _ => w

/-- the operator set last -/
def opSet (w : Option Op) : Cmd → Option Op
  | .setOp o => some (o.getD nullOp)
  | _ => w

end Trans
end Verif
