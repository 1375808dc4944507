import Verif.Model.Logs
/-! What is said about log messages: the words used in the statements of C62. -/
namespace Verif
namespace Logs

/-- the logging of an object that was set up with a callback or a file or neither, after the events of `es` -/
def run (cb file : Bool) (es : List Ev) : Mgr := es.foldl Mgr.step { hasCallback := cb, hasFile := file }

/-- the level of the console as last set; before that, warnings are printed -/
def consoleOf : List Ev → Int
  | [] => 3
  | .levels c _ :: es => if es.all (fun e => match e with | .levels _ _ => false | _ => true) then c else consoleOf es
  | _ :: es => consoleOf es

/-- the level of the file as last set -/
def fileOf : List Ev → Int
  | [] => 3
  | .levels _ f :: es => if es.all (fun e => match e with | .levels _ _ => false | _ => true) then f else fileOf es
  | _ :: es => fileOf es

/-- the level last asked for by the remote target `d` -/
def wants (d : Nat) : List Ev → Option Int
  | [] => none
  | .remote d' l :: es => (wants d es).or (if d' = d then some l else none)
  | _ :: es => wants d es

/-- no target that had asked before has asked for more since the levels were last set -/
def NoneRaised (es : List Ev) : Prop :=
  ∀ a d l b, es = a ++ .remote d l :: b →
    wants d a = none ∨ (∃ l0, wants d a = some l0 ∧ l ≤ l0) ∨ ∃ c f, .levels c f ∈ b

/-- the largest of the levels -/
def LargestOf (es : List Ev) (x : Int) : Prop :=
  consoleOf es ≤ x ∧ fileOf es ≤ x ∧ ∀ d l, wants d es = some l → l ≤ x

/-- the messages put into a buffer: calls of a buffer alone -/
inductive Call
  | push (m : Nat)
  | resize (n : Nat)
  | enable (on : Bool)
  deriving DecidableEq, Repr

def Buf.call (b : Buf) : Call → Buf
  | .push m => b.push m
  | .resize n => b.resize n
  | .enable on => b.enable on

/-- a buffer of the size `c` after the calls `cs` -/
def bufRun (c : Nat) (cs : List Call) : Buf := cs.foldl Buf.call { cap := c }

/-- the size of the buffer after the calls -/
def capacity (c : Nat) : List Call → Nat
  | [] => c
  | .push _ :: cs => capacity c cs
  | .resize n :: cs => capacity n cs
  | .enable true :: cs => capacity (if c = 0 then 10 else c) cs
  | .enable false :: cs => capacity 0 cs

/-- the messages pushed -/
def pushed : List Call → List Nat
  | [] => []
  | .push m :: cs => m :: pushed cs
  | _ :: cs => pushed cs

/-- after `a` a message was pushed, then came `b`: at no time since were there as many newer messages as the buffer could hold -/
def Kept (c : Nat) (a : List Call) (m : Nat) (b : List Call) : Prop :=
  ∀ b1 b2, b = b1 ++ b2 → (pushed b1).length < capacity c (a ++ .push m :: b1)

/-- threads that push into a buffer of size `c`, after the steps -/
def concRun (c : Nat) (ss : List Step) : Conc := ss.foldl Conc.step { cap := c }

/-- a step of `push` -/
def isPush : Step → Prop
  | .pushTest _ _ => True
  | .pushRest _ => True
  | _ => False

end Logs
end Verif
