import Verif.Model.StdFilters
/-! What is said about the standard filters: the words used in the statements of C64. -/
namespace Verif
namespace StdF

/-- the delay a call sets, if it is one that sets a delay -/
def delayOf (x : Ext) : Call → Option Int
  | .set p v => if p = "delay" ∧ 0 ≤ v then some v else none
  | .setString p s => if p = "delay" then x.time s else none

/-- the probability a call sets -/
def probOf : Call → Option Int
  | .set p v => if p = "dropprob" ∨ p = "prob" then some v else none
  | .setString _ _ => none

/-- the new destination a call sets -/
def destOf : Call → Option String
  | .setString p v => if p = "newdestination" then some v else none
  | .set _ _ => none

/-- the condition a call adds -/
def condOf (x : Ext) : Call → Option String
  | .setString p v => if p = "condition" ∧ x.valid v = true then some v else none
  | .set _ _ => none

/-- the last value given by the calls, or the one at the beginning -/
def last {α : Type} (f : Call → Option α) (a : α) (l : List Call) : α := (l.filterMap f).getLastD a

/-- is `a` a delivery address after a call, if `w` says whether it was one before -/
def wants (a : String) (w : Bool) : Call → Bool
  | .setString p v =>
    if p = "delivery" then v == a
    else if p = "add delivery" then w || v == a
    else if p = "remove delivery" then w && v != a
    else w
  | .set _ _ => w

/-- is `a` a delivery address after these calls -/
def Wanted (a : String) (l : List Call) : Prop := l.foldl (wants a) false = true

/-- what a new destination is written with -/
inductive Piece
  | lit (l : List Char)
  | source
  | dest
deriving DecidableEq

/-- a piece as written -/
def Piece.text : Piece → List Char
  | .lit l => l
  | .source => "${source}".toList
  | .dest => "${dest}".toList

/-- what a piece stands for -/
def Piece.mean (src dst : String) : Piece → List Char
  | .lit l => l
  | .source => src.toList
  | .dest => dst.toList

/-- an ordinary piece of text has no dollar sign -/
def Piece.Plain : Piece → Prop
  | .lit l => '$' ∉ l
  | _ => True

/-- what a row of filters - cloning or not, each with its operation and what its random number generator
delivers - makes of a message: the message that comes out, if any, and the copies made on the way -/
def through (x : Ext) : List (Bool × FOp × Int) → Filt.Msg → Option Filt.Msg × List Filt.Msg
  | [], m => (some m, [])
  | (true, o, u) :: r, m => ((through x r m).1, o.vec x u m ++ (through x r m).2)
  | (false, o, u) :: r, m =>
    match o.proc x u m with
    | none => (none, [])
    | some m' => through x r m'

/-- addresses in quotes, with commas between them -/
def quoted : List String → String
  | [] => ""
  | [a] => "\"" ++ a ++ "\""
  | a :: b :: l => "\"" ++ a ++ "\"" ++ "," ++ quoted (b :: l)

end StdF
end Verif
