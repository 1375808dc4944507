import Verif.Model.Filters
/-!
# The standard filters

Models `src/helics/application_api/FilterOperations.cpp` (the filters a user can make by type: delay, random
delay, random drop, reroute, clone, firewall) with the operators of
`src/helics/application_api/MessageOperators.cpp` they are made of, and the calls of a `CloningFilter`
(`src/helics/application_api/Filters.cpp`).

Simplifications:
* numbers are multiples of 10^-9 (`Int`), times do not overflow;
* what a random number generator delivers is a parameter of each message (`u`); for the distributions other
  than `constant` the number drawn is a parameter of the model;
* reading a time from a string and searching a regular expression are parameters of the model (`Ext`), since
  they are done by libraries outside the tree; only `$` formats without group names are modelled;
* `std::set<std::string>` is a list without duplicates.
-/
namespace Verif.StdF


/-- the libraries used: `loadTimeFromString` (`none`: it throws), whether a string is a regular expression,
`std::regex_search`, and the number drawn by `randDouble`, FilterOperations.cpp:133-204 -/
structure Ext where
  time : String → Option Int
  valid : String → Bool
  search : String → String → Bool
  draw : String → Int → Int → Int → Int

/-- one in units of 10^-9 -/
def one : Int := 1000000000

/-- `distMap`, FilterOperations.cpp:114-130 -/
def dists : List String :=
  ["constant", "uniform", "bernoulli", "binomial", "geometric", "poisson", "exponential", "gamma", "weibull",
    "extreme_value", "normal", "lognormal", "chi_squared", "cauchy", "fisher_f", "student_t"]

/-- the operations of a filter with their parameters, FilterOperations.hpp:69-190 -/
inductive FOp
  /-- `DelayFilterOperation` -/
  | delay (d : Int)
  /-- `RandomDelayFilterOperation` with its `RandomDelayGenerator` -/
  | randDelay (dist : String) (p1 p2 : Int)
  /-- `RandomDropFilterOperation` -/
  | drop (prob : Int)
  /-- `RerouteFilterOperation` -/
  | reroute (newDest : String) (conds : List String)
  /-- `FirewallFilterOperation` -/
  | firewall
  /-- `CloneFilterOperation` -/
  | clone (addrs : List String)
deriving DecidableEq, Repr

/-- `DelayFilterOperation::DelayFilterOperation`, FilterOperations.cpp:41-48 -/
def newDelay (d : Int) : FOp := .delay (if d < 0 then 0 else d)
/-- the defaults of the constructors, FilterOperations.hpp:72,103,128 and FilterOperations.cpp:209-211 -/
def newRandDelay : FOp := .randDelay "uniform" 0 0
/-- `dropProb{0.0}`, FilterOperations.hpp:113 -/
def newDrop : FOp := .drop 0
/-- `RerouteFilterOperation::RerouteFilterOperation`, FilterOperations.cpp:327-333 -/
def newReroute : FOp := .reroute "" []
/-- `CloneFilterOperation::CloneFilterOperation`, FilterOperations.cpp:460-463 -/
def newClone : FOp := .clone []

/-- the calls of `Filter`, Filters.cpp:130-142 -/
inductive Call
  | set (property : String) (v : Int)
  | setString (property val : String)
deriving DecidableEq, Repr

/-- is this the name of the first parameter, FilterOperations.cpp:229-230 -/
def isP1 (s : String) : Bool := s = "param1" || s = "mean" || s = "min" || s = "alpha"
/-- is this the name of the second parameter, FilterOperations.cpp:232-233 -/
def isP2 (s : String) : Bool := s = "param2" || s = "stddev" || s = "max" || s = "beta"

/-- `set` of the classes, FilterOperations.cpp:50-57, 227-236, 303-308, 337, 440, 467-471: the operation after
it, and whether it threw -/
def FOp.set (property : String) (v : Int) : FOp → FOp × Bool
  | .delay d => (if property = "delay" then (if v ≥ 0 then .delay v else .delay d) else .delay d, false)
  | .randDelay dist p1 p2 =>
    (if isP1 property then .randDelay dist v p2
      else if isP2 property then .randDelay dist p1 v else .randDelay dist p1 p2, false)
  | .drop p => (if property = "dropprob" ∨ property = "prob" then .drop v else .drop p, false)
  | .reroute n c => (.reroute n c, false)
  | .firewall => (.firewall, false)
  | .clone a => (.clone a, true)

/-- `setString` of the classes, FilterOperations.cpp:59-69, 237-255, 309-311, 339-358, 442, 473-501 -/
def FOp.setString (x : Ext) (property val : String) : FOp → FOp × Bool
  | .delay d =>
    if property = "delay" then
      match x.time val with
      | some t => (.delay t, false)
      | none => (.delay d, true)
    else (.delay d, false)
  | .randDelay dist p1 p2 =>
    if property = "dist" ∨ property = "distribution" then
      (if val ∈ dists then .randDelay val p1 p2 else .randDelay dist p1 p2, false)
    else if isP1 property then
      match x.time val with
      | some t => (.randDelay dist t p2, false)
      | none => (.randDelay dist p1 p2, true)
    else if isP2 property then
      match x.time val with
      | some t => (.randDelay dist p1 t, false)
      | none => (.randDelay dist p1 p2, true)
    else (.randDelay dist p1 p2, false)
  | .drop p => (.drop p, false)
  | .reroute n c =>
    if property = "newdestination" then (.reroute val c, false)
    else if property = "condition" then
      if x.valid val then (.reroute n (if val ∈ c then c else c ++ [val]), false)
      else (.reroute n c, true)
    else (.reroute n c, false)
  | .firewall => (.firewall, false)
  | .clone a =>
    if property = "delivery" then (.clone [val], false)
    else if property = "add delivery" then (.clone (if val ∈ a then a else a ++ [val]), false)
    else if property = "remove delivery" then (.clone (a.erase val), false)
    else (.clone a, true)

/-- one call -/
def FOp.call (x : Ext) (o : FOp) : Call → FOp × Bool
  | .set p v => o.set p v
  | .setString p v => o.setString x p v

/-- the operation after some calls, those that throw included -/
def FOp.calls (x : Ext) (o : FOp) (l : List Call) : FOp := l.foldl (fun o c => (o.call x c).1) o

/-- a run of digits, read by `match_results::format` (at most two): the number and what is left -/
def digits : List Char → Option (Nat × List Char)
  | c :: d :: r =>
    if c.isDigit then
      if d.isDigit then some (10 * (c.toNat - 48) + (d.toNat - 48), r) else some (c.toNat - 48, d :: r)
    else none
  | [c] => if c.isDigit then some (c.toNat - 48, []) else none
  | [] => none

/-- what follows a `$` in a format: the text it stands for and what is left of the format.  The patterns have no
groups, so only group 0 exists -/
def special (pre mat suf : List Char) : List Char → List Char × List Char
  | '$' :: r => (['$'], r)
  | '&' :: r => (mat, r)
  | '`' :: r => (pre, r)
  | '\'' :: r => (suf, r)
  | r =>
    match digits r with
    | some (k, r') => (if k = 0 then mat else [], r')
    | none => (['$'], r)

/-- the replacement text is a format string for `std::regex_replace`, FilterOperations.cpp:399-402: `$$`, `$&`,
`` $` ``, `$'` and `$n` are special.  The first argument bounds the length -/
def expand (pre mat suf : List Char) : Nat → List Char → List Char
  | 0, _ => []
  | _ + 1, [] => []
  | n + 1, c :: r =>
    if c = '$' then
      let p := special pre mat suf r
      p.1 ++ expand pre mat suf n p.2
    else c :: expand pre mat suf n r

/-- `std::regex_replace` of a literal pattern, FilterOperations.cpp:398-402: `skip` characters of a match are
still to be passed over, `acc` is the text since the last match -/
def replace (pat fmt : List Char) : Nat → List Char → List Char → List Char
  | _, _, [] => []
  | skip + 1, acc, _ :: s => replace pat fmt skip acc s
  | 0, acc, c :: s =>
    if pat.isPrefixOf (c :: s) then
      expand acc pat ((c :: s).drop pat.length) (fmt.length + 1) fmt ++ replace pat fmt (pat.length - 1) [] s
    else c :: replace pat fmt 0 (acc ++ [c]) s

/-- `newDestGeneration`, FilterOperations.cpp:393-404 -/
def newDestGeneration (src dest formula : String) : String :=
  if '$' ∉ formula.toList then formula
  else
    let f := replace "${source}".toList src.toList 0 [] formula.toList
    String.ofList (replace "${dest}".toList dest.toList 0 [] f)

/-- `RerouteFilterOperation::rerouteOperation`, FilterOperations.cpp:406-421 -/
def rerouteOperation (x : Ext) (newDest : String) (conds : List String) (src dest : String) : String :=
  if conds = [] then newDestGeneration src dest newDest
  else if conds.any (fun c => x.search c dest) then newDestGeneration src dest newDest
  else dest

/-- `CloneFilterOperation::sendMessage`, FilterOperations.cpp:533-543 -/
def sendMessage (addrs : List String) (m : Filt.Msg) : List Filt.Msg :=
  addrs.map (fun a => { m with odest := m.dest, dest := a })

/-- `process` of the operators: `MessageTimeOperator` (MessageOperators.cpp:22-28), `MessageConditionalOperator`
(:82-91) with the condition of FilterOperations.cpp:295-299, `MessageDestOperator` (:63-72), `FirewallOperator`
(:138-178, with the operation `drop` it is made with, MessageOperators.hpp:143-144, and the check of
FilterOperations.cpp:453-458) and `CloneOperator` (:105-114); `u` is what the random number generator delivers -/
def FOp.proc (x : Ext) (u : Int) (m : Filt.Msg) : FOp → Option Filt.Msg
  | .delay d => some { m with time := m.time + d }
  | .randDelay dist p1 p2 =>
    some { m with time := m.time + (if dist = "constant" then p1 else x.draw dist p1 p2 u) }
  | .drop p => if u < one - p then some m else none
  | .reroute n c =>
    some { m with
      odest := if m.odest = "" then m.dest else m.odest
      dest := rerouteOperation x n c m.source m.dest }
  | .firewall => none
  | .clone a =>
    match sendMessage a m with
    | [m'] => some m'
    | _ => some m

/-- `processVector`: `CloneOperator`, MessageOperators.cpp:116-122, and the default for the others,
core-data.hpp:94-102 -/
def FOp.vec (x : Ext) (u : Int) (m : Filt.Msg) : FOp → List Filt.Msg
  | .clone a => sendMessage a m
  | o => (o.proc x u m).toList

/-- the operator handed to the core by `getOperator`, FilterOperations.cpp:86-89 etc., and
`Filter::setFilterOperations`, Filters.cpp:124-128 -/
def FOp.op (x : Ext) (u : Int) (o : FOp) : Filt.Op := ⟨fun m => o.proc x u m, fun m => o.vec x u m⟩

/-- the call of `CloningFilter::setString`, Filters.cpp:197-213: names of targets are not for the operation -/
def cloningCall (x : Ext) (o : FOp) (property val : String) : FOp × Bool :=
  if property ∈ ["source", "add source", "dest", "destination", "add destination", "add dest", "endpoint",
      "add endpoint", "remove destination", "remove dest", "remove source", "remove endpoint"] then (o, false)
  else o.setString x property val

/-- `CloneFilterOperation::getString`, FilterOperations.cpp:508-528, for `delivery` -/
def listing : List String → String
  | [] => ""
  | [a] => a
  | a :: l => "[" ++ l.foldl (fun r b => r ++ ",\"" ++ b ++ "\"") ("\"" ++ a ++ "\"") ++ "]"

end Verif.StdF
