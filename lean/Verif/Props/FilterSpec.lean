import Verif.Model.Filters
/-!
# What filters are supposed to do

A specification of filtering which knows nothing about commands, counters or markers: a chain turns a
message into the messages that come out of it.
-/
namespace Verif.Filt

/-- the fixed surroundings: the filter federate of the core, its endpoints, the operators of its filters
and those of the filters of other cores -/
structure Env where
  fed : Int
  epts : Int → Option Ept
  ops : Int → Option Op
  home : Int → Int → Option Home

/-- the surroundings in a state -/
def Sys.env (y : Sys) : Env := ⟨y.ff.fed, y.ff.epts, y.ff.ops, y.home⟩

/-- addressed by name only -/
def byName : Int × Int := (parentId, noHandle)

/-- the operator of a filter, wherever it lives -/
def Env.op (E : Env) (f : FInfo) : Option Op :=
  if f.core = E.fed then E.ops f.handle else (E.home f.core f.handle).bind (·.op)

/-- what a filter which is not cloning makes of a message; without operator it changes nothing -/
def Env.apply (E : Env) (f : FInfo) (m : Msg) : Option Msg :=
  match E.op f with
  | some op => op.proc m
  | none => some m

/-- the messages a cloning filter produces -/
def Env.clones (E : Env) (f : FInfo) (m : Msg) : List Msg :=
  match E.op f with
  | some op => op.vec m
  | none => []

/-- **the specification of a chain of source filters**: each filter acts once, in order; a cloning filter
adds messages and leaves the message alone; a filter which drops the message ends the chain.  A message
which went through a filter is addressed by its name -/
def Env.outcome (E : Env) : List FInfo → Msg → Int × Int → List (Msg × (Int × Int))
  | [], m, d => [(m, d)]
  | f :: fs, m, d =>
    if f.cloning then (E.clones f m).map (fun x => (x, byName)) ++ E.outcome fs m d
    else
      match E.apply f m with
      | none => []
      | some m' => E.outcome fs m' byName

/-- what comes out when endpoint `h` sends `m` -/
def Env.posted (E : Env) (h : Int) (m : Msg) (d : Int × Int) : List (Msg × (Int × Int)) :=
  match E.epts h with
  | none => []
  | some e => E.outcome e.chain m d

/-- the clones of destination filters which go straight to the endpoint -/
def Env.cloneRecv (E : Env) (e : Ept) (h : Int) (m : Msg) : List (Int × Msg) :=
  e.clones.flatMap (fun f =>
    if f.core = E.fed then ((E.clones f m).filter (fun x => x.dest = e.key)).map (fun x => (h, x)) else [])

/-- the clones of destination filters which are sent on by name -/
def Env.cloneHand (E : Env) (e : Ept) (m : Msg) : List (Msg × (Int × Int)) :=
  e.clones.flatMap (fun f =>
    if f.core = E.fed then
      ((E.clones f m).filter (fun x => !decide (x.dest = e.key))).map (fun x => (x, byName))
    else (E.clones f m).map (fun x => (x, byName)))

/-- **the specification of destination filters**: the message the endpoint gets -/
def Env.destRecv (E : Env) (e : Ept) (h : Int) (m : Msg) : List (Int × Msg) :=
  match e.dest with
  | none => (h, m) :: E.cloneRecv e h m
  | some f =>
    match E.apply f m with
    | none => []
    | some m' => if m'.dest = m.dest then (h, m') :: E.cloneRecv e h m' else []

/-- the messages destination filters send elsewhere: clones, or the message itself if its destination was
changed -/
def Env.destHand (E : Env) (e : Ept) (m : Msg) : List (Msg × (Int × Int)) :=
  match e.dest with
  | none => E.cloneHand e m
  | some f =>
    match E.apply f m with
    | none => []
    | some m' => if m'.dest = m.dest then E.cloneHand e m' else [(m', byName)]

/-- what an event adds to the messages which are to be sent on -/
def Env.toHand (E : Env) : Ev → List (Msg × (Int × Int))
  | .post h m d => E.posted h m d
  | .arrive h m _ => match E.epts h with | none => [] | some e => E.destHand e m
  | _ => []

/-- what an event adds to the messages endpoints are to receive -/
def Env.toRecv (E : Env) : Ev → List (Int × Msg)
  | .arrive h m _ => match E.epts h with | none => [] | some e => E.destRecv e h m
  | _ => []

/-! ## What is assumed about the filters -/

/-- the filter works where it lives: a local one and every cloning one has an operator, a remote one is
known there as the same kind of filter -/
def Env.Works (E : Env) (f : FInfo) : Prop :=
  f.off = false ∧
  if f.core = E.fed then ∃ op, E.ops f.handle = some op
  else ∃ hf, E.home f.core f.handle = some hf ∧ hf.off = false ∧ hf.cloning = f.cloning ∧
    (f.cloning = true → ∃ op, hf.op = some op)

/-- a chain of source filters the code handles: all filters work, cloning ones come first (as
`organizeFilterOperations` puts them), and a filter of another core which is not the last one has no
local, not cloning filter before it unless another filter of another core comes first
(`bug_lost_return` shows what happens otherwise) -/
structure Env.GoodChain (E : Env) (chain : List FInfo) : Prop where
  works : ∀ f ∈ chain, E.Works f
  len : chain.length ≤ 65536
  clonesFirst : ∀ pre f post, chain = pre ++ f :: post → f.cloning = true → ∀ g ∈ pre, g.cloning = true
  order : ∀ pre f post, chain = pre ++ f :: post → post ≠ [] → f.core ≠ E.fed → f.cloning = false →
    (∀ g ∈ pre, g.core ≠ E.fed → g.cloning = true) → ∀ g ∈ pre, g.cloning = true

/-- the filters of an endpoint the code handles.  A local destination filter must not drop messages
(`bug_dest_drop_crashes`) -/
structure Env.GoodEpt (E : Env) (e : Ept) : Prop where
  fed : e.fed ≠ parentId
  chain : E.GoodChain e.chain
  dest : ∀ f, e.dest = some f → E.Works f ∧ f.cloning = false ∧
    (f.core = E.fed → ∀ op m, E.ops f.handle = some op → (op.proc m).isSome = true)
  clones : ∀ f ∈ e.clones, E.Works f ∧ f.cloning = true

/-- all endpoints are handled -/
def Env.Good (E : Env) : Prop := ∀ h e, E.epts h = some e → E.GoodEpt e

/-- an arriving message is addressed by name, or the endpoint's own destination filter does not change the
destination (`bug_dest_reroute_ignored` shows what happens otherwise) -/
def Env.EvOk (E : Env) : Ev → Prop
  | .arrive h m d => d = byName ∨ ∀ e f op m', E.epts h = some e → e.dest = some f → f.core = E.fed →
      E.ops f.handle = some op → op.proc m = some m' → m'.dest = m.dest
  | _ => True

/-! ## What is under way -/

/-- is this command a message of the federate `fid` out for source filtering, or the answer to it -/
def Env.isOut (E : Env) (fid : Int) (c : Cmd) : Bool :=
  match c.act with
  | .forFilterRet => (E.epts c.src.2).any (fun e => e.fed = fid)
  | .result | .null => (E.epts c.dst.2).any (fun e => e.fed = fid)
  | _ => false

/-- is this command a message to the federate `fid` out for destination filtering, or the answer to it -/
def Env.isOutDest (E : Env) (fid : Int) (c : Cmd) : Bool :=
  match c.act with
  | .forDestRet => (E.epts c.src.2).any (fun e => e.fed = fid)
  | .destResult | .nullDest => (E.epts c.dst.2).any (fun e => e.fed = fid)
  | _ => false

end Verif.Filt
