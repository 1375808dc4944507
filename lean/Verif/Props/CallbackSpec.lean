import Verif.Model.Callback
import Verif.Lemmas.FedRun
import Verif.Lemmas.Iter
/-! What is said about callback federates: the words used in the statements of C60. -/
namespace Verif
namespace Callback
open Cb

/-- the federate after the events of `es`, in order -/
def run (c : Cb) (es : List Ev) : Cb := es.foldl step c

/-- a newly created callback federate, with any stop time -/
def Fresh (c : Cb) : Prop :=
  (∃ self a b d, self ≠ parentBroker ∧ c.fed = Fed.initial self a b d) ∧ c.started = false ∧ c.app = .startup ∧ c.told = [] ∧
    c.pend = [] ∧ c.done = 0

/-- the functions called in initializing mode -/
def Call.isInit : Call → Bool
  | .init _ _ => true
  | _ => false

/-- the functions called in executing mode -/
def Call.isOperate : Call → Bool
  | .operate _ _ _ _ => true
  | .stop _ => true
  | _ => false

/-- the calls in which the user works, as opposed to being told of the end -/
def Call.isWork (x : Call) : Bool := x.isInit || x.isOperate

/-- the user asks for more: neither a halt, nor an error, nor an exception, nor the stop time -/
def Call.asks : Call → Bool
  | .init _ (some .noIterations) | .init _ (some .forceIteration) | .init _ (some .iterateIfNeeded) => true
  | .operate _ _ _ (some (_, .noIterations)) | .operate _ _ _ (some (_, .forceIteration))
  | .operate _ _ _ (some (_, .iterateIfNeeded)) => true
  | _ => false

/-- the user asks to iterate at the present time -/
def wantsIter : Call → Prop
  | .operate _ _ _ (some (_, .forceIteration)) => True
  | .operate _ _ _ (some (_, .iterateIfNeeded)) => True
  | _ => False

/-- the command that carries the user's answer to the core: a request, a disconnect or an error -/
def Call.command : Call → Own
  | .init _ (some .haltOperations) => .disconnect
  | .init _ (some .errorCondition) => .localError
  | .init _ none => .localError
  | .init _ (some it) => .exec it
  | .operate _ _ _ (some (_, .haltOperations)) => .disconnect
  | .operate _ _ _ (some (_, .errorCondition)) => .localError
  | .operate _ _ _ none => .localError
  | .operate _ _ _ (some (t, it)) => .time t it
  | _ => .disconnect

/-- the time at which a function of executing mode is called -/
def Call.time : Call → Option Time
  | .operate t _ _ _ => some t
  | .stop t => some t
  | _ => none

/-- the times at which the functions of executing mode were called, in order -/
def times (cs : List Call) : List Time := cs.filterMap Call.time

/-- the answers are times the clock can represent -/
def Ans.fits (a : Ans) : Prop := ∀ t it, a.op = some (t, it) → t ≤ maxVal

/-- commands are well formed; there are no forced grants and no request to iterate before initializing mode -/
def Cb.Item.sane (self : FedId) : Item → Prop
  | .own _ _ _ a => a.fits
  | .other o a => o.sane self ∧ a.fits ∧
      ∀ cmd, o = .msg cmd → cmd.action ≠ .forceTimeGrant ∧ ¬ (cmd.action = .initGrant ∧ cmd.iterationRequested = true)

def Cb.Ev.items : Ev → List Item
  | .enterInit => []
  | .commands is => is

def Sane (c : Cb) (es : List Ev) : Prop := ∀ e ∈ es, ∀ i ∈ e.items, i.sane c.fed.tc.self

/-- the mode reported by the federate during the call -/
def Call.mode : Call → Option Mode
  | .init m _ => some m
  | .operate _ _ m _ => some m
  | _ => none

/-- the federate is not told to join a running federation -/
def NotJoining (es : List Ev) : Prop := ∀ e ∈ es, ∀ i ∈ e.items, ∀ cmd a, i = .other (.msg cmd) a → ¬ Fed.joins cmd

end Callback
end Verif
