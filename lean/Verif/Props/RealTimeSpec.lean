import Verif.Model.RealTime
/-! What is said about real-time federates: the words used in the statements of C63. -/
namespace Verif
namespace RealTime

/-- a federate that has just entered executing mode, after the events of `es` -/
def run (c : Cfg) (es : List Ev) : S := es.foldl (S.step c) { now := c.start }

/-- no call is made while a forced grant is still queued -/
def Clean (c : Cfg) (es : List Ev) : Prop :=
  ∀ a n b, es = a ++ .request n :: b → ∀ t, .force t ∉ (run c a).queue

end RealTime
end Verif
