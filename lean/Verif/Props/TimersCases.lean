import Verif.Props.TimersProps
/-! Concrete cases for C61. -/
namespace Verif
namespace Timers

/-- a timer set for 5, delayed by 3: handed over at 8, not at 5 -/
example : (run [.add 5 7, .tick 4, .delay 0 3, .tick 1, .fire 0, .run 0]).sent = [] ∧
    (run [.add 5 7, .tick 4, .delay 0 3, .tick 4, .fire 0, .run 0]).sent = [⟨0, 7, 8⟩] := by decide +kernel

/-- the hypotheses of `C61_sent` and `C61_all_sent` are met -/
example : (run [.add 5 7, .add 2 8, .tick 6, .fire 0, .fire 1, .run 1, .run 0]).sent = [⟨1, 8, 6⟩] ++ ⟨0, 7, 6⟩ :: [] ∧
    Gives [] (.add 5 7) 0 7 ∧
    (run [.add 5 7, .add 2 8, .tick 6, .fire 0, .fire 1, .run 1, .run 0]).waits = [] := by
  refine ⟨by decide +kernel, ⟨rfl, rfl⟩, by decide +kernel⟩

/-- a time already past: the handler is called at once -/
example : (run [.tick 9, .add 5 7, .run 0]).sent = [⟨0, 7, 9⟩] := by decide +kernel

/-- the handler was queued before the timer was updated: it runs, too early for the new time, and hands nothing over -/
example : (run [.add 5 7, .tick 5, .fire 0, .update 0 9 8, .run 0]).sent = [] ∧
    (run [.add 5 7, .tick 5, .fire 0, .update 0 9 8, .run 0, .tick 4, .fire 0, .run 0]).sent = [⟨0, 8, 9⟩] ∧
    -- it runs late enough: it hands over the new message, and the new handler finds none
    (run [.add 5 7, .tick 5, .fire 0, .update 0 9 8, .tick 5, .run 0, .fire 0, .run 0]).sent = [⟨0, 8, 10⟩] := by decide +kernel

/-- a cancelled timer whose handler is already queued hands nothing over -/
example : (run [.add 5 7, .tick 5, .fire 0, .cancel 0, .run 0]).sent = [] ∧
    (run [.add 5 7, .add 5 8, .cancelAll, .tick 5, .fire 0, .fire 1, .run 0]).sent = [] := by decide +kernel

/-- a timer used again after it has handed over its message -/
example : (run [.add 5 7, .tick 5, .fire 0, .run 0, .move 0 8, .tick 3, .fire 0, .run 0, .update 0 9 8, .tick 1, .fire 0, .run 0]).sent =
    [⟨0, 7, 5⟩, ⟨0, 8, 9⟩] := by decide +kernel

/-- why `C61_all_sent` asks that no message is set by `updateMessage`: given to a timer that has fired, it is not handed over,
though its time is past and no handler is left (src/helics/core/MessageTimer.cpp:150-157) -/
theorem C61_updateMessage_not_sent :
    (run [.add 5 7, .tick 5, .fire 0, .run 0, .setMsg 0 8, .tick 5]).waits = [] ∧
      (run [.add 5 7, .tick 5, .fire 0, .run 0, .setMsg 0 8, .tick 5]).slots = [⟨some 8, 5⟩] ∧
      (run [.add 5 7, .tick 5, .fire 0, .run 0, .setMsg 0 8, .tick 5]).sent = [⟨0, 7, 5⟩] := by decide +kernel

/-- the hypotheses of `C61_not_early` are met, by a message given after the time was set -/
example : Sets [] (.add 5 7) 0 5 ∧
    (run ([] ++ .add 5 7 :: ([.setMsg 0 8, .delay 0 1, .tick 6, .fire 0] ++ [.run 0]))).sent =
      (run ([] ++ .add 5 7 :: [.setMsg 0 8, .delay 0 1, .tick 6, .fire 0])).sent ++ [⟨0, 8, 6⟩] :=
  ⟨⟨rfl, rfl⟩, by decide +kernel⟩

end Timers
end Verif
