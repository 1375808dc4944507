import Verif.Props.TimeoutProps
/-! # C59: concrete histories, and where the code falls short of its own intention -/
namespace Verif
namespace Ping
open Node

/-- a root broker that gives a member up after 12 s -/
def rootB : Node := { timeout := 12000 }
def coreA : Member := { id := 10 }
def coreB : Member := { id := 11 }
/-- one that does not answer pings (`slow_responding`) -/
def slowC : Member := { id := 12, noPing := true }
def subD : Member := { id := 20, core := false }

/-- three members join; the first tick is missed, the second one asks -/
def asked : List Ev := [.join coreA, .join coreB, .join slowC, .tick 5000 5000, .tick 10000 10001]
/-- the request for forwarding comes back, core A answers -/
def oneSilent : List Ev := asked ++ [.other, .reply 10, .tick 15000 15000]

theorem rootB_fresh : Fresh rootB := by unfold Fresh; decide +kernel
theorem asked_run : RootRun rootB asked := by
  refine ⟨rfl, rfl, ?_⟩
  intro e he
  simp only [asked, List.mem_cons, List.not_mem_nil, or_false] at he
  rcases he with rfl | rfl | rfl | rfl | rfl <;> exact ⟨(fun p s k => by cases k), (fun m k => by cases k <;> decide)⟩

theorem oneSilent_run : RootRun rootB oneSilent := by
  refine ⟨rfl, rfl, ?_⟩
  intro e he
  rcases List.mem_append.1 he with h | h
  · exact asked_run.2.2 e h
  · simp only [List.mem_cons, List.not_mem_nil, or_false] at h
    rcases h with rfl | rfl | rfl <;> exact ⟨(fun p s k => by cases k), (fun m k => by cases k)⟩

/-- C59_everybody: the tick at 10 s asks the two members that answer pings -/
example : Heard (asked.take 4) ∧ (run rootB (asked.take 4)).operating = true ∧
    sent (run rootB (asked.take 4)) (.tick 10000 10001) = [.ping 10 true, .ping 11 true, .forward true] :=
  ⟨Or.inr ⟨asked.take 3, 5000, 5000, rfl⟩, rfl, by decide +kernel⟩

/-- C59_noticed: at 20 s core B is asked again, at 23 s it is given up; core A, which answered, is left alone. -/
example : Pinged 11 (run rootB (asked.take 4)) (.tick 10000 10001) ∧ (∀ e ∈ oneSilent.drop 5, e ≠ .reply 11) ∧ Heard oneSilent ∧
    (run rootB oneSilent).operating = true ∧
    sent (run rootB oneSilent) (.tick 20000 20000) = [.again 11] ∧ sent (run rootB oneSilent) (.tick 23000 23000) = [.lost 11] := by
  refine ⟨⟨true, by decide +kernel⟩, ?_, Or.inr ⟨asked ++ [.other, .reply 10], 15000, 15000, by decide +kernel⟩,
    by decide +kernel, by decide +kernel, by decide +kernel⟩
  decide +kernel

/-- C59_no_false_alarm applies to it -/
example : ∃ pre s s2 post, oneSilent = pre ++ .tick s s2 :: post ∧ Pinged 11 (run rootB pre) (.tick s s2) ∧ 23000 - s > 12000 ∧
    23000 - s2 > 12000 ∧ ∀ e ∈ post, e ≠ .reply 11 :=
  C59_no_false_alarm rootB rootB_fresh oneSilent oneSilent_run
    (by
      intro e he a c k
      subst k
      simp only [oneSilent, asked, List.cons_append, List.nil_append, List.mem_cons, List.not_mem_nil, or_false, Ev.tick.injEq, reduceCtorEq, false_or] at he
      rcases he with ⟨rfl, rfl⟩ | ⟨rfl, rfl⟩ | ⟨rfl, rfl⟩ <;> decide) 23000 23000 11 (by decide +kernel)

/-! ## Where the code falls short -/

/-- core A leaves in good order after it was asked, before it has answered -/
def leftUnanswered : List Ev := asked ++ [.state 10 .disconnected, .reply 11]

theorem left_run (ticks : List Ev) (ht : ∀ e ∈ ticks, ∃ a c, e = .tick a c) : RootRun rootB (leftUnanswered ++ ticks) := by
  refine ⟨rfl, rfl, ?_⟩
  intro e he
  rcases List.mem_append.1 he with h | h
  · rcases List.mem_append.1 h with h | h
    · exact asked_run.2.2 e h
    · simp only [List.mem_cons, List.not_mem_nil, or_false] at h
      rcases h with rfl | rfl <;> exact ⟨(fun p s k => by cases k), (fun m k => by cases k)⟩
  · obtain ⟨a, c, rfl⟩ := ht e h
    exact ⟨(fun p s k => by cases k), (fun m k => by cases k)⟩

/-- **Violation.**  A member that leaves in good order between a question and its answer ends the watch over all others: core
B, which answered that time, is never asked again, however many ticks follow. -/
theorem C59_left_counterexample (ticks : List Ev) (ht : ∀ e ∈ ticks, ∃ a c, e = .tick a c) (e : Ev) (y : Id) :
    ¬ Pinged y (run rootB (leftUnanswered ++ ticks)) e := by
  have hr := left_run ticks ht
  have e1 : leftUnanswered ++ ticks = asked.take 4 ++ .tick 10000 10001 :: ([.state 10 .disconnected, .reply 11] ++ ticks) := by
    simp [leftUnanswered, asked]
  rw [e1] at hr ⊢
  refine C59_blind rootB rootB_fresh _ 10000 10001 _ e hr 10 ⟨true, by decide +kernel⟩ ?_ y
  intro x hx
  rcases List.mem_append.1 hx with h | h
  · simp only [List.mem_cons, List.not_mem_nil, or_false] at h
    rcases h with rfl | rfl <;> decide
  · obtain ⟨a, c, rfl⟩ := ht x h
    intro k; cases k

/-- **Violation.**  A root that handles at least one command between any two ticks never asks anybody and never reports anything
lost, whatever was requested about the forwarding of ticks. -/
theorem C59_busy_counterexample (es : List Ev) (t t2 : Int) (a : Ev) (ha : ∀ x y, a ≠ .tick x y) : sent (run rootB (es ++ [a])) (.tick t t2) = [] := by
  refine C59_busy rootB rfl _ ?_ t t2
  rintro (h | ⟨pre, x, y, h⟩)
  · simp at h
  · have := List.append_inj_right' h rfl
    injection this with h1 _
    exact ha x y h1

/-- **Violation.**  A sub-broker does not answer the root's question nor asks its own members: it takes the question for another
command. -/
theorem C59_sub_broker_counterexample (b : Node) : sent b .brokerPing = [] := by
  unfold sent
  simp [handle]

/-- hence a healthy sub-broker of an idle federation is given up -/
example : sent (run rootB [.join subD, .tick 5000 5000, .tick 10000 10000, .other, .tick 15000 15000, .tick 20000 20000]) (.tick 25000 25000) = [.lost 20] := by
  decide +kernel

/-- **Violation.**  A broker above that said it answers slowly is asked and given up all the same. -/
theorem C59_slow_counterexample (c : Node) (p : Id) (h : c.isCore = true) (hl : c.linked = true) (hu : c.higher = true) (ho : c.operating = true)
    (ht : c.timeout < 20000) :
    sent (run c [.acknowledged p true, .tick 0 0]) (.tick 5000 5000) = [.pingParent] ∧
    sent (run c [.acknowledged p true, .tick 0 0, .tick 5000 5000]) (.tick 25001 25001) = [.parentLost] := by
  constructor
  · simp [run, sent, handle, reset, tickCmd, tickCore, askParent, send, h, hl, hu, ho]
  · have : 25001 - 5000 > c.timeout := by omega
    simp [run, sent, handle, reset, tickCmd, tickCore, tickParent, askParent, send, h, hl, hu, ho]
    rw [if_pos (by omega)]
    simp [List.drop_append]

/-! ## The broker above -/

def coreN : Node := { isCore := true, root := false, timeout := 12000, linked := true, higher := true }
theorem coreN_fresh : Fresh coreN := by unfold Fresh; decide +kernel

/-- registered, then asks; asks again; gives up -/
def upRun : List Ev := [.acknowledged 1 false, .tick 5000 5000, .tick 10000 10001]
example : sent (run coreN (upRun.take 2)) (.tick 10000 10001) = [.pingParent] ∧ Heard upRun ∧ (run coreN upRun).operating = true ∧
    sent (run coreN upRun) (.tick 15000 15000) = [.againParent] ∧ sent (run coreN upRun) (.tick 22002 22003) = [.parentLost] ∧
    sent (run coreN (upRun ++ [.reply 1, .tick 22002 22003])) (.tick 23000 23000) = [.pingParent] :=
  ⟨by decide +kernel, Or.inr ⟨upRun.take 2, 10000, 10001, rfl⟩, by decide +kernel, by decide +kernel, by decide +kernel, by decide +kernel⟩

/-- C59_above_noticed applies to it -/
example : Out.parentLost ∈ sent (run coreN upRun) (.tick 22002 22003) :=
  (C59_above_noticed coreN coreN_fresh rfl (upRun.take 2) 10000 10001 [] 22002 22003 (by decide) (by decide +kernel) (by simp)
    (Or.inr ⟨upRun.take 2, 10000, 10001, rfl⟩) (by decide +kernel)).1 (by decide)

/-- C59_above_no_false_alarm applies to it -/
example : ∃ pre s s2 post, upRun = pre ++ .tick s s2 :: post ∧ Out.pingParent ∈ sent (run coreN pre) (.tick s s2) ∧ 22002 - s > 12000 ∧
    ∀ e ∈ post, e ≠ .reply (run coreN pre).parent.id :=
  C59_above_no_false_alarm coreN coreN_fresh rfl upRun
    (by
      intro e he a c k
      subst k
      simp only [upRun, List.mem_cons, List.not_mem_nil, or_false, Ev.tick.injEq, reduceCtorEq, false_or] at he
      rcases he with ⟨rfl, rfl⟩ | ⟨rfl, rfl⟩ <;> decide) 22002 22003 (by decide +kernel)

/-- C59_above_asked: all earlier questions answered -/
def upAnswered : List Ev := [.acknowledged 1 false, .tick 5000 5000]
example : Heard upAnswered ∧ (run coreN upAnswered).operating = true ∧ (run coreN upAnswered).linked = true ∧
    (run coreN upAnswered).higher = true ∧ Out.pingParent ∈ sent (run coreN upAnswered) (.tick 10000 10000) :=
  ⟨Or.inr ⟨upAnswered.take 1, 5000, 5000, rfl⟩, by decide +kernel, by decide +kernel, by decide +kernel, by decide +kernel⟩

/-- C59_reported: the three ways -/
example : sent (run rootB [.join coreA, .join coreB]) (.connError 10) = [.fail] ∧
    sent (run rootB [.join coreA, .join coreB, .state 11 .disconnected]) (.connError 10) = [.drop 10] ∧
    sent (run rootB [.join coreA, .join coreB, .state 11 .disconnected]) (.connError 11) = [] ∧
    sent (run { rootB with root := false } [.join coreA]) (.connError 10) = [.passUp 10] := by decide +kernel

end Ping
end Verif
