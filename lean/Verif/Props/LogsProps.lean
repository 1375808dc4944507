import Verif.Lemmas.LogBuf
/-!
# C62 Log messages

Who gets which message: the remote targets, the console, the file, the callback, the buffer; after every history of levels set,
targets added and changed, messages logged, and sizes of the buffer.
-/
namespace Verif
namespace Logs

theorem drop_ge (s : Mgr) (l : Int) (h : ¬ (l > s.maxLevel)) (hl : l ≤ fed - 100) :
    s.out l false =
      { level := l, buffered := true, sentTo := (s.targets.filter fun t => decide (t.2 ≥ l)).map (·.1)
        callback := s.hasCallback && (decide (s.consoleLevel ≥ l) || decide (s.fileLevel ≥ l))
        console := !s.hasCallback && decide (s.consoleLevel ≥ l)
        file := !s.hasCallback && s.hasFile && decide (s.fileLevel ≥ l) } := by
  have hf : decide (l > fed - 100) = false := by simp; omega
  simp [Mgr.out, hf, h]

theorem sentTo_out (s : Mgr) (l : Int) (r : Bool) :
    (s.out l r).sentTo = [] ∨ (r = false ∧ (s.out l r).sentTo =
      (s.targets.filter fun t => decide (t.2 ≥ if l > fed - 100 then l - fed else l)).map (·.1)) := by
  cases r with
  | true => left; by_cases hf : l > fed - 100 <;> simp [Mgr.out, hf]
  | false =>
    by_cases hf : l > fed - 100
    · right; simp [Mgr.out, hf]
    · by_cases hm : l > s.maxLevel
      · left; simp [Mgr.out, hf, hm]
      · right; simp [Mgr.out, hf, hm]

/-- What is printed: a message of the object itself is printed on the console, or in the file, exactly when its level is at most
the one last set there; if there is a callback it gets what one of the two would. -/
theorem C62_printed (cb file : Bool) (es : List Ev) (l : Int) (hl : l ≤ fed - 100) :
    ((run cb file es).out l false).console = (!cb && decide (l ≤ consoleOf es)) ∧
    ((run cb file es).out l false).file = (!cb && file && decide (l ≤ fileOf es)) ∧
    ((run cb file es).out l false).callback = (cb && (decide (l ≤ consoleOf es) || decide (l ≤ fileOf es))) := by
  have h := tracks cb file es
  have h1 := h.maxC
  have h2 := h.maxF
  have e3 := h.call
  have e4 := h.file
  have e5 := h.cons
  have e6 := h.fil
  generalize run cb file es = s at h1 h2 e3 e4 e5 e6
  rw [← e3, ← e4, ← e5, ← e6]
  by_cases hm : l > s.maxLevel
  · have hf : decide (l > fed - 100) = false := by simp; omega
    have e : s.out l false = {} := by simp [Mgr.out, hf, hm]
    rw [e]
    have e1 : decide (l ≤ s.consoleLevel) = false := by simp; omega
    have e2 : decide (l ≤ s.fileLevel) = false := by simp; omega
    simp [e1, e2]
  · rw [drop_ge _ _ hm hl]
    exact ⟨rfl, rfl, rfl⟩

/-- A message goes to a remote target only if the target asked for its level, and to each target at most once. -/
theorem C62_remote_only (cb file : Bool) (es : List Ev) (l : Int) (r : Bool) (d : Nat)
    (hd : d ∈ ((run cb file es).out l r).sentTo) :
    r = false ∧ ∃ w, wants d es = some w ∧ (if l > fed - 100 then l - fed else l) ≤ w := by
  have h := tracks cb file es
  rcases sentTo_out (run cb file es) l r with h0 | ⟨hr, h0⟩
  · rw [h0] at hd; cases hd
  · refine ⟨hr, ?_⟩
    rw [h0] at hd
    simp only [List.mem_map, List.mem_filter, decide_eq_true_eq] at hd
    obtain ⟨t, ⟨ht, hw⟩, rfl⟩ := hd
    have := (lookup_mem h.nodup t.1 t.2).1 ht
    rw [h.tgt] at this
    exact ⟨t.2, this, hw⟩

theorem C62_remote_once (cb file : Bool) (es : List Ev) (l : Int) (r : Bool) : ((run cb file es).out l r).sentTo.Nodup := by
  have h := tracks cb file es
  rcases sentTo_out (run cb file es) l r with h0 | ⟨-, h0⟩
  · rw [h0]; exact List.nodup_nil
  · rw [h0]; exact List.Sublist.nodup (List.Sublist.map _ List.filter_sublist) h.nodup

/-- If no target raised its level after it was added (or the levels were set after that), every remote target gets exactly the
messages of the levels it asked for. -/
theorem C62_remote (cb file : Bool) (es : List Ev) (hn : NoneRaised es) (l : Int) (d : Nat) (w : Int) (hw : wants d es = some w)
    (hl : l ≤ fed - 100) : d ∈ ((run cb file es).out l false).sentTo ↔ l ≤ w := by
  constructor
  · intro hd
    obtain ⟨-, w', h1, h2⟩ := C62_remote_only cb file es l false d hd
    rw [hw] at h1
    cases h1
    rwa [if_neg (by omega)] at h2
  · intro hlw
    have h := tracks cb file es
    have hm := (lookup_mem h.nodup d w).2 (by rw [h.tgt, hw])
    have := h.maxT hn (d, w) hm
    simp only at this
    rw [drop_ge _ _ (by omega) hl]
    simp only [List.mem_map, List.mem_filter, decide_eq_true_eq]
    exact ⟨(d, w), ⟨hm, hlw⟩, rfl⟩

/-- Messages of federates that the core prints are not filtered, and reach every target that asked for their level. -/
theorem C62_federate (cb file : Bool) (es : List Ev) (l : Int) (hl : l > -100) :
    ((run cb file es).out (fed + l) false).buffered = true ∧ ((run cb file es).out (fed + l) false).console = !cb ∧
      ((run cb file es).out (fed + l) false).level = l ∧
      ∀ d w, wants d es = some w → (d ∈ ((run cb file es).out (fed + l) false).sentTo ↔ l ≤ w) := by
  have h := tracks cb file es
  have hf : decide (fed + l > fed - 100) = true := by simp; omega
  have hs : fed + l - fed = l := by omega
  have ho : (run cb file es).out (fed + l) false = { level := l, buffered := true, sentTo := ((run cb file es).targets.filter fun t => decide (t.2 ≥ l)).map (·.1), callback := (run cb file es).hasCallback, console := !(run cb file es).hasCallback, file := !(run cb file es).hasCallback && (run cb file es).hasFile } := by
    simp [Mgr.out, hf, hs]
  rw [ho]
  refine ⟨rfl, by simp [h.call], rfl, ?_⟩
  intro d w hw
  have hm := (lookup_mem h.nodup d w).2 (by rw [h.tgt, hw])
  constructor
  · intro hd
    simp only [List.mem_map, List.mem_filter, decide_eq_true_eq] at hd
    obtain ⟨t, ⟨ht, h1⟩, rfl⟩ := hd
    have := (lookup_mem h.nodup t.1 t.2).1 ht
    rw [h.tgt, hw] at this
    simp only [Option.some.injEq] at this
    omega
  · intro hlw
    simp only [List.mem_map, List.mem_filter, decide_eq_true_eq]
    exact ⟨(d, w), ⟨hm, hlw⟩, rfl⟩

/-- A message from elsewhere is never sent on, whatever the targets: two objects that listen to each other do not echo. It is
buffered and printed whatever its level. -/
theorem C62_no_echo (cb file : Bool) (es : List Ev) (l : Int) :
    ((run cb file es).out l true).sentTo = [] ∧ ((run cb file es).out l true).buffered = true ∧
      ((run cb file es).out l true).console = !cb ∧ ((run cb file es).out l true).callback = cb := by
  have h := tracks cb file es
  generalize run cb file es = s at h
  simp [Mgr.out, h.call]

/-- What goes anywhere is buffered. -/
theorem C62_buffered (s : Mgr) (l : Int) (r : Bool) (h : (s.out l r).buffered = false) : s.out l r = {} := by
  by_cases hf : l > fed - 100
  · simp [Mgr.out, hf] at h
  · by_cases hm : l > s.maxLevel
    · cases r <;> simp [Mgr.out, hf, hm] at h ⊢
    · simp [Mgr.out, hf, hm] at h

/-- The buffer holds, in order, the last messages pushed: exactly those that never since had as many newer ones as the buffer could
hold at that time. -/
theorem C62_buffer (c : Nat) (cs : List Call) :
    (bufRun c cs).items.length ≤ capacity c cs ∧ ∃ k, k ≤ (pushed cs).length ∧ (bufRun c cs).items = (pushed cs).drop k ∧
      ∀ a m b, cs = a ++ .push m :: b → (k ≤ (pushed a).length ↔ Kept c a m b) := by
  have h := bufOk c cs
  exact ⟨h.cap ▸ h.len, h.last⟩

/-- The buffer of an object is filled by what is logged and not filtered, and by nothing else. -/
theorem C62_logged (s : Mgr) (x : Ev) :
    (s.step x).buf = match x with
      | .log m l r => if (s.out l r).buffered then s.buf.call (.push m) else s.buf
      | .resize n => s.buf.call (.resize n)
      | .enable on => s.buf.call (.enable on)
      | _ => s.buf := by
  cases x with
  | log m l r => simp only [Mgr.step, Mgr.log]; split <;> rfl
  | remote d l => simp only [Mgr.step, Mgr.remote]; split <;> rfl
  | _ => rfl

/-- Threads that push at the same time keep within the size, as long as nobody changes it. -/
theorem C62_threads (c : Nat) (ss : List Step) (h : ∀ x ∈ ss, isPush x) :
    (concRun c ss).items.length ≤ c ∧ (concRun c ss).broken = false :=
  ⟨(concOk c ss h).len, (concOk c ss h).fine⟩

/-- One message pushed while another thread makes the buffer smaller, between its trimming and its storing of the size
(src/helics/common/LogBuffer.cpp:19-26): from then on the buffer grows without bound. -/
theorem C62_race_unbounded (n : Nat) : ∃ ss, (concRun 2 ss).cap = 1 ∧ n ≤ (concRun 2 ss).items.length := by
  let pre : List Step := [.pushTest 0 7, .pushRest 0, .sizeTest 1 1, .sizeTrim 1, .pushTest 0 8, .pushRest 0, .sizeStore 1]
  obtain ⟨ss, h1, -, h3⟩ := race_grow (concRun 2 pre) (by decide +kernel) (by decide +kernel) (by decide +kernel) n
  refine ⟨pre ++ ss, ?_, ?_⟩
  · have : concRun 2 (pre ++ ss) = ss.foldl Conc.step (concRun 2 pre) := by simp [concRun, List.foldl_append]
    rw [this, h1]; decide +kernel
  · have : concRun 2 (pre ++ ss) = ss.foldl Conc.step (concRun 2 pre) := by simp [concRun, List.foldl_append]
    rw [this, h3]; omega

/-- A message being pushed while another thread disables the buffer: an element is taken from an empty deque
(src/helics/common/LogBuffer.cpp:42-48). -/
theorem C62_race_empty :
    (concRun 1 [.pushTest 0 7, .sizeTest 1 0, .sizeTrim 1, .sizeStore 1, .pushRest 0]).broken = true := by decide +kernel

/-- A remote target that asks for more than before does not get it: the message is dropped before the targets are looked at
(src/helics/core/LogManager.cpp:103-106,261-266). -/
theorem C62_raise_lost :
    wants 1 [.remote 1 0, .remote 1 15] = some 15 ∧
      ((run false false [.remote 1 0, .remote 1 15]).out 9 false).sentTo = [] ∧
      ((run false false [.remote 1 15]).out 9 false).sentTo = [1] ∧
      -- any other change of the levels, or a new target, mends it
      ((run false false [.remote 1 0, .remote 1 15, .levels 3 3]).out 9 false).sentTo = [1] ∧
      ((run false false [.remote 1 0, .remote 1 15, .remote 2 0]).out 9 false).sentTo = [1] := by decide +kernel

/-- After `remotelog stop` the messages of the dump log, whose level is below that of `no_print`, are still sent
(src/helics/core/LogManager.cpp:111, src/helics/core/BrokerBase.cpp:713-715). -/
theorem C62_stop_dumplog :
    ((run false false [.remote 1 15, .remote 1 noPrint]).out (-10) false).sentTo = [1] ∧
      ∀ l, -4 < l → l ≤ fed - 100 → ((run false false [.remote 1 15, .remote 1 noPrint]).out l false).sentTo = [] := by
  refine ⟨by decide +kernel, fun l h1 h2 => ?_⟩
  cases h : ((run false false [.remote 1 15, .remote 1 noPrint]).out l false).sentTo with
  | nil => rfl
  | cons d ds =>
    obtain ⟨-, w, hw, hl⟩ := C62_remote_only false false _ l false d (by rw [h]; simp)
    rw [if_neg (by omega)] at hl
    simp only [wants, Option.none_or, Option.or_none] at hw
    by_cases hd : (1 : Nat) = d
    · simp [hd, noPrint] at hw; omega
    · simp [hd] at hw

/-- A remote target takes every message for an error: the level is not sent along (src/helics/core/LogManager.cpp:113-117). -/
theorem C62_level_lost (cb file : Bool) (es es' : List Ev) (l : Int) (d : Nat) (_ : d ∈ ((run cb file es).out l false).sentTo) :
    ((run cb file es').out (received l) true).level = 0 := by
  have : ¬ ((0 : Int) > fed - 100) := by decide
  simp [Mgr.out, received, this]

end Logs
end Verif
