import Verif.Props.Causal
import Verif.Lemmas.Byes
/-! What a coordinator tells others about its future, and what bounds it. -/
namespace Verif
open Causal

/-- what the command announces does not lie after `B`; `F` says that announced event times count too.  A
`globalError` is a report to the broker, not an announcement. -/
def Within (F : Prop) (B : Time) (m : Msg) : Prop :=
  m.action ≠ .globalError → ∀ n e, word m = .at n e → n ≤ B ∧ (F → e ≤ B)

theorem Within.mono {F : Prop} {B C : Time} {m : Msg} (h : Within F B m) (hc : B ≤ C) : Within F C m :=
  fun h1 n e h2 => ⟨by have := (h h1 n e h2).1; omega, fun hf => by have := (h h1 n e h2).2 hf; omega⟩

theorem within_silent {F : Prop} {B : Time} {m : Msg} (h : ∀ n e, word m ≠ .at n e) : Within F B m :=
  fun _ n e hw => absurd hw (h n e)

theorem within_request {F : Prop} {B : Time} {m : Msg} (ha : m.action = .timeRequest) (h1 : m.actionTime ≤ B)
    (h2 : F → m.Te ≤ B) : Within F B m := by
  intro _ n e hw
  unfold word at hw
  rw [ha] at hw
  injection hw with e1 e2
  subst e1 e2
  exact ⟨h1, h2⟩

theorem within_grant {F : Prop} {B : Time} {m : Msg} (ha : m.action = .timeGrant) (h1 : m.actionTime ≤ B) : Within F B m := by
  intro _ n e hw
  unfold word at hw
  rw [ha] at hw
  injection hw with e1 e2
  subst e1 e2
  exact ⟨h1, fun _ => h1⟩

theorem within_execGrant {F : Prop} {B : Time} {m : Msg} (ha : m.action = .execGrant) (h1 : 0 ≤ B) : Within F B m := by
  intro _ n e hw
  unfold word at hw
  rw [ha] at hw
  dsimp only at hw
  split at hw
  · cases hw
  · injection hw with e1 e2
    subst e1 e2
    exact ⟨h1, fun _ => h1⟩

theorem within_other {F : Prop} {B : Time} {m : Msg} (h : word m = .silent ∨ word m = .notStarted) : Within F B m :=
  within_silent fun n e hw => by rcases h with h | h <;> rw [h] at hw <;> cases hw

namespace TC

/-- what was sent last (and is repeated on request) -/
def LastOk (F : Prop) (B : Time) (tc : TC) : Prop :=
  tc.lastSend.next ≤ B ∧ (F → tc.lastSend.Te ≤ B) ∧ tc.lastSend.state ≠ .error

/-- what would be sent next -/
def NextOk (F : Prop) (B : Time) (tc : TC) : Prop :=
  tc.next ≤ B ∧ (F → tc.exec + tc.info.outputDelay ≤ B)

/-- an action that tells others nothing after `B`, unless it ends with the coordinator disconnected -/
structure Say (F : Prop) (B : Time) (a b : TC) : Prop where
  out : ∃ l, b.out = a.out ++ l ∧ (b.disconnected = false → ∀ p ∈ l, ∀ m ∈ p.msgs, Within F B m)
  last : LastOk F B a → LastOk F B b
  disc : b.disconnected = false → a.disconnected = false
  fut : NextOk F B a → NextOk F B b

theorem Say.refl {F : Prop} {B : Time} (a : TC) : Say F B a a := ⟨⟨[], by simp, by simp⟩, id, id, id⟩
theorem Say.trans {F : Prop} {B : Time} {a b c : TC} (h : Say F B a b) (k : Say F B b c) : Say F B a c := by
  obtain ⟨l, h1, h2⟩ := h.out
  obtain ⟨l', k1, k2⟩ := k.out
  refine ⟨⟨l ++ l', by rw [k1, h1, List.append_assoc], fun hd p hp => ?_⟩, fun x => k.last (h.last x), fun x => h.disc (k.disc x),
    fun x => k.fut (h.fut x)⟩
  rcases List.mem_append.mp hp with hp | hp
  · exact h2 (k.disc hd) p hp
  · exact k2 hd p hp

theorem Say.app {F : Prop} {B : Time} {a b : TC} (l : List Packet) (h1 : b.lastSend = a.lastSend)
    (h2 : b.disconnected = a.disconnected) (h3 : b.next = a.next ∧ b.exec = a.exec ∧ b.info = a.info)
    (h4 : b.out = a.out ++ l) (h5 : ∀ p ∈ l, ∀ m ∈ p.msgs, Within F B m) : Say F B a b :=
  ⟨⟨l, h4, fun _ => h5⟩, fun h => (by unfold LastOk; rw [h1]; exact h), fun h => (by rw [h2] at h; exact h),
    fun h => (by unfold NextOk; rw [h3.1, h3.2.1, h3.2.2]; exact h)⟩

/-- an action that ends with the coordinator disconnected -/
theorem Say.gone {F : Prop} {B : Time} {a b : TC} (l : List Packet) (h1 : b.lastSend = a.lastSend)
    (h2 : b.disconnected = true) (h3 : b.next = a.next ∧ b.exec = a.exec ∧ b.info = a.info)
    (h4 : b.out = a.out ++ l) : Say F B a b :=
  ⟨⟨l, h4, fun h => (by rw [h2] at h; cases h)⟩, fun h => (by unfold LastOk; rw [h1]; exact h), fun h => (by rw [h2] at h; cases h),
    fun h => (by unfold NextOk; rw [h3.1, h3.2.1, h3.2.2]; exact h)⟩

theorem Say.of {F : Prop} {B : Time} {a b : TC} (h1 : b.lastSend = a.lastSend)
    (h2 : b.disconnected = a.disconnected) (h3 : b.next = a.next ∧ b.exec = a.exec ∧ b.info = a.info)
    (h4 : b.out = a.out) : Say F B a b := .app [] h1 h2 h3 (by rw [h4]; simp) (by simp)

theorem Say.send {F : Prop} {B : Time} (a : TC) (m : Msg) (h : Within F B m) : Say F B a (a.send m) :=
  .app [.single m] rfl rfl ⟨rfl, rfl, rfl⟩ rfl (by
    intro p hp x hx
    simp only [List.mem_singleton] at hp; subst hp
    simp only [Packet.msgs, List.mem_singleton] at hx; subst hx; exact h)

theorem within_copy {F : Prop} {B : Time} {m : Msg} (h : Within F B m) (d : FedId) (c : Int) :
    Within F B { m with dest := d, extraDestData := c } := h
theorem within_dest {F : Prop} {B : Time} {m : Msg} (h : Within F B m) (d : FedId) : Within F B { m with dest := d } := h

theorem within_copies {F : Prop} {B : Time} {m : Msg} (h : Within F B m) (ds : Deps) (s : FedId) :
    ∀ p ∈ timingCopies ds m s, ∀ x ∈ p.msgs, Within F B x := by
  intro p hp x hx
  unfold timingCopies at hp
  obtain ⟨d, _, hd⟩ := List.mem_filterMap.mp hp
  split at hd
  · cases hd
    simp only [Packet.msgs, List.mem_singleton] at hx
    subst hx
    split
    · exact within_copy h _ _
    · exact within_dest h _
  · cases hd

theorem say_transmit {F : Prop} {B : Time} (a : TC) (m : Msg) (s : FedId) (h : Within F B m) : Say F B a (a.transmit m s).1 :=
  .app (timingCopies a.deps m s) rfl rfl ⟨rfl, rfl, rfl⟩ rfl (within_copies h _ _)

theorem checkAdd_le (v i : Time) : checkAdd v i ≤ v + i := by unfold checkAdd; split <;> omega

theorem setIterationFlags_times (m : Msg) (i : IterReq) :
    (setIterationFlags m i).actionTime = m.actionTime ∧ (setIterationFlags m i).Te = m.Te := by
  cases i <;> exact ⟨rfl, rfl⟩

theorem mkTimeRequest_le (a : TC) :
    a.mkTimeRequest.actionTime ≤ a.next ∧ a.mkTimeRequest.Te ≤ max 0 (a.exec + a.info.outputDelay) := by
  have h := checkAdd_le a.exec a.info.outputDelay
  unfold mkTimeRequest
  dsimp only
  generalize checkAdd a.exec a.info.outputDelay = x at h ⊢
  generalize checkAdd a.upstream.Te a.info.outputDelay = y
  generalize checkAdd a.upstream.minDe a.info.outputDelay = z
  have key : ∀ n t : Time, n = (if a.evTriggered = true ∧
      (if a.evTriggered = true then max 0 (min (min y (if a.evTriggered = true then max 0 (min x y) else x)) z)
        else min y (if a.evTriggered = true then max 0 (min x y) else x)) <
        (if a.evTriggered = true then min a.next (if a.evTriggered = true then max 0 (min x y) else x) else a.next) then
      (if a.evTriggered = true then max 0 (min (min y (if a.evTriggered = true then max 0 (min x y) else x)) z)
        else min y (if a.evTriggered = true then max 0 (min x y) else x))
      else (if a.evTriggered = true then min a.next (if a.evTriggered = true then max 0 (min x y) else x) else a.next)) →
      t = (if a.evTriggered = true then max 0 (min x y) else x) →
      n ≤ a.next ∧ t ≤ max 0 (a.exec + a.info.outputDelay) := by
    intro n t hn ht
    cases hb : a.evTriggered <;> simp only [hb, Bool.false_eq_true, if_false, if_true, false_and, true_and] at hn ht
    · omega
    · split at hn <;> omega
  split
  · rw [(setIterationFlags_times _ _).1, (setIterationFlags_times _ _).2]
    exact key _ _ rfl rfl
  · exact key _ _ rfl rfl

theorem say_sendTimeRequest {F : Prop} {B : Time} (a : TC) (g : FedId) (h0 : 0 ≤ B) (h : NextOk F B a) :
    Say F B a (a.sendTimeRequest g) := by
  obtain ⟨hn, hT⟩ := mkTimeRequest_le a
  have ha := mkTimeRequest_action a
  have hle : a.mkTimeRequest.actionTime ≤ B := by have := h.1; omega
  have hTe : F → a.mkTimeRequest.Te ≤ B := fun hf => by have := h.2 hf; omega
  have hw : Within F B a.mkTimeRequest := within_request ha hle hTe
  unfold sendTimeRequest
  simp only
  split
  · have h1 : Say F B a (a.checkAndSend a.mkTimeRequest a.upstream.minFed).1 := by
      unfold checkAndSend
      split
      · have k := say_transmit (F := F) (B := B) { a with lastSend := { a.lastSend with
          next := a.mkTimeRequest.actionTime, minDe := a.mkTimeRequest.Tdemin, Te := a.mkTimeRequest.Te, sequenceCounter := a.seq
          minFed := a.mkTimeRequest.extraData, state := .timeReq, interrupted := a.mkTimeRequest.interrupted } }
          a.mkTimeRequest a.upstream.minFed hw
        exact ⟨k.out, fun _ => k.last ⟨hle, hTe, by simp⟩, k.disc, k.fut⟩
      · exact .refl _
    split
    · refine h1.trans (.send _ _ (within_request ?_ ?_ ?_))
      · exact ha
      · exact hle
      · intro hf
        have h2 := h.2 hf
        have h3 := checkAdd_le a.exec a.info.outputDelay
        have h4 := hTe hf
        show (if a.evTriggered then min (checkAdd a.exec a.info.outputDelay) (checkAdd a.upstream.TeAlt a.info.outputDelay)
          else a.mkTimeRequest.Te) ≤ B
        split <;> omega
    · exact h1
  · split
    · split
      · exact .of rfl rfl ⟨rfl, rfl, rfl⟩ rfl
      · split
        · exact .send _ _ (within_copy hw _ _)
        · exact .refl _
    · exact .refl _

theorem say_updateTimeGrant {F : Prop} {B : Time} (a : TC) (hg : a.updateTimeGrant.granted ≤ B) : Say F B a a.updateTimeGrant := by
  have he : a.updateTimeGrant.granted = if a.iterating ≠ .forceIteration then a.exec else a.granted := by
    unfold updateTimeGrant; dsimp only; unfold transmit; repeat' split
    all_goals first | rfl | contradiction
  rw [he] at hg
  unfold updateTimeGrant
  dsimp only
  have key : ∀ (v : TC) (m : Msg), v.out = a.out → v.disconnected = a.disconnected → v.next = a.next → v.exec = a.exec → v.info = a.info →
      v.lastSend.next ≤ B → v.lastSend.Te ≤ B → v.lastSend.state = .granted → m.action = .timeGrant → m.actionTime ≤ B →
      Say F B a (v.transmit m).1 := by
    intro u m h1 h2 h3 h4 h5 h6 h6' h6'' h7 h8
    have k := say_transmit (F := F) (B := B) u m invalidFed (within_grant h7 h8)
    obtain ⟨l, k1, k2⟩ := k.out
    refine ⟨⟨l, by rw [k1, h1], k2⟩, fun _ => k.last ⟨h6, fun _ => h6', by rw [h6'']; simp⟩, fun hx => ?_, fun hx => ?_⟩
    · exact h2.symm.trans hx
    · show u.next ≤ B ∧ (F → u.exec + u.info.outputDelay ≤ B)
      rw [h3, h4, h5]; exact hx
  cases hi : a.iterating <;> simp only [hi, ne_eq, reduceCtorEq, not_true_eq_false, not_false_eq_true, if_true, if_false] at hg ⊢ <;>
    apply key <;> first | rfl | exact hg

theorem say_grant {F : Prop} {B : Time} {a : TC} (u : TC) (h : Say F B a u) (hg : u.updateTimeGrant.granted ≤ B) :
    Say F B a u.updateTimeGrant := h.trans (say_updateTimeGrant u hg)

theorem say_updateDeps {F : Prop} {B : Time} (a : TC) (cmd : Msg) : Say F B a (a.updateDeps cmd).1 := by
  have h1 : Say F B a { a with deps := (a.deps.updateTime cmd).1 } := .of rfl rfl ⟨rfl, rfl, rfl⟩ rfl
  unfold updateDeps
  simp only
  split
  · split
    · exact h1.trans (.send _ _ (fun h => absurd rfl h))
    · exact h1
  · exact h1

theorem within_response {F : Prop} {B : Time} (a : TC) (fed : FedId) (code : Int) (h : LastOk F B a) :
    Within F B (a.generateTimeRequest a.lastSend fed code) := by
  obtain ⟨h1, h2, h3⟩ := h
  unfold generateTimeRequest
  dsimp only
  cases hs : a.lastSend.state
  case granted => exact within_grant rfl h1
  case timeReq => exact within_request rfl h1 h2
  case timeReqIter => exact within_request rfl h1 h2
  case timeReqRequireIter => exact within_request rfl h1 h2
  case error => exact absurd hs h3
  case initialized =>
    dsimp only
    split
    · exact within_other (.inl rfl)
    · exact within_other (.inr rfl)
  all_goals exact within_other (.inr rfl)

theorem say_processTimeMessage {F : Prop} {B : Time} (a : TC) (cmd : Msg) (hf : cmd.action ≠ .forceTimeGrant)
    (hl : cmd.action = .requestCurrentTime → LastOk F B a) :
    Say F B a (a.processTimeMessage cmd).1 := by
  have hr : Say F B a (a.removeDependent cmd.source) := .of rfl rfl ⟨rfl, rfl, rfl⟩ rfl
  unfold processTimeMessage
  split
  all_goals first
    | exact Say.of rfl rfl ⟨rfl, rfl, rfl⟩ rfl
    | exact hr.trans (say_updateDeps _ _)
    | exact say_updateDeps _ _
    | (rename_i h; exact absurd h hf)
    | skip
  rename_i hq
  have h1 := hl hq
  split
  · rename_i hd
    refine .gone _ rfl ?_ ⟨rfl, rfl, rfl⟩ rfl
    have := h1.2.2
    show a.disconnected = true
    simpa [this] using hd
  · dsimp only
    have hw := within_response a cmd.source cmd.counter h1
    have hw2 : Within F B (if a.triggered then { a.generateTimeRequest a.lastSend cmd.source cmd.counter with destinationTarget := true }
        else a.generateTimeRequest a.lastSend cmd.source cmd.counter) := by split <;> exact hw
    refine Say.trans (b := if (a.triggered && cmd.source == rootBroker) then { a with triggered := false } else a) ?_
      ((Say.send _ _ hw2).trans (.of rfl rfl ⟨rfl, rfl, rfl⟩ rfl))
    split <;> exact .of rfl rfl ⟨rfl, rfl, rfl⟩ rfl

theorem say_bye {F : Prop} {B : Time} (a : TC) (cmd : Msg) (hc : cmd.action = .disconnect ∨ cmd.action = .localError) :
    Say F B a (a.processTimeMessage cmd).1 :=
  say_processTimeMessage a cmd (by rcases hc with h | h <;> rw [h] <;> simp) (by rcases hc with h | h <;> rw [h] <;> simp)

theorem Say.close {F : Prop} {B : Time} {a u : TC} (l : List Packet) (h : Say F B a u) :
    Say F B a { u with out := u.out ++ l, disconnected := true } := by
  obtain ⟨k, h1, _⟩ := h.out
  exact ⟨⟨k ++ l, by show u.out ++ l = _; rw [h1, List.append_assoc], (nomatch ·)⟩, h.last, (nomatch ·), h.fut⟩

theorem Say.closed {F : Prop} {B : Time} {a u : TC} (h : ∃ l, u.out = a.out ++ l) (h1 : u.lastSend = a.lastSend)
    (h3 : u.next = a.next ∧ u.exec = a.exec ∧ u.info = a.info) :
    Say F B a { u with disconnected := true } := by
  obtain ⟨k, hk⟩ := h
  exact .gone k h1 rfl h3 hk

theorem say_disconnect {F : Prop} {B : Time} (a : TC) : Say F B a a.disconnect := by
  unfold disconnect
  split
  · exact .refl _
  · dsimp only
    split
    · exact .gone [] rfl rfl ⟨rfl, rfl, rfl⟩ (by simp)
    · split
      · split
        · have := (say_bye (F := F) (B := B) a { action := .disconnect, source := a.self, dest := (‹DepInfo› : DepInfo).fedID } (.inl rfl)).close []
          simp only [List.append_nil] at this
          exact this
        · exact .closed ⟨_, rfl⟩ rfl ⟨rfl, rfl, rfl⟩
      · exact .gone [] rfl rfl ⟨rfl, rfl, rfl⟩ (by simp)
    · refine Say.close _ ?_
      split
      · exact say_bye _ _ (.inl rfl)
      · exact .refl _

theorem say_localError {F : Prop} {B : Time} (a : TC) : Say F B a a.localError := by
  have h0 : Say F B a { a with granted := maxVal, grantBase := maxVal } := .of rfl rfl ⟨rfl, rfl, rfl⟩ rfl
  unfold localError
  split
  · exact .refl _
  · dsimp only
    split
    · exact h0
    · split
      · split
        · have := (h0.trans (say_bye (F := F) (B := B) { a with granted := maxVal, grantBase := maxVal }
            { action := .localError, source := a.self, dest := (‹DepInfo› : DepInfo).fedID } (.inr rfl))).close []
          simp only [List.append_nil] at this
          exact this
        · exact .closed ⟨_, rfl⟩ rfl ⟨rfl, rfl, rfl⟩
      · exact .gone [] rfl rfl ⟨rfl, rfl, rfl⟩ (by simp)
    · refine Say.close _ ?_
      split
      · exact h0.trans (say_bye _ _ (.inr rfl))
      · exact h0

end TC
end Verif
