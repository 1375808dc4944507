import Verif.Lemmas.ShutdownRun
/-! What every node does for the others, for C56: whoever has to be told something is told. -/
namespace Verif.Down

variable {net : Net} {s : Sys}

/-! ### Single commands -/

theorem hush_frame (x : NSt) (v : Node) : (x.hush net v).1.phase = x.phase ∧ (x.hush net v).1.gone = x.gone ∧
    (x.hush net v).1.acked = x.acked ∧ (x.hush net v).1.called = x.called := by
  unfold NSt.hush; split <;> exact ⟨rfl, rfl, rfl, rfl⟩

theorem hush_only (x : NSt) (v : Node) {b : Node} {c : Cmd} (h : (b, c) ∈ (x.hush net v).2) : c = .tbye := (hush_out x v h).1

theorem check_cases (x : NSt) (v : Node) :
    ((x.check net v).1 = (x, []) ∧ ((x.check net v).2 = true ↔ x.phase ≠ .running) ∧
      (x.phase = .running → x.all (net.kids v) = false)) ∨
    (x.phase = .running ∧ x.all (net.kids v) = true ∧ (x.check net v).2 = true ∧ (x.check net v).1.1.phase = .terminating ∧
      (net.par v, Cmd.disc) ∈ (x.check net v).1.2 ∧
      ∀ b c, (b, c) ∈ (x.check net v).1.2 → c = .tbye ∨ c = .disc) := by
  unfold NSt.check
  split
  · rename_i hr
    split
    · rename_i ha
      refine .inr ⟨hr, ha, rfl, (hush_frame _ _).1, ?_, ?_⟩
      · exact List.mem_append_right _ (List.mem_singleton.2 rfl)
      · intro b c hb
        rcases List.mem_append.1 hb with hb | hb
        · exact .inl (hush_only _ _ hb)
        · rw [List.mem_singleton] at hb; cases hb; exact .inr rfl
    · rename_i ha
      exact .inl ⟨rfl, ⟨(fun h => by cases h), fun h => absurd hr h⟩, fun _ => by simpa using ha⟩
  · rename_i hr
    exact .inl ⟨rfl, ⟨fun _ => hr, fun _ => rfl⟩, fun h => absurd h hr⟩

theorem check_called (x : NSt) (v : Node) : (x.check net v).1.1.called = x.called := by
  unfold NSt.check
  split
  · split
    · exact (hush_frame _ _).2.2.2
    · rfl
  · rfl

/-! ### Federates -/

theorem fed_bye {x : NSt} {v : Node} :
    (x.fedCmd net v .bye).1.phase ≠ .running ∧ (x.phase = .running → (net.par v, Cmd.disc) ∈ (x.fedCmd net v .bye).2) := by
  unfold NSt.fedCmd
  simp only
  split
  · exact ⟨by simp, fun _ => List.mem_append_right _ (List.mem_singleton.2 rfl)⟩
  · rename_i h; exact ⟨h, fun e => absurd e h⟩

theorem fed_phase {x : NSt} {v : Node} {c : Cmd} (hr : x.phase = .running) (h : (x.fedCmd net v c).1.phase ≠ .running) :
    c = .bye ∨ c = .halt ∨ c = .ack ∨ c = .stop := by
  cases c <;> first | exact absurd hr h | simp

theorem fed_disc {x : NSt} {v b : Node} {c : Cmd} (h : (b, Cmd.disc) ∈ (x.fedCmd net v c).2) :
    (x.fedCmd net v c).1.phase ≠ .running := by
  cases c with
  | bye => exact fed_bye.1
  | halt =>
    unfold NSt.fedCmd at h ⊢
    simp only at h ⊢
    split
    · simp
    · rename_i e; exact e
  | _ => cases h

theorem fed_frame {x : NSt} {v : Node} {c : Cmd} : (x.fedCmd net v c).1.called = x.called ∧ (x.fedCmd net v c).1.gone = x.gone ∧
    (x.fedCmd net v c).1.acked = x.acked := by
  unfold NSt.fedCmd
  split <;> first | exact ⟨rfl, rfl, rfl⟩ | (split <;> exact ⟨rfl, rfl, rfl⟩)

theorem fed_no_stop {x : NSt} {v b : Node} {c : Cmd} (h : (b, Cmd.stop) ∈ (x.fedCmd net v c).2) : False := by
  cases c with
  | bye =>
    unfold NSt.fedCmd at h
    simp only at h
    split at h
    · simp only [List.mem_append, List.mem_singleton] at h
      rcases h with h | h
      · split at h
        · rw [List.mem_singleton] at h; cases h
        · cases h
      · cases h
    · cases h
  | halt =>
    unfold NSt.fedCmd at h
    simp only at h
    split at h
    · simp only [List.mem_append, List.mem_singleton] at h
      rcases h with h | h
      · split at h
        · rw [List.mem_singleton] at h; cases h
        · cases h
      · cases h
    · cases h
  | _ => cases h

/-! ### Cores -/

/-- a core takes CMD_DISCONNECT from the federate `u` -/
theorem core_disc {x : NSt} {v u : Node} :
    (x.coreCmd net v u .disc).1.gone = upd x.gone u true ∧
    (x.coreCmd net v u .disc).1.acked = x.acked ∧
    (x.coreCmd net v u .disc).1.called = x.called ∧
    (x.phase = .running → (x.coreCmd net v u .disc).1.phase ≠ .stopped) ∧
    (x.phase ≠ .running → (x.coreCmd net v u .disc).1.phase = x.phase) ∧
    ((x.coreCmd net v u .disc).1.all (net.kids v) = true → (x.coreCmd net v u .disc).1.phase ≠ .running) ∧
    (x.phase = .running → (x.coreCmd net v u .disc).1.phase ≠ .running → (net.par v, Cmd.disc) ∈ (x.coreCmd net v u .disc).2) ∧
    (net.glob v = false → (u, Cmd.ack) ∈ (x.coreCmd net v u .disc).2 ∨ (x.coreCmd net v u .disc).1.phase ≠ .running) ∧
    (∀ b, (b, Cmd.stop) ∉ (x.coreCmd net v u .disc).2) := by
  obtain ⟨x1, hx1⟩ : ∃ x1, x1 = { x with gone := upd x.gone u true } := ⟨_, rfl⟩
  have e1 : x1.phase = x.phase := by rw [hx1]
  have hst : (x.coreCmd net v u .disc).1 = (x1.check net v).1.1 := by rw [hx1]; rfl
  obtain ⟨r, hr⟩ : ∃ r, r = x1.check net v := ⟨_, rfl⟩
  have hout : (x.coreCmd net v u .disc).2 = r.1.2 ++
      (if !r.2 || (decide (x.phase = .running) && !x.oper) || decide (x.phase = .terminating) then
        (net.par v, Cmd.note) ::
        (if ((decide (x.phase = .running) && !x.oper) || decide (x.phase = .terminating) || !x1.all (net.kids v)) && !net.glob v
          then [(u, Cmd.ack)] else [])
      else []) := by rw [hr, hx1]; rfl
  have hcc := check_cases (net := net) x1 v
  rw [← hr] at hcc hst
  rw [hst, hout]
  have hg : r.1.1.gone = x1.gone := by rw [hr]; exact check_gone ..
  have ha : r.1.1.acked = x1.acked := by rw [hr]; exact check_acked ..
  have hc : r.1.1.called = x1.called := by rw [hr]; exact check_called ..
  have hall : r.1.1.all (net.kids v) = x1.all (net.kids v) := by unfold NSt.all; rw [hg]
  refine ⟨by rw [hg, hx1], by rw [ha, hx1], by rw [hc, hx1], ?_, ?_, ?_, ?_, ?_, ?_⟩
  · intro hp
    rcases hcc with h | h
    · rw [h.1]; simp only; rw [e1, hp]; decide
    · rw [h.2.2.2.1]; decide
  · intro hp
    rcases hcc with h | h
    · rw [h.1]; exact e1
    · exact absurd (e1 ▸ h.1) hp
  · intro h'
    rw [hall] at h'
    rcases hcc with h | h
    · rw [h.1]; simp only
      intro e; rw [h.2.2 e] at h'; cases h'
    · rw [h.2.2.2.1]; decide
  · intro hp h'
    rcases hcc with h | h
    · rw [h.1] at h'; exact absurd (e1.trans hp) h'
    · exact List.mem_append_left _ h.2.2.2.2.1
  · intro hgl
    rcases hcc with h | h
    · by_cases hp : x.phase = .running
      · left
        have hr2 : r.2 = false := by
          cases hr2 : r.2
          · rfl
          · exact absurd (e1.trans hp) (h.2.1.1 hr2)
        have hn := h.2.2 (e1.trans hp)
        rw [hr2, hn, hgl]
        simp
      · right; rw [h.1]; simp only; rw [e1]; exact hp
    · right; rw [h.2.2.2.1]; decide
  · intro b hb
    rcases List.mem_append.1 hb with hb | hb
    · rcases hcc with h | h
      · rw [h.1] at hb; cases hb
      · rcases h.2.2.2.2.2 b _ hb with h | h <;> cases h
    · split at hb
      · rcases List.mem_cons.1 hb with hb | hb
        · cases hb
        · split at hb
          · rw [List.mem_singleton] at hb; cases hb
          · cases hb
      · cases hb

/-- the other commands do not change who has left -/
theorem core_frame {x : NSt} {v u : Node} {c : Cmd} (h1 : c ≠ .disc) (h2 : c ≠ .halt) : (x.coreCmd net v u c).1.gone = x.gone ∧
    (x.coreCmd net v u c).1.acked = x.acked ∧ (x.coreCmd net v u c).1.called = x.called := by
  cases c with
  | disc => exact absurd rfl h1
  | halt => exact absurd rfl h2
  | bye => exact ⟨rfl, rfl, rfl⟩
  | note => exact ⟨rfl, rfl, rfl⟩
  | spread => exact ⟨check_gone .., check_acked .., check_called ..⟩
  | tbye =>
    unfold NSt.coreCmd
    simp only
    split
    · exact ⟨(hush_frame _ _).2.1, (hush_frame _ _).2.2.1, (hush_frame _ _).2.2.2⟩
    · exact ⟨check_gone .., check_acked .., check_called ..⟩
  | ack =>
    show (if _ then _ else _ : Out).1.gone = _ ∧ (if _ then _ else _ : Out).1.acked = _ ∧ (if _ then _ else _ : Out).1.called = _
    split <;> exact ⟨rfl, rfl, rfl⟩
  | stop =>
    unfold NSt.coreCmd
    simp only
    split
    · unfold NSt.leave
      exact ⟨(hush_frame _ _).2.1, (hush_frame _ _).2.2.1, (hush_frame _ _).2.2.2⟩
    · exact ⟨rfl, rfl, rfl⟩

theorem check_leave {x : NSt} {v : Node} (hr : x.phase = .running) (h : (x.check net v).1.1.phase ≠ .running) :
    (net.par v, Cmd.disc) ∈ (x.check net v).1.2 := by
  rcases check_cases (net := net) x v with e | e
  · rw [e.1] at h; exact absurd hr h
  · exact e.2.2.2.2.1

/-- a core that begins to leave says so, except when it was told to go -/
theorem core_leave {x : NSt} {v u : Node} {c : Cmd} (hr : x.phase = .running) (h : (x.coreCmd net v u c).1.phase ≠ .running) :
    (net.par v, Cmd.disc) ∈ (x.coreCmd net v u c).2 ∨ (c = .tbye ∧ u = net.par v) ∨ c = .halt ∨ c = .stop := by
  cases c with
  | disc => exact .inl (core_disc.2.2.2.2.2.2.1 hr h)
  | halt => exact .inr (.inr (.inl rfl))
  | bye => exact absurd hr h
  | note => exact absurd hr h
  | spread => exact .inl (check_leave hr h)
  | tbye =>
    unfold NSt.coreCmd at h ⊢
    simp only at h ⊢
    split
    · rename_i e; exact .inr (.inl ⟨trivial, e⟩)
    · rename_i e; rw [if_neg e] at h; exact .inl (check_leave hr h)
  | ack =>
    unfold NSt.coreCmd at h
    simp only at h
    split at h <;> exact absurd hr h
  | stop => exact .inr (.inr (.inr rfl))

/-- only CMD_STOP ends the main loop -/
theorem core_stopped {x : NSt} {v u : Node} {c : Cmd} (hs : x.phase ≠ .stopped) (h : (x.coreCmd net v u c).1.phase = .stopped) :
    c = .stop ∨ c = .halt := by
  have hch : ∀ y : NSt, y.phase ≠ .stopped → (y.check net v).1.1.phase ≠ .stopped := by
    intro y hy
    rcases check_cases (net := net) y v with e | e
    · rw [e.1]; exact hy
    · rw [e.2.2.2.1]; decide
  cases c with
  | disc =>
    by_cases hr : x.phase = .running
    · exact absurd h (core_disc.2.2.2.1 hr)
    · rw [core_disc.2.2.2.2.1 hr] at h; exact absurd h hs
  | halt => exact .inr rfl
  | bye => exact absurd h hs
  | note => exact absurd h hs
  | spread => exact absurd h (hch x hs)
  | tbye =>
    unfold NSt.coreCmd at h
    simp only at h
    split at h
    · simp only [(hush_frame _ _).1] at h; cases h
    · exact absurd h (hch x hs)
  | ack =>
    unfold NSt.coreCmd at h
    simp only at h
    split at h <;> exact absurd h hs
  | stop => exact .inl rfl

/-- a core which puts CMD_STOP in its queue has confirmed all its federates -/
theorem core_stop_out {x : NSt} {v u b : Node} {c : Cmd} (hc : c ≠ .halt) (hr : c = .stop → x.phase ≠ .running)
    (h : (b, Cmd.stop) ∈ (x.coreCmd net v u c).2) : ∀ f, f ∈ net.kids v → (f, Cmd.ack) ∈ (x.coreCmd net v u c).2 := by
  have hch : (b, Cmd.stop) ∉ (x.check net v).1.2 := by
    intro hb
    rcases check_cases (net := net) x v with e | e
    · rw [e.1] at hb; cases hb
    · rcases e.2.2.2.2.2 b _ hb with e | e <;> cases e
  cases c with
  | disc => exact absurd h (core_disc.2.2.2.2.2.2.2.2 b)
  | halt => exact absurd rfl hc
  | bye => unfold NSt.coreCmd at h; simp only [List.mem_singleton] at h; cases h
  | note => cases h
  | spread => exact absurd h hch
  | tbye =>
    unfold NSt.coreCmd at h ⊢
    simp only at h ⊢
    split
    · intro f hf
      exact List.mem_append_left _ (List.mem_append_right _ (List.mem_map.2 ⟨f, hf, rfl⟩))
    · rename_i e; rw [if_neg e] at h; exact absurd h hch
  | ack =>
    unfold NSt.coreCmd at h ⊢
    simp only at h ⊢
    split
    · intro f hf
      exact List.mem_append_left _ (List.mem_map.2 ⟨f, hf, rfl⟩)
    · rename_i e; rw [if_neg e] at h; cases h
  | stop =>
    unfold NSt.coreCmd at h
    simp only at h
    rw [if_neg (hr rfl)] at h; cases h

/-- the confirmation from above ends a core -/
theorem core_ack {x : NSt} {v : Node} : (v, Cmd.stop) ∈ (x.coreCmd net v (net.par v) .ack).2 := by
  unfold NSt.coreCmd
  simp only [if_true]
  exact List.mem_append_right _ (List.mem_singleton.2 rfl)

/-! ### Brokers -/

/-- a broker takes CMD_DISCONNECT from its neighbour `u` -/
theorem broker_disc {x : NSt} {v u : Node} :
    (x.brokerCmd net v u .disc).1.gone = upd x.gone u true ∧
    (x.brokerCmd net v u .disc).1.phase = x.phase ∧
    (x.brokerCmd net v u .disc).1.called = x.called ∧
    (∀ k, x.acked k = true → (x.brokerCmd net v u .disc).1.acked k = true) ∧
    (∀ k, k ∈ net.kids v → (x.brokerCmd net v u .disc).1.acked k = true → x.acked k = true ∨ (k, Cmd.ack) ∈ (x.brokerCmd net v u .disc).2) ∧
    (v ≠ 0 → (x.brokerCmd net v u .disc).1.allLocal (net.kids v) = true → (net.par v, Cmd.disc) ∈ (x.brokerCmd net v u .disc).2) ∧
    (v = 0 → (x.brokerCmd net v u .disc).1.allLocal (net.kids v) = true → (v, Cmd.stop) ∈ (x.brokerCmd net v u .disc).2) ∧
    (v = 0 → net.glob v = true → (x.brokerCmd net v u .disc).1.allLocal (net.kids v) = true →
      ∀ k, k ∈ net.kids v → (x.brokerCmd net v u .disc).1.acked k = true) ∧
    (net.glob v = false → (x.brokerCmd net v u .disc).1.acked u = true ∨
      (v ≠ 0 ∧ (x.brokerCmd net v u .disc).1.allLocal (net.kids v) = true)) ∧
    (∀ b, (b, Cmd.stop) ∈ (x.brokerCmd net v u .disc).2 → v = 0 ∧ (x.brokerCmd net v u .disc).1.allLocal (net.kids v) = true) := by
  obtain ⟨d, hd⟩ : ∃ d, d = x.drop net v u := ⟨_, rfl⟩
  have hd1 : d.1 = { x with gone := upd x.gone u true } := by rw [hd]; rfl
  have hdo : ∀ b, (b, Cmd.stop) ∉ d.2 := by
    intro b hb; rw [hd] at hb; obtain ⟨e, _⟩ := drop_out hb; cases e
  have hho : ∀ b, (b, Cmd.stop) ∉ (d.1.hush net v).2 := by
    intro b hb; have := hush_only _ _ hb; cases this
  have hf := hush_frame (net := net) d.1 v
  have updm : ∀ k, x.acked k = true → upd x.acked u true k = true := by
    intro k a; unfold upd; split
    · rfl
    · exact a
  have updn : ∀ k, upd x.acked u true k = true → x.acked k = true ∨ k = u := by
    intro k a; unfold upd at a; split at a
    · rename_i e; exact .inr e
    · exact .inl a
  have hal : ∀ y : NSt, y.gone = d.1.gone → y.allLocal (net.kids v) = d.1.allLocal (net.kids v) := by
    intro y e; unfold NSt.allLocal NSt.all; rw [e]
  show _ ∧ _
  unfold NSt.brokerCmd NSt.discBelow
  simp only
  rw [← hd]
  by_cases ha : d.1.allLocal (net.kids v) = true
  · rw [if_pos ha]
    obtain ⟨o, ho⟩ : ∃ o, o = d.1.hush net v := ⟨_, rfl⟩
    rw [← ho] at hho hf ⊢
    have hok : o.1.acked = x.acked := by rw [hf.2.2.1, hd1]
    have hog : o.1.gone = upd x.gone u true := by rw [hf.2.1, hd1]
    have hop : o.1.phase = x.phase := by rw [hf.1, hd1]
    have hoc : o.1.called = x.called := by rw [hf.2.2.2, hd1]
    by_cases h0 : v ≠ 0
    · rw [if_pos h0]
      refine ⟨hog, hop, hoc, by rw [hok]; exact fun _ => id, by rw [hok]; exact fun _ _ => .inl, fun _ _ => ?_,
        fun e => absurd e h0, fun e => absurd e h0, fun _ => .inr ⟨h0, by rw [hal _ hf.2.1]; exact ha⟩, ?_⟩
      · exact List.mem_append_right _ (List.mem_singleton.2 rfl)
      · intro b hb
        simp only [List.mem_append, List.mem_singleton] at hb
        rcases hb with (hb | hb) | hb
        · exact absurd hb (hdo b)
        · exact absurd hb (hho b)
        · cases hb
    · rw [if_neg h0]
      have h0' : v = 0 := by simpa using h0
      by_cases hgl : net.glob v = true
      · rw [if_pos hgl]
        have hal2 : (o.1.confirm net v).1.allLocal (net.kids v) = true := by
          exact (hal _ hf.2.1).trans ha
        refine ⟨hog, hop, hoc, ?_, ?_, fun e => absurd h0' e, fun _ _ => ?_, fun _ _ _ => ?_, (fun e => by rw [hgl] at e; cases e),
          fun b _ => ⟨h0', hal2⟩⟩
        · intro k a
          unfold NSt.confirm; simp only [hok, a, Bool.true_or]
        · intro k hk _
          by_cases a : x.acked k = true
          · exact .inl a
          · refine .inr (List.mem_append_left _ (List.mem_append_right _ ?_))
            unfold NSt.confirm
            exact List.mem_map.2 ⟨k, List.mem_filter.2 ⟨hk, by rw [hok]; simpa using a⟩, rfl⟩
        · exact List.mem_append_right _ (List.mem_singleton.2 rfl)
        · intro k hk
          unfold NSt.confirm
          simp [hk]
      · rw [if_neg hgl]
        have hal2 : NSt.allLocal { o.1 with acked := upd o.1.acked u true } (net.kids v) = true := by
          exact (hal _ hf.2.1).trans ha
        refine ⟨hog, hop, hoc, ?_, ?_, fun e => absurd h0' e, fun _ _ => ?_, fun _ e => absurd e hgl, fun _ => .inl (upd_same ..),
          fun b _ => ⟨h0', hal2⟩⟩
        · intro k a; simp only; rw [hok]; exact updm k a
        · intro k hk a
          simp only at a; rw [hok] at a
          rcases updn k a with a | rfl
          · exact .inl a
          · exact .inr (by simp)
        · simp
  · rw [if_neg ha]
    have hdk : d.1.acked = x.acked := by rw [hd1]
    have hno : ∀ b, (b, Cmd.stop) ∉ (if (decide (v ≠ 0) && !x.oper) = true then [(net.par v, Cmd.note)] else []) := by
      intro b hb
      split at hb
      · rw [List.mem_singleton] at hb; cases hb
      · cases hb
    by_cases hgl : net.glob v = true
    · rw [if_pos hgl]
      refine ⟨by rw [hd1], by rw [hd1], by rw [hd1], by rw [hdk]; exact fun _ => id, by rw [hdk]; exact fun _ _ => .inl,
        fun _ e => absurd e ha, fun _ e => absurd e ha, fun _ _ e => absurd e ha, (fun e => by rw [hgl] at e; cases e), ?_⟩
      intro b hb
      rcases List.mem_append.1 hb with hb | hb
      · exact absurd hb (hdo b)
      · exact absurd hb (hno b)
    · rw [if_neg hgl]
      refine ⟨by rw [hd1], by rw [hd1], by rw [hd1], ?_, ?_, fun _ e => absurd e ha, fun _ e => absurd e ha, fun _ _ e => absurd e ha,
        fun _ => .inl (upd_same ..), ?_⟩
      · intro k a; simp only; rw [hdk]; exact updm k a
      · intro k hk a
        simp only at a; rw [hdk] at a
        rcases updn k a with a | rfl
        · exact .inl a
        · exact .inr (by simp)
      · intro b hb
        simp only [List.mem_append, List.mem_singleton] at hb
        rcases hb with (hb | hb) | hb
        · exact absurd hb (hdo b)
        · cases hb
        · exact absurd hb (hno b)

/-- the other commands do not change who has left -/
theorem broker_frame {x : NSt} {v u : Node} {c : Cmd} (h1 : c ≠ .disc) (h2 : c ≠ .halt) : (x.brokerCmd net v u c).1.gone = x.gone ∧
    (x.brokerCmd net v u c).1.called = x.called ∧ (∀ k, x.acked k = true → (x.brokerCmd net v u c).1.acked k = true) ∧
    (∀ k, k ∈ net.kids v → (x.brokerCmd net v u c).1.acked k = true → x.acked k = true ∨ (k, Cmd.ack) ∈ (x.brokerCmd net v u c).2) ∧
    (∀ b, (b, Cmd.stop) ∈ (x.brokerCmd net v u c).2 → v ≠ 0 ∧ ∀ k, k ∈ net.kids v → (x.brokerCmd net v u c).1.acked k = true) ∧
    (c ≠ .stop → (x.brokerCmd net v u c).1.phase = x.phase) := by
  have stay : ∀ out : List (Node × Cmd), (∀ b, (b, Cmd.stop) ∉ out) → x.gone = x.gone ∧ x.called = x.called ∧
      (∀ k, x.acked k = true → x.acked k = true) ∧
      (∀ k, k ∈ net.kids v → x.acked k = true → x.acked k = true ∨ (k, Cmd.ack) ∈ out) ∧
      (∀ b, (b, Cmd.stop) ∈ out → v ≠ 0 ∧ ∀ k, k ∈ net.kids v → x.acked k = true) ∧ (c ≠ .stop → x.phase = x.phase) :=
    fun out h => ⟨rfl, rfl, fun _ => id, fun _ _ => .inl, fun b hb => absurd hb (h b), fun _ => rfl⟩
  cases c with
  | disc => exact absurd rfl h1
  | halt => exact absurd rfl h2
  | bye => exact stay _ (fun b hb => by cases hb)
  | note =>
    unfold NSt.brokerCmd
    simp only
    split
    · exact stay _ (fun b hb => by rw [List.mem_singleton] at hb; cases hb)
    · refine stay _ (fun b hb => ?_)
      split at hb
      · cases hb
      · obtain ⟨e, _⟩ := broadcast_out hb; cases e
  | spread => exact stay _ (fun b hb => by obtain ⟨e, _⟩ := broadcast_out hb; cases e)
  | tbye =>
    unfold NSt.brokerCmd
    simp only
    split
    · exact stay [] (fun b hb => by cases hb)
    · exact stay [] (fun b hb => by cases hb)
  | ack =>
    unfold NSt.brokerCmd
    simp only
    split
    · rename_i h0
      refine ⟨rfl, rfl, ?_, ?_, ?_, fun _ => rfl⟩
      · intro k a; unfold NSt.confirm; simp only [a, Bool.true_or]
      · intro k hk _
        by_cases a : x.acked k = true
        · exact .inl a
        · refine .inr (List.mem_append_left _ ?_)
          unfold NSt.confirm
          exact List.mem_map.2 ⟨k, List.mem_filter.2 ⟨hk, by simpa using a⟩, rfl⟩
      · intro b hb
        refine ⟨h0.1, fun k hk => ?_⟩
        unfold NSt.confirm
        simp [hk]
    · exact stay _ (fun b hb => by cases hb)
  | stop =>
    unfold NSt.brokerCmd
    simp only
    split
    · exact ⟨rfl, rfl, fun _ => id, fun _ _ => .inl, (fun b hb => by cases hb), fun e => absurd rfl e⟩
    · have hf := hush_frame (net := net) x v
      refine ⟨hf.2.1, hf.2.2.2, by simp only; rw [hf.2.2.1]; exact fun _ => id, by simp only; rw [hf.2.2.1]; exact fun _ _ => .inl, ?_,
        fun e => absurd rfl e⟩
      intro b hb
      rcases List.mem_append.1 hb with hb | hb
      · have := hush_only _ _ hb; cases this
      · split at hb
        · rw [List.mem_singleton] at hb; cases hb
        · cases hb

theorem broker_ack {x : NSt} {v : Node} (h0 : v ≠ 0) : (v, Cmd.stop) ∈ (x.brokerCmd net v (net.par v) .ack).2 := by
  unfold NSt.brokerCmd
  simp only
  rw [if_pos ⟨h0, trivial⟩]
  exact List.mem_append_right _ (List.mem_singleton.2 rfl)

theorem broker_stop {x : NSt} {v u : Node} : (x.brokerCmd net v u .stop).1.phase = .stopped := by
  unfold NSt.brokerCmd
  simp only
  split <;> rfl

theorem core_stop {x : NSt} {v u : Node} : (x.coreCmd net v u .stop).1.phase = .stopped := by
  unfold NSt.coreCmd
  rfl

end Verif.Down
