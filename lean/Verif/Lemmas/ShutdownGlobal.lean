import Verif.Lemmas.ShutdownLive
/-! With the global disconnect option, for C56: time coordinators say goodbye before their node leaves, so that nobody is
dismissed by a goodbye from above, and every confirmation goes back to the root broker. -/
namespace Verif.Down

variable {net : Net} {s : Sys}

/-- in `l`, no CMD_DISCONNECT before the goodbye of the time coordinator -/
def Led (l : List Cmd) : Prop := ∀ pre post, l = pre ++ Cmd.disc :: post → Cmd.tbye ∈ pre

theorem Led.nil : Led [] := by
  intro pre post e; cases pre <;> cases e

theorem Led.tail {c : Cmd} {l : List Cmd} (h : Led (c :: l)) (hc : c ≠ .tbye) : Led l := by
  intro pre post e
  have := h (c :: pre) post (by rw [e]; rfl)
  rcases List.mem_cons.1 this with e | e
  · exact absurd e.symm hc
  · exact e

theorem Led.head {l : List Cmd} (h : Led (Cmd.disc :: l)) : False := by
  have := h [] l rfl; cases this

theorem Led.append {l m : List Cmd} (h : Led l)
    (hm : ∀ pre post, m = pre ++ Cmd.disc :: post → Cmd.tbye ∈ l ∨ Cmd.tbye ∈ pre) : Led (l ++ m) := by
  intro pre post e
  rw [List.append_eq_append_iff] at e
  rcases e with ⟨a, h1, h2⟩ | ⟨a, h1, h2⟩
  · rw [h1, List.mem_append]; exact hm a post h2
  · cases a with
    | nil =>
      rw [List.append_nil] at h1
      rw [← h1]
      rcases hm [] post (by simpa using h2.symm) with x | x
      · exact x
      · cases x
    | cons a as =>
      simp only [List.cons_append, List.cons.injEq] at h2
      rw [← h2.1] at h1
      exact h pre as h1

theorem puts_link (u : Node) (xs : List (Node × Cmd)) : ∀ (s : Sys) (a b : Node),
    (s.puts u xs).link a b = s.link a b ++ (if a = u then (xs.filter (fun x => x.1 == b)).map (·.2) else []) := by
  induction xs with
  | nil => intro s a b; unfold Sys.puts; simp
  | cons x xs ih =>
    intro s a b
    show ((s.put u x).puts u xs).link a b = _
    rw [ih]
    unfold Sys.put
    simp only
    by_cases ha : a = u
    · subst ha
      rw [upd_same]
      by_cases hb : b = x.1
      · subst hb
        simp [upd_same]
      · rw [upd_ne _ _ hb]
        have : ¬ x.1 = b := fun e => hb e.symm
        simp [this]
    · rw [upd_ne _ _ ha]
      simp [ha]

theorem after_link {u v : Node} {cs : List Cmd} {o : Out} {a b : Node} :
    (after s u v cs o).link a b = (if a = u ∧ b = v then cs else s.link a b) ++
      (if a = v then (o.2.filter (fun x => x.1 == b)).map (·.2) else []) := by
  unfold after
  rw [puts_link]
  simp only
  congr 1
  by_cases h : a = u ∧ b = v
  · obtain ⟨rfl, rfl⟩ := h
    rw [upd_same, upd_same, if_pos ⟨rfl, rfl⟩]
  · rw [if_neg h]
    by_cases ha : a = u
    · subst ha
      rw [upd_same, upd_ne _ _ (fun e => h ⟨rfl, e⟩)]
    · rw [upd_ne _ _ ha]

/-- a position in the part of a list that goes to `b` comes from a position in the list -/
theorem filter_split (b : Node) {c : Cmd} : ∀ (l : List (Node × Cmd)) (pre post : List Cmd),
    (l.filter (fun x => x.1 == b)).map (·.2) = pre ++ c :: post →
    ∃ pre' post', l = pre' ++ (b, c) :: post' ∧ (pre'.filter (fun x => x.1 == b)).map (·.2) = pre
  | [], pre, post, h => by cases pre <;> cases h
  | x :: l, pre, post, h => by
    by_cases hx : x.1 = b
    · rw [List.filter_cons_of_pos (by simpa using hx), List.map_cons] at h
      cases pre with
      | nil =>
        simp only [List.nil_append, List.cons.injEq] at h
        exact ⟨[], l, by rw [← h.1, ← hx]; rfl, rfl⟩
      | cons p pre =>
        simp only [List.cons_append, List.cons.injEq] at h
        obtain ⟨pre', post', e1, e2⟩ := filter_split b l pre post h.2
        refine ⟨x :: pre', post', by rw [e1]; rfl, ?_⟩
        rw [List.filter_cons_of_pos (by simpa using hx), List.map_cons, e2, h.1]
    · rw [List.filter_cons_of_neg (by simpa using hx)] at h
      obtain ⟨pre', post', e1, e2⟩ := filter_split b l pre post h
      exact ⟨x :: pre', post', by rw [e1]; rfl, by rw [List.filter_cons_of_neg (by simpa using hx)]; exact e2⟩

/-! ### Goodbyes come first -/

/-- the goodbye to the node above comes before CMD_DISCONNECT, in what a node does with one command -/
structure Polite (net : Net) (v : Node) (x : NSt) (o : Out) : Prop where
  disc : ∀ pre post, o.2 = pre ++ (net.par v, Cmd.disc) :: post → x.silent = true ∨ net.tied v = false ∨ (net.par v, Cmd.tbye) ∈ pre
  silent : o.1.silent = true → x.silent = true ∨ net.tied v = false ∨ (net.par v, Cmd.tbye) ∈ o.2
  dep : ∀ k, o.1.dep k = true → x.dep k = true
  oper : x.oper = true → o.1.oper = true

/-- nothing but a goodbye, if one is needed, and then other things -/
theorem polite_of {v : Node} {x y : NSt} {a b c : List (Node × Cmd)}
    (hh : x.silent = true ∨ net.tied v = false ∨ (net.par v, Cmd.tbye) ∈ b)
    (ha : (net.par v, Cmd.disc) ∉ a) (hb : (net.par v, Cmd.disc) ∉ b)
    (hd : ∀ k, y.dep k = true → x.dep k = true) (ho : x.oper = true → y.oper = true) : Polite net v x (y, a ++ b ++ c) := by
  have key : x.silent = true ∨ net.tied v = false ∨ (net.par v, Cmd.tbye) ∈ a ++ b :=
    hh.imp id (fun h => h.imp id (fun h => List.mem_append_right _ h))
  refine ⟨?_, fun _ => ?_, hd, ho⟩
  · intro pre post e
    have e : (a ++ b) ++ c = pre ++ (net.par v, Cmd.disc) :: post := e
    rw [List.append_eq_append_iff] at e
    refine key.imp id (fun h => h.imp id (fun h => ?_))
    rcases e with ⟨l, h1, h2⟩ | ⟨l, h1, h2⟩
    · rw [h1]; exact List.mem_append_left _ h
    · cases l with
      | nil => rw [List.append_nil] at h1; rw [← h1]; exact h
      | cons z l =>
        simp only [List.cons_append, List.cons.injEq] at h2
        exfalso
        have : (net.par v, Cmd.disc) ∈ a ++ b := by rw [h1, h2.1]; simp
        rcases List.mem_append.1 this with h | h
        · exact ha h
        · exact hb h
  · exact key.imp id (fun h => h.imp id (fun h => List.mem_append_left _ h))

/-- nothing of interest -/
theorem polite_none {v : Node} {x y : NSt} {a : List (Node × Cmd)} (ha : (net.par v, Cmd.disc) ∉ a) (hs : y.silent = x.silent)
    (hd : ∀ k, y.dep k = true → x.dep k = true) (ho : x.oper = true → y.oper = true) : Polite net v x (y, a) := by
  refine ⟨?_, fun h => .inl (hs ▸ h), hd, ho⟩
  intro pre post e
  exact absurd (by rw [show a = _ from e]; simp) ha

theorem hush_silent (x : NSt) {v : Node} (h0 : v ≠ 0) :
    x.silent = true ∨ net.tied v = false ∨ (net.par v, Cmd.tbye) ∈ (x.hush net v).2 := by
  unfold NSt.hush
  split
  · rename_i h; exact .inl h
  · cases ht : net.tied v with
    | false => exact .inr (.inl rfl)
    | true => right; right; simp [h0]

theorem hush_frame2 (x : NSt) (v : Node) : (x.hush net v).1.dep = x.dep ∧ (x.hush net v).1.oper = x.oper := by
  unfold NSt.hush; split <;> exact ⟨rfl, rfl⟩

theorem hush_no_disc (x : NSt) (v b : Node) : (b, Cmd.disc) ∉ (x.hush net v).2 := by
  intro h; have := hush_only x v h; cases this

/-- what `check` does, whatever follows -/
theorem check_polite (x : NSt) {v : Node} (h0 : v ≠ 0) {c : List (Node × Cmd)} (hc : (net.par v, Cmd.disc) ∉ c) :
    Polite net v x ((x.check net v).1.1, (x.check net v).1.2 ++ c) := by
  unfold NSt.check
  split
  · split
    · simp only
      have := polite_of (net := net) (v := v) (x := x) (a := []) (c := [(net.par v, Cmd.disc)] ++ c)
        (y := (NSt.hush { x with phase := .terminating } net v).1)
        (hush_silent (net := net) { x with phase := .terminating } h0) (by simp) (hush_no_disc _ _ _)
        (by rw [(hush_frame2 _ _).1]; exact fun _ => id) (by rw [(hush_frame2 _ _).2]; exact id)
      rw [List.nil_append, ← List.append_assoc] at this
      exact this
    · exact polite_none (by simpa using hc) rfl (fun _ => id) id
  · exact polite_none (by simpa using hc) rfl (fun _ => id) id

theorem core_polite {x : NSt} {v u : Node} (h0 : v ≠ 0) {c : Cmd} (hh : c ≠ .halt) (hs : c = .stop → x.phase ≠ .running) :
    Polite net v x (x.coreCmd net v u c) := by
  cases c with
  | disc =>
    have e : x.coreCmd net v u .disc = (((({ x with gone := upd x.gone u true } : NSt).check net v).1.1),
      (({ x with gone := upd x.gone u true } : NSt).check net v).1.2 ++ _) := rfl
    rw [e]
    have := check_polite (net := net) { x with gone := upd x.gone u true } h0 (c :=
      (if !(({ x with gone := upd x.gone u true } : NSt).check net v).2 || (decide (x.phase = .running) && !x.oper) || decide (x.phase = .terminating) then
        (net.par v, Cmd.note) ::
        (if ((decide (x.phase = .running) && !x.oper) || decide (x.phase = .terminating) || !({ x with gone := upd x.gone u true } : NSt).all (net.kids v)) && !net.glob v then [(u, Cmd.ack)] else [])
      else [])) (by
        intro hb
        split at hb
        · rcases List.mem_cons.1 hb with hb | hb
          · cases hb
          · split at hb
            · rw [List.mem_singleton] at hb; cases hb
            · cases hb
        · cases hb)
    exact ⟨this.disc, this.silent, this.dep, this.oper⟩
  | halt => exact absurd rfl hh
  | bye => exact polite_none (by simp) rfl (fun _ => id) id
  | note => exact polite_none (by simp) rfl (fun _ => id) id
  | spread =>
    have := check_polite (net := net) x h0 (c := []) (by simp)
    rw [List.append_nil] at this; exact this
  | tbye =>
    unfold NSt.coreCmd
    simp only
    split
    · have := polite_of (net := net) (v := v) (x := x) (a := [])
        (b := (NSt.hush { x with phase := .terminating } net v).2)
        (c := (net.kids v).map (fun f => (f, Cmd.ack)) ++ [(v, .stop)])
        (y := (NSt.hush { x with phase := .terminating } net v).1)
        (hush_silent (net := net) { x with phase := .terminating } h0) (by simp) (hush_no_disc _ _ _)
        (by rw [(hush_frame2 _ _).1]; exact fun _ => id) (by rw [(hush_frame2 _ _).2]; exact id)
      rw [List.nil_append, ← List.append_assoc] at this
      exact this
    · have := check_polite (net := net) x h0 (c := []) (by simp)
      rw [List.append_nil] at this; exact this
  | ack =>
    unfold NSt.coreCmd
    simp only
    split
    · exact polite_none (by simp) rfl (fun _ => id) id
    · exact polite_none (by simp) rfl (fun _ => id) id
  | stop =>
    unfold NSt.coreCmd
    simp only
    rw [if_neg (hs rfl)]
    exact polite_none (by simp) rfl (fun _ => id) id

theorem broker_polite {x : NSt} {v u : Node} (h0 : v ≠ 0) {c : Cmd} (hh : c ≠ .halt)
    (hs : c = .stop → x.allLocal (net.kids v) = true) : Polite net v x (x.brokerCmd net v u c) := by
  have hbr : ∀ y : NSt, ∀ c0, c0 ≠ Cmd.disc → (net.par v, Cmd.disc) ∉ y.broadcast net v c0 := by
    intro y c0 h hb; obtain ⟨e, _⟩ := broadcast_out hb; exact h e.symm
  cases c with
  | disc =>
    have hd : (net.par v, Cmd.disc) ∉ (x.drop net v u).2 := by
      intro hb; obtain ⟨e, _⟩ := drop_out hb; cases e
    show Polite net v x (x.discBelow net v u)
    unfold NSt.discBelow
    simp only
    split
    · have := polite_of (net := net) (v := v) (x := x) (a := (x.drop net v u).2) (c := [(net.par v, Cmd.disc)])
        (b := ((x.drop net v u).1.hush net v).2) (y := ((x.drop net v u).1.hush net v).1)
        (hush_silent (net := net) (x.drop net v u).1 h0) hd (hush_no_disc _ _ _)
        (by rw [(hush_frame2 _ _).1]; exact fun _ => id) (by rw [(hush_frame2 _ _).2]; exact id)
      exact this
    · have hup : (net.par v, Cmd.disc) ∉ (if (decide (v ≠ 0) && !x.oper) = true then [(net.par v, Cmd.note)] else []) := by
        intro hb
        split at hb
        · rw [List.mem_singleton] at hb; cases hb
        · cases hb
      split
      · refine polite_none ?_ rfl (fun _ => id) id
        intro hb
        rcases List.mem_append.1 hb with hb | hb
        · exact hd hb
        · exact hup hb
      · refine polite_none ?_ rfl (fun _ => id) id
        intro hb
        simp only [List.mem_append, List.mem_singleton] at hb
        rcases hb with (hb | hb) | hb
        · exact hd hb
        · cases hb
        · exact hup hb
  | halt => exact absurd rfl hh
  | bye => exact polite_none (by simp) rfl (fun _ => id) id
  | note =>
    unfold NSt.brokerCmd
    simp only
    rw [if_pos h0]
    exact polite_none (by simp) rfl (fun _ => id) id
  | spread => exact polite_none (hbr _ _ (by decide)) rfl (fun _ => id) id
  | tbye =>
    unfold NSt.brokerCmd
    simp only
    split
    · refine polite_none (by simp) rfl ?_ id
      intro k hk
      simp only at hk
      by_cases e : k = u
      · subst e; rw [upd_same] at hk; cases hk
      · rw [upd_ne _ _ e] at hk; exact hk
    · exact polite_none (by simp) rfl (fun _ => id) id
  | ack =>
    unfold NSt.brokerCmd
    simp only
    split
    · refine polite_none ?_ rfl (fun _ => id) id
      intro hb
      rcases List.mem_append.1 hb with hb | hb
      · obtain ⟨e, _⟩ := confirm_out hb; cases e
      · simp at hb
    · exact polite_none (by simp) rfl (fun _ => id) id
  | stop =>
    unfold NSt.brokerCmd
    simp only
    rw [if_pos (hs rfl)]
    exact polite_none (by simp) rfl (fun _ => id) id

/-! ### The invariant -/

structure InvG (net : Net) (s : Sys) : Prop where
  oper : ∀ n, (s.node n).oper = true
  g1 : ∀ n, net.IsNode n → n ≠ 0 → (s.node (net.par n)).dep n = false ∨ Led (s.link n (net.par n))
  g2 : ∀ n, net.IsNode n → n ≠ 0 → (s.node (net.par n)).gone n = true → (s.node (net.par n)).dep n = false
  g3 : ∀ n, net.IsNode n → n ≠ 0 → (s.node n).silent = true → (s.node (net.par n)).dep n = false ∨ Cmd.tbye ∈ s.link n (net.par n)
  g4 : ∀ n, net.IsNode n → n ≠ 0 → net.tied n = false → (s.node (net.par n)).dep n = false
  down : ∀ u v, v ∈ net.kids u → net.kind u = .broker → Cmd.tbye ∉ s.link u v
  ack : ∀ u v, Cmd.ack ∈ s.link u v → (s.node 0).allLocal (net.kids 0) = true
  fed : ∀ f, net.IsFed f → (s.node f).phase = .stopped → (s.node 0).allLocal (net.kids 0) = true

theorem broker_tbye_out {x : NSt} {v u b : Node} {c : Cmd} (hh : c ≠ .halt) (hs : c = .stop → x.allLocal (net.kids v) = true)
    (h : (b, Cmd.tbye) ∈ (x.brokerCmd net v u c).2) (hb : b ≠ net.par v) :
    c = .disc ∧ x.dep b = true ∧ b ∈ net.kids v ∧ (x.brokerCmd net v u c).1.allLocal (net.kids v) = true := by
  cases c with
  | disc =>
    refine ⟨rfl, ?_⟩
    have hd : (b, Cmd.tbye) ∉ (x.drop net v u).2 := by
      intro hb; obtain ⟨e, _⟩ := drop_out hb; cases e
    have hhush : (b, Cmd.tbye) ∈ ((x.drop net v u).1.hush net v).2 → x.dep b = true ∧ b ∈ net.kids v := by
      intro hq
      rcases (hush_out _ _ hq).2 with e | e
      · exact ⟨e.2, e.1⟩
      · exact absurd e.1 hb
    have hal : (x.brokerCmd net v u .disc).1.allLocal (net.kids v) = (x.drop net v u).1.allLocal (net.kids v) := by
      unfold NSt.allLocal NSt.all; rw [broker_disc.1]; rfl
    rw [hal]
    have h : (b, Cmd.tbye) ∈ (x.discBelow net v u).2 := h
    unfold NSt.discBelow at h
    simp only at h
    split at h
    · rename_i ha
      have fin : (b, Cmd.tbye) ∈ ((x.drop net v u).1.hush net v).2 → x.dep b = true ∧ b ∈ net.kids v ∧
        (x.drop net v u).1.allLocal (net.kids v) = true := fun hq => ⟨(hhush hq).1, (hhush hq).2, ha⟩
      split at h
      · simp only [List.mem_append, List.mem_singleton] at h
        rcases h with (h | h) | h
        · exact absurd h hd
        · exact fin h
        · simp at h
      · split at h
        · simp only [List.mem_append, List.mem_singleton] at h
          rcases h with ((h | h) | h) | h
          · exact absurd h hd
          · exact fin h
          · obtain ⟨e, _⟩ := confirm_out h; cases e
          · simp at h
        · simp only [List.mem_append, List.mem_cons, List.not_mem_nil, or_false] at h
          rcases h with (h | h) | h | h
          · exact absurd h hd
          · exact fin h
          · simp at h
          · simp at h
    · exfalso
      have hup : (b, Cmd.tbye) ∉ (if (decide (v ≠ 0) && !x.oper) = true then [(net.par v, Cmd.note)] else []) := by
        intro hb
        split at hb
        · rw [List.mem_singleton] at hb; simp at hb
        · cases hb
      split at h
      · rcases List.mem_append.1 h with h | h
        · exact hd h
        · exact hup h
      · simp only [List.mem_append, List.mem_singleton] at h
        rcases h with (h | h) | h
        · exact hd h
        · simp at h
        · exact hup h
  | halt => exact absurd rfl hh
  | bye => cases h
  | note =>
    unfold NSt.brokerCmd at h
    simp only at h
    split at h
    · simp at h
    · split at h
      · cases h
      · obtain ⟨e, _⟩ := broadcast_out h; cases e
  | spread => obtain ⟨e, _⟩ := broadcast_out h; cases e
  | tbye =>
    unfold NSt.brokerCmd at h
    simp only at h
    split at h <;> cases h
  | ack =>
    unfold NSt.brokerCmd at h
    simp only at h
    split at h
    · rcases List.mem_append.1 h with h | h
      · obtain ⟨e, _⟩ := confirm_out h; cases e
      · simp at h
    · cases h
  | stop =>
    unfold NSt.brokerCmd at h
    simp only at h
    rw [if_pos (hs rfl)] at h; cases h

theorem broker_ack_out {x : NSt} {v u b : Node} {c : Cmd} (hh : c ≠ .halt) (hg : net.glob v = true)
    (h : (b, Cmd.ack) ∈ (x.brokerCmd net v u c).2) :
    c = .ack ∨ (v = 0 ∧ (x.brokerCmd net v u c).1.allLocal (net.kids v) = true) := by
  cases c with
  | disc =>
    right
    have hd : (b, Cmd.ack) ∉ (x.drop net v u).2 := by
      intro hb; obtain ⟨e, _⟩ := drop_out hb; cases e
    have hhush : (b, Cmd.ack) ∉ ((x.drop net v u).1.hush net v).2 := by
      intro hb; have := hush_only _ _ hb; cases this
    have hal : (x.brokerCmd net v u .disc).1.allLocal (net.kids v) = (x.drop net v u).1.allLocal (net.kids v) := by
      unfold NSt.allLocal NSt.all; rw [broker_disc.1]; rfl
    rw [hal]
    have h : (b, Cmd.ack) ∈ (x.discBelow net v u).2 := h
    unfold NSt.discBelow at h
    simp only at h
    split at h
    · rename_i ha
      split at h
      · exfalso
        simp only [List.mem_append, List.mem_singleton] at h
        rcases h with (h | h) | h
        · exact absurd h hd
        · exact absurd h hhush
        · simp at h
      · rename_i h0
        exact ⟨by simpa using h0, ha⟩
    · exfalso
      rcases List.mem_append.1 h with h | h
      · exact hd h
      · split at h
        · rw [List.mem_singleton] at h; simp at h
        · cases h
  | halt => exact absurd rfl hh
  | ack => exact .inl rfl
  | bye => cases h
  | note =>
    unfold NSt.brokerCmd at h
    simp only at h
    split at h
    · simp at h
    · split at h
      · cases h
      · obtain ⟨e, _⟩ := broadcast_out h; cases e
  | spread => obtain ⟨e, _⟩ := broadcast_out h; cases e
  | tbye =>
    unfold NSt.brokerCmd at h
    simp only at h
    split at h <;> cases h
  | stop =>
    unfold NSt.brokerCmd at h
    simp only at h
    split at h
    · cases h
    · rcases List.mem_append.1 h with h | h
      · have := hush_only _ _ h; cases this
      · split at h
        · simp at h
        · cases h

theorem core_ack_out {x : NSt} {v u b : Node} {c : Cmd} (hh : c ≠ .halt) (hg : net.glob v = true)
    (hs : c = .stop → x.phase ≠ .running)
    (h : (b, Cmd.ack) ∈ (x.coreCmd net v u c).2) : c = .ack ∨ (c = .tbye ∧ u = net.par v) := by
  have hch : ∀ y : NSt, (b, Cmd.ack) ∉ (y.check net v).1.2 := by
    intro y hb
    rcases check_cases (net := net) y v with e | e
    · rw [e.1] at hb; cases hb
    · rcases e.2.2.2.2.2 b _ hb with e | e <;> cases e
  cases c with
  | disc =>
    exfalso
    unfold NSt.coreCmd at h
    simp only at h
    rcases List.mem_append.1 h with h | h
    · exact hch _ h
    · rw [hg] at h
      split at h <;> simp at h
  | halt => exact absurd rfl hh
  | ack => exact .inl rfl
  | bye => unfold NSt.coreCmd at h; simp at h
  | note => cases h
  | spread => exact absurd h (hch x)
  | tbye =>
    unfold NSt.coreCmd at h
    simp only at h
    split at h
    · rename_i e; exact .inr ⟨rfl, e⟩
    · exact absurd h (hch x)
  | stop =>
    unfold NSt.coreCmd at h
    simp only at h
    rw [if_neg (hs rfl)] at h; cases h

theorem InvG.onTake (h : net.Ok) (hgl : ∀ n, net.glob n = true) (I : InvA net s) (G : InvG net s) (u v : Node) :
    InvG net (s.step net (.take u v)) := by
  cases hl : s.link u v with
  | nil => rw [take_nil hl]; exact G
  | cons c cs =>
  have I' := I.onTake h u v
  rw [take_cons hl] at I' ⊢
  have g : Good net s u v c := I.links u v c (by rw [hl]; exact List.mem_cons_self ..)
  have hin : c ∈ s.link u v := by rw [hl]; exact List.mem_cons_self ..
  have hm := good_member h g
  have hh : c ≠ .halt := by intro e; rw [e] at g; exact g
  obtain ⟨x, hx⟩ : ∃ x, x = s.node v := ⟨_, rfl⟩
  obtain ⟨o, ho⟩ : ∃ o, o = x.onCmd net v u c := ⟨_, rfl⟩
  rw [← hx, ← ho] at I' ⊢
  have hsc : net.kind v = .core → c = .stop → x.phase ≠ .running := by
    intro hk e; subst e; have := g.2.2.2; unfold Done at this; rw [hk] at this; rw [hx]; exact this
  have hsb : net.kind v = .broker → c = .stop → x.allLocal (net.kids v) = true := by
    intro hk e; subst e; have := g.2.2.2; unfold Done at this; rw [hk] at this; rw [hx]; exact this
  have F : Fine net s v o := by
    rw [ho, hx]
    unfold NSt.onCmd
    split
    · exact Fine.same I (fun b c hb => by cases hb)
    · rename_i hs
      cases hk : net.kind v with
      | fed => exact fine_fed h I g hk
      | core => exact fine_core h I g hk hm hs
      | broker => exact fine_broker I g hk hm
  have E : Ext s (after s u v cs o) := Ext.upd (after_node ..) F.mono
  have hv' : (after s u v cs o).node v = o.1 := after_same ..
  have hne : ∀ {n}, n ≠ v → (after s u v cs o).node n = s.node n := fun e => by rw [after_node, upd_ne _ _ e]
  have oStop : x.phase = .stopped → o = (x, []) := by
    intro e; rw [ho]; unfold NSt.onCmd; rw [if_pos e]
  have oFed : x.phase ≠ .stopped → net.kind v = .fed → o = x.fedCmd net v c := by
    intro e e'; rw [ho]; unfold NSt.onCmd; rw [if_neg e, e']
  have oCore : x.phase ≠ .stopped → net.kind v = .core → o = x.coreCmd net v u c := by
    intro e e'; rw [ho]; unfold NSt.onCmd; rw [if_neg e, e']
  have oBrk : x.phase ≠ .stopped → net.kind v = .broker → o = x.brokerCmd net v u c := by
    intro e e'; rw [ho]; unfold NSt.onCmd; rw [if_neg e, e']
  have runs : ∀ {b : Node} {c' : Cmd}, (b, c') ∈ o.2 → x.phase ≠ .stopped := by
    intro b c' hb e; rw [oStop e] at hb; cases hb
  -- the state of the time coordinator
  have hfedTC : x.phase ≠ .stopped → net.kind v = .fed → o.1.oper = x.oper ∧ o.1.dep = x.dep := by
    intro e e'
    rw [oFed e e']
    unfold NSt.fedCmd
    split <;> first | exact ⟨rfl, rfl⟩ | (split <;> exact ⟨rfl, rfl⟩)
  have hbrk0 : net.kind v = .broker → x.phase ≠ .stopped → (∀ k, o.1.dep k = true → x.dep k = true) ∧ o.1.oper = x.oper := by
    intro hk e
    rw [oBrk e hk]
    cases c with
    | disc =>
      show (∀ k, (x.discBelow net v u).1.dep k = true → _) ∧ (x.discBelow net v u).1.oper = _
      unfold NSt.discBelow
      simp only
      split
      · split
        · simp only; rw [(hush_frame2 _ _).1, (hush_frame2 _ _).2]; exact ⟨fun _ => id, rfl⟩
        · split
          · unfold NSt.confirm; simp only; rw [(hush_frame2 _ _).1, (hush_frame2 _ _).2]; exact ⟨fun _ => id, rfl⟩
          · simp only; rw [(hush_frame2 _ _).1, (hush_frame2 _ _).2]; exact ⟨fun _ => id, rfl⟩
      · split <;> exact ⟨fun _ => id, rfl⟩
    | halt => exact absurd rfl hh
    | bye => exact ⟨fun _ => id, rfl⟩
    | note => unfold NSt.brokerCmd; simp only; split <;> exact ⟨fun _ => id, rfl⟩
    | spread => exact ⟨fun _ => id, rfl⟩
    | tbye =>
      unfold NSt.brokerCmd
      simp only
      split
      · refine ⟨?_, rfl⟩
        intro k hk
        simp only at hk
        by_cases e : k = u
        · subst e; rw [upd_same] at hk; cases hk
        · rw [upd_ne _ _ e] at hk; exact hk
      · exact ⟨fun _ => id, rfl⟩
    | ack => unfold NSt.brokerCmd; simp only; split <;> exact ⟨fun _ => id, rfl⟩
    | stop => unfold NSt.brokerCmd; simp only; rw [if_pos (hsb hk rfl)]; exact ⟨fun _ => id, rfl⟩
  have hpol : v ≠ 0 → net.kind v ≠ .fed → Polite net v x o := by
    intro h0 hf
    by_cases e : x.phase = .stopped
    · rw [oStop e]; exact polite_none (by simp) rfl (fun _ => id) id
    · cases hk : net.kind v with
      | fed => exact absurd hk hf
      | core => rw [oCore e hk]; exact core_polite h0 hh (hsc hk)
      | broker => rw [oBrk e hk]; exact broker_polite h0 hh (hsb hk)
  have hoper : o.1.oper = true := by
    have hxo : x.oper = true := by rw [hx]; exact G.oper v
    by_cases e : x.phase = .stopped
    · rw [oStop e]; exact hxo
    · cases hk : net.kind v with
      | fed => rw [(hfedTC e hk).1]; exact hxo
      | core =>
        have h0 : v ≠ 0 := by intro e; subst e; rw [h.rootKind] at hk; cases hk
        exact (hpol h0 (by rw [hk]; decide)).oper hxo
      | broker => rw [(hbrk0 hk e).2]; exact hxo
  have hdep : net.kind v = .broker → ∀ k, x.dep k = false → o.1.dep k = false := by
    intro hk k hd
    by_cases e : x.phase = .stopped
    · rw [oStop e]; exact hd
    · cases hq : o.1.dep k with
      | false => rfl
      | true => rw [(hbrk0 hk e).1 k hq] at hd; cases hd
  have hpb : ∀ {n}, net.IsNode n → n ≠ 0 → net.kind (net.par n) = .broker := by
    intro n hn h0
    cases hpk : net.kind (net.par n) with
    | fed => exact absurd hpk (h.leaf n h0 hn.1)
    | core => exact absurd ((h.fed n h0 hn.1).2 hpk) hn.2
    | broker => rfl
  -- what is known of a dependent below stays
  have depK : ∀ {n}, net.IsNode n → n ≠ 0 → (s.node (net.par n)).dep n = false → ((after s u v cs o).node (net.par n)).dep n = false := by
    intro n hn h0 hd
    by_cases e : net.par n = v
    · rw [e, hv']; exact hdep (by rw [← e]; exact hpb hn h0) n (by rw [hx, ← e]; exact hd)
    · rw [hne e]; exact hd
  -- the goodbye is taken
  have tbyeT : ∀ {n}, net.IsNode n → n ≠ 0 → net.par n = v → u = n → c = .tbye → o.1.dep n = false := by
    intro n hn h0 e eu ec
    have hk : net.kind v = .broker := by rw [← e]; exact hpb hn h0
    by_cases es : x.phase = .stopped
    · rw [oStop es]
      have hg := stopped_gone h I (n := v) (k := n) (by rw [← hx]; exact es) (by rw [← e]; exact kid_par h0 hn.1)
      have := G.g2 n hn h0 (by rw [e]; exact hg)
      rw [hx, ← e]; exact this
    · rw [oBrk es hk, ec]
      unfold NSt.brokerCmd
      simp only
      rw [if_pos (by rw [hx]; exact G.oper v), eu]
      exact upd_same ..
  have parne : ∀ {n}, n ≠ 0 → net.par n ≠ n := by intro n h0 e; have := h.below n h0; omega
  -- the link up from a node
  have upLink : ∀ {n}, n ≠ 0 → n ≠ v → (after s u v cs o).link n (net.par n) = if n = u ∧ net.par n = v then cs else s.link n (net.par n) := by
    intro n h0 e
    rw [after_link, if_neg e, List.append_nil]
  have upLinkV : v ≠ 0 → (after s u v cs o).link v (net.par v) = s.link v (net.par v) ++ (o.2.filter (fun y => y.1 == net.par v)).map (·.2) := by
    intro h0
    rw [after_link, if_neg (fun e => parne h0 e.2), if_pos rfl]
  have g1 : ∀ n, net.IsNode n → n ≠ 0 → ((after s u v cs o).node (net.par n)).dep n = false ∨ Led ((after s u v cs o).link n (net.par n)) := by
    intro n hn h0
    rcases G.g1 n hn h0 with hd | hL
    · exact .inl (depK hn h0 hd)
    · by_cases e : n = v
      · subst e
        rw [upLinkV h0]
        have P := hpol h0 hn.2
        cases hdp : (s.node (net.par n)).dep n with
        | false => exact .inl (depK hn h0 hdp)
        | true =>
          right
          refine hL.append ?_
          intro pre post e
          obtain ⟨pre', post', e1, e2⟩ := filter_split _ _ _ _ e
          rcases P.disc pre' post' e1 with a | a | a
          · left
            rcases G.g3 n hn h0 (by rw [← hx]; exact a) with b | b
            · rw [hdp] at b; cases b
            · exact b
          · have := G.g4 n hn h0 a; rw [hdp] at this; cases this
          · right
            rw [← e2]
            exact List.mem_map.2 ⟨_, List.mem_filter.2 ⟨a, by simp⟩, rfl⟩
      · rw [upLink h0 e]
        split
        · rename_i ee
          rw [← ee.1, ← ee.2] at hl
          rw [hl] at hL
          by_cases ec : c = .tbye
          · left; rw [ee.2, hv']; exact tbyeT hn h0 ee.2 ee.1.symm ec
          · exact .inr (hL.tail ec)
        · exact .inr hL
  have g2 : ∀ n, net.IsNode n → n ≠ 0 → ((after s u v cs o).node (net.par n)).gone n = true → ((after s u v cs o).node (net.par n)).dep n = false := by
    intro n hn h0 hg
    by_cases e : net.par n = v
    · rw [e, hv'] at hg
      have hk : net.kind v = .broker := by rw [← e]; exact hpb hn h0
      have hnew : x.gone n = true ∨ (n = u ∧ c = .disc) := by
        by_cases es : x.phase = .stopped
        · rw [oStop es] at hg; exact .inl hg
        · rw [oBrk es hk] at hg
          by_cases hd : c = .disc
          · subst hd
            rw [broker_disc.1] at hg
            by_cases en : n = u
            · exact .inr ⟨en, rfl⟩
            · rw [upd_ne _ _ en] at hg; exact .inl hg
          · rw [(broker_frame hd hh).1] at hg; exact .inl hg
      rcases hnew with a | ⟨a, b⟩
      · exact depK hn h0 (G.g2 n hn h0 (by rw [e, ← hx]; exact a))
      · rcases G.g1 n hn h0 with hd | hL
        · exact depK hn h0 hd
        · exfalso
          rw [e, a, hl, b] at hL
          exact hL.head
    · rw [hne e] at hg
      exact depK hn h0 (G.g2 n hn h0 hg)
  have g3 : ∀ n, net.IsNode n → n ≠ 0 → ((after s u v cs o).node n).silent = true →
      ((after s u v cs o).node (net.par n)).dep n = false ∨ Cmd.tbye ∈ (after s u v cs o).link n (net.par n) := by
    intro n hn h0 hs
    have old : (s.node n).silent = true → ((after s u v cs o).node (net.par n)).dep n = false ∨
        Cmd.tbye ∈ (after s u v cs o).link n (net.par n) := by
      intro hs
      rcases G.g3 n hn h0 hs with a | a
      · exact .inl (depK hn h0 a)
      · rcases after_keep hl o a with a | ⟨e1, e2, e3⟩
        · exact .inr a
        · left; rw [e2, hv']; exact tbyeT hn h0 e2 e1.symm e3.symm
    by_cases e : n = v
    · subst e
      rw [hv'] at hs
      rcases (hpol h0 hn.2).silent hs with a | a | a
      · exact old (by rw [← hx]; exact a)
      · exact .inl (depK hn h0 (G.g4 n hn h0 a))
      · exact .inr (after_out a)
    · rw [hne e] at hs; exact old hs
  have g4 : ∀ n, net.IsNode n → n ≠ 0 → net.tied n = false → ((after s u v cs o).node (net.par n)).dep n = false :=
    fun n hn h0 ht => depK hn h0 (G.g4 n hn h0 ht)
  -- a goodbye from a broker to a node below it cannot be taken
  have noT : c = .tbye → v ∈ net.kids u → net.kind u = .broker → False := by
    intro e hk hb; subst e; exact G.down u v hk hb hin
  have rootN : (s.node 0).allLocal (net.kids 0) = true → ((after s u v cs o).node 0).allLocal (net.kids 0) = true :=
    fun hr => allLocal_mono (E 0) hr
  refine ⟨?_, g1, g2, g3, g4, ?_, ?_, ?_⟩
  · intro n
    by_cases e : n = v
    · subst e; rw [hv']; exact hoper
    · rw [hne e]; exact G.oper n
  · intro a b hk hb ht
    rcases after_new hl ht with ht | ⟨e, hq⟩
    · exact G.down a b hk hb ht
    · subst e
      have es := runs hq
      have oe := oBrk es hb
      rw [oe] at hq
      have hbp : b ≠ net.par a := by
        intro e
        obtain ⟨_, b0, bp⟩ := mem_kids.1 hk
        have h1 := h.below b b0
        by_cases a0 : a = 0
        · rw [bp, a0] at h1; rw [e, a0, h.root] at h1; omega
        · have h2 := h.below a a0; omega
      obtain ⟨_, hd, hkb, hal⟩ := broker_tbye_out hh (hsb hb) hq hbp
      rw [← oe] at hal
      have hnb : net.IsNode b := ⟨(mem_kids.1 hkb).1, kid_broker h hkb hb⟩
      have hgb := (allLocal_iff.1 hal).2 b hkb
      obtain ⟨_, b0, bp⟩ := mem_kids.1 hkb
      have hold : (s.node a).dep b = false ∨ (u = b ∧ c = .disc) := by
        by_cases hg : x.gone b = true
        · left
          have := G.g2 b hnb b0 (by rw [bp, ← hx]; exact hg)
          rw [bp] at this; exact this
        · right
          rw [oe] at hgb
          by_cases hdc : c = .disc
          · subst hdc
            rw [broker_disc.1] at hgb
            by_cases en : b = u
            · exact ⟨en.symm, rfl⟩
            · rw [upd_ne _ _ en] at hgb; exact absurd hgb hg
          · rw [(broker_frame hdc hh).1] at hgb; exact absurd hgb hg
      rcases hold with a1 | ⟨a1, a2⟩
      · rw [hx, a1] at hd; cases hd
      · rcases G.g1 b hnb b0 with hd' | hL
        · rw [bp, ← hx, hd] at hd'; cases hd'
        · rw [bp, ← a1, hl, a2] at hL; exact hL.head
  · intro a b ha
    rcases after_new hl ha with ha | ⟨e, hq⟩
    · exact rootN (G.ack a b ha)
    · subst e
      have es := runs hq
      have fromAck : c = .ack → ((after s u a cs o).node 0).allLocal (net.kids 0) = true := by
        intro e; subst e; exact rootN (G.ack _ _ hin)
      cases hk : net.kind a with
      | fed =>
        exfalso
        rw [oFed es hk] at hq
        have : ∀ c', c' ≠ Cmd.halt → (b, Cmd.ack) ∉ (x.fedCmd net a c').2 := by
          intro c' _ hb
          cases c' with
          | bye =>
            unfold NSt.fedCmd at hb
            simp only at hb
            split at hb
            · simp only [List.mem_append, List.mem_singleton] at hb
              rcases hb with hb | hb
              · split at hb <;> simp at hb
              · simp at hb
            · cases hb
          | halt => contradiction
          | _ => cases hb
        exact this c hh hq
      | core =>
        rw [oCore es hk] at hq
        rcases core_ack_out hh (hgl a) (hsc hk) hq with e | ⟨e1, e2⟩
        · exact fromAck e
        · exfalso
          have a0 : a ≠ 0 := by intro e; subst e; rw [h.rootKind] at hk; cases hk
          refine noT e1 (by rw [e2]; exact kid_par a0 hm) ?_
          rw [e2]; exact hpb ⟨hm, by rw [hk]; decide⟩ a0
      | broker =>
        have oe := oBrk es hk
        rw [oe] at hq
        rcases broker_ack_out hh (hgl a) hq with e | ⟨e1, e2⟩
        · exact fromAck e
        · rw [← oe] at e2
          subst e1
          rw [hv']; exact e2
  · intro f hf hs
    by_cases e : f = v
    · subst e
      rw [hv'] at hs
      by_cases es : x.phase = .stopped
      · exact rootN (G.fed f hf (by rw [← hx]; exact es))
      · rw [oFed es hf.2] at hs
        cases c with
        | ack => exact rootN (G.ack _ _ hin)
        | stop => exact absurd hf.2 g.2.1
        | halt => exact absurd rfl hh
        | bye =>
          exfalso
          unfold NSt.fedCmd at hs
          simp only at hs
          split at hs
          · cases hs
          · exact es hs
        | _ => exact absurd hs es
    · rw [hne e] at hs; exact rootN (G.fed f hf hs)

theorem InvG.grow (G : InvG net s) {s' : Sys} (hp : ∀ n, (s'.node n).phase = (s.node n).phase)
    (hg : ∀ n, (s'.node n).gone = (s.node n).gone) (hd : ∀ n, (s'.node n).dep = (s.node n).dep)
    (hsi : ∀ n, (s'.node n).silent = (s.node n).silent) (ho : ∀ n, (s'.node n).oper = true)
    (hl : ∀ a b, net.kind a ≠ .fed → s'.link a b = s.link a b)
    (hl2 : ∀ a b c, c ≠ Cmd.bye → c ∈ s'.link a b → c ∈ s.link a b) : InvG net s' := by
  have hal : ∀ n l, (s'.node n).allLocal l = (s.node n).allLocal l := by intro n l; unfold NSt.allLocal NSt.all; rw [hg]
  refine ⟨ho, ?_, ?_, ?_, ?_, ?_, ?_, ?_⟩
  · intro n hn h0; rw [hd, hl _ _ hn.2]; exact G.g1 n hn h0
  · intro n hn h0; rw [hd, hg]; exact G.g2 n hn h0
  · intro n hn h0; rw [hd, hsi, hl _ _ hn.2]; exact G.g3 n hn h0
  · intro n hn h0; rw [hd]; exact G.g4 n hn h0
  · intro a b hk hb; rw [hl _ _ (by rw [hb]; decide)]; exact G.down a b hk hb
  · intro a b ha; rw [hal]; exact G.ack a b (hl2 a b _ (by decide) ha)
  · intro f hf; rw [hp, hal]; exact G.fed f hf

theorem InvG.step (h : net.Ok) (hgl : ∀ n, net.glob n = true) (I : InvA net s) (G : InvG net s) {e : Ev} (hk : ∀ n, e ≠ .kill n) :
    InvG net (s.step net e) := by
  cases e with
  | kill n => exact absurd rfl (hk n)
  | take u v => exact G.onTake h hgl I u v
  | start n =>
    have hn : ∀ m, (s.step net (.start n)).node m = s.node m ∨ (s.step net (.start n)).node m = { s.node m with oper := true } := by
      intro m
      by_cases e : m = n
      · subst e; exact .inr (upd_same ..)
      · exact .inl (upd_ne _ _ e)
    refine G.grow ?_ ?_ ?_ ?_ ?_ (fun _ _ _ => rfl) (fun _ _ _ _ => id)
    · intro m; rcases hn m with e | e <;> rw [e]
    · intro m; rcases hn m with e | e <;> rw [e]
    · intro m; rcases hn m with e | e <;> rw [e]
    · intro m; rcases hn m with e | e <;> rw [e]
    · intro m; rcases hn m with e | e <;> rw [e]; exact G.oper m
  | finalize f =>
    unfold Sys.step
    simp only
    split
    · rename_i hc
      obtain ⟨hf, hm, hcl⟩ := hc
      have h0 : f ≠ 0 := by intro e; subst e; rw [h.rootKind] at hf; cases hf
      have hp : (s.node (net.par f)).phase = .running := by
        cases hp : (s.node (net.par f)).phase with
        | running => rfl
        | _ =>
          exfalso
          have hg := (I.nodes (net.par f)).core ((h.fed f h0 hm).1 hf) (by rw [hp]; decide) f (kid_par h0 hm)
          have := ((I.nodes _).gone f hg).2
          unfold Done at this; rw [hf] at this
          rw [hcl] at this; cases this
      rw [if_pos hp]
      have hn : ∀ m, upd s.node f { s.node f with called := true } m = s.node m ∨
          upd s.node f { s.node f with called := true } m = { s.node m with called := true } := by
        intro m
        by_cases e : m = f
        · subst e; exact .inr (upd_same ..)
        · exact .inl (upd_ne _ _ e)
      refine G.grow ?_ ?_ ?_ ?_ ?_ ?_ ?_
      · intro m; rw [put_node]; rcases hn m with e | e <;> simp only [e]
      · intro m; rw [put_node]; rcases hn m with e | e <;> simp only [e]
      · intro m; rw [put_node]; rcases hn m with e | e <;> simp only [e]
      · intro m; rw [put_node]; rcases hn m with e | e <;> simp only [e]
      · intro m; rw [put_node]; rcases hn m with e | e <;> simp only [e] <;> exact G.oper m
      · intro a b ha
        have : a ≠ f := by intro e; subst e; exact ha hf
        unfold Sys.put
        simp only
        rw [upd_ne _ _ this]
      · intro a b c hc
        rw [mem_put]
        rintro (h | ⟨_, h⟩)
        · exact h
        · cases h; exact absurd rfl hc
    · exact G

theorem InvG.start (net : Net) : InvG net (Sys.start net true) := by
  refine ⟨fun _ => rfl, fun n hn h0 => .inr Led.nil, ?_, ?_, fun n hn h0 ht => ht, ?_, ?_, ?_⟩
  · intro n hn h0 e; cases e
  · intro n hn h0 e; cases e
  · intro u v hk hb e; cases e
  · intro u v e; cases e
  · intro f hf e; cases e

theorem InvG.run (h : net.Ok) (hgl : ∀ n, net.glob n = true) {es : List Ev} (hk : NoKill es) :
    InvG net ((Sys.start net true).run net es) :=
  (run_ind (P := fun s => InvA net s ∧ InvG net s) hk (fun _ _ he I => ⟨InvA.step h I.1 he, InvG.step h hgl I.1 I.2 he⟩) _
    ⟨InvA.start net true, InvG.start net⟩).2

end Verif.Down
