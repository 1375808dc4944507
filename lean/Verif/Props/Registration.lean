import Verif.Props.BrokerInit
/-!
# C45: federates joining a federation

For every sequence of commands a broker processes (in any order, from anybody):
* `names_unique`: no two federates of a federation have the same name;
* `ids_unique`, `id_is_kept`: the ids the root hands out are distinct, and a federate keeps its id;
* `never_too_many`: the configured maximum is never exceeded;
* `open_iff_accepts`: a broker that reports being open accepts the next federate, and one that does not
  refuses it;
* `refused_after_start`: once the federation runs, nobody joins unless it is dynamic.
-/
namespace Verif.Init

/-- a broker after processing some commands -/
def Broker.after (b : Broker) (ms : List Msg) : Broker := ms.foldl (fun b m => (b.handle m).1) b

/-! ### What the commands do to the table of federates -/

/-- how one command may change the table of federates: entries are kept in place with their name and
(once valid) their id and their way of counting, and at most one new entry is added at the end, with a
new name -/
def Grows (old new : List FedInfo) : Prop :=
  ∃ F : FedInfo → FedInfo,
    (∀ f, (F f).name = f.name ∧ (F f).nonCounting = f.nonCounting ∧ (validId f.gid = true → (F f).gid = f.gid)) ∧
    (new = old.map F ∨ ∃ e : FedInfo, (∀ f ∈ old, f.name ≠ e.name) ∧ new = old.map F ++ [e])

theorem Grows.refl (l : List FedInfo) : Grows l l :=
  ⟨id, fun _ => ⟨rfl, rfl, fun _ => rfl⟩, .inl (by simp)⟩

theorem Grows.map {l : List FedInfo} (F : FedInfo → FedInfo)
    (h : ∀ f, (F f).name = f.name ∧ (F f).nonCounting = f.nonCounting ∧ (validId f.gid = true → (F f).gid = f.gid)) :
    Grows l (l.map F) := ⟨F, h, .inl rfl⟩

theorem Grows.snoc {l : List FedInfo} {e : FedInfo} (h : ∀ f ∈ l, f.name ≠ e.name) : Grows l (l ++ [e]) :=
  ⟨id, fun _ => ⟨rfl, rfl, fun _ => rfl⟩, .inr ⟨e, h, by simp⟩⟩

theorem upd_feds (b : Broker) (src : Int) (f : BrkInfo → BrkInfo) : (b.upd src f).feds = b.feds := by
  unfold Broker.upd; split <;> rfl

theorem noted_feds (b : Broker) (src : Int) (iter : Bool) : (b.noted src iter).feds = b.feds := by
  unfold Broker.noted
  dsimp only
  split
  · exact (upd_feds _ _ _).trans (upd_feds _ _ _)
  · exact upd_feds _ _ _

theorem answerFed_feds (b : Broker) (src : Int) (x : String) (nc o r c : Bool) (e k g : Int) :
    (b.answerFed src x nc o r c e k g).1.feds = b.feds := by
  unfold Broker.answerFed
  split
  · split <;> rfl
  · rfl

theorem find_none_names {l : List FedInfo} {x : String} (h : l.find? (fun f => decide (f.name = x)) = none) :
    ∀ f ∈ l, f.name ≠ x := by
  intro f hf e
  exact List.find?_eq_none.mp h f hf (decide_eq_true e)

theorem onInit_feds (b : Broker) (src : Int) (iter : Bool) : (b.onInit src iter).1.feds = b.feds := by
  have hn := noted_feds b src iter
  cases hk : b.get src with
  | none => simp only [Broker.onInit, hk]
  | some k =>
    by_cases hc : (b.cfg.dyn = true ∨ k.observer = true) ∧ b.state.val ≥ BState.operating.val
    · rw [onInit_late hk hc]
      exact upd_feds _ _ _
    · rw [onInit_cases hk hc]
      split
      · split
        · split
          · exact hn
          · unfold Broker.start
            split <;> exact hn
        · exact hn
      · exact hn

/-- the table of federates when brokers are marked as gone: nothing but states changes -/
def SameFeds (old new : List FedInfo) : Prop :=
  ∃ F : FedInfo → FedInfo,
    (∀ f, (F f).name = f.name ∧ (F f).nonCounting = f.nonCounting ∧ (F f).gid = f.gid) ∧ new = old.map F

theorem SameFeds.refl (l : List FedInfo) : SameFeds l l := ⟨id, fun _ => ⟨rfl, rfl, rfl⟩, by simp⟩

theorem SameFeds.trans {a b c : List FedInfo} (h : SameFeds a b) (h' : SameFeds b c) : SameFeds a c := by
  obtain ⟨F, hF, rfl⟩ := h
  obtain ⟨G, hG, rfl⟩ := h'
  refine ⟨G ∘ F, fun f => ?_, by rw [List.map_map]⟩
  exact ⟨(hG _).1.trans (hF _).1, (hG _).2.1.trans (hF _).2.1, (hG _).2.2.trans (hF _).2.2⟩

theorem SameFeds.grows {a b : List FedInfo} (h : SameFeds a b) : Grows a b := by
  obtain ⟨F, hF, rfl⟩ := h
  exact Grows.map F (fun f => ⟨(hF f).1, (hF f).2.1, fun _ => (hF f).2.2⟩)

theorem markGone_feds (fuel : Nat) (b : Broker) (id : Int) :
    SameFeds b.feds (Broker.markGone fuel b id).feds := by
  induction fuel generalizing b id with
  | zero => exact SameFeds.refl _
  | succ fuel ih =>
    unfold Broker.markGone
    dsimp only
    have key : ∀ (l : List Nat) (b1 : Broker), SameFeds b.feds b1.feds →
        SameFeds b.feds (l.foldl (fun (b : Broker) i =>
          match b.brks[i]? with
          | none => b
          | some k =>
            if k.parent = id ∧ k.state ≠ .error then
              Broker.markGone fuel
                { (if k.gid = id ∧ k.state ≠ .error then
                    { b with brks := b.brks.modify i (fun k => { k with state := .disconnected }) }
                    else b) with
                  brks := (if k.gid = id ∧ k.state ≠ .error then
                    { b with brks := b.brks.modify i (fun k => { k with state := .disconnected }) }
                    else b).brks.modify i (fun k => { k with state := .disconnected }) } k.gid
            else (if k.gid = id ∧ k.state ≠ .error then
                { b with brks := b.brks.modify i (fun k => { k with state := .disconnected }) }
                else b)) b1).feds := by
      intro l
      induction l with
      | nil => intro b1 h1; exact h1
      | cons i l ihl =>
        intro b1 h1
        rw [List.foldl_cons]
        apply ihl
        cases hi : b1.brks[i]? with
        | none => exact h1
        | some k =>
          dsimp only
          split
          · refine h1.trans (SameFeds.trans ?_ (ih _ _))
            dsimp only
            split <;> exact SameFeds.refl _
          · split <;> exact h1
    refine (key (List.range b.brks.length) b (SameFeds.refl _)).trans
      ⟨fun f => if f.parent = id ∧ f.state ≠ .error then { f with state := .disconnected } else f,
        fun f => ?_, rfl⟩
    dsimp only
    split <;> exact ⟨rfl, rfl, rfl⟩

theorem onDisconnect_feds (b : Broker) (src : Int) : SameFeds b.feds (b.onDisconnect src).1.feds := by
  unfold Broker.onDisconnect
  split
  · exact SameFeds.refl _
  split
  · split <;> exact SameFeds.refl _
  · rename_i k _
    have h := markGone_feds (b.brks.length + 1) b k.gid
    dsimp only
    split
    · split
      · exact h
      · split <;> exact h
    · exact h

/-- a registration of a federate, in one statement: refused without a trace, or an existing reentrant
entry is taken over, or one entry is added at the end -/
theorem fedReg_feds (b : Broker) (src : Int) (x : String) (nc o r c : Bool) (e k : Int) :
    (b.fedReg src x nc o r c e k).1.feds = b.feds ∨
    (b.fedReg src x nc o r c e k).1.feds =
      b.feds.map (fun g => if g.name = x then { g with parent := src, state := .connected } else g) ∨
    ((nc = false → (b.countable : Int) < b.cfg.maxFed) ∧ b.state.val ≤ BState.operating.val ∧
      (∀ f ∈ b.feds, f.name ≠ x) ∧
      ∃ f : FedInfo, f.name = x ∧ f.nonCounting = nc ∧
        (c = false → b.cfg.isRoot = true → f.gid = assignId b.feds.length k) ∧
        (b.fedReg src x nc o r c e k).1.feds = b.feds ++ [f]) := by
  unfold Broker.fedReg
  split
  · exact .inl rfl
  rename_i h1
  split
  · exact .inl rfl
  rename_i h2
  split
  · exact .inl rfl
  dsimp only
  split
  · split
    · right; left
      exact answerFed_feds _ _ _ _ _ _ _ _ _ _
    · exact .inl rfl
  · rename_i hf
    right; right
    refine ⟨fun e => ?_, by omega, find_none_names hf, ?_⟩
    · rcases Int.lt_or_le (b.countable : Int) b.cfg.maxFed with h | h
      · exact h
      · exact absurd ⟨e, h⟩ h1
    refine ⟨FedInfo.mk x (if c = true then e else if b.cfg.isRoot = true then assignId b.feds.length k
      else invalidId) src .connected nc o (decide (b.state = .operating)) r, rfl, rfl, ?_, ?_⟩
    · intro hc hr
      dsimp only
      rw [hc, hr]
      rfl
    · split
      · rfl
      · exact answerFed_feds _ _ _ _ _ _ _ _ _ _

theorem handle_grows (b : Broker) (m : Msg) : Grows b.feds (b.handle m).1.feds := by
  cases m with
  | init src iter =>
    change Grows b.feds (b.onInit src iter).1.feds
    rw [onInit_feds]; exact Grows.refl _
  | regFed src x nc o r c e k =>
    change Grows b.feds (b.fedReg src x nc o r c e k).1.feds
    rcases fedReg_feds b src x nc o r c e k with h | h | ⟨-, -, h1, f, h2, -, -, h⟩
    · rw [h]; exact Grows.refl _
    · rw [h]
      apply Grows.map
      intro f
      split <;> exact ⟨rfl, rfl, fun _ => rfl⟩
    · rw [h]
      exact Grows.snoc (fun g hg => h2 ▸ h1 g hg)
  | regBrk src x c o t r k =>
    simp only [Broker.handle, Broker.brkReg]
    split
    · exact Grows.refl _
    split
    · exact Grows.refl _
    split
    · exact Grows.refl _
    split
    · exact Grows.refl _
    split
    · exact Grows.refl _
    split
    · exact Grows.refl _
    split
    · exact Grows.refl _
    split
    · split <;> exact Grows.refl _
    · exact Grows.refl _
  | fedAck src x d e =>
    simp only [Broker.handle, Broker.fedAck]
    split
    · exact Grows.refl _
    · split
      · apply Grows.map
        intro f
        split
        · rename_i h
          exact ⟨rfl, rfl, fun h' => by rw [h.2] at h'; cases h'⟩
        · exact ⟨rfl, rfl, fun _ => rfl⟩
      · rename_i hf
        exact Grows.snoc (find_none_names hf)
  | brkAck src x d e =>
    simp only [Broker.handle, Broker.brkAck]
    split
    · exact Grows.refl _
    · split
      · split <;> exact Grows.refl _
      · split
        · split <;> exact Grows.refl _
        · exact Grows.refl _
  | grant d i o y =>
    simp only [Broker.handle, Broker.onGrant]
    split
    · exact Grows.refl _
    · split
      · split <;> exact Grows.refl _
      · exact Grows.refl _
  | notReady src =>
    simp only [Broker.handle, Broker.onNotReady]
    split
    · exact Grows.refl _
    · rw [upd_feds]; exact Grows.refl _
  | disconnect src => exact (onDisconnect_feds b src).grows
  | discNode src =>
    simp only [Broker.handle, Broker.onDiscNode]
    split
    · exact Grows.refl _
    · exact (markGone_feds _ _ _).grows
  | discFed src =>
    simp only [Broker.handle, Broker.onDiscFed]
    apply Grows.map
    intro f
    split <;> exact ⟨rfl, rfl, fun _ => rfl⟩
  | discAck d => exact Grows.refl _
  | bcastDisc d => exact Grows.refl _
  | prioDisc src =>
    simp only [Broker.handle, Broker.onPrioDisc]
    rw [upd_feds]; exact Grows.refl _
  | localError src =>
    simp only [Broker.handle, Broker.onError]
    split
    · exact Grows.refl _
    · split
      · rw [upd_feds]; exact Grows.refl _
      · apply Grows.map
        intro f
        split <;> exact ⟨rfl, rfl, fun _ => rfl⟩

theorem Grows.names {old new : List FedInfo} (h : Grows old new) (hn : (old.map (·.name)).Nodup) :
    (new.map (·.name)).Nodup := by
  obtain ⟨F, hF, h⟩ := h
  have e : (old.map F).map (·.name) = old.map (·.name) := by
    rw [List.map_map]
    apply List.map_congr_left
    intro f _
    exact (hF f).1
  rcases h with rfl | ⟨a, ha, rfl⟩
  · rw [e]; exact hn
  · rw [List.map_append, e, List.nodup_append]
    refine ⟨hn, by simp, ?_⟩
    intro x hx c hc e'
    obtain ⟨f, hf, rfl⟩ := List.mem_map.mp hx
    rw [List.map_cons, List.map_nil, List.mem_singleton] at hc
    exact ha f hf (e'.trans hc)

/-! ### The properties -/

/-- **Names are unique**, whatever the broker is told -/
theorem names_unique {b : Broker} (hb : b.feds = []) (ms : List Msg) :
    ((b.after ms).feds.map (·.name)).Nodup := by
  have h0 : (b.feds.map (·.name)).Nodup := by rw [hb]; simp
  clear hb
  unfold Broker.after
  induction ms generalizing b with
  | nil => exact h0
  | cons m ms ih =>
    rw [List.foldl_cons]
    exact ih ((handle_grows b m).names h0)

/-- **A federate keeps its place and its id** -/
theorem id_is_kept {b : Broker} (ms : List Msg) {i : Nat} {f : FedInfo} (hf : b.feds[i]? = some f)
    (hv : validId f.gid = true) :
    ∃ g, (b.after ms).feds[i]? = some g ∧ g.name = f.name ∧ g.gid = f.gid := by
  unfold Broker.after
  induction ms generalizing b f with
  | nil => exact ⟨f, hf, rfl, rfl⟩
  | cons m ms ih =>
    rw [List.foldl_cons]
    obtain ⟨F, hF, h⟩ := handle_grows b m
    have hi : i < b.feds.length := (List.getElem?_eq_some_iff.mp hf).1
    have hget : (b.handle m).1.feds[i]? = some (F f) := by
      rcases h with h | ⟨a, -, h⟩
      · rw [h, List.getElem?_map, hf]; rfl
      · rw [h, List.getElem?_append, if_pos (by rw [List.length_map]; exact hi), List.getElem?_map, hf]; rfl
    obtain ⟨g, hg, e1, e2⟩ := ih hget (by rw [(hF f).2.2 hv]; exact hv)
    exact ⟨g, hg, e1.trans (hF f).1, e2.trans ((hF f).2.2 hv)⟩

theorem countable_map {b b' : Broker} {F : FedInfo → FedInfo} (hF : ∀ f, (F f).nonCounting = f.nonCounting)
    (h : b'.feds = b.feds.map F) : b'.countable = b.countable := by
  rw [countable_eq, countable_eq, h, List.filter_map, List.length_map]
  congr 2
  funext f
  simp [hF]

/-- at a root only a registration adds a federate -/
theorem handle_len {b : Broker} (hr : b.cfg.isRoot = true) {m : Msg}
    (hm : ¬ ∃ src x nc o r c e k, m = .regFed src x nc o r c e k) :
    (b.handle m).1.feds.length = b.feds.length := by
  cases m with
  | regFed src x nc o r c e k => exact absurd ⟨_, _, _, _, _, _, _, _, rfl⟩ hm
  | init src iter =>
    change (b.onInit src iter).1.feds.length = _
    rw [onInit_feds]
  | regBrk src x c o t r k =>
    simp only [Broker.handle, Broker.brkReg]
    split
    · exact rfl
    split
    · exact rfl
    split
    · exact rfl
    split
    · exact rfl
    split
    · exact rfl
    split
    · exact rfl
    split
    · exact rfl
    split
    · split <;> exact rfl
    · exact rfl
  | fedAck src x d e => simp only [Broker.handle, hr, if_true]
  | brkAck src x d e => simp only [Broker.handle, hr, if_true]
  | grant d i o y => simp only [Broker.handle, hr, if_true]
  | notReady src =>
    simp only [Broker.handle, Broker.onNotReady]
    split
    · exact rfl
    · rw [upd_feds]
  | disconnect src =>
    obtain ⟨F, -, h⟩ := onDisconnect_feds b src
    change (b.onDisconnect src).1.feds.length = _
    rw [h, List.length_map]
  | discNode src =>
    simp only [Broker.handle, Broker.onDiscNode]
    split
    · exact rfl
    · rename_i k _
      obtain ⟨F, -, h⟩ := markGone_feds (b.brks.length + 1) b k.gid
      change (Broker.markGone (b.brks.length + 1) b k.gid).feds.length = _
      rw [h, List.length_map]
  | discFed src => simp only [Broker.handle, Broker.onDiscFed, List.length_map]
  | discAck d => exact rfl
  | bcastDisc d => exact rfl
  | prioDisc src =>
    simp only [Broker.handle, Broker.onPrioDisc]
    rw [upd_feds]
  | localError src =>
    simp only [Broker.handle, Broker.onError]
    split
    · exact rfl
    · split
      · rw [upd_feds]
      · rw [List.length_map]

/-- **The maximum is never exceeded**: at a root broker the number of counting federates never rises
above the configured maximum -/
theorem never_too_many {b : Broker} (hr : b.cfg.isRoot = true) (hb : b.feds = []) (hmax : 0 ≤ b.cfg.maxFed)
    (ms : List Msg) : ((b.after ms).countable : Int) ≤ b.cfg.maxFed := by
  have h0 : (b.countable : Int) ≤ b.cfg.maxFed := by rw [countable_eq, hb]; simpa using hmax
  clear hb hmax
  unfold Broker.after
  induction ms generalizing b with
  | nil => exact h0
  | cons m ms ih =>
    rw [List.foldl_cons]
    have hc := handle_cfg b m
    rw [← hc]
    refine ih (by rw [hc]; exact hr) ?_
    rw [hc]
    have same : ∀ {b' : Broker}, Grows b.feds b'.feds → b'.feds.length ≤ b.feds.length →
        (b'.countable : Int) ≤ b.cfg.maxFed := by
      rintro b' ⟨F, hF, h | ⟨a, -, h⟩⟩ hl
      · rw [countable_map (fun f => (hF f).2.1) h]; exact h0
      · rw [h, List.length_append, List.length_map, List.length_singleton] at hl; omega
    have hg := handle_grows b m
    by_cases hm : ∃ src x nc o r c e k, m = .regFed src x nc o r c e k
    · obtain ⟨src, x, nc, o, r, c, e, k, rfl⟩ := hm
      change Grows b.feds (b.fedReg src x nc o r c e k).1.feds at hg
      change ((b.fedReg src x nc o r c e k).1.countable : Int) ≤ _
      rcases fedReg_feds b src x nc o r c e k with h | h | ⟨hlt, -, -, f, -, hnc, -, h⟩
      · exact same hg (by rw [h]; exact Nat.le_refl _)
      · exact same hg (by rw [h, List.length_map]; exact Nat.le_refl _)
      · rw [countable_eq] at h0
        rw [countable_eq, h, List.filter_append, List.length_append, List.filter_cons]
        cases nc with
        | true => simp [hnc]; exact h0
        | false =>
          have := hlt rfl
          rw [countable_eq] at this
          simp [hnc]
          omega
    · exact same hg (Nat.le_of_eq (handle_len hr hm))

/-- the ids in a table of a root whose federates did not choose their own: the number of the entry,
shifted, in one of 17 blocks -/
def Numbered (l : List FedInfo) : Prop :=
  ∀ (i : Nat) f, l[i]? = some f → ∃ c : Int, 0 ≤ c ∧ c ≤ 16 ∧ f.gid = i + fedShift + c * priorityBlock

theorem assignId_form (n : Nat) (k : Int) :
    ∃ c : Int, 0 ≤ c ∧ c ≤ 16 ∧ assignId n k = n + fedShift + c * priorityBlock := by
  unfold assignId
  split
  · rename_i h; exact ⟨k, by omega, by omega, rfl⟩
  · exact ⟨0, by omega, by omega, by omega⟩

theorem Numbered.map {l : List FedInfo} (h : Numbered l) {F : FedInfo → FedInfo}
    (hF : ∀ f, validId f.gid = true → (F f).gid = f.gid) : Numbered (l.map F) := by
  intro i f hf
  rw [List.getElem?_map] at hf
  cases hi : l[i]? with
  | none => rw [hi] at hf; cases hf
  | some g =>
    rw [hi] at hf
    have := Option.some.inj hf
    subst this
    obtain ⟨c, h1, h2, h3⟩ := h i g hi
    refine ⟨c, h1, h2, ?_⟩
    rw [hF g, h3]
    rw [h3]
    unfold validId invalidId invalidHandle fedShift priorityBlock
    rw [decide_eq_true_eq]
    omega

/-- **The ids a root hands out are distinct** (as long as there are no more than 10⁸ federates and none
brings an id of its own) -/
theorem ids_unique {b : Broker} (hr : b.cfg.isRoot = true) (hb : b.feds = []) (ms : List Msg)
    (hms : ∀ m ∈ ms, ∀ src x nc o r c e k, m = .regFed src x nc o r c e k → c = false)
    (hl : (b.after ms).feds.length ≤ 100000000) :
    ((b.after ms).feds.map (·.gid)).Nodup := by
  have grow : ∀ (b : Broker) (m : Msg), b.feds.length ≤ (b.handle m).1.feds.length := by
    intro b m
    obtain ⟨F, -, h | ⟨a, -, h⟩⟩ := handle_grows b m <;> rw [h] <;> simp
  have mono : ∀ (ms : List Msg) (b : Broker), b.feds.length ≤ (b.after ms).feds.length := by
    intro ms
    induction ms with
    | nil => intro b; exact Nat.le_refl _
    | cons m ms ih =>
      intro b
      exact Nat.le_trans (grow b m) (ih _)
  have key : ∀ (ms : List Msg) (b : Broker), b.cfg.isRoot = true → Numbered b.feds →
      (∀ m ∈ ms, ∀ src x nc o r c e k, m = .regFed src x nc o r c e k → c = false) →
      (b.after ms).feds.length ≤ 100000000 → Numbered (b.after ms).feds := by
    intro ms
    induction ms with
    | nil => intro b _ h _ _; exact h
    | cons m ms ih =>
      intro b hr h hms hl
      refine ih _ (by rw [handle_cfg]; exact hr) ?_ (fun m' hm' => hms m' (List.mem_cons_of_mem _ hm')) hl
      by_cases hm : ∃ src x nc o r c e k, m = .regFed src x nc o r c e k
      · obtain ⟨src, x, nc, o, r, c, e, k, rfl⟩ := hm
        have hc := hms _ (List.mem_cons_self) src x nc o r c e k rfl
        subst hc
        change Numbered (b.fedReg src x nc o r false e k).1.feds
        rcases fedReg_feds b src x nc o r false e k with h' | h' | ⟨-, -, -, f, -, -, hid, h'⟩
        · rw [h']; exact h
        · rw [h']
          exact h.map (fun f _ => by split <;> rfl)
        · rw [h']
          intro i g hg
          rw [List.getElem?_append] at hg
          split at hg
          · exact h i g hg
          · rename_i hi
            rw [List.getElem?_singleton] at hg
            split at hg
            · rename_i e0
              cases hg
              have : i = b.feds.length := by omega
              rw [hid rfl hr, this]
              exact assignId_form _ _
            · cases hg
      · obtain ⟨F, hF, h' | ⟨a, -, h'⟩⟩ := handle_grows b m
        · rw [h']
          exact h.map (fun f => (hF f).2.2)
        · exfalso
          have hlen : (b.handle m).1.feds.length = b.feds.length + 1 := by
            rw [h']; simp
          have := handle_len hr hm
          omega
  have hnum := key ms b hr (by rw [hb]; intro i f h; simp at h) hms hl
  rw [List.nodup_iff_pairwise_ne, List.pairwise_iff_getElem]
  intro i j hi hj hij e
  rw [List.length_map] at hi hj
  rw [List.getElem_map, List.getElem_map] at e
  obtain ⟨c, c1, c2, c3⟩ := hnum i _ (List.getElem?_eq_getElem hi)
  obtain ⟨d, d1, d2, d3⟩ := hnum j _ (List.getElem?_eq_getElem hj)
  rw [c3, d3] at e
  unfold fedShift priorityBlock at e
  omega

/-- **Being open means accepting**: the answer to "may another federate join?" is the truth for an
ordinary federate with a new name -/
theorem open_iff_accepts {b : Broker} (hlim : (b.countable : Int) < 2147483647) {x : String}
    (hx : ∀ f ∈ b.feds, f.name ≠ x) (src : Int) (r : Bool) (e k : Int) :
    b.isOpen = true ↔
      ∃ f : FedInfo, f.name = x ∧ (b.fedReg src x false false r false e k).1.feds = b.feds ++ [f] := by
  have hnone : b.feds.find? (fun f => decide (f.name = x)) = none := by
    rw [List.find?_eq_none]
    intro f hf h
    exact hx f hf (of_decide_eq_true h)
  have nope : ∀ b' : Broker, b'.feds = b.feds → ¬ ∃ f : FedInfo, f.name = x ∧ b'.feds = b.feds ++ [f] := by
    rintro b' h ⟨f, -, h'⟩
    have := congrArg List.length (h.symm.trans h')
    simp at this
  have hop : BState.operating.val = 0 := rfl
  have hst : b.state = .operating ↔ b.state.val = 0 := by cases b.state <;> decide
  have acc : (∃ f : FedInfo, f.name = x ∧
        (b.fedReg src x false false r false e k).1.feds = b.feds ++ [f]) ↔
      (b.countable : Int) < b.cfg.maxFed ∧ b.state.val ≤ 0 ∧ (b.state.val = 0 → b.cfg.dyn = true) := by
    unfold Broker.fedReg
    rw [hnone, hop]
    split
    · rename_i h1
      exact iff_of_false (nope _ rfl) (by omega)
    rename_i h1
    split
    · rename_i h2
      exact iff_of_false (nope _ rfl) (by omega)
    rename_i h2
    split
    · rename_i h3
      refine iff_of_false (nope _ rfl) ?_
      rintro ⟨-, -, h⟩
      exact h3.2 (.inl (h (hst.mp h3.1)))
    rename_i h3
    refine iff_of_true ?_ ⟨?_, by omega, ?_⟩
    · refine ⟨FedInfo.mk x (if b.cfg.isRoot = true then assignId b.feds.length k
        else invalidId) src .connected false false (decide (b.state = .operating)) r, rfl, ?_⟩
      dsimp only
      simp only [Bool.false_eq_true, false_and, if_false]
      exact answerFed_feds _ _ _ _ _ _ _ _ _ _
    · rcases Int.lt_or_le (b.countable : Int) b.cfg.maxFed with h | h
      · exact h
      · exact absurd ⟨rfl, h⟩ h1
    · intro h
      rcases Bool.eq_false_or_eq_true b.cfg.dyn with hd | hd
      · exact hd
      · refine absurd ⟨hst.mpr h, ?_⟩ h3
        rintro (h | h | h)
        · rw [hd] at h; cases h
        · cases h
        · cases h
  rw [acc]
  unfold Broker.isOpen
  rw [hop]
  split
  · exact iff_of_false (by simp) (by omega)
  rename_i h1
  split
  · rename_i h2
    split
    · rename_i h3
      exact iff_of_true rfl ⟨by omega, by omega, fun _ => h3⟩
    · rename_i h3
      rw [decide_eq_true_eq]
      constructor
      · intro h; exact ⟨by omega, by omega, fun h' => by omega⟩
      · rintro ⟨-, h4, h5⟩
        rcases Int.lt_or_le b.state.val 0 with h | h
        · exact h
        · exact absurd (h5 (by omega)) h3
  · exact iff_of_false (by simp) (by omega)

/-- **Once the federation runs nobody joins** unless it is dynamic (or the federate is an observer or
marked as not counting): the registration is refused, to the sender, and nothing is changed -/
theorem refused_after_start {b : Broker} (hs : BState.operating.val ≤ b.state.val)
    (hd : b.cfg.dyn = false) (src : Int) (x : String) (r c : Bool) (e k : Int) :
    ∃ why, b.fedReg src x false false r c e k = (b, [(.node src, .fedAck b.id x invalidId (some why))]) := by
  have hst : b.state.val ≤ BState.operating.val → b.state = .operating := by
    revert hs; cases b.state <;> decide
  unfold Broker.fedReg Broker.refuseFed
  split
  · exact ⟨_, rfl⟩
  split
  · exact ⟨_, rfl⟩
  rename_i h
  rw [if_pos ⟨hst (by omega), by rintro (h | h | h) <;> simp_all⟩]
  exact ⟨_, rfl⟩

/-- the answer to an accepted registration at the root goes to the sender and carries the new entry's
id -/
theorem accepted_ack {b : Broker} (hr : b.cfg.isRoot = true) {src : Int} {x : String} {nc o r : Bool}
    {e k : Int} {f : FedInfo} (h : (b.fedReg src x nc o r false e k).1.feds = b.feds ++ [f]) :
    f.name = x ∧ (.node src, .fedAck b.id x f.gid none) ∈ (b.fedReg src x nc o r false e k).2 := by
  have nope : ∀ b' : Broker, b'.feds.length = b.feds.length → b'.feds ≠ b.feds ++ [f] := by
    intro b' h h'
    have := congrArg List.length h'
    rw [h] at this
    simp at this
  unfold Broker.fedReg at h ⊢
  split at h
  · exact absurd h (nope _ rfl)
  rename_i h1
  rw [if_neg h1]
  split at h
  · exact absurd h (nope _ rfl)
  rename_i h2
  rw [if_neg h2]
  split at h
  · exact absurd h (nope _ rfl)
  rename_i h3
  rw [if_neg h3]
  dsimp only at h ⊢
  split at h
  · split at h
    · exact absurd h (nope _ (by rw [answerFed_feds]; simp))
    · exact absurd h (nope _ rfl)
  · simp only [Bool.false_eq_true, false_and, if_false] at h ⊢
    rw [answerFed_feds] at h
    have := List.append_cancel_left h
    rw [List.cons.injEq] at this
    have hf := this.1
    refine ⟨by rw [← hf], ?_⟩
    apply List.mem_append_right
    unfold Broker.answerFed
    rw [← hf]
    simp only [hr, Bool.true_eq_false, if_false, if_true, List.mem_singleton]

/-! ### Examples -/

/-- the hypotheses can be met: two federates join, a third with a name in use is refused, and after the
start nobody else joins -/
theorem registration_example :
    let b : Broker := { cfg := { maxFed := 3 }, brks := [{ name := "A", gid := brkShift, parent := rootId }] }
    let ms : List Msg := [.regFed brkShift "f" false false false false 0 0,
      .regFed brkShift "g" false false false false 0 3, .regFed brkShift "f" false false false false 0 0,
      .init brkShift false, .regFed brkShift "h" false false false false 0 0]
    b.cfg.isRoot = true ∧ b.feds = [] ∧ 0 ≤ b.cfg.maxFed ∧ (b.after ms).state = .operating ∧
    (b.after ms).feds.map (fun f => (f.name, f.gid)) = [("f", 131072), ("g", 300131073)] ∧
    b.isOpen = true ∧ (b.after ms).isOpen = false := by
  decide +kernel

/-- without the condition on ids of their own two federates can have the same id: a child federate
takes the number the root hands out next -/
theorem own_id_clash :
    let b : Broker := { cfg := {} }
    let ms : List Msg := [.regFed brkShift "f" false false false true 131073 0,
      .regFed brkShift "g" false false false false 0 0]
    (b.after ms).feds.map (fun f => (f.name, f.gid)) = [("f", 131073), ("g", 131073)] := by
  decide +kernel

end Verif.Init
