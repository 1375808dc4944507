import Verif.Lemmas.BrokerInit
/-! The start-up protocol between a root broker and its cores: invariants -/
namespace Verif.Init

/-- the broker has an entry with this name and id -/
def Broker.Known (b : Broker) (name : String) (gid : Int) : Prop :=
  ∃ k ∈ b.brks, k.name = name ∧ k.gid = gid

/-- the root's own tables before the start -/
structure RInv (b : Broker) : Prop where
  root : b.cfg.isRoot = true
  ident : b.id = rootId
  pre : b.state = .connected
  ent : ∀ (i : Nat) k, b.brks[i]? = some k → k.gid = brkShift + i
  loc : ∀ k ∈ b.brks, k.nonLocal = false
  par : ∀ k ∈ b.brks, k.parent = rootId
  sts : ∀ k ∈ b.brks, k.state = .connected ∨ k.state = .initRequested ∨ k.state = .disconnected
  its : ∀ k ∈ b.brks, k.iterating = true → k.state ≠ .connected
  nodup : (b.brks.map (·.name)).Nodup
  fnodup : (b.feds.map (·.name)).Nodup

theorem nodup_map_inj {α β : Type} {f : α → β} {l : List α} (h : (l.map f).Nodup) {a c : α}
    (ha : a ∈ l) (hc : c ∈ l) (e : f a = f c) : a = c := by
  induction l with
  | nil => cases ha
  | cons x l ih =>
    rw [List.map_cons, List.nodup_cons] at h
    rcases List.mem_cons.mp ha with rfl | _
    · rcases List.mem_cons.mp hc with rfl | hc
      · rfl
      · exact absurd (e ▸ List.mem_map_of_mem hc) h.1
    · rename_i ha2
      rcases List.mem_cons.mp hc with hc2 | hc2
      · rw [hc2] at e
        exact absurd (e ▸ List.mem_map_of_mem ha2) h.1
      · exact ih h.2 ha2 hc2

theorem RInv.name_inj {b : Broker} (h : RInv b) {k k' : BrkInfo} (hk : k ∈ b.brks)
    (hk' : k' ∈ b.brks) (e : k.name = k'.name) : k = k' :=
  nodup_map_inj h.nodup hk hk' e

theorem RInv.find {b : Broker} (h : RInv b) {i : Nat} {k : BrkInfo} (hk : b.brks[i]? = some k) :
    b.find k.gid = some i := by
  have hi : i < b.brks.length := (List.getElem?_eq_some_iff.mp hk).1
  unfold Broker.find
  rw [if_pos h.root, h.ent i k hk]
  have : localIndex (brkShift + i) = i := by
    unfold localIndex
    rw [if_pos (by omega)]
    omega
  rw [this, if_pos (by omega)]
  simp

theorem RInv.get {b : Broker} (h : RInv b) {k : BrkInfo} (hk : k ∈ b.brks) :
    b.get k.gid = some k := by
  obtain ⟨i, hi⟩ := List.mem_iff_getElem?.mp hk
  unfold Broker.get
  rw [h.find hi]
  exact hi

theorem RInv.upd_eq {b : Broker} (h : RInv b) {k : BrkInfo} (hk : k ∈ b.brks)
    (f : BrkInfo → BrkInfo) :
    ∃ i, b.brks[i]? = some k ∧ b.upd k.gid f = { b with brks := b.brks.modify i f } := by
  obtain ⟨i, hi⟩ := List.mem_iff_getElem?.mp hk
  refine ⟨i, hi, ?_⟩
  unfold Broker.upd
  rw [h.find hi]

/-- updating an entry in place keeps the table's form -/
theorem RInv.modify {b : Broker} (h : RInv b) {i : Nat} {k : BrkInfo} (hi : b.brks[i]? = some k)
    {f : BrkInfo → BrkInfo} (hn : (f k).name = k.name) (hg : (f k).gid = k.gid)
    (hl : (f k).nonLocal = k.nonLocal) (hp : (f k).parent = k.parent)
    (hs : (f k).state = .connected ∨ (f k).state = .initRequested ∨ (f k).state = .disconnected)
    (hit : (f k).iterating = true → (f k).state ≠ .connected) :
    RInv { b with brks := b.brks.modify i f } ∧
    ∀ k', k' ∈ b.brks.modify i f ↔ k' = f k ∨ (k' ∈ b.brks ∧ k'.name ≠ k.name) := by
  have hk : k ∈ b.brks := List.mem_of_getElem? hi
  have hget : ∀ j, (b.brks.modify i f)[j]? = if i = j then some (f k) else b.brks[j]? := by
    intro j
    rw [List.getElem?_modify]
    split
    · rename_i e; subst e; rw [hi]; rfl
    · cases b.brks[j]? <;> rfl
  have hnames : (b.brks.modify i f).map (·.name) = b.brks.map (·.name) := by
    apply List.ext_getElem?
    intro j
    rw [List.getElem?_map, List.getElem?_map, hget j]
    split
    · rename_i e; subst e; rw [hi]; simp [hn]
    · rfl
  have hmem : ∀ k', k' ∈ b.brks.modify i f ↔ k' = f k ∨ (k' ∈ b.brks ∧ k'.name ≠ k.name) := by
    intro k'
    rw [List.mem_iff_getElem?]
    constructor
    · rintro ⟨j, hj⟩
      rw [hget j] at hj
      split at hj
      · left; exact (Option.some.inj hj).symm
      · rename_i hne
        right
        refine ⟨List.mem_of_getElem? hj, ?_⟩
        intro e
        have := h.name_inj (List.mem_of_getElem? hj) hk e
        subst this
        have h1 := h.ent i _ hi
        have h2 := h.ent j _ hj
        omega
    · rintro (rfl | ⟨hm, hne⟩)
      · exact ⟨i, by rw [hget i, if_pos rfl]⟩
      · obtain ⟨j, hj⟩ := List.mem_iff_getElem?.mp hm
        refine ⟨j, ?_⟩
        rw [hget j, if_neg]
        · exact hj
        · rintro rfl
          rw [hi] at hj
          exact hne (by rw [← Option.some.inj hj])
  have all : ∀ {P : BrkInfo → Prop}, P (f k) → (∀ k' ∈ b.brks, P k') →
      ∀ k' ∈ b.brks.modify i f, P k' := by
    intro P h1 h2 k' hk'
    rcases (hmem k').mp hk' with rfl | ⟨hm, -⟩
    · exact h1
    · exact h2 k' hm
  refine ⟨⟨h.root, h.ident, h.pre, ?_, ?_, ?_, ?_, ?_, ?_, h.fnodup⟩, hmem⟩
  · intro j k' hj
    change (b.brks.modify i f)[j]? = some k' at hj
    rw [hget j] at hj
    split at hj
    · rename_i e; subst e
      rw [← Option.some.inj hj, hg]
      exact h.ent i k hi
    · exact h.ent j k' hj
  · exact all (by rw [hl]; exact h.loc k hk) h.loc
  · exact all (by rw [hp]; exact h.par k hk) h.par
  · exact all hs h.sts
  · exact all hit h.its
  · change ((b.brks.modify i f).map (·.name)).Nodup
    rw [hnames]
    exact h.nodup

/-! ### The cores -/

def Msg.isInit : Msg → Bool
  | .init .. => true
  | _ => false

def Msg.isGrant : Msg → Bool
  | .grant .. => true
  | _ => false

/-- a core which has left or failed -/
def Core.out (c : Core) : Prop := BState.operating.val < c.state.val

/-- the states of a core before the start -/
def BState.early (s : BState) : Prop :=
  s = .connected ∨ s = .initializing ∨ BState.operating.val < s.val

/-- a message under way from a core to the root -/
def UpOk (b : Broker) (c : Core) : Msg → Prop
  | .regFed _ name _ _ _ child _ _ => child = false ∧ ∃ f ∈ c.feds, f.name = name
  | .regBrk src name _ _ test resend keyOk =>
    src = invalidId ∧ name = c.name ∧ test = false ∧ resend = false ∧ keyOk = true
  | .init src _ => b.Known c.name src
  | .disconnect src => b.Known c.name src ∧ c.out
  | .discFed _ => True
  | _ => False

/-- a message under way from the root to a core, before the start -/
def DownOk (b : Broker) (c : Core) : Msg → Prop
  | .brkAck _ name dest err => name = c.name ∧ (err = none → b.Known c.name dest)
  | .grant _ iter o d => iter = true ∧ o = false ∧ d = false ∧ ∃ g, b.Known c.name g
  | .regFed .. | .regBrk .. | .init .. | .notReady _ | .disconnect _ => False
  | _ => True

/-- the permission to be counted as not having asked is in one place at a time -/
def token (n : Node) (k : BrkInfo) : Nat :=
  (if n.core.state = .connected then 1 else 0) + n.up.countP Msg.isInit +
    (if k.state = .initRequested then 1 else 0) + n.down.countP Msg.isGrant

/-- what holds of a core and its queues before the start -/
structure NInv (b : Broker) (late : String → Prop) (n : Node) : Prop where
  dyn : n.core.dyn = false
  ident : n.core.id = parentId ∨ b.Known n.core.name n.core.id
  nofeds : n.core.id = parentId → n.core.feds = []
  delayed : n.core.delayed = []
  st : n.core.state.early
  ups : ∀ m ∈ n.up, UpOk b n.core m
  downs : ∀ m ∈ n.down, DownOk b n.core m
  tok : ∀ k ∈ b.brks, k.name = n.core.name → token n k ≤ 1
  gone : ∀ k ∈ b.brks, k.name = n.core.name → k.state = .disconnected → n.core.out
  asked : n.core.state = .initializing → ∀ f ∈ n.core.feds, f.asked = true ∨ late f.name
  calls : ∀ f ∈ n.core.feds, f.asked = true → f.calling = true ∨ late f.name
  wants : ∀ w ∈ n.wants, ∀ f ∈ n.core.feds, f.name = w.1 → f.calling = true ∨ late f.name
  idle : ∀ f ∈ n.core.feds, f.started = false
  wknown : ∀ w ∈ n.wants, ∃ f ∈ n.core.feds, f.name = w.1
  fnodup : (n.core.feds.map (·.name)).Nodup
  uniq : ∀ x, n.wants.countP (fun w => decide (w.1 = x)) ≤ 1 ∨ late x
  fresh : ∀ w ∈ n.wants, ∀ f ∈ n.core.feds, f.name = w.1 → f.asked = false ∨ late f.name

theorem UpOk.mono {b b' : Broker} {c : Core} (hb : ∀ n g, b.Known n g → b'.Known n g) {m : Msg}
    (h : UpOk b c m) : UpOk b' c m := by
  cases m <;> simp only [UpOk] at h ⊢ <;> first | exact h | exact hb _ _ h | exact ⟨hb _ _ h.1, h.2⟩

theorem DownOk.mono {b b' : Broker} {c : Core} (hb : ∀ n g, b.Known n g → b'.Known n g) {m : Msg}
    (h : DownOk b c m) : DownOk b' c m := by
  cases m <;> simp only [DownOk] at h ⊢ <;>
    first
    | exact h
    | exact ⟨h.1, fun e => hb _ _ (h.2 e)⟩
    | exact ⟨h.1, h.2.1, h.2.2.1, h.2.2.2.imp fun _ => hb _ _⟩

/-- the core may change as long as its name stays, its federates are kept and it does not come back
after having left -/
theorem UpOk.core {b : Broker} {c c' : Core} (hn : c'.name = c.name)
    (hf : ∀ f ∈ c.feds, ∃ f' ∈ c'.feds, f'.name = f.name) (ho : c.out → c'.out) {m : Msg}
    (h : UpOk b c m) : UpOk b c' m := by
  cases m <;> simp only [UpOk] at h ⊢
  case regFed =>
    obtain ⟨hc, f, hm, rfl⟩ := h
    exact ⟨hc, hf f hm⟩
  case regBrk => rw [hn]; exact h
  case init => rw [hn]; exact h
  case disconnect => rw [hn]; exact ⟨h.1, ho h.2⟩

theorem DownOk.core {b : Broker} {c c' : Core} (hn : c'.name = c.name) {m : Msg}
    (h : DownOk b c m) : DownOk b c' m := by
  cases m <;> simp only [DownOk] at h ⊢ <;> try exact h
  all_goals (rw [hn]; exact h)

theorem countP_eraseIdx {α : Type} (p : α → Bool) {l : List α} {j : Nat} {a : α}
    (h : l[j]? = some a) : (l.eraseIdx j).countP p + (if p a then 1 else 0) = l.countP p := by
  induction l generalizing j with
  | nil => simp at h
  | cons x l ih =>
    cases j with
    | zero =>
      rw [List.getElem?_cons_zero] at h
      cases h
      rw [List.eraseIdx_cons_zero, List.countP_cons]
    | succ j =>
      rw [List.getElem?_cons_succ] at h
      rw [List.eraseIdx_cons_succ, List.countP_cons, List.countP_cons, ← ih h]
      omega

theorem mem_eraseIdx {α : Type} {l : List α} {j : Nat} {a : α} (h : a ∈ l.eraseIdx j) : a ∈ l :=
  List.mem_of_mem_eraseIdx h

/-! ### Steps of a core -/

theorem BState.set_out {s n : BState} (h : BState.operating.val < s.val) (hn : n = .terminating ∨ n = .errored) :
    BState.operating.val < (s.set n).val := by
  rcases hn with rfl | rfl <;> cases s <;> revert h <;> decide

theorem BState.set_term {s : BState} : BState.operating.val < (s.set .terminating).val := by
  cases s <;> decide

theorem BState.set_err {s : BState} : BState.operating.val < (s.set .errored).val := by
  cases s <;> decide

theorem out_not {c : Core} (h : c.out) : c.state ≠ .connected ∧ c.state ≠ .initializing ∧
    c.state ≠ .operating := by
  unfold Core.out at h
  refine ⟨?_, ?_, ?_⟩ <;> intro e <;> rw [e] at h <;> revert h <;> decide

theorem Core.upd_name (c : Core) (x : String) (f : CFed → CFed) : (c.upd x f).name = c.name := rfl

theorem Core.mem_upd {c : Core} {x : String} {f : CFed → CFed} {g : CFed} :
    g ∈ (c.upd x f).feds ↔ ∃ g0 ∈ c.feds, g = if g0.name = x then f g0 else g0 := by
  unfold Core.upd
  rw [List.mem_map]
  constructor
  · rintro ⟨a, h1, h2⟩; exact ⟨a, h1, h2.symm⟩
  · rintro ⟨a, h1, h2⟩; exact ⟨a, h1, h2.symm⟩

theorem upd_names (c : Core) (x : String) (F : CFed → CFed) (hF : ∀ f, (F f).name = f.name) :
    (c.upd x F).feds.map (·.name) = c.feds.map (·.name) := by
  unfold Core.upd
  rw [List.map_map]
  apply List.map_congr_left
  intro f _
  dsimp only [Function.comp]
  split
  · exact hF f
  · rfl

/-- what a step of a core must respect -/
structure StepOk (b : Broker) (c c' : Core) (s : Sent) : Prop where
  name : c'.name = c.name
  dyn : c'.dyn = c.dyn
  ident : c'.id = parentId ∨ b.Known c'.name c'.id
  nofeds : c'.id = parentId → c'.feds = []
  delayed : c'.delayed = []
  st : c'.state.early
  keep : ∀ f ∈ c.feds, ∃ f' ∈ c'.feds, f'.name = f.name
  out : c.out → c'.out
  ups : ∀ x ∈ s, UpOk b c' x.2

theorem NInv.build {b : Broker} {late : String → Prop} {n : Node} (h : NInv b late n) {c' : Core}
    {s : Sent} (k : StepOk b n.core c' s) {w' : List (String × Bool)} {down' : List Msg}
    (hd : ∀ m ∈ down', m ∈ n.down)
    (ht : (if c'.state = .connected then 1 else 0) + (s.map (·.2)).countP Msg.isInit +
        down'.countP Msg.isGrant ≤
      (if n.core.state = .connected then 1 else 0) + n.down.countP Msg.isGrant)
    {late' : String → Prop}
    (h1 : c'.state = .initializing → ∀ f ∈ c'.feds, f.asked = true ∨ late' f.name)
    (h2 : ∀ f ∈ c'.feds, f.asked = true → f.calling = true ∨ late' f.name)
    (h3 : ∀ w ∈ w', ∀ f ∈ c'.feds, f.name = w.1 → f.calling = true ∨ late' f.name)
    (h4 : ∀ f ∈ c'.feds, f.started = false)
    (h5 : ∀ w ∈ w', ∃ f ∈ n.core.feds, f.name = w.1)
    (h6 : (c'.feds.map (·.name)).Nodup)
    (h7 : ∀ x, w'.countP (fun w => decide (w.1 = x)) ≤ 1 ∨ late' x)
    (h8 : ∀ w ∈ w', ∀ f ∈ c'.feds, f.name = w.1 → f.asked = false ∨ late' f.name) :
    NInv b late' { core := c', wants := w', up := n.up ++ s.map (·.2), down := down' } where
  dyn := k.dyn.trans h.dyn
  ident := k.ident
  nofeds := k.nofeds
  delayed := k.delayed
  st := k.st
  ups := by
    intro m hm
    rcases List.mem_append.mp hm with hm | hm
    · exact UpOk.core k.name k.keep k.out (h.ups m hm)
    · obtain ⟨x, hx, rfl⟩ := List.mem_map.mp hm
      exact k.ups x hx
  downs := fun m hm => DownOk.core k.name (h.downs m (hd m hm))
  tok := by
    intro e he hn
    have := h.tok e he (hn.trans k.name)
    unfold token at this ⊢
    rw [List.countP_append]
    dsimp only
    omega
  gone := fun e he hn hs => k.out (h.gone e he (hn.trans k.name) hs)
  asked := h1
  calls := h2
  wants := h3
  idle := h4
  wknown := by
    intro w hw
    obtain ⟨f, hf, e⟩ := h5 w hw
    obtain ⟨f', hf', e'⟩ := k.keep f hf
    exact ⟨f', hf', e'.trans e⟩
  fnodup := h6
  uniq := h7
  fresh := h8

theorem count_init_nil : (([] : Sent).map (·.2)).countP Msg.isInit = 0 := rfl

/-- asking: a core that is registered and all of whose federates have asked -/
theorem ask_ok {b : Broker} {c : Core} {iter : Bool} {late : String → Prop}
    (hk : b.Known c.name c.id) (hd : c.delayed = []) (hst : c.state.early)
    (hall : ∀ f ∈ c.feds, f.asked = true) (hid : c.id ≠ parentId)
    (hcur : c.state = .initializing → ∀ f ∈ c.feds, f.asked = true ∨ late f.name) :
    StepOk b c (c.ask iter).1 (c.ask iter).2 ∧
    (if (c.ask iter).1.state = .connected then 1 else 0) +
        ((c.ask iter).2.map (·.2)).countP Msg.isInit ≤ (if c.state = .connected then 1 else 0) ∧
    (c.ask iter).1.feds = c.feds ∧
    ((c.ask iter).1.state = .initializing → ∀ f ∈ c.feds, f.asked = true ∨ late f.name) := by
  unfold Core.ask
  split
  · rename_i hc
    refine ⟨⟨rfl, rfl, .inr hk, fun e => absurd e hid, hd, (.inr (.inl rfl)), fun f hf => ⟨f, hf, rfl⟩, ?_, ?_⟩,
      (by simp [Msg.isInit]), rfl, fun _ f hf => .inl (hall f hf)⟩
    · intro ho; exact absurd hc (out_not ho).1
    · intro x hx
      rw [List.mem_singleton] at hx
      subst hx
      exact hk
  · refine ⟨⟨rfl, rfl, .inr hk, fun e => absurd e hid, hd, hst, fun f hf => ⟨f, hf, rfl⟩, id,
      fun x hx => by cases hx⟩, (by simp), rfl, hcur⟩

theorem Core.ready_asked {c : Core} (h : c.ready = true) : ∀ f ∈ c.feds, f.asked = true := by
  unfold Core.ready at h
  split at h; · cases h
  split at h; · cases h
  split at h; · cases h
  exact List.all_eq_true.mp h

theorem NInv.known {b : Broker} {late : String → Prop} {n : Node} (h : NInv b late n)
    (hid : n.core.id ≠ parentId) : b.Known n.core.name n.core.id :=
  h.ident.resolve_left hid

theorem register_ok {b : Broker} {late late' : String → Prop} {n : Node} (h : NInv b late n)
    {x : String} {o r : Bool} {g : Int} (hl : ∀ y, late y → late' y)
    (hx : n.core.state ≠ .connected → late' x) :
    NInv b late' { n.step (.register x o r g) with wants := n.wants, down := n.down } := by
  have same : NInv b late' n := by
    have := h.build (c' := n.core) (s := []) ⟨rfl, rfl, h.ident, h.nofeds, h.delayed, h.st,
      fun f hf => ⟨f, hf, rfl⟩, id, fun x hx => by cases hx⟩ (w' := n.wants) (down' := n.down)
      (late' := late') (fun m hm => hm) (by simp) (fun e f hf => (h.asked e f hf).imp id (hl _))
      (fun f hf ha => (h.calls f hf ha).imp id (hl _))
      (fun w hw f hf he => (h.wants w hw f hf he).imp id (hl _)) h.idle h.wknown h.fnodup
      (fun x => (h.uniq x).imp id (hl _)) (fun w hw f hf he => (h.fresh w hw f hf he).imp id (hl _))
    simpa using this
  have hs : n.core.step (.register x o r g) = n.core.register x o r g := rfl
  unfold Node.step
  rw [hs]
  unfold Core.register
  split; · simpa using same
  split; · simpa using same
  split; · simpa using same
  rename_i hid _ hnew
  have hk := h.known hid
  apply h.build (c' := { n.core with feds := n.core.feds ++ [{ name := x }] })
    (s := [(.parent, .regFed n.core.id x false o r false 0 g)])
  · refine ⟨rfl, rfl, .inr hk, fun e => absurd e hid, h.delayed, h.st, ?_, id, ?_⟩
    · intro f hf; exact ⟨f, List.mem_append_left _ hf, rfl⟩
    · intro y hy
      rw [List.mem_singleton] at hy
      subst hy
      exact ⟨rfl, { name := x }, by simp, rfl⟩
  · exact fun m hm => hm
  · simp [Msg.isInit]
  · intro e f hf
    rcases List.mem_append.mp hf with hf | hf
    · exact (h.asked e f hf).imp id (hl _)
    · rw [List.mem_singleton] at hf; subst hf
      right; apply hx
      change n.core.state = .initializing at e
      rw [e]; intro e'; cases e'
  · intro f hf ha
    rcases List.mem_append.mp hf with hf | hf
    · exact (h.calls f hf ha).imp id (hl _)
    · rw [List.mem_singleton] at hf; subst hf; cases ha
  · intro w hw f hf he
    rcases List.mem_append.mp hf with hf | hf
    · exact (h.wants w hw f hf he).imp id (hl _)
    · rw [List.mem_singleton] at hf; subst hf
      obtain ⟨f, hf, e⟩ := h.wknown w hw
      exact absurd (List.any_eq_true.mpr ⟨f, hf, decide_eq_true (e.trans he.symm)⟩) hnew
  · intro f hf
    rcases List.mem_append.mp hf with hf | hf
    · exact h.idle f hf
    · rw [List.mem_singleton] at hf; subst hf; rfl
  · exact h.wknown
  · rw [List.map_append, List.nodup_append]
    refine ⟨h.fnodup, by simp, ?_⟩
    intro a ha c hc e
    obtain ⟨f, hf, rfl⟩ := List.mem_map.mp ha
    rw [List.map_cons, List.map_nil, List.mem_singleton] at hc
    exact hnew (List.any_eq_true.mpr ⟨f, hf, decide_eq_true (e.trans hc)⟩)
  · exact fun y => (h.uniq y).imp id (hl _)
  · intro w hw f hf he
    rcases List.mem_append.mp hf with hf | hf
    · exact (h.fresh w hw f hf he).imp id (hl _)
    · rw [List.mem_singleton] at hf; subst hf; exact .inl rfl

theorem call_ok {b : Broker} {late : String → Prop} {n : Node} (h : NInv b late n) {x : String}
    {it : Bool} : NInv b late (n.call (.callInit x it)) := by
  unfold Node.call
  dsimp only
  split
  rotate_left; · exact h
  rename_i hc
  have hs : n.core.step (.callInit x it) = (n.core.callInit x it, []) := rfl
  unfold Node.step
  rw [hs]
  unfold Core.callInit
  rw [if_pos hc]
  obtain ⟨f0, hf0, hf0'⟩ := List.any_eq_true.mp hc
  simp only [Bool.and_eq_true, decide_eq_true_eq] at hf0'
  apply h.build
    (c' := { n.core.upd x (fun f => { f with calling := true, iterating := f.iterating || it }) with
      iterations := n.core.iterations || it }) (s := [])
  · refine ⟨rfl, rfl, h.ident, ?_, h.delayed, h.st, ?_, id, fun x hx => by cases hx⟩
    · intro e; rw [h.nofeds e] at hf0; cases hf0
    · intro f hf
      refine ⟨_, Core.mem_upd.mpr ⟨f, hf, rfl⟩, ?_⟩
      split <;> rfl
  · exact fun m hm => hm
  · rw [count_init_nil]; exact Nat.le_refl _
  · intro e f hf
    obtain ⟨g, hg, rfl⟩ := Core.mem_upd.mp hf
    have := h.asked e g hg
    split <;> exact this
  · intro f hf
    obtain ⟨g, hg, rfl⟩ := Core.mem_upd.mp hf
    have := h.calls g hg
    split
    · intro _; exact .inl rfl
    · exact this
  · intro w hw f hf he
    obtain ⟨g, hg, rfl⟩ := Core.mem_upd.mp hf
    split
    · exact .inl rfl
    · rename_i hne
      rw [if_neg hne] at he
      rcases List.mem_append.mp hw with hw | hw
      · exact h.wants w hw g hg he
      · rw [List.mem_singleton] at hw; subst hw; exact absurd he hne
  · intro f hf
    obtain ⟨g, hg, rfl⟩ := Core.mem_upd.mp hf
    have := h.idle g hg
    split <;> exact this
  · intro w hw
    rcases List.mem_append.mp hw with hw | hw
    · exact h.wknown w hw
    · rw [List.mem_singleton] at hw; subst hw; exact ⟨f0, hf0, hf0'.1.1.1⟩
  · have := upd_names n.core x
      (fun f => { f with calling := true, iterating := f.iterating || it }) (fun _ => rfl)
    dsimp only
    rw [this]; exact h.fnodup
  · intro y
    rw [List.countP_append, List.countP_singleton]
    by_cases hy : x = y
    · subst hy
      by_cases hw : n.wants.countP (fun w => decide (w.1 = x)) = 0
      · left; rw [hw]; simp
      · right
        obtain ⟨w, hw1, hw2⟩ := List.countP_pos_iff.mp (Nat.pos_of_ne_zero hw)
        have hw3 : f0.name = w.1 := hf0'.1.1.1.trans (of_decide_eq_true hw2).symm
        rcases h.wants w hw1 f0 hf0 hw3 with e | e
        · rw [e] at hf0'; simp at hf0'
        · rw [hf0'.1.1.1] at e; exact e
    · rw [if_neg (by simpa using hy)]
      exact h.uniq y
  · intro w hw f hf he
    obtain ⟨g, hg, rfl⟩ := Core.mem_upd.mp hf
    have key : g.name = w.1 → g.asked = false ∨ late g.name := by
      intro hgn
      rcases List.mem_append.mp hw with hw | hw
      · exact h.fresh w hw g hg hgn
      · rw [List.mem_singleton] at hw; subst hw
        have : g = f0 := nodup_map_inj h.fnodup hg hf0 (hgn.trans hf0'.1.1.1.symm)
        subst this
        cases ha : g.asked with
        | false => exact .inl rfl
        | true =>
          rcases h.calls g hg ha with e | e
          · rw [e] at hf0'; simp at hf0'
          · exact .inr e
    split
    · rename_i e; rw [if_pos e] at he; exact key he
    · rename_i e; rw [if_neg e] at he; exact key he

/-- a core which leaves (or does nothing): its federates keep what they had -/
theorem leave_core {b : Broker} {late : String → Prop} {n : Node} (h : NInv b late n) {c' : Core}
    {s : Sent} (hname : c'.name = n.core.name) (hdyn : c'.dyn = n.core.dyn)
    (hid : c'.id = n.core.id) (hdel : c'.delayed = n.core.delayed)
    (hst : c'.state = n.core.state ∨ c'.out)
    (hfeds : ∃ F : CFed → CFed, c'.feds = n.core.feds.map F ∧ ∀ f, (F f).name = f.name ∧
      (F f).asked = f.asked ∧ (F f).calling = f.calling ∧ (F f).started = f.started)
    (hs : ∀ x ∈ s, (∃ g, x.2 = .discFed g) ∨ (x.2 = .disconnect c'.id ∧ c'.out ∧ c'.id ≠ parentId)) :
    NInv b late { core := c', wants := n.wants, up := n.up ++ s.map (·.2), down := n.down } := by
  obtain ⟨F, hF, hF'⟩ := hfeds
  apply h.build
  · refine ⟨hname, hdyn, ?_, ?_, hdel.trans h.delayed, ?_, ?_, ?_, ?_⟩
    · rw [hid, hname]; exact h.ident
    · intro e; rw [hF, h.nofeds (hid ▸ e)]; rfl
    · rcases hst with e | e
      · rw [e]; exact h.st
      · exact .inr (.inr e)
    · intro f hf
      refine ⟨F f, ?_, (hF' f).1⟩
      rw [hF]; exact List.mem_map_of_mem hf
    · intro ho
      rcases hst with e | e
      · unfold Core.out; rw [e]; exact ho
      · exact e
    · intro x hx
      rcases hs x hx with ⟨g, e⟩ | ⟨e, ho, hne⟩
      · rw [e]; trivial
      · rw [e]; exact ⟨hname ▸ hid ▸ h.known (hid ▸ hne), ho⟩
  · exact fun m hm => hm
  · have : (s.map (·.2)).countP Msg.isInit = 0 := by
      rw [List.countP_eq_zero]
      intro m hm
      obtain ⟨x, hx, rfl⟩ := List.mem_map.mp hm
      rcases hs x hx with ⟨g, e⟩ | ⟨e, -⟩ <;> rw [e] <;> simp [Msg.isInit]
    rw [this]
    rcases hst with e | e
    · rw [e]; exact Nat.le_refl _
    · rw [if_neg (out_not e).1]; omega
  · intro e f hf
    rw [hF] at hf
    obtain ⟨g, hg, rfl⟩ := List.mem_map.mp hf
    rcases hst with e' | e'
    · have := h.asked (e' ▸ e) g hg
      rw [(hF' g).1, (hF' g).2.1]; exact this
    · exact absurd e (out_not e').2.1
  · intro f hf
    rw [hF] at hf
    obtain ⟨g, hg, rfl⟩ := List.mem_map.mp hf
    rw [(hF' g).1, (hF' g).2.1, (hF' g).2.2.1]
    exact h.calls g hg
  · intro w hw f hf
    rw [hF] at hf
    obtain ⟨g, hg, rfl⟩ := List.mem_map.mp hf
    rw [(hF' g).1, (hF' g).2.2.1]
    exact h.wants w hw g hg
  · intro f hf
    rw [hF] at hf
    obtain ⟨g, hg, rfl⟩ := List.mem_map.mp hf
    rw [(hF' g).2.2.2]
    exact h.idle g hg
  · exact h.wknown
  · have : c'.feds.map (·.name) = n.core.feds.map (·.name) := by
      rw [hF, List.map_map]
      exact List.map_congr_left (fun f _ => (hF' f).1)
    rw [this]; exact h.fnodup
  · exact h.uniq
  · intro w hw f hf
    rw [hF] at hf
    obtain ⟨g, hg, rfl⟩ := List.mem_map.mp hf
    rw [(hF' g).1, (hF' g).2.1]
    exact h.fresh w hw g hg

theorem map_self (l : List CFed) : ∃ F : CFed → CFed, l = l.map F ∧ ∀ f, (F f).name = f.name ∧
      (F f).asked = f.asked ∧ (F f).calling = f.calling ∧ (F f).started = f.started :=
  ⟨fun f => f, by simp, fun _ => ⟨rfl, rfl, rfl, rfl⟩⟩

theorem checkDisc_cases (c : Core) :
    (c.checkDisc.1 = c ∧ c.checkDisc.2.1 = []) ∨
    (c.checkDisc.1 = { c with state := c.state.set .terminating } ∧
      c.checkDisc.2.1 = [(.parent, .disconnect c.id)]) := by
  unfold Core.checkDisc
  split
  · exact .inl ⟨rfl, rfl⟩
  · split
    · exact .inr ⟨rfl, rfl⟩
    · exact .inl ⟨rfl, rfl⟩

theorem bcast_ok {b : Broker} {late : String → Prop} {n : Node} (h : NInv b late n)
    (hid : n.core.id ≠ parentId) {x : Int} : NInv b late (n.step (.recv (.bcastDisc x))) := by
  have hs : n.core.step (.recv (.bcastDisc x)) = (n.core.checkDisc.1, n.core.checkDisc.2.1) := rfl
  unfold Node.step
  rw [hs]
  dsimp only
  rcases checkDisc_cases n.core with ⟨e1, e2⟩ | ⟨e1, e2⟩
  · rw [e1, e2]; simpa using h
  · rw [e1, e2]
    refine leave_core h ?_ ?_ ?_ ?_ ?_ ?_ ?_
    · rfl
    · rfl
    · rfl
    · rfl
    · exact (.inr BState.set_term)
    · exact (map_self _)
    intro x hx
    rw [List.mem_singleton] at hx; subst hx
    exact .inr ⟨rfl, BState.set_term, hid⟩

theorem close_ok {b : Broker} {late : String → Prop} {n : Node} (h : NInv b late n)
    (hid : n.core.id ≠ parentId) : NInv b late (n.step .close) := by
  have hs : n.core.step .close = n.core.onClose := rfl
  unfold Node.step
  rw [hs]
  unfold Core.onClose
  split
  · refine leave_core h ?_ ?_ ?_ ?_ ?_ ?_ ?_
    · rfl
    · rfl
    · rfl
    · rfl
    · exact (.inr BState.set_term)
    · exact (map_self _)
    intro x hx
    rw [List.mem_singleton] at hx; subst hx
    exact .inr ⟨rfl, BState.set_term, hid⟩
  · split
    · rename_i he
      have ho : n.core.out := by unfold Core.out; rw [he]; decide
      refine leave_core h ?_ ?_ ?_ ?_ ?_ ?_ ?_
      · rfl
      · rfl
      · rfl
      · rfl
      · exact (.inl rfl)
      · exact (map_self _)
      intro x hx
      rw [List.mem_singleton] at hx; subst hx
      exact .inr ⟨rfl, ho, hid⟩
    · simpa using h

theorem onLeave_ok {b : Broker} {late : String → Prop} {n : Node} (h : NInv b late n) {x : String} :
    NInv b late (n.step (.leave x)) := by
  have hs : n.core.step (.leave x) = n.core.onLeave x := rfl
  unfold Node.step
  rw [hs]
  unfold Core.onLeave
  split
  · simpa using h
  · rename_i f hf
    have hid : n.core.id ≠ parentId := by
      intro e
      have := List.mem_of_find?_eq_some hf
      rw [h.nofeds e] at this; cases this
    split
    rotate_left; · simpa using h
    have hmap : ∃ F : CFed → CFed, (n.core.upd x (fun f => { f with gone := true })).feds =
        n.core.feds.map F ∧ ∀ f, (F f).name = f.name ∧
        (F f).asked = f.asked ∧ (F f).calling = f.calling ∧ (F f).started = f.started := by
      refine ⟨_, rfl, ?_⟩
      intro g; dsimp only; split <;> exact ⟨rfl, rfl, rfl, rfl⟩
    dsimp only
    rcases checkDisc_cases (n.core.upd x (fun f => { f with gone := true })) with ⟨e1, e2⟩ | ⟨e1, e2⟩
    · rw [e1, e2]
      refine leave_core h ?_ ?_ ?_ ?_ ?_ ?_ ?_
      · rfl
      · rfl
      · rfl
      · rfl
      · exact (.inl rfl)
      · exact hmap
      intro y hy
      rw [List.nil_append] at hy
      split at hy
      · rw [List.mem_singleton] at hy; subst hy; exact .inl ⟨_, rfl⟩
      · cases hy
    · rw [e1, e2]
      refine leave_core h ?_ ?_ ?_ ?_ ?_ ?_ ?_
      · rfl
      · rfl
      · rfl
      · rfl
      · exact (.inr BState.set_term)
      · exact hmap
      intro y hy
      rcases List.mem_append.mp hy with hy | hy
      · rw [List.mem_singleton] at hy; subst hy; exact .inr ⟨rfl, BState.set_term, hid⟩
      · split at hy
        · rw [List.mem_singleton] at hy; subst hy; exact .inl ⟨_, rfl⟩
        · cases hy

theorem delay_ok {b : Broker} {late : String → Prop} {n : Node} (h : NInv b late n) :
    NInv b late (n.step .delayInit) := by
  have hs : n.core.step .delayInit = ({ n.core with delay := n.core.delay + 1 }, []) := rfl
  unfold Node.step
  rw [hs]
  refine leave_core h ?_ ?_ ?_ ?_ ?_ ?_ ?_
  · rfl
  · rfl
  · rfl
  · rfl
  · exact .inl rfl
  · exact map_self _
  · intro x hx; cases hx

/-- a registered core that asks, from a state which differs from the invariant's one only in
bookkeeping -/
theorem ask_build {b : Broker} {late : String → Prop} {n : Node} (h : NInv b late n) {c : Core}
    {iter : Bool} (hc : c.name = n.core.name) (hd : c.dyn = n.core.dyn)
    (hdel : c.delayed = []) (hst : c.state = n.core.state)
    (hk : b.Known c.name c.id) (hid : c.id ≠ parentId)
    (hkeep : ∀ f ∈ n.core.feds, ∃ f' ∈ c.feds, f'.name = f.name)
    (hall : ∀ f ∈ c.feds, f.asked = true)
    (h2 : ∀ f ∈ c.feds, f.asked = true → f.calling = true ∨ late f.name)
    {w' : List (String × Bool)}
    (h3 : ∀ w ∈ w', ∀ f ∈ c.feds, f.name = w.1 → f.calling = true ∨ late f.name)
    (h4 : ∀ f ∈ c.feds, f.started = false)
    (h5 : ∀ w ∈ w', ∃ f ∈ n.core.feds, f.name = w.1)
    (h6 : (c.feds.map (·.name)).Nodup)
    (h7 : ∀ x, w'.countP (fun w => decide (w.1 = x)) ≤ 1 ∨ late x)
    (h8 : ∀ w ∈ w', ∀ f ∈ c.feds, f.name = w.1 → f.asked = false ∨ late f.name) {down' : List Msg}
    (hdn : ∀ m ∈ down', m ∈ n.down)
    (hcnt : down'.countP Msg.isGrant ≤ n.down.countP Msg.isGrant) :
    NInv b late { core := (c.ask iter).1, wants := w', up := n.up ++ (c.ask iter).2.map (·.2),
                  down := down' } := by
  obtain ⟨k, ht, hf, ha⟩ := ask_ok (iter := iter) (late := late) hk hdel (hst ▸ h.st) hall hid
    (fun _ f hf => .inl (hall f hf))
  refine h.build ⟨k.name.trans hc, k.dyn.trans hd, k.ident, k.nofeds, k.delayed, k.st, ?_, ?_, k.ups⟩
    hdn ?_ ?_ ?_ ?_ ?_ h5 ?_ h7 ?_
  · intro f hf'
    rw [hf]; exact hkeep f hf'
  · intro ho
    apply k.out
    unfold Core.out; rw [hst]; exact ho
  · rw [hst] at ht; omega
  · rw [hf]; exact ha
  · rw [hf]; exact h2
  · rw [hf]; exact h3
  · rw [hf]; exact h4
  · rw [hf]; exact h6
  · rw [hf]; exact h8

theorem enable_ok {b : Broker} {late : String → Prop} {n : Node} (h : NInv b late n)
    (hid : n.core.id ≠ parentId) : NInv b late (n.step .enableInit) := by
  have hs : n.core.step .enableInit = n.core.onEnable := rfl
  unfold Node.step
  rw [hs]
  unfold Core.onEnable
  dsimp only
  split
  · rename_i hr
    have hall := Core.ready_asked hr.2
    exact ask_build (c := { n.core with delay := n.core.delay - 1 }) h rfl rfl h.delayed rfl
      (h.known hid) hid (fun f hf => ⟨f, hf, rfl⟩) hall h.calls h.wants h.idle h.wknown h.fnodup h.uniq h.fresh
      (fun _ hm => hm) (Nat.le_refl _)
  · refine leave_core h ?_ ?_ ?_ ?_ ?_ ?_ ?_
    · rfl
    · rfl
    · rfl
    · rfl
    · exact .inl rfl
    · exact map_self _
    · intro x hx; cases hx

theorem want_ok {b : Broker} {late : String → Prop} {n : Node} (h : NInv b late n) {j : Nat}
    {w : String × Bool} (hw : n.wants[j]? = some w) :
    NInv b late { n.step (.init w.1 w.2) with wants := n.wants.eraseIdx j } := by
  have hwm : w ∈ n.wants := List.mem_of_getElem? hw
  have hs : n.core.step (.init w.1 w.2) = n.core.onInit w.1 w.2 := rfl
  have hw3 : ∀ v ∈ n.wants.eraseIdx j, v ∈ n.wants := fun v hv => mem_eraseIdx hv
  unfold Node.step
  rw [hs]
  obtain ⟨f0, hf0, e0⟩ := h.wknown w hwm
  have hid : n.core.id ≠ parentId := by
    intro e; rw [h.nofeds e] at hf0; cases hf0
  have hk := h.known hid
  unfold Core.onInit
  rw [if_pos (List.any_eq_true.mpr ⟨f0, hf0, decide_eq_true e0⟩)]
  dsimp only
  generalize hc : n.core.upd w.1 (fun f => { f with asked := true }) = c
  have hmem : ∀ g, g ∈ c.feds ↔ ∃ g0 ∈ n.core.feds, g = if g0.name = w.1 then { g0 with asked := true } else g0 := by
    intro g; rw [← hc]; exact Core.mem_upd
  have hcn : c.name = n.core.name := by rw [← hc]; rfl
  have hcd : c.dyn = n.core.dyn := by rw [← hc]; rfl
  have hci : c.id = n.core.id := by rw [← hc]; rfl
  have hce : c.delayed = n.core.delayed := by rw [← hc]; rfl
  have hcs : c.state = n.core.state := by rw [← hc]; rfl
  have hkeep : ∀ f ∈ n.core.feds, ∃ f' ∈ c.feds, f'.name = f.name := by
    intro f hf
    refine ⟨_, (hmem _).mpr ⟨f, hf, rfl⟩, ?_⟩
    split <;> rfl
  have h2 : ∀ f ∈ c.feds, f.asked = true → f.calling = true ∨ late f.name := by
    intro f hf ha
    obtain ⟨g, hg, rfl⟩ := (hmem f).mp hf
    split
    · rename_i e
      exact h.wants w hwm g hg e
    · rename_i e
      rw [if_neg e] at ha
      exact h.calls g hg ha
  have h3 : ∀ v ∈ n.wants.eraseIdx j, ∀ f ∈ c.feds, f.name = v.1 → f.calling = true ∨ late f.name := by
    intro v hv f hf he
    obtain ⟨g, hg, rfl⟩ := (hmem f).mp hf
    have := h.wants v (hw3 v hv) g hg
    split
    · rename_i e; rw [if_pos e] at he; exact this he
    · rename_i e; rw [if_neg e] at he; exact this he
  have h4 : ∀ f ∈ c.feds, f.started = false := by
    intro f hf
    obtain ⟨g, hg, rfl⟩ := (hmem f).mp hf
    have := h.idle g hg
    split <;> exact this
  have h5 : ∀ v ∈ n.wants.eraseIdx j, ∃ f ∈ n.core.feds, f.name = v.1 :=
    fun v hv => h.wknown v (hw3 v hv)
  have h6 : (c.feds.map (·.name)).Nodup := by
    have := upd_names n.core w.1 (fun f => { f with asked := true }) (fun _ => rfl)
    rw [← hc, this]; exact h.fnodup
  have hcntw := fun x => countP_eraseIdx (fun w : String × Bool => decide (w.1 = x)) hw
  have h7 : ∀ x, (n.wants.eraseIdx j).countP (fun w => decide (w.1 = x)) ≤ 1 ∨ late x := by
    intro x
    refine (h.uniq x).imp (fun hx => ?_) id
    have := hcntw x
    omega
  have h8 : ∀ v ∈ n.wants.eraseIdx j, ∀ f ∈ c.feds, f.name = v.1 → f.asked = false ∨ late f.name := by
    intro v hv f hf he
    obtain ⟨g, hg, rfl⟩ := (hmem f).mp hf
    split
    · rename_i e
      rw [if_pos e] at he
      right
      have hv1 : v.1 = w.1 := he.symm.trans e
      rcases h.uniq w.1 with hu | hu
      · have h9 := hcntw w.1
        rw [decide_eq_true rfl, if_pos rfl] at h9
        have : 0 < (n.wants.eraseIdx j).countP (fun u => decide (u.1 = w.1)) :=
          List.countP_pos_iff.mpr ⟨v, hv, decide_eq_true hv1⟩
        omega
      · change late g.name
        rw [e]; exact hu
    · rename_i e; rw [if_neg e] at he; exact h.fresh v (hw3 v hv) g hg he
  have quiet : NInv b late (Node.mk c (n.wants.eraseIdx j) (n.up ++ ([] : Sent).map (·.2)) n.down) := by
    refine h.build ⟨hcn, hcd, ?_, ?_, hce.trans h.delayed, hcs ▸ h.st, hkeep, ?_, fun x hx => by cases hx⟩
      (fun _ hm => hm) ?_ ?_ h2 h3 h4 h5 h6 h7 h8
    · rw [hcn, hci]; exact .inr hk
    · intro e; exact absurd (hci ▸ e) hid
    · intro ho; unfold Core.out; rw [hcs]; exact ho
    · rw [hcs, count_init_nil]; exact Nat.le_refl _
    · intro e f hf
      obtain ⟨g, hg, rfl⟩ := (hmem f).mp hf
      split
      · exact .inl rfl
      · exact h.asked (hcs ▸ e) g hg
  split
  · rename_i hr
    split
    · exact ask_build h hcn hcd (hce.trans h.delayed) hcs (hcn ▸ hci ▸ hk) (hci ▸ hid) hkeep
        (Core.ready_asked hr) h2 h3 h4 h5 h6 h7 h8 (fun _ hm => hm) (Nat.le_refl _)
    · split
      · rename_i hdyn
        rw [hcd, h.dyn] at hdyn; cases hdyn
      · exact quiet
  · exact quiet

theorem down_sub {n : Node} {j : Nat} : ∀ m ∈ n.down.eraseIdx j, m ∈ n.down :=
  fun _ h => mem_eraseIdx h

theorem down_cnt {n : Node} {j : Nat} :
    (n.down.eraseIdx j).countP Msg.isGrant ≤ n.down.countP Msg.isGrant :=
  (List.eraseIdx_sublist _ _).countP_le

/-- taking a message from the queue -/
theorem NInv.pop {b : Broker} {late : String → Prop} {n : Node} (h : NInv b late n) {j : Nat} :
    NInv b late { n with down := n.down.eraseIdx j } := by
  have := h.build (c' := n.core) (s := []) ⟨rfl, rfl, h.ident, h.nofeds, h.delayed, h.st,
      fun f hf => ⟨f, hf, rfl⟩, id, fun x hx => by cases hx⟩ (w' := n.wants)
      (down' := n.down.eraseIdx j) down_sub (by rw [count_init_nil]; have := @down_cnt n j; omega)
      h.asked h.calls h.wants h.idle h.wknown h.fnodup h.uniq h.fresh
  simpa using this

theorem ack_ok {b : Broker} {late : String → Prop} {n : Node} (h : NInv b late n)
    (hb : ∀ k ∈ b.brks, k.gid ≠ parentId) {j : Nat} {src dest : Int} {x : String}
    {err : Option Refusal} (hm : n.down[j]? = some (.brkAck src x dest err)) :
    NInv b late { n.step (.recv (.brkAck src x dest err)) with down := n.down.eraseIdx j } := by
  have hok := h.downs _ (List.mem_of_getElem? hm)
  have hp := h.pop (j := j)
  have hs : n.core.step (.recv (.brkAck src x dest err)) = n.core.onBrkAck x dest err := rfl
  unfold Node.step
  rw [hs]
  unfold Core.onBrkAck
  rw [if_pos hok.1]
  cases err with
  | some r =>
    have hdel : ([] : List Msg) = n.core.delayed := h.delayed.symm
    refine leave_core hp ?_ ?_ ?_ ?_ ?_ ?_ ?_
    · rfl
    · rfl
    · rfl
    · exact hdel
    · exact .inr BState.set_err
    · exact map_self _
    · intro x hx; cases hx
  | none =>
    have hk := hok.2 rfl
    have hne : dest ≠ parentId := by
      obtain ⟨k, hk1, -, hk2⟩ := hk
      rw [← hk2]; exact hb k hk1
    dsimp only
    rw [h.delayed]
    have hq : NInv b late (Node.mk { n.core with id := dest, delayed := [] } n.wants
        (n.up ++ ([] : Sent).map (·.2)) (n.down.eraseIdx j)) := by
      refine h.build (c' := { n.core with id := dest, delayed := [] }) (s := [])
        ⟨rfl, rfl, .inr hk, fun e => absurd e hne, rfl, h.st, fun f hf => ⟨f, hf, rfl⟩, id,
        fun x hx => by cases hx⟩ down_sub ?_ h.asked h.calls h.wants h.idle h.wknown h.fnodup h.uniq h.fresh
      rw [count_init_nil]
      have := @down_cnt n j
      dsimp only
      omega
    split
    · rename_i hr
      have := ask_build (c := { n.core with id := dest, delayed := [] }) (iter := n.core.iterations)
        h rfl rfl rfl rfl hk hne (fun f hf => ⟨f, hf, rfl⟩) (Core.ready_asked hr.2.2.2) h.calls h.wants
        h.idle h.wknown h.fnodup h.uniq h.fresh (@down_sub n j) down_cnt
      simpa using this
    · exact hq

theorem fedAck_ok {b : Broker} {late : String → Prop} {n : Node} (h : NInv b late n)
    {src dest : Int} {x : String} {err : Option Refusal} :
    NInv b late (n.step (.recv (.fedAck src x dest err))) := by
  have hs : n.core.step (.recv (.fedAck src x dest err)) = (n.core.onFedAck x dest err, []) := rfl
  unfold Node.step
  rw [hs]
  unfold Core.onFedAck
  cases err with
  | some r => simpa using h
  | none =>
    refine leave_core h ?_ ?_ ?_ ?_ ?_ ?_ ?_
    · rfl
    · rfl
    · rfl
    · rfl
    · exact .inl rfl
    · refine ⟨_, rfl, ?_⟩
      intro g; dsimp only; split <;> exact ⟨rfl, rfl, rfl, rfl⟩
    · intro x hx; cases hx

theorem grant_ok {b : Broker} {late : String → Prop} {n : Node} (h : NInv b late n) {j : Nat}
    {dest : Int} {it o d : Bool} (hm : n.down[j]? = some (.grant dest it o d)) :
    NInv b late { n.step (.recv (.grant dest it o d)) with down := n.down.eraseIdx j } := by
  have hok := h.downs _ (List.mem_of_getElem? hm)
  obtain ⟨rfl, rfl, rfl, -⟩ := hok
  have hp := h.pop (j := j)
  have hcnt := countP_eraseIdx Msg.isGrant hm
  have hs : n.core.step (.recv (.grant dest true false false)) =
    (n.core.onGrant true false false, []) := rfl
  unfold Node.step
  rw [hs]
  unfold Core.onGrant
  rw [if_pos rfl]
  split
  · rename_i hc
    refine h.build (s := []) (c' := { n.core with
        iterations := false, state := .connected,
        feds := n.core.feds.map (fun f => if f.iterating then
          { f with iterating := false, asked := false, calling := false } else f) })
      ⟨rfl, rfl, h.ident, ?_, h.delayed, (.inl rfl), ?_, ?_, fun x hx => by cases hx⟩
      down_sub ?_ ?_ ?_ ?_ ?_ h.wknown ?_ h.uniq ?_
    · intro e
      change n.core.feds.map _ = []
      rw [h.nofeds e]; rfl
    · intro f hf
      refine ⟨_, List.mem_map.mpr ⟨f, hf, rfl⟩, ?_⟩
      split <;> rfl
    · intro ho; exact absurd hc.2 (out_not ho).2.1
    · rw [count_init_nil]
      simp only [Msg.isGrant, if_true] at hcnt
      rw [if_pos rfl]
      omega
    · intro e; cases e
    · intro f hf ha
      obtain ⟨g, hg, rfl⟩ := List.mem_map.mp hf
      split at ha
      · cases ha
      · rename_i hi
        rw [if_neg hi]
        exact h.calls g hg ha
    · intro w hw f hf he
      obtain ⟨g, hg, rfl⟩ := List.mem_map.mp hf
      have hgn : g.name = w.1 := by split at he <;> exact he
      have hg2 := h.asked hc.2 g hg
      have hg3 := h.fresh w hw g hg hgn
      have : late g.name := by
        rcases hg3 with e | e
        · rcases hg2 with e' | e'
          · rw [e] at e'; cases e'
          · exact e'
        · exact e
      split <;> exact .inr this
    · intro f hf
      obtain ⟨g, hg, rfl⟩ := List.mem_map.mp hf
      have := h.idle g hg
      split <;> exact this
    · have : (n.core.feds.map (fun f : CFed =>
          if f.iterating then { f with iterating := false, asked := false, calling := false }
          else f)).map (·.name) = n.core.feds.map (·.name) := by
        rw [List.map_map]
        apply List.map_congr_left
        intro f _
        dsimp only [Function.comp]
        split <;> rfl
      dsimp only
      rw [this]; exact h.fnodup
    · intro w hw f hf he
      obtain ⟨g, hg, rfl⟩ := List.mem_map.mp hf
      have hgn : g.name = w.1 := by split at he <;> exact he
      have := h.fresh w hw g hg hgn
      split
      · exact .inl rfl
      · exact this
  · refine leave_core hp ?_ ?_ ?_ ?_ ?_ ?_ ?_
    · rfl
    · rfl
    · rfl
    · rfl
    · exact .inl rfl
    · exact map_self _
    · intro x hx; cases hx

end Verif.Init
