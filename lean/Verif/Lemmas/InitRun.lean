import Verif.Lemmas.InitStart
/-! The start-up protocol: whole runs -/
namespace Verif.Init

/-- the core's name stays and no federate is forgotten -/
structure Kept (c c' : Core) : Prop where
  name : c'.name = c.name
  feds : ∀ f ∈ c.feds, ∃ f' ∈ c'.feds, f'.name = f.name

theorem Kept.refl (c : Core) : Kept c c := ⟨rfl, fun f hf => ⟨f, hf, rfl⟩⟩

theorem Kept.same {c c' : Core} (hn : c'.name = c.name) (hf : c'.feds = c.feds) : Kept c c' :=
  ⟨hn, fun f h => ⟨f, hf ▸ h, rfl⟩⟩

theorem Kept.map {c c' : Core} (hn : c'.name = c.name) (F : CFed → CFed)
    (hF : ∀ f, (F f).name = f.name) (hf : c'.feds = c.feds.map F) : Kept c c' :=
  ⟨hn, fun f h => ⟨F f, hf ▸ List.mem_map_of_mem h, hF f⟩⟩

theorem Kept.trans {a b c : Core} (h : Kept a b) (h' : Kept b c) : Kept a c := by
  refine ⟨h'.name.trans h.name, fun f hf => ?_⟩
  obtain ⟨g, hg, e⟩ := h.feds f hf
  obtain ⟨k, hk, e'⟩ := h'.feds g hg
  exact ⟨k, hk, e'.trans e⟩

theorem kept_upd (c : Core) (x : String) (F : CFed → CFed) (hF : ∀ f, (F f).name = f.name) :
    Kept c (c.upd x F) :=
  Kept.map rfl (fun g => if g.name = x then F g else g) (fun g => by split; exact hF g; rfl) rfl

theorem kept_ask (c : Core) (it : Bool) : Kept c (c.ask it).1 := by
  unfold Core.ask; split <;> exact Kept.same rfl rfl

theorem kept_step (c : Core) (e : CoreEv) : Kept c (c.step e).1 := by
  have hdisc : ∀ c : Core, Kept c c.checkDisc.1 := by
    intro c
    rcases checkDisc_cases c with ⟨e1, -⟩ | ⟨e1, -⟩ <;> rw [e1] <;> exact Kept.same rfl rfl
  cases e with
  | register x o r g =>
    simp only [Core.step, Core.register]
    split
    · exact Kept.refl c
    split
    · exact Kept.refl c
    split
    · exact Kept.refl c
    · exact ⟨rfl, fun f hf => ⟨f, List.mem_append_left _ hf, rfl⟩⟩
  | callInit x it =>
    simp only [Core.step, Core.callInit]
    split
    · exact (kept_upd c x (fun f => { f with calling := true, iterating := f.iterating || it })
        (fun _ => rfl)).trans (Kept.same rfl rfl)
    · exact Kept.refl c
  | init x it =>
    simp only [Core.step, Core.onInit]
    have k1 := kept_upd c x (fun f => { f with asked := true }) (fun _ => rfl)
    split
    · split
      · split
        · exact k1.trans (kept_ask _ _)
        · split <;> exact k1
      · exact k1
    · exact Kept.refl c
  | leave x =>
    simp only [Core.step, Core.onLeave]
    split
    · exact Kept.refl c
    · split
      · exact (kept_upd c x (fun f => { f with gone := true }) (fun _ => rfl)).trans (hdisc _)
      · exact Kept.refl c
  | enableInit =>
    simp only [Core.step, Core.onEnable]
    split
    · exact Kept.trans (b := { c with delay := c.delay - 1 }) (Kept.same rfl rfl) (kept_ask _ _)
    · exact Kept.same rfl rfl
  | delayInit => exact Kept.same rfl rfl
  | close =>
    simp only [Core.step, Core.onClose]
    split
    · exact Kept.same rfl rfl
    · split <;> exact Kept.refl c
  | recv m =>
    cases m with
    | grant dest it o d =>
      simp only [Core.step, Core.onGrant]
      split
      · split
        · exact Kept.map rfl _ (fun f => by split <;> rfl) rfl
        · exact Kept.same rfl rfl
      · split
        · exact Kept.map rfl _ (fun f => by rfl) rfl
        · split
          · exact Kept.map rfl _ (fun f => by split <;> rfl) rfl
          · exact Kept.refl c
    | brkAck s x dest err =>
      simp only [Core.step, Core.onBrkAck]
      split
      · cases err with
        | some _ => exact Kept.same rfl rfl
        | none =>
          dsimp only
          split
          · exact Kept.trans (b := { c with id := dest, delayed := [] }) (Kept.same rfl rfl) (kept_ask _ _)
          · exact Kept.same rfl rfl
      · exact Kept.refl c
    | fedAck s x dest err =>
      simp only [Core.step, Core.onFedAck]
      cases err with
      | some _ => exact Kept.refl c
      | none => exact kept_upd c x _ (fun _ => rfl)
    | bcastDisc s => exact hdisc c
    | _ => exact Kept.refl c

theorem SInv.put {late late' : Nat → String → Prop} {y : Sys} (h : SInv late y)
    (hl : ∀ i x, late i x → late' i x) {i : Nat} {n n' : Node} (hn : y.nodes[i]? = some n)
    (hk : Kept n.core n'.core) (hN : NInv y.root (late' i) n') : SInv late' (y.put i n') := by
  have hi : i < y.nodes.length := (List.getElem?_eq_some_iff.mp hn).1
  have hget : ∀ (j : Nat) m, (y.nodes.set i n')[j]? = some m →
      (j = i ∧ m = n') ∨ (j ≠ i ∧ y.nodes[j]? = some m) := by
    intro j m hm
    rw [List.getElem?_set] at hm
    split at hm
    · rename_i e
      exact .inl ⟨e.symm, (Option.some.inj hm).symm⟩
    · rename_i e
      exact .inr ⟨fun e' => e e'.symm, hm⟩
  have hname : ∀ (j : Nat) m, (y.nodes.set i n')[j]? = some m →
      ∃ m0, y.nodes[j]? = some m0 ∧ m.core.name = m0.core.name := by
    intro j m hm
    rcases hget j m hm with ⟨rfl, rfl⟩ | ⟨-, hm⟩
    · exact ⟨n, hn, hk.name⟩
    · exact ⟨m, hm, rfl⟩
  have hback : ∀ m0 ∈ y.nodes, ∃ m ∈ y.nodes.set i n', Kept m0.core m.core := by
    intro m0 hm
    obtain ⟨j, hj⟩ := List.mem_iff_getElem?.mp hm
    by_cases e : j = i
    · subst e
      rw [hn] at hj
      cases hj
      exact ⟨n', List.mem_set hi _, hk⟩
    · refine ⟨m0, List.mem_iff_getElem?.mpr ⟨j, ?_⟩, Kept.refl _⟩
      rw [List.getElem?_set, if_neg (fun e' => e e'.symm)]
      exact hj
  refine ⟨h.root, ?_, ?_, ?_, ?_⟩
  · intro j m hm
    rcases hget j m hm with ⟨rfl, rfl⟩ | ⟨-, hm⟩
    · exact hN
    · exact (h.nodes j m hm).widen (hl j)
  · intro j1 j2 m1 m2 h1 h2 e
    obtain ⟨a1, ha1, e1⟩ := hname j1 m1 h1
    obtain ⟨a2, ha2, e2⟩ := hname j2 m2 h2
    rw [e1, e2] at e
    exact h.names j1 j2 a1 a2 ha1 ha2 e
  · intro f hf
    obtain ⟨m0, hm0, g, hg, e⟩ := h.fedsOf f hf
    obtain ⟨m, hm, hc⟩ := hback m0 hm0
    obtain ⟨g', hg', e'⟩ := hc.feds g hg
    exact ⟨m, hm, g', hg', e'.trans e⟩
  · intro k hk
    obtain ⟨m0, hm0, e⟩ := h.brksOf k hk
    obtain ⟨m, hm, hc⟩ := hback m0 hm0
    exact ⟨m, hm, hc.name.trans e⟩

theorem SInv.widen {late late' : Nat → String → Prop} {y : Sys} (h : SInv late y)
    (hl : ∀ i x, late i x → late' i x) : SInv late' y :=
  ⟨h.root, fun i n hn => (h.nodes i n hn).widen (hl i), h.names, h.fedsOf, h.brksOf⟩

/-- the state in which a federation may start -/
structure CanStart (cfg : Cfg) (late : Nat → String → Prop) (y : Sys) : Prop where
  /-- enough federates have joined, and every federate required by name -/
  feds : ∃ names : List String, names.Nodup ∧ cfg.minFed ≤ names.length ∧
    (∀ x ∈ names, ∃ n ∈ y.nodes, ∃ f ∈ n.core.feds, f.name = x) ∧
    ∀ r ∈ cfg.required, r ≠ "" → r ∈ names
  /-- enough cores have joined, at least one -/
  cores : ∃ names : List String, names.Nodup ∧ cfg.minBrk ≤ names.length ∧
    cfg.minChild ≤ names.length ∧ 0 < names.length ∧
    ∀ x ∈ names, ∃ n ∈ y.nodes, n.core.name = x
  /-- every federate of a core which is still there is inside `enterInitializingMode`, unless it
  joined late -/
  calls : ∀ i n, y.nodes[i]? = some n → ∀ f ∈ n.core.feds,
    n.core.out ∨ f.calling = true ∨ late i f.name
  /-- every core that knows it joined has left the state in which it takes requests -/
  asked : ∀ n ∈ y.nodes, n.core.id ≠ parentId → n.core.state ≠ .connected

theorem SInv.canStart {late : Nat → String → Prop} {y : Sys} (h : SInv late y)
    (hm : MayStart y.root) : CanStart y.root.cfg late y := by
  have key : ∀ n ∈ y.nodes, n.core.id ≠ parentId → n.core.state ≠ .connected := by
    intro n hn hid e
    obtain ⟨i, hi⟩ := List.mem_iff_getElem?.mp hn
    have hN := h.nodes i n hi
    obtain ⟨k, hk, e1, e2⟩ := hN.known hid
    have ht := hN.tok k hk e1
    unfold token at ht
    have h1 := hm.asked k hk (h.root.loc k hk)
    rcases h.root.sts k hk with hs | hs | hs
    · exact h1 hs
    · rw [hs, e] at ht
      simp only [if_true] at ht
      omega
    · exact (out_not (hN.gone k hk e1 hs)).1 e
  refine ⟨⟨y.root.feds.map (·.name), h.root.fnodup, ?_, ?_, ?_⟩,
    ⟨y.root.brks.map (·.name), h.root.nodup, ?_, ?_, ?_, ?_⟩, ?_, key⟩
  · have := hm.feds
    have h2 := List.length_filter_le (fun f : FedInfo => !f.nonCounting) y.root.feds
    rw [List.length_map]
    omega
  · intro x hx
    obtain ⟨f, hf, rfl⟩ := List.mem_map.mp hx
    exact h.fedsOf f hf
  · intro r hr hne
    obtain ⟨f, hf, e⟩ := hm.required r hr hne
    exact e ▸ List.mem_map_of_mem hf
  · rw [List.length_map]; exact hm.brks
  · have := hm.children
    have h2 := List.length_filter_le (fun k : BrkInfo => decide (k.parent = y.root.id)) y.root.brks
    rw [List.length_map]
    omega
  · obtain ⟨k, hk, -⟩ := hm.some
    rw [List.length_map]
    exact List.length_pos_of_mem hk
  · intro x hx
    obtain ⟨k, hk, rfl⟩ := List.mem_map.mp hx
    exact h.brksOf k hk
  · intro i n hn f hf
    have hN := h.nodes i n hn
    have hid : n.core.id ≠ parentId := by
      intro e
      rw [hN.nofeds e] at hf
      cases hf
    have hc := key n (List.mem_of_getElem? hn) hid
    rcases hN.st with e | e | e
    · exact absurd e hc
    · rcases hN.asked e f hf with h1 | h1
      · exact .inr (hN.calls f hf h1)
      · exact .inr (.inr h1)
    · exact .inl e

theorem up_ok {late : Nat → String → Prop} {y : Sys} (h : SInv late y) {i j : Nat} {n : Node}
    (hn : y.nodes[i]? = some n) {m : Msg} (hj : n.up[j]? = some m) :
    SInv late { root := (y.root.handle m).1,
                nodes := (y.nodes.set i { n with up := n.up.eraseIdx j }).map (·.receive (y.root.handle m).2) } ∨
      CanStart y.root.cfg late y := by
  have hN := h.nodes i n hn
  have hok := hN.ups m (List.mem_of_getElem? hj)
  have hsub : List.Sublist (n.up.eraseIdx j) n.up := List.eraseIdx_sublist _ _
  cases m with
  | regFed src x nc o r c e k =>
    obtain ⟨rfl, hf⟩ := hok
    exact .inl (h.up hn (regFed_ok h hn hsub hf))
  | regBrk src x c o t r k =>
    obtain ⟨rfl, rfl, rfl, rfl, rfl⟩ := hok
    exact .inl (h.up hn (regBrk_ok h hn hsub))
  | disconnect src => exact .inl (h.up hn (disc_ok h hn hsub hok.1 hok.2))
  | discFed src => exact .inl (h.up hn (discFed_ok h hn hsub))
  | init src it =>
    have hR := noted_ok h hn hj hok
    obtain ⟨k, hk, e1, rfl⟩ := hok
    have hS := h.up hn hR
    have hrec : (y.nodes.set i { n with up := n.up.eraseIdx j }).map (·.receive []) =
        y.nodes.set i { n with up := n.up.eraseIdx j } := by
      have : ∀ l : List Node, l.map (·.receive []) = l := by
        intro l
        induction l with
        | nil => rfl
        | cons a l ih =>
          rw [List.map_cons, ih]
          congr 1
          unfold Node.receive
          simp
      exact this _
    rw [hrec] at hS
    have he : y.root.handle (.init k.gid it) = y.root.onInit k.gid it := rfl
    rw [he, onInit_eq h.root hk it]
    obtain ⟨-, k2, -, -, -, -, -, hcfg, -⟩ := noted_spec h.root hk it
    split
    · rename_i hready
      split
      · exact .inl (iterate_ok hS)
      · right
        have hc := hS.canStart ((ready_iff _).mp hready)
        dsimp only at hc
        rw [hcfg] at hc
        have hi : i < y.nodes.length := (List.getElem?_eq_some_iff.mp hn).1
        have back : ∀ m ∈ y.nodes.set i { n with up := n.up.eraseIdx j }, ∃ m0 ∈ y.nodes, m.core = m0.core := by
          intro m hm
          rcases List.mem_or_eq_of_mem_set hm with hm | rfl
          · exact ⟨m, hm, rfl⟩
          · exact ⟨n, List.mem_of_getElem? hn, rfl⟩
        have forth : ∀ (j' : Nat) m, y.nodes[j']? = some m →
            ∃ m', (y.nodes.set i { n with up := n.up.eraseIdx j })[j']? = some m' ∧ m'.core = m.core := by
          intro j' m hm
          by_cases e : i = j'
          · subst e
            rw [hn] at hm
            cases hm
            exact ⟨{ n with up := n.up.eraseIdx j }, by rw [List.getElem?_set, if_pos rfl, if_pos hi], rfl⟩
          · exact ⟨m, by rw [List.getElem?_set, if_neg e]; exact hm, rfl⟩
        obtain ⟨⟨fn, f1, f2, f3, f4⟩, ⟨cn, c1, c2, c3, c4, c5⟩, ha, hb⟩ := hc
        refine ⟨⟨fn, f1, f2, ?_, f4⟩, ⟨cn, c1, c2, c3, c4, ?_⟩, ?_, ?_⟩
        · intro x hx
          obtain ⟨m, hm, f, hf, e⟩ := f3 x hx
          obtain ⟨m0, hm0, e0⟩ := back m hm
          exact ⟨m0, hm0, f, e0 ▸ hf, e⟩
        · intro x hx
          obtain ⟨m, hm, e⟩ := c5 x hx
          obtain ⟨m0, hm0, e0⟩ := back m hm
          exact ⟨m0, hm0, e0 ▸ e⟩
        · intro j' m hm f hf
          obtain ⟨m', hm', e⟩ := forth j' m hm
          have := ha j' m' hm' f (e ▸ hf)
          rw [e] at this
          exact this
        · intro m hm hid
          obtain ⟨j', hj'⟩ := List.mem_iff_getElem?.mp hm
          obtain ⟨m', hm', e⟩ := forth j' m hj'
          have := hb m' (List.mem_of_getElem? hm')
          rw [e] at this
          exact this hid
    · left
      dsimp only
      rw [hrec]
      exact hS
  | _ => exact absurd hok (by simp [UpOk])

/-- one step before the start -/
theorem step_ok {late late' : Nat → String → Prop} {y : Sys} (h : SInv late y) (e : SysEv)
    (hl : ∀ i x, late i x → late' i x)
    (hreg : ∀ i x o r g n, e = .api i (.register x o r g) → y.nodes[i]? = some n →
      n.core.state ≠ .connected → late' i x)
    (hprop : ∀ i n, (e = .api i .close ∨ e = .api i .enableInit) → y.nodes[i]? = some n →
      n.core.id ≠ parentId) :
    SInv late' (y.step e) ∨ CanStart y.root.cfg late y := by
  have stay : SInv late' y := h.widen hl
  cases e with
  | join i obs =>
    left
    simp only [Sys.step]
    cases hn : y.nodes[i]? with
    | none => exact stay
    | some n =>
      dsimp only
      have hN := (h.nodes i n hn).widen (hl i)
      refine h.put hl hn (Kept.refl _) ?_
      have := hN.build (c' := n.core)
        (s := [(.parent, .regBrk invalidId n.core.name true obs false false true)])
        ⟨rfl, rfl, hN.ident, hN.nofeds, hN.delayed, hN.st, fun f hf => ⟨f, hf, rfl⟩, id, ?_⟩
        (w' := n.wants) (down' := n.down) (fun m hm => hm) (by simp [Msg.isInit])
        hN.asked hN.calls hN.wants hN.idle hN.wknown hN.fnodup hN.uniq hN.fresh
      · exact this
      · intro x hx
        rw [List.mem_singleton] at hx
        subst hx
        exact ⟨rfl, rfl, rfl, rfl, rfl⟩
  | api i e =>
    left
    simp only [Sys.step]
    cases hn : y.nodes[i]? with
    | none => exact stay
    | some n =>
      dsimp only
      have hN := (h.nodes i n hn).widen (hl i)
      cases e with
      | register x o r g =>
        simp only [CoreEv.isApi, if_true]
        refine h.put hl hn (kept_step n.core _) ?_
        exact register_ok (h.nodes i n hn) (hl i) (hreg i x o r g n rfl hn)
      | callInit x it =>
        simp only [CoreEv.isApi, if_true]
        refine h.put hl hn ?_ (call_ok hN)
        unfold Node.call
        dsimp only
        split
        · exact kept_step n.core _
        · exact Kept.refl _
      | init x it => rw [if_neg (by simp [CoreEv.isApi])]; exact stay
      | leave x =>
        simp only [CoreEv.isApi, if_true]
        exact h.put hl hn (kept_step n.core _) (onLeave_ok hN)
      | enableInit =>
        simp only [CoreEv.isApi, if_true]
        exact h.put hl hn (kept_step n.core _) (enable_ok hN (hprop i n (.inr rfl) hn))
      | delayInit =>
        simp only [CoreEv.isApi, if_true]
        exact h.put hl hn (kept_step n.core _) (delay_ok hN)
      | close =>
        simp only [CoreEv.isApi, if_true]
        exact h.put hl hn (kept_step n.core _) (close_ok hN (hprop i n (.inl rfl) hn))
      | recv m => rw [if_neg (by simp [CoreEv.isApi])]; exact stay
  | want i j =>
    left
    simp only [Sys.step]
    cases hn : y.nodes[i]? with
    | none => exact stay
    | some n =>
      dsimp only
      cases hw : n.wants[j]? with
      | none => exact stay
      | some w =>
        dsimp only
        exact h.put hl hn (kept_step n.core _) (want_ok ((h.nodes i n hn).widen (hl i)) hw)
  | up i j =>
    simp only [Sys.step]
    cases hn : y.nodes[i]? with
    | none => exact .inl stay
    | some n =>
      dsimp only
      cases hj : n.up[j]? with
      | none => exact .inl stay
      | some m =>
        dsimp only
        rcases up_ok h hn hj with h1 | h1
        · exact .inl (h1.widen hl)
        · exact .inr h1
  | down i j =>
    left
    simp only [Sys.step]
    cases hn : y.nodes[i]? with
    | none => exact stay
    | some n =>
      dsimp only
      cases hj : n.down[j]? with
      | none => exact stay
      | some m =>
        dsimp only
        split
        rotate_left; · exact stay
        rename_i hacc
        have hN := (h.nodes i n hn).widen (hl i)
        refine h.put hl hn (kept_step n.core _) ?_
        have hok := hN.downs m (List.mem_of_getElem? hj)
        cases m with
        | brkAck src x dest err =>
          refine ack_ok hN ?_ hj
          intro k hk e
          obtain ⟨j, hj⟩ := List.mem_iff_getElem?.mp hk
          have := h.root.ent j k hj
          unfold brkShift at this
          unfold parentId at e
          omega
        | grant dest it o d => exact grant_ok hN hj
        | fedAck src x dest err => exact fedAck_ok (hN.pop (j := j))
        | bcastDisc src =>
          refine bcast_ok (hN.pop (j := j)) ?_
          simp only [Core.accepts, Bool.or_false, decide_eq_true_eq] at hacc
          exact hacc
        | _ =>
          first
          | exact False.elim hok
          | (have := hN.pop (j := j)
             simpa [Node.step, Core.step] using this)

end Verif.Init
