import Verif.Lemmas.ShutdownStep
/-! The invariant along a whole history, for C56. -/
namespace Verif.Down

variable {net : Net} {s : Sys}

theorem InvA.onTake (h : net.Ok) (I : InvA net s) (u v : Node) : InvA net (s.step net (.take u v)) := by
  cases hl : s.link u v with
  | nil => rw [take_nil hl]; exact I
  | cons c cs =>
    rw [take_cons hl]
    have g : Good net s u v c := I.links u v c (by rw [hl]; exact List.mem_cons_self ..)
    have hm := good_member h g
    refine I.take h hl ?_
    unfold NSt.onCmd
    split
    · exact Fine.same I (fun b c hb => by cases hb)
    · rename_i hs
      cases hk : net.kind v with
      | fed => exact fine_fed h I g hk
      | core => exact fine_core h I g hk hm hs
      | broker => exact fine_broker I g hk hm

/-- what is added to a link and what is noted at a node does not hurt -/
theorem InvA.grow (I : InvA net s) {s' : Sys} (E : Ext s s')
    (hn : ∀ n, NodeOk net s' n) (hl : ∀ u v c, c ∈ s'.link u v → c ∈ s.link u v ∨ Good net s' u v c) : InvA net s' :=
  ⟨hn, fun u v c hc => (hl u v c hc).elim (fun hc => E.good (I.links u v c hc)) id⟩

theorem InvA.onStart (I : InvA net s) (n : Node) : InvA net (s.step net (.start n)) := by
  have E : Ext s (s.step net (.start n)) := Ext.upd (v := n) rfl ⟨id, id, id, fun _ => id, fun _ => id⟩
  refine I.grow E (fun m => ?_) (fun u v c hc => .inl hc)
  by_cases e : m = n
  · subst e
    have hs : (s.step net (.start m)).node m = { s.node m with oper := true } := upd_same ..
    have := I.nodes m
    refine ⟨?_, ?_, ?_, ?_, ?_⟩
    · intro k; rw [hs]; intro hk; exact ⟨(this.gone k hk).1, E.done (this.gone k hk).2⟩
    · rw [hs]; exact this.acked
    · rw [hs]; exact this.core
    · rw [hs]; intro hb hp; exact E.done (this.broker hb hp)
    · rw [hs]; exact this.fed
  · exact (I.nodes m).ext E (upd_ne _ _ e)

theorem InvA.onFinalize (h : net.Ok) (I : InvA net s) (f : Node) : InvA net (s.step net (.finalize f)) := by
  unfold Sys.step
  simp only
  split
  · rename_i hc
    obtain ⟨hf, hm, hcl⟩ := hc
    have h0 : f ≠ 0 := by intro e; subst e; rw [h.rootKind] at hf; cases hf
    have hp : (s.node (net.par f)).phase = .running := by
      cases hp : (s.node (net.par f)).phase with
      | running => rfl
      | _ =>
        exfalso
        have hg := (I.nodes (net.par f)).core ((h.fed f h0 hm).1 hf) (by rw [hp]; decide) f (kid_par h0 hm)
        have := ((I.nodes _).gone f hg).2
        unfold Done at this; rw [hf] at this
        rw [hcl] at this; cases this
    rw [if_pos hp]
    obtain ⟨s', hs'⟩ : ∃ s', s' = Sys.put { s with node := upd s.node f { s.node f with called := true } } f (net.par f, .bye) := ⟨_, rfl⟩
    rw [← hs']
    have hnode : s'.node = upd s.node f { s.node f with called := true } := by rw [hs']; rfl
    have hsf : s'.node f = { s.node f with called := true } := by rw [hnode, upd_same]
    have E : Ext s s' := Ext.upd hnode ⟨fun _ => rfl, id, id, fun _ => id, fun _ => id⟩
    refine I.grow E (fun m => ?_) (fun u v c hc => ?_)
    · by_cases e : m = f
      · subst e
        have := I.nodes m
        refine ⟨?_, ?_, ?_, ?_, ?_⟩
        · intro k; rw [hsf]; intro hk; exact ⟨(this.gone k hk).1, E.done (this.gone k hk).2⟩
        · rw [hsf]; exact this.acked
        · rw [hsf]; exact this.core
        · rw [hsf]; intro hb hp; exact E.done (this.broker hb hp)
        · rw [hsf]; exact fun _ _ => rfl
      · exact (I.nodes m).ext E (by rw [hnode, upd_ne _ _ e])
    · rw [hs', mem_put] at hc
      rcases hc with hc | ⟨rfl, hc⟩
      · exact .inl hc
      · cases hc
        exact .inr (.inl ⟨kid_par h0 hm, hf, by rw [hsf]⟩)
  · exact I

theorem InvA.step (h : net.Ok) (I : InvA net s) {e : Ev} (hk : ∀ n, e ≠ .kill n) : InvA net (s.step net e) := by
  cases e with
  | finalize f => exact I.onFinalize h f
  | kill n => exact absurd rfl (hk n)
  | start n => exact I.onStart n
  | take u v => exact I.onTake h u v

theorem InvA.start (net : Net) (o : Bool) : InvA net (Sys.start net o) :=
  ⟨fun n => ⟨fun k e => (by cases e), fun k e => (by cases e), fun _ e => absurd rfl e, fun _ e => absurd rfl e, fun _ e => absurd rfl e⟩,
   fun u v c hc => by cases hc⟩

/-- something kept by every event but the disconnections by hand -/
theorem run_ind {P : Sys → Prop} {es : List Ev} (hk : NoKill es)
    (st : ∀ s e, (∀ n, e ≠ .kill n) → P s → P (s.step net e)) : ∀ s, P s → P (s.run net es) := by
  induction es with
  | nil => intro s h; exact h
  | cons e es ih =>
    intro s h
    exact ih (fun n hn => hk n (List.mem_cons_of_mem _ hn)) _
      (st s e (fun n hn => hk n (by rw [hn]; exact List.mem_cons_self ..)) h)

theorem InvA.run (h : net.Ok) {es : List Ev} (hk : NoKill es) (o : Bool) : InvA net ((Sys.start net o).run net es) :=
  run_ind (P := fun s => InvA net s) hk (fun _ _ he I => InvA.step h I he) _ (InvA.start net o)

end Verif.Down
