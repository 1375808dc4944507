import Verif.Lemmas.TreeHush
import Verif.Lemmas.Mum
import Verif.Props.TreeCausality
/-!
# C50: nobody enters executing mode before everybody it depends on through cores and brokers has asked to

The statement of C07 when the federates are not connected directly.
-/
namespace Verif
open Causal Causality Deps Fed TC

/-- The move lets federate `B` enter executing mode without iteration. -/
def Tree.plainEntry (B : FedId) (s : Tree) : Tmove → Prop
  | .user i o => i = B → ExecEntry.plainEntry (s.fed B) o
  | _ => (s.fed B).tc.iterating = .noIterations

namespace Tree
variable {K : Branches} {A : FedId} {hop : FedId → FedId → FedId} {limit : Int}

/-! ### before the federation starts -/

theorem each_rewiring {own : FedId} {ok : Msg → Prop} {P : DepInfo → Prop} (K : Kept own ok P) (hc : ∀ d c, P d → P { d with connection := c })
    {w : Fwd} (h : Each P w.deps) (cmd : Msg) (hr : Fwd.rewiring cmd = true) : Each P (w.processDependencyUpdate cmd).deps := by
  have hadd : Each P (w.addDependency cmd.source).1.deps := by
    unfold Fwd.addDependency
    dsimp only
    split
    · exact (h.addDependency K cmd.source).modify _ _ (fun d hd _ => hc d _ hd)
    · exact h.addDependency K cmd.source
  have h1 : Each P (w.changeDeps cmd).1.deps := by
    unfold Fwd.changeDeps
    unfold Fwd.rewiring at hr
    cases hc : cmd.action <;> rw [hc] at hr <;> first | (cases hr; done) | skip
    · exact hadd
    · exact h.removeDependency K _
    · exact h.addDependent K _
    · exact h.removeDependent K _
    · exact hadd.addDependent K _
    · exact (h.removeDependency K _).removeDependent K _
  have hconn : ∀ {v : Fwd} (c : Conn), Each P v.deps → Each P (v.deps.modify cmd.source (fun d => { d with connection := c })) :=
    fun c hv => hv.modify _ _ (fun d hd _ => hc d c hd)
  unfold Fwd.processDependencyUpdate
  dsimp only
  split
  · generalize (w.changeDeps cmd).1 = v at h1
    unfold Fwd.relate
    dsimp only
    have h2 : Each P (if cmd.child = true then v.setAsChild cmd.source else v).deps := by
      unfold Fwd.setAsChild
      split
      · split
        · exact h1
        · exact hconn _ h1
      · exact h1
    generalize (if cmd.child = true then v.setAsChild cmd.source else v) = u at h2
    have h3 : Each P (if cmd.parent = true then u.setAsParent cmd.source else u).deps := by
      unfold Fwd.setAsParent
      split
      · split
        · exact h2
        · split
          · exact h2
          · exact hconn _ h2
      · exact h2
    generalize (if cmd.parent = true then u.setAsParent cmd.source else u) = x at h3
    split
    · exact h3.modify _ _ (fun d hd _ => K.version d _ hd)
    · exact h3
  · exact h1

/-- nothing heard from anybody -/
def Blank (d : DepInfo) : Prop := d.state = .initialized ∧ d.minFedActual = invalidFed

theorem kept_blank (o : FedId) : Kept o (fun _ => False) (fun d => d.fedID ≠ o → Blank d) where
  fresh _ _ _ := fun _ => ⟨rfl, rfl⟩
  flags _ _ _ h := h
  again _ h := fun e => ⟨rfl, (h e).2⟩
  iterExec _ h := fun e => ⟨rfl, (h e).2⟩
  iterTime d h hs := fun e => by have := (h e).1; rw [hs] at this; cases this
  events _ _ _ h := h
  selfc _ h _ := h
  conn _ _ h _ := h
  version _ _ h := h
  process _ _ hk := hk.elim
  bye cmd d hc _ hs _ := by
    intro e
    rw [process_fedID] at e
    exact absurd (hs.trans hc) e

theorem blank_rewiring {w : Fwd} (h : Each Blank w.deps) (cmd : Msg) (hr : Fwd.rewiring cmd = true) : Each Blank (w.processDependencyUpdate cmd).deps := by
  have key : ∀ o : FedId, Each (fun d => d.fedID ≠ o → Blank d) (w.processDependencyUpdate cmd).deps := fun o =>
    each_rewiring (kept_blank o) (fun d c hd => hd) (fun d hd _ => h d hd) cmd hr
  intro d hd
  exact key (d.fedID + 1) d hd (by intro e; have e : (d.fedID : Int) = d.fedID + 1 := e; omega)

/-- the parts of a coordinator that a change of its dependencies leaves alone -/
def Idle (a b : Fwd) : Prop := b.executionMode = a.executionMode ∧ b.entered = a.entered

theorem idle_rewiring (w : Fwd) (cmd : Msg) : Idle w (w.processDependencyUpdate cmd) := by
  have h1 : Idle w (w.changeDeps cmd).1 := by
    unfold Fwd.changeDeps
    cases cmd.action <;> exact ⟨rfl, rfl⟩
  unfold Fwd.processDependencyUpdate
  dsimp only
  split
  · generalize (w.changeDeps cmd).1 = v at h1
    unfold Fwd.relate Fwd.setAsChild Fwd.setAsParent
    dsimp only
    repeat' split
    all_goals exact h1
  · exact h1

/-- nothing has happened yet but the dependencies of cores and brokers being made -/
structure Resting (f : FedId → Fed) (s : Tree) : Prop where
  wiring : ∃ r, Wiring False f r s
  blank : ∀ n, Each Blank (s.fwd n).deps
  mode : ∀ n, (s.fwd n).executionMode = false
  entered : ∀ n, (s.fwd n).entered = false

theorem resting_step {f : FedId → Fed} {s : Tree} (h : Resting f s) (m : Tmove) (hm : wiring m = true) : Resting f (s.step hop limit m).1 := by
  obtain ⟨r, hr⟩ := h.wiring
  refine ⟨⟨r, wiring_step hr m hm⟩, ?_, ?_, ?_⟩
  all_goals
    cases m with
    | env n cmd =>
      simp only [wiring, Bool.and_eq_true, Bool.not_eq_true'] at hm
      have hst : (s.step hop limit (.env n cmd)).1 = s.fwdAct n ((s.fwd n).processDependencyUpdate cmd) := by
        simp only [step, hand, hm.1, Bool.false_eq_true, if_false, handle_rewiring _ _ hm.2]
      rw [hst]
      intro k
      rw [fwd_fwd]
      split
      · first
          | exact blank_rewiring (h.blank n) cmd hm.2
          | exact (idle_rewiring _ _).1.trans (h.mode n)
          | exact (idle_rewiring _ _).2.trans (h.entered n)
      · first | exact h.blank k | exact h.mode k | exact h.entered k
    | _ => cases hm

theorem resting_run {f : FedId → Fed} {s : Tree} (h : Resting f s) (ms : List Tmove) (hm : ∀ m ∈ ms, wiring m = true) : Resting f (s.run hop limit ms) := by
  induction ms generalizing s with
  | nil => exact h
  | cons m ms ih => exact ih (resting_step h m (hm m (by simp))) (fun x hx => hm x (by simp [hx]))

theorem resting_start (ok ng gt core restr : FedId → Bool) :
    Resting (fun i => Fed.initial i (ok i) (ng i) (gt i)) (Tree.start ok ng gt core restr) :=
  ⟨⟨restr, wiring_start False ok ng gt core restr⟩, (fun _ d hd => nomatch hd), fun _ => rfl, fun _ => rfl⟩

theorem who_of {s : Tree} (h : K.Placed A s) : Who K A where
  sender := h.sender
  up n hn := by
    by_cases e : n = A
    · exact .inl e
    · exact .inr (h.above n hn e).1
  down n hn := (h.below n hn).1

theorem unheard_of {ds : Deps} {g : FedId} {b : Bool} {w : Fwd} (hw : w.deps = ds) (hb : Each Blank ds) (h : DependsOn w g b) :
    Has g (fun d => Unheard d ∧ (d.connection = .parent ↔ b = true)) ds := by
  obtain ⟨d, hd, h1, h2, h3⟩ := h
  rw [hw] at hd
  exact ⟨d, hd, h1, h2, ⟨(hb d hd).1, h3.1⟩, h3.2⟩

theorem still_resting (ok ng gt : FedId → Bool) {s : Tree} (h : Resting (fun i => Fed.initial i (ok i) (ng i) (gt i)) s) (hp : K.Placed A s) :
    Still K A s s := by
  obtain ⟨r, hr⟩ := h.wiring
  have hne : ∀ i, FedId.isFederate i = true → i ≠ parentBroker := by intro i hi e; rw [e] at hi; revert hi; decide
  have hnn : ∀ n, Each NextNonneg (s.fwd n).deps := by
    intro n d hd hx
    unfold executing at hx
    rw [(h.blank n d hd).1] at hx
    exact absurd hx (by decide)
  have hdown : ∀ n, (s.fwd n).downstream.state = .initialized := by intro n; rw [hr.down n]
  have hkv : ∀ n, ¬ kidOf s n invalidFed := fun n hk => hk.1 rfl
  refine ⟨?_, hr.self, ?_, ?_, ?_, ?_, ?_⟩
  · intro i hi
    rw [hr.fed]
    exact ⟨initial_inv i _ _ _ (hne i hi), rfl, fun d hd => nomatch hd⟩
  · intro u v m hm; rw [hr.chan] at hm; cases hm
  · intro n m hm; rw [hr.pend] at hm; cases hm
  · intro n hn hA
    obtain ⟨_, ⟨g, g1, g2, g3⟩, hpar⟩ := hp.above n hn hA
    have hchild : Has g (fun d => Unheard d ∧ d.connection ≠ .parent) (s.fwd n).deps := by
      obtain ⟨d, hd, a, b, c1, c2⟩ := unheard_of rfl (h.blank n) g3
      exact ⟨d, hd, a, b, c1, fun e => absurd (c2.mp e) (by simp)⟩
    rcases hpar with ⟨p1, p2⟩ | ⟨p1, p, p2, p3, p4⟩
    · refine ⟨.root, g, g, by decide, g1, fun h => absurd rfl h, g2, g2, hkv n, fun _ => hchild, fun h => absurd rfl h, fun _ => p2, p1, (fun h => by cases h),
        fun d hd => (h.blank n d hd).2, hnn n, h.mode n, h.entered n, hdown n⟩
    · refine ⟨.up, g, p, by decide, g1, fun _ => p2, g2, p3, hkv n, fun _ => hchild, fun _ => ?_, (fun h => by cases h), p1, (fun h => by cases h),
        fun d hd => (h.blank n d hd).2, hnn n, h.mode n, h.entered n, hdown n⟩
      obtain ⟨d, hd, a, b, c1, c2⟩ := unheard_of rfl (h.blank n) p4
      exact ⟨d, hd, a, b, c1, c2.mpr rfl⟩
  · intro n hn
    obtain ⟨_, h1, p, p2, p3, p4⟩ := hp.below n hn
    refine ⟨p, p2, p3, p3, hkv n, fun h => absurd rfl h, fun _ => ?_, (fun h => by cases h), h1, fun _ d hd hk => hk.2 d hd rfl,
        fun d hd => (h.blank n d hd).2, hnn n, h.mode n, h.entered n, hdown n⟩
    obtain ⟨d, hd, a, b, c1, c2⟩ := unheard_of rfl (h.blank n) p4
    exact ⟨d, hd, a, b, c1, c2.mpr rfl⟩
  · intro i hi x _ _
    rw [hr.fed]
    intro d hd
    cases hd

/-! ### histories -/

theorem asked_fed {s : Tree} {i : FedId} {o : FedOp} (h : HasAsked A s) : HasAsked A (s.fedAct hop limit i o).1 := by
  obtain ⟨p, hp, m, hm, ha⟩ := h
  refine ⟨p, ?_, m, hm, ha⟩
  rw [fed_fed]
  split
  · rename_i e
    obtain ⟨l, h1, _⟩ := (Fed.sg_step limit (s.fed i) o).out
    rw [h1, ← e]
    exact List.mem_append.mpr (.inl hp)
  · exact hp

theorem asked_hand {s : Tree} {n : FedId} {cmd : Msg} (h : HasAsked A s) : HasAsked A (s.hand hop limit n cmd).1 := by
  unfold hand
  split
  · exact asked_fed h
  · exact h

theorem asked_step {s : Tree} (m : Tmove) (h : HasAsked A s) : HasAsked A (s.step hop limit m).1 := by
  have ht : ∀ u v, HasAsked A (s.take u v) := fun u v => h
  cases m with
  | user i o => simp only [step]; split; exact asked_fed h; exact h
  | env n cmd => exact asked_hand h
  | send i d t y => simp only [step]; split <;> exact h
  | deliver u v n =>
    simp only [step]
    split
    · exact h
    · split
      · exact asked_hand (ht u v)
      · split <;> exact h
    · split
      · split
        · exact asked_fed (ht u v)
        · exact h
      · split <;> exact h
  | flush n => simp only [step]; split <;> exact h
  | start n => simp only [step]; split <;> exact h
  | leave n => simp only [step]; split <;> exact h

theorem still_run {s0 s : Tree} (hW : Who K A) {ms : List Tmove} (hl : K.Legal A hop limit s0 s ms) (h : Still K A s0 s) :
    Still K A s0 (s.run hop limit ms) ∨ HasAsked A (s.run hop limit ms) := by
  induction ms generalizing s with
  | nil => exact .inl h
  | cons m ms ih =>
    by_cases ha : HasAsked A (s.step hop limit m).1
    · right
      have : ∀ (l : List Tmove) (t : Tree), HasAsked A t → HasAsked A (t.run hop limit l) := by
        intro l
        induction l with
        | nil => exact fun _ h => h
        | cons x l ih2 => exact fun t ht => ih2 _ (asked_step x ht)
      exact this ms _ ha
    · exact ih hl.2.2 (still_step hW h m hl.1 hl.2.1 ha)

theorem entry_append {s0 s : Tree} {a b : List Tmove} (h : K.Legal A hop limit s0 s (a ++ b)) :
    K.Legal A hop limit s0 s a ∧ K.Legal A hop limit s0 (s.run hop limit a) b := by
  induction a generalizing s with
  | nil => exact ⟨trivial, h⟩
  | cons m ms ih =>
    obtain ⟨h1, h2⟩ := ih h.2.2
    exact ⟨⟨h.1, h.2.1, h1⟩, h2⟩

/-- A federate takes no step that leads into executing mode while it hears nothing from `x`. -/
theorem no_entry {s0 s : Tree} (h : Still K A s0 s) {B x : FedId} (hB : FedId.isFederate B = true) (hx : x ≠ B) (hsil : K.silent s0 x B)
    (hdep : Has x (fun _ => True) (s.fed B).tc.deps) (hs : (s.fed B).state ≠ .executing) (o : FedOp) (ho : o.sane B) (hk : opOk (NotFrom x) o)
    (hrw : ∀ cmd, o = .msg cmd → rewires x cmd = false)
    (hiw : (s.fed B).tc.info.waitForCurrent = false ∨ ExecEntry.plainEntry (s.fed B) o) : ((s.fed B).step limit o).1.state ≠ .executing := by
  intro he
  obtain ⟨hi, hself, hown⟩ := h.inv B hB
  have K1 : Kept (s.fed B).tc.self (fun cmd => NotFrom x cmd) (fun d => Deaf x d ∧ OwnMark B d) := by
    rw [hself]
    have k := kept_deaf hx
    have k' := kept_ownMark B
    exact ⟨fun g a b => ⟨k.fresh g a b, k'.fresh g a b⟩, fun d a b h => ⟨k.flags d a b h.1, k'.flags d a b h.2⟩, fun d h => ⟨k.again d h.1, k'.again d h.2⟩,
      fun d h => ⟨k.iterExec d h.1, k'.iterExec d h.2⟩, fun d h hs => ⟨k.iterTime d h.1 hs, k'.iterTime d h.2 hs⟩,
      fun d t ht h => ⟨k.events d t ht h.1, k'.events d t ht h.2⟩, fun d h hs => ⟨k.selfc d h.1 hs, k'.selfc d h.2 hs⟩,
      fun d c h hs => ⟨k.conn d c h.1 hs, k'.conn d c h.2 hs⟩, fun d v h => ⟨k.version d v h.1, k'.version d v h.2⟩,
      fun cmd d hk hs h => ⟨k.process cmd d hk hs h.1, k'.process cmd d trivial hs h.2⟩,
      fun cmd d h1 h2 h3 h => ⟨k.bye cmd d h1 h2 h3 h.1, k'.bye cmd d h1 h2 h3 h.2⟩⟩
  obtain ⟨c, h1, h2, h3, h4, h5⟩ := step_entered_each (R := fun d => Deaf x d ∧ OwnMark B d) hi hs o (by rw [hself]; exact ho) hk K1
    (fun m hm e => absurd (e.symm.trans (hm.trans hself)) hx) hrw (by rw [hself]; exact hx) hdep
    (fun d hd => ⟨h.table B hB x hx hsil d hd, hown d hd⟩) he
  rw [deaf_blocks hx h2 (fun d hd => (h3 d hd).1) (fun d hd => (h3 d hd).2) ?_] at h5
  · cases h5
  · rcases hiw with e | e
    · right; rw [h1]; exact e
    · left; rw [h4 e]; rfl

/-- **C50.**  A federation of federates, cores and brokers; `K` names the cores and brokers above federate `A` and those
on other branches, connected as `Placed` says.  Federate `B` depends on a node `x` that is above `A`, or on another branch with `B`
its child.  Whatever anybody does, in whatever order commands arrive anywhere: when a move lets `B` enter
executing mode, `A` has announced that it wants to enter executing mode, or that it left or failed. -/
theorem C50_waits (K : Branches) (A B x : FedId) (hop : FedId → FedId → FedId) (limit : Int)
    (ok ng gt core restr : FedId → Bool) (wires : List Tmove) (hwires : ∀ m ∈ wires, wiring m = true)
    (s0 : Tree) (hs0 : s0 = wired ok ng gt core restr hop limit wires) (hplaced : K.Placed A s0)
    (hB : FedId.isFederate B = true) (hx : x ≠ B) (hsil : K.silent s0 x B)
    (pre : List Tmove) (m : Tmove) (hl : K.Legal A hop limit s0 s0 (pre ++ [m])) (before after : Tree)
    (hbefore : before = s0.run hop limit pre) (hafter : after = s0.run hop limit (pre ++ [m]))
    (hdep : (before.fed B).tc.deps.isDependency x = true)
    (hrw : ∀ cmd, arriving before m = some (B, cmd) → rewires x cmd = false)
    (hmode : (before.fed B).tc.info.waitForCurrent = false ∨ plainEntry B before m)
    (hs : (before.fed B).state ≠ .executing) (he : (after.fed B).state = .executing) : HasAsked A after := by
  have hW := who_of hplaced
  have h0 : Still K A s0 s0 := by
    subst hs0
    exact still_resting ok ng gt (resting_run (resting_start ok ng gt core restr) wires hwires) hplaced
  obtain ⟨hl1, hl2⟩ := entry_append hl
  have hrun : after = (before.step hop limit m).1 := by rw [hafter, hbefore, run_append]; rfl
  clear hafter
  rcases (still_run hW hl1 h0).symm with h | h
  · rw [hrun, hbefore]; exact asked_step m h
  rw [← hbefore] at h
  by_cases hA : HasAsked A after
  · exact hA
  exfalso
  have hhas : Has x (fun _ => True) (before.fed B).tc.deps := by
    obtain ⟨d, rest, h1, h2, h3⟩ := isDependency_split hdep
    have := before_append_fromLB (before.fed B).tc.deps x
    exact ⟨d, by rw [← this, h1]; simp, h2, h3, trivial⟩
  have hfair : K.Fair A s0 before m := by rw [hbefore]; exact hl2.1
  subst hrun
  clear hl hl1 hl2 hbefore hA h0 hdep hplaced
  have fin : ∀ (s : Tree) (o : FedOp), s.fed = before.fed → (s.fedAct hop limit B o).1.fed B = ((before.fed B).step limit o).1 := by
    intro s o e
    rw [fed_fed, if_pos rfl, e]
  have other : ∀ (s : Tree) (i : FedId) (o : FedOp), s.fed = before.fed → i ≠ B → (s.fedAct hop limit i o).1.fed B = before.fed B := by
    intro s i o e hi
    rw [fed_fed, if_neg (Ne.symm hi), e]
  have take : ∀ u v, (before.take u v).fed = before.fed := fun _ _ => rfl
  cases m with
  | user i o =>
    simp only [step] at he
    obtain ⟨hu, ho⟩ := hfair
    split at he
    · by_cases hi : i = B
      · subst hi
        rw [fin before o rfl] at he
        exact no_entry h hB hx hsil hhas hs o ho (by cases o <;> first | trivial | cases hu) (by intro cmd e; subst e; cases hu)
          (hmode.imp id (fun k => k rfl)) he
      · rw [other before i o rfl hi] at he; exact hs he
    · exact hs he
  | env n cmd =>
    simp only [step, hand] at he
    split at he
    · rename_i hn
      by_cases hi : n = B
      · subst hi
        rw [fin before _ rfl] at he
        exact no_entry h hB hx hsil hhas hs (.msg cmd) (hfair.1 hn) (fun e => hfair.2.2 (by rw [e]; exact hsil)) (by intro c e; cases e; exact hrw cmd rfl) hmode he
      · rw [other before n _ rfl hi] at he; exact hs he
    · exact hs he
  | send i d t y => simp only [step] at he; split at he <;> exact hs he
  | flush n => simp only [step] at he; split at he <;> exact hs he
  | start n => simp only [step] at he; split at he <;> exact hs he
  | leave n => simp only [step] at he; split at he <;> exact hs he
  | deliver u v noticed =>
    obtain ⟨ht, _⟩ := hfair
    simp only [step] at he
    split at he
    · exact hs he
    · rename_i m rest hq
      have hx' : Parcel.time (.cmd m) ≤ maxVal := ht _ (by rw [hq]; rfl)
      obtain ⟨hdp, ⟨me, fit⟩, okay⟩ := h.chan u v m (by rw [hq]; simp)
      split at he
      · rename_i hdv
        simp only [hand] at he
        split at he
        · rename_i hn
          by_cases hi : v = B
          · subst hi
            rw [fin _ _ (take u v)] at he
            refine no_entry h hB hx hsil hhas hs (.msg m) ⟨hx', fun hbad => ?_⟩ (fun e => okay (by rw [e, hdv]; exact hsil)) ?_ hmode he
            · have := fit.own hbad.1
              rw [hbad.2.2] at this
              cases this
            · intro c e
              cases e
              apply hrw
              simp only [arriving, hq]
          · rw [other _ v _ (take u v) hi] at he; exact hs he
        · exact hs he
      · split at he <;> exact hs he
    · rename_i t a d y rest hq
      have hx' : Parcel.time (.data t a d y) ≤ maxVal := ht _ (by rw [hq]; rfl)
      split at he
      · rename_i hdv
        split at he
        · by_cases hi : v = B
          · subst hi
            rw [fin _ _ (take u v)] at he
            refine no_entry h hB hx hsil hhas hs _ ?_ ?_ ?_ ?_ he
            · cases y <;> exact ⟨rfl, hx'⟩
            · cases y <;> exact fun _ => rfl
            · intro c e; cases y <;> cases e
            · rcases hmode with e | e
              · exact .inl e
              · right; cases y <;> exact e
          · rw [other _ v _ (take u v) hi] at he; exact hs he
        · exact hs he
      · split at he <;> exact hs he

/-! ### what it means that `A` has announced something -/

/-- the federate's part of a move -/
theorem fed_event {s : Tree} {i : FedId} (hi : FedId.isFederate i = true) (m : Tmove) :
    (s.step hop limit m).1.fed i = match s.eventAt i m with
      | some o => ((s.fed i).step limit o).1
      | none => s.fed i := by
  cases m with
  | user k o =>
    simp only [step, eventAt]
    by_cases hk : k = i
    · subst hk; rw [if_pos hi, if_pos rfl, fed_fed, if_pos rfl]
    · rw [if_neg hk]
      split
      · rw [fed_fed, if_neg (Ne.symm hk)]
      · rfl
  | env n cmd =>
    simp only [step, eventAt, hand]
    by_cases hk : n = i
    · subst hk; rw [if_pos hi, if_pos rfl, fed_fed, if_pos rfl]
    · rw [if_neg hk]
      split
      · rw [fed_fed, if_neg (Ne.symm hk)]
      · rfl
  | send a d t y => simp only [step, eventAt]; split <;> rfl
  | deliver u v noticed =>
    simp only [step, eventAt]
    by_cases hk : v = i
    · subst hk
      rw [if_pos rfl]
      cases hq : s.chan u v with
      | nil => rfl
      | cons x rest =>
        cases x with
        | cmd m =>
          dsimp only
          by_cases hd : m.dest = v
          · rw [if_pos hd, if_pos hd]; simp only [hand, hi, if_true]; rw [fed_fed, if_pos rfl]; rfl
          · rw [if_neg hd, if_neg hd, if_pos hi]; rfl
        | data t a d y =>
          dsimp only
          by_cases hd : d = v
          · cases noticed <;> simp [hd, hi, fed_fed, take]
          · simp [hd, hi, take]
    · rw [if_neg hk]
      split
      · rfl
      · split
        · unfold hand
          split
          · rw [fed_fed, if_neg (Ne.symm hk)]; rfl
          · rfl
        · split <;> rfl
      · split
        · split
          · rw [fed_fed, if_neg (Ne.symm hk)]; rfl
          · rfl
        · split <;> rfl
  | flush n => simp only [step, eventAt]; split <;> rfl
  | start n => simp only [step, eventAt]; split <;> rfl
  | leave n => simp only [step, eventAt]; split <;> rfl

theorem mum_run {s : Tree} (hA : FedId.isFederate A = true) (hself : (s.fed A).tc.self = A) (ms : List Tmove)
    (hu : ∀ i o, .user i o ∈ ms → byUser o = true) (hev : ∀ o ∈ s.events hop limit A ms, decides A o = false) (h : Fed.Mum (s.fed A)) :
    Fed.Mum ((s.run hop limit ms).fed A) := by
  induction ms generalizing s with
  | nil => exact h
  | cons m ms ih =>
    have e := fed_event (hop := hop) (limit := limit) (s := s) hA m
    have key : Fed.Mum ((s.step hop limit m).1.fed A) ∧ ((s.step hop limit m).1.fed A).tc.self = A := by
      rw [e]
      cases ho : s.eventAt A m with
      | none => exact ⟨h, hself⟩
      | some o =>
        dsimp only
        refine ⟨Fed.mum_step limit h o ?_ ?_, (Fed.sg_step limit (s.fed A) o).self.trans hself⟩
        · rw [hself]
          apply hev o
          simp only [events, ho]
          simp
        · intro cmd hc
          cases m with
          | user k x =>
            simp only [eventAt] at ho
            split at ho
            · cases ho
              have := hu k o (by simp)
              rcases hc with rfl | rfl <;> cases this
            · cases ho
          | env n x =>
            simp only [eventAt] at ho
            split at ho
            · cases ho; rcases hc with hc | hc <;> cases hc
            · cases ho
          | deliver u v noticed =>
            simp only [eventAt] at ho
            split at ho
            · split at ho
              · split at ho
                · cases ho; rcases hc with hc | hc <;> cases hc
                · cases ho
              · split at ho
                · rename_i y _ _ _
                  cases ho
                  rcases hc with hc | hc <;> split at hc <;> cases hc <;> simp
                · cases ho
              · cases ho
            · cases ho
          | _ => cases ho
    exact ih key.2 (fun i o hm => hu i o (by simp [hm])) (fun o hm => hev o (by simp only [events]; exact List.mem_append.mpr (.inr hm))) key.1

/-- **C50 (what the announcement means).**  In a history from the start of the federation, federate `A` announces that
it wants to enter executing mode, or something later, only after its user has asked for that or its part in the federation has ended. -/
theorem C50_announced (A : FedId) (hA : FedId.isFederate A = true) (hop : FedId → FedId → FedId) (limit : Int)
    (ok ng gt core restr : FedId → Bool) (wires : List Tmove) (hwires : ∀ m ∈ wires, wiring m = true)
    (s0 : Tree) (hs0 : s0 = wired ok ng gt core restr hop limit wires) (ms : List Tmove) (hu : ∀ i o, .user i o ∈ ms → byUser o = true)
    (h : HasAsked A (s0.run hop limit ms)) : ∃ o ∈ s0.events hop limit A ms, decides A o = true := by
  by_cases hev : ∃ o ∈ s0.events hop limit A ms, decides A o = true
  · exact hev
  · exfalso
    obtain ⟨r, hr⟩ := (resting_run (hop := hop) (limit := limit) (resting_start ok ng gt core restr) wires hwires).wiring
    have hr : Wiring False (fun i => Fed.initial i (ok i) (ng i) (gt i)) r s0 := by rw [hs0]; exact hr
    have hfed : s0.fed A = Fed.initial A (ok A) (ng A) (gt A) := by rw [hr.fed]
    have hm := mum_run hA (by rw [hfed]; rfl) ms hu (fun o ho => by
      cases hd : decides A o with
      | false => rfl
      | true => exact absurd ⟨o, ho, hd⟩ hev) (by rw [hfed]; exact Fed.mum_initial _ _ _ _)
    obtain ⟨p, hp, m, hmm, hd, ha⟩ := h
    rw [hm.out p hp m hmm hd] at ha
    cases ha

end Tree
end Verif
