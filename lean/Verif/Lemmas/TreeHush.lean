import Verif.Lemmas.ForwardHush
import Verif.Lemmas.TreeMove
import Verif.Props.ExecEntry
/-! A federation in which one federate has not asked to enter executing mode. -/
namespace Verif
open Causal Causality Deps Fed TC

/-! ### a federate that hears nothing from `x` -/

/-- nothing heard from `x` -/
def Deaf (x : FedId) (d : DepInfo) : Prop := d.fedID = x → d.state = .initialized

/-- not a word of `x` -/
def NotFrom (x : FedId) (cmd : Msg) : Prop := cmd.source = x → asked cmd = false

theorem kept_deaf {x own : FedId} (h : x ≠ own) : Kept own (NotFrom x) (Deaf x) where
  fresh _ _ _ := fun _ => rfl
  flags _ _ _ h := h
  again _ _ := fun _ => rfl
  iterExec _ _ := fun _ => rfl
  iterTime d h hs := fun e => by have := h e; rw [hs] at this; cases this
  events _ _ _ h := h
  selfc _ h _ := h
  conn _ _ h _ := h
  version _ _ h := h
  process cmd d hk hs h := by
    intro e
    rw [process_fedID] at e
    exact process_unheard (hk (hs.symm.trans e)) (h e)
  bye cmd d hc _ hs _ := by
    intro e
    rw [process_fedID] at e
    exact absurd (e.symm.trans (hs.trans hc)) h

/-- an event without a word of `x` that leads into executing mode -/
theorem step_entered_each {limit : Int} {f : Fed} {g : FedId} {R : DepInfo → Prop} {ok : Msg → Prop} (hi : Inv f) (hs : f.state ≠ .executing)
    (o : FedOp) (ho : o.sane f.tc.self) (hk : opOk ok o) (K : Kept f.tc.self ok R)
    (hown : ∀ m : Msg, m.source = f.tc.self → ok m) (hw : ∀ cmd, o = .msg cmd → rewires g cmd = false) (hg : g ≠ f.tc.self)
    (h : Has g (fun _ => True) f.tc.deps) (hR : Each R f.tc.deps) (he : (f.step limit o).1.state = .executing) :
    ∃ c : TC, c.info = f.tc.info ∧ Has g (fun _ => True) c.deps ∧ Each R c.deps ∧ (ExecEntry.plainEntry f o → c.iterating = .noIterations) ∧
      c.deps.readyForExecEntry (c.iterating != .noIterations) c.info.waitForCurrent = true := by
  have hrob : Robust (fun _ => True) := ⟨fun _ _ => trivial, fun _ _ => trivial, fun _ _ _ => trivial, fun _ _ _ => trivial⟩
  cases o with
  | msg cmd =>
    obtain ⟨c, t, h1, h2, h3, h4⟩ := processN_entered 4 f cmd hs ho.1 hi.self he
    obtain ⟨h5, h6⟩ := checkExecEntry_next h4
    refine ⟨c, h1, (has_tableAfter hrob h cmd (hw cmd rfl) (fun _ _ _ => trivial)).dr hrob h3 hg (fun _ _ _ => trivial),
      (each_tableAfter hR K cmd hk).dr K h3 hk, fun hp => ?_, h6⟩
    rw [h2]
    unfold modeAfter
    rw [if_neg (fun hx => ho.2 ⟨Or.inl hx.1, hx.2⟩)]
    exact hp
  | execRequest it =>
    simp only [step] at he
    split at he
    · unfold requestExec process at he
      have hsrc : (setIterationFlags { action := .execRequest, source := f.tc.self, dest := f.tc.self, indicator := true } it).source = f.tc.self := by
        cases it <;> rfl
      have hact : (setIterationFlags { action := .execRequest, source := f.tc.self, dest := f.tc.self, indicator := true } it).actionTime = 0 := by
        cases it <;> rfl
      have hac : (setIterationFlags { action := .execRequest, source := f.tc.self, dest := f.tc.self, indicator := true } it).action = .execRequest := by
        cases it <;> rfl
      have hin : (setIterationFlags { action := .execRequest, source := f.tc.self, dest := f.tc.self, indicator := true } it).indicator = true := by
        cases it <;> rfl
      have hit : it = .noIterations →
          (setIterationFlags { action := .execRequest, source := f.tc.self, dest := f.tc.self, indicator := true } it).iterationRequested = false := by
        intro e; subst e; rfl
      generalize setIterationFlags { action := .execRequest, source := f.tc.self, dest := f.tc.self, indicator := true } it = cmd at *
      obtain ⟨c, t, h1, h2, h3, h4⟩ := processN_entered 4 f cmd hs (by rw [hact]; decide) hi.self he
      obtain ⟨h5, h6⟩ := checkExecEntry_next h4
      have hk := hown cmd hsrc
      refine ⟨c, h1, (has_tableAfter hrob h cmd (by unfold rewires; rw [hsrc]; simp [Ne.symm hg]) (fun _ _ _ => trivial)).dr hrob h3 hg (fun _ _ _ => trivial),
        (each_tableAfter hR K cmd hk).dr K h3 hk, fun hp => ?_, h6⟩
      rw [h2]
      unfold modeAfter
      rw [if_pos ⟨hac, hsrc, hin⟩, hit hp.1]
      simp only [Bool.false_eq_true, if_false]
      unfold enteringExecMode
      rw [if_neg (by rw [hp.2]; simp)]
      repeat' split
      all_goals (try rfl)
      all_goals (simp only; repeat' split)
      all_goals rfl
    · exact absurd he hs
  | timeRequest t it nv nm =>
    simp only [step] at he
    rw [if_neg (fun h => hs h.1)] at he
    exact absurd he hs
  | value cmd => exact absurd he hs
  | message cmd => exact absurd he hs
  | setTime p v => simp only [step] at he; split at he <;> exact absurd he hs
  | setFlag p v => exact absurd he hs
  | setMaxIterations v => exact absurd he hs

theorem deaf_blocks {x own : FedId} {ds : Deps} {it w : Bool} (hx : x ≠ own) (h : Has x (fun _ => True) ds) (hd : Each (Deaf x) ds)
    (ho : Each (OwnMark own) ds) (hiw : it = false ∨ w = false) : ds.readyForExecEntry it w = false := by
  obtain ⟨d, hm, h1, h2, _⟩ := h
  have h3 := hd d hm h1
  have h4 : d.connection ≠ .self := fun e => hx (h1.symm.trans (ho d hm e))
  have key : ∀ p : DepInfo → Bool, p d = false → ds.all p = false := by
    intro p hp
    rw [List.all_eq_false]
    exact ⟨d, hm, by rw [hp]; simp⟩
  unfold readyForExecEntry
  cases it <;> cases w <;> simp only [Bool.false_eq_true, if_false, if_true]
  · apply key; simp [h2, h3, TimeState.rank, h4]
  · unfold allPastExec; apply key; simp [h2, h3, TimeState.rank, h4]
  · apply key; simp [h2, h3]
  · simp at hiw

/-! ### the invariant -/
namespace Tree
variable {K : Branches} {A : FedId} {hop : FedId → FedId → FedId} {limit : Int} {s0 s : Tree}

/-- the command is allowed -/
def Okay (K : Branches) (s0 : Tree) (m : Msg) : Prop := K.silent s0 m.source m.dest → asked m = false

def kidOf (s0 : Tree) (n x : FedId) : Prop := x ≠ invalidFed ∧ ∀ e ∈ (s0.fwd n).deps, e.fedID = x → e.connection = .child

structure Still (K : Branches) (A : FedId) (s0 s : Tree) : Prop where
  inv : ∀ i, FedId.isFederate i = true → Inv (s.fed i) ∧ (s.fed i).tc.self = i ∧ Each (OwnMark i) (s.fed i).tc.deps
  self : ∀ n, (s.fwd n).self = n
  chan : ∀ u v m, .cmd m ∈ s.chan u v → m.dest ≠ parentBroker ∧ (∃ me, Fit me m) ∧ Okay K s0 m
  pend : ∀ n m, m ∈ s.pend n → m.dest ≠ parentBroker ∧ Fit n m ∧ Okay K s0 m
  above : ∀ n, K.up n → n ≠ A → ∃ k g p, k ≠ .down ∧ K.up g ∧ (k ≠ .root → K.up p) ∧ Fwd.Hush k g p (kidOf s0 n) (s.fwd n)
  below : ∀ n, K.down n → ∃ p, K.silent s0 p n ∧ Fwd.Hush .down p p (kidOf s0 n) (s.fwd n)
  table : ∀ i, FedId.isFederate i = true → ∀ x, x ≠ i → K.silent s0 x i → Each (Deaf x) (s.fed i).tc.deps

/-- who is considered -/
structure Who (K : Branches) (A : FedId) : Prop where
  sender : FedId.isFederate A = true
  up : ∀ n, K.up n → n = A ∨ FedId.isFederate n = false
  down : ∀ n, K.down n → FedId.isFederate n = false

theorem silent_fed {n d : FedId} (hW : Who K A) (hn : FedId.isFederate n = true) (h : K.silent s0 n d) : n = A := by
  rcases h with h | ⟨h, _⟩
  · rcases hW.up n h with e | e
    · exact e
    · rw [hn] at e; cases e
  · rw [hW.down n h] at hn; cases hn

theorem not_asked_silent {m : Msg} (h : m.action = .execCheck ∨ m.action = .timeCheck) : asked m = false := by
  unfold asked; rcases h with h | h <;> rw [h]

theorem still_take (h : Still K A s0 s) (u v : FedId) : Still K A s0 (s.take u v) := by
  refine ⟨h.inv, h.self, ?_, h.pend, h.above, h.below, h.table⟩
  intro a b m hm
  apply h.chan a b m
  have hm : .cmd m ∈ (if a = u ∧ b = v then (s.chan a b).tail else s.chan a b) := hm
  split at hm
  · exact List.mem_of_mem_tail hm
  · exact hm

theorem still_put (h : Still K A s0 s) (u v : FedId) (x : Parcel)
    (hx : ∀ m, x = .cmd m → m.dest ≠ parentBroker ∧ (∃ me, Fit me m) ∧ Okay K s0 m) : Still K A s0 (s.put u v x) := by
  refine ⟨h.inv, h.self, ?_, h.pend, h.above, h.below, h.table⟩
  intro a b m hm
  rcases put_old hm with hm | ⟨e, _⟩
  · exact h.chan a b m hm
  · exact hx m e.symm

theorem still_unqueue (h : Still K A s0 s) (n : FedId) : Still K A s0 (s.unqueue n) :=
  ⟨h.inv, h.self, h.chan, fun k m hm => h.pend k m (unqueue_mem hm), h.above, h.below, h.table⟩

theorem still_fwd (h : Still K A s0 s) {n : FedId} (hn : FedId.isFederate n = false) (hW : Who K A) {w : Fwd} (hp : Plain (s.fwd n) w)
    (hup : ∀ k g p, k ≠ .down → K.up g → (k ≠ .root → K.up p) → K.up n → n ≠ A → Fwd.HAct k g p (kidOf s0 n) (s.fwd n) w)
    (hdown : ∀ p, K.silent s0 p n → K.down n → Fwd.HAct .down p p (kidOf s0 n) (s.fwd n) w)
    (hd : K.up n → n ≠ A → w.hasDelayed = false) :
    Still K A s0 (s.fwdAct n w) := by
  obtain ⟨hs, l, hl, hfit⟩ := hp
  have hself := h.self n
  have hnA : n ≠ A := by intro e; rw [e, hW.sender] at hn; cases hn
  refine ⟨h.inv, ?_, h.chan, ?_, ?_, ?_, h.table⟩
  · intro k
    rw [fwd_fwd]
    split
    · rename_i e; rw [hs, e]; exact hself
    · exact h.self k
  · intro k m hm
    rw [fwd_pend] at hm
    split at hm
    · rename_i e
      subst e
      rcases List.mem_append.mp hm with hm | hm
      · exact h.pend k m hm
      · obtain ⟨⟨q, hq, hmq⟩, hdp⟩ := fresh_mem hl hm
        have fit := hfit q hq m hmq
        rw [hself] at fit
        refine ⟨hdp, fit, ?_⟩
        intro hsil
        rcases fit.source with e | e | e
        · rw [e] at hsil
          rcases hsil with hu | ⟨hdn, hne, hkid⟩
          · obtain ⟨r, g, p, a1, a2, a3, hush⟩ := h.above k hu hnA
            obtain ⟨l', e1, e2⟩ := (hup r g p a1 a2 a3 hu hnA).out
            obtain ⟨⟨q', hq', hm'⟩, _⟩ := fresh_mem e1 hm
            exact e2 ⟨hush, fun _ => hd hu hnA⟩ q' hq' m hm' hdp (.inl a1)
          · obtain ⟨p, a1, hush⟩ := h.below k hdn
            obtain ⟨l', e1, e2⟩ := (hdown p a1 hdn).out
            obtain ⟨⟨q', hq', hm'⟩, _⟩ := fresh_mem e1 hm
            exact e2 ⟨hush, fun x => absurd rfl x⟩ q' hq' m hm' hdp (.inr ⟨hne, hkid⟩)
        · exact not_asked_silent (.inl e)
        · exact not_asked_silent (.inr e)
    · exact h.pend k m hm
  · intro k hk hkA
    obtain ⟨r, g, p, a1, a2, a3, hush⟩ := h.above k hk hkA
    refine ⟨r, g, p, a1, a2, a3, ?_⟩
    rw [fwd_fwd]
    split
    · rename_i e
      subst e
      exact (hup r g p a1 a2 a3 hk hkA).good ⟨hush, fun _ => hd hk hkA⟩
    · exact hush
  · intro k hk
    obtain ⟨p, a1, hush⟩ := h.below k hk
    refine ⟨p, a1, ?_⟩
    rw [fwd_fwd]
    split
    · rename_i e
      subst e
      exact (hdown p a1 hk).good ⟨hush, fun x => absurd rfl x⟩
    · exact hush

theorem own_or_deaf {x i : FedId} {o : FedOp} (h : opOk (NotFrom x) o) (m : Msg) (hm : m.source = i) (hx : x ≠ i) : NotFrom x m :=
  fun e => absurd (e.symm.trans hm) hx

/-- a federate takes a step; `A` does not ask -/
theorem still_fed (hW : Who K A) (h : Still K A s0 s) {i : FedId} (hi : FedId.isFederate i = true) {o : FedOp} (ho : o.sane i)
    (hk : ∀ x, x ≠ i → K.silent s0 x i → opOk (NotFrom x) o)
    (hA : ¬ HasAsked A (s.fedAct hop limit i o).1) : Still K A s0 (s.fedAct hop limit i o).1 := by
  obtain ⟨l, h1, h2⟩ := (Fed.sg_step limit (s.fed i) o).out
  obtain ⟨ki, kself, kown⟩ := h.inv i hi
  refine ⟨?_, h.self, ?_, h.pend, h.above, h.below, ?_⟩
  · intro k hk'
    rw [fed_fed]
    split
    · rename_i e
      subst e
      have ok := step_ok limit (s.fed k) o ki (by rw [kself]; exact ho)
      refine ⟨ok.inv, ok.self.trans kself, ?_⟩
      have K1 := kept_ownMark (s.fed k).tc.self
      have := each_step (limit := limit) (ok := fun _ => True) ki o (by rw [kself]; exact ho)
        (by cases o <;> trivial) K1 (fun _ => trivial) (fun _ _ _ => trivial) (by rw [kself]; exact kown)
      rw [kself] at this
      exact this
    · exact h.inv k hk'
  · intro a b m hm
    rw [fed_chan] at hm
    split at hm
    · rename_i e
      subst e
      rcases List.mem_append.mp hm with hm | hm
      · exact h.chan _ _ _ hm
      · obtain ⟨x, hx, e⟩ := List.mem_map.mp hm
        cases e
        obtain ⟨hx, _⟩ := List.mem_filter.mp hx
        obtain ⟨⟨p, hp, hmm⟩, hd⟩ := fresh_mem h1 hx
        have fit := h2 p hp m hmm
        refine ⟨hd, ⟨_, fit⟩, ?_⟩
        intro hsil
        rcases fit.source with e | e | e
        · rw [e, kself] at hsil
          have := silent_fed hW hi hsil
          subst this
          cases hask : asked m with
          | false => rfl
          | true =>
            exfalso
            apply hA
            refine ⟨p, ?_, m, hmm, hd, hask⟩
            rw [fed_fed, if_pos rfl, h1]
            exact List.mem_append.mpr (.inr hp)
        · exact not_asked_silent (.inl e)
        · exact not_asked_silent (.inr e)
    · exact h.chan _ _ _ hm
  · intro k hk' x hx hsil
    rw [fed_fed]
    split
    · rename_i e
      subst e
      exact each_step (limit := limit) ki o (by rw [kself]; exact ho) (hk x hx hsil)
        (kept_deaf (by rw [kself]; exact hx)) (fun _ => trivial) (fun m hm _ e => absurd (e.symm.trans (hm.trans kself)) hx) (h.table k hk' x hx hsil)
    · exact h.table k hk' x hx hsil

theorem still_hand (hW : Who K A) (h : Still K A s0 s) {n : FedId} {cmd : Msg} (hf : FedId.isFederate n = true → cmd.sane n)
    (hr : K.inner A n → Fwd.rewiring cmd = false ∧ Deps.nonneg cmd) (hs : K.silent s0 cmd.source n → asked cmd = false)
    (hd : ∀ x, K.up x → x ≠ A → ((s.hand hop limit n cmd).1.fwd x).hasDelayed = false)
    (hA : ¬ HasAsked A (s.hand hop limit n cmd).1) : Still K A s0 (s.hand hop limit n cmd).1 := by
  unfold hand at hd hA ⊢
  split
  · rename_i hn
    rw [if_pos hn] at hA
    exact still_fed hW h hn (o := .msg cmd) (hf hn) (fun x _ hx e => hs (by rw [e]; exact hx)) hA
  · rename_i hn
    rw [if_neg hn] at hd
    refine still_fwd h (by simpa using hn) hW (plain_handle _ _) ?_ ?_ ?_
    · intro k g p hk hg hp hu hnA
      obtain ⟨r1, r2⟩ := hr (.inl ⟨hu, hnA⟩)
      exact Fwd.hact_handle _ _ ⟨fun _ e => hs (by rw [e]; exact .inl hg), fun hk' e => hs (by rw [e]; exact .inl (hp hk')), r2⟩ r1
    · intro p hp hdn
      obtain ⟨r1, r2⟩ := hr (.inr hdn)
      exact Fwd.hact_handle _ _ ⟨fun hk => absurd rfl hk, fun _ e => hs (by rw [e]; exact hp), r2⟩ r1
    · intro hu hnA
      have := hd n hu hnA
      dsimp only at this
      rw [fwd_fwd, if_pos rfl] at this
      exact this

/-- A move of a history in which `A` does not ask keeps the silence. -/
theorem still_step (hW : Who K A) (h : Still K A s0 s) (m : Tmove) (hf : K.Fair A s0 s m)
    (hd : ∀ n, K.up n → n ≠ A → ((s.step hop limit m).1.fwd n).hasDelayed = false)
    (hA : ¬ HasAsked A (s.step hop limit m).1) : Still K A s0 (s.step hop limit m).1 := by
  cases m with
  | user i o =>
    obtain ⟨hu, ho⟩ := hf
    cases hi : FedId.isFederate i with
    | false => simp only [step, hi, Bool.false_eq_true, if_false]; exact h
    | true =>
      simp only [step, hi, if_true] at hA ⊢
      refine still_fed hW h hi ho (fun x _ _ => ?_) hA
      cases o <;> first | trivial | cases hu
  | env n cmd => exact still_hand hW h hf.1 hf.2.1 hf.2.2 hd hA
  | send i d t y =>
    simp only [step]
    split
    · exact still_put h _ _ _ (fun m e => nomatch e)
    · exact h
  | deliver u v noticed =>
    obtain ⟨ht, hr⟩ := hf
    cases hq : s.chan u v with
    | nil => simp only [step, hq]; exact h
    | cons x rest =>
      have hx : x.time ≤ maxVal := ht x (by rw [hq]; rfl)
      have hp := still_take h u v
      cases x with
      | cmd m =>
        obtain ⟨hdp, ⟨me, fit⟩, okay⟩ := h.chan u v m (by rw [hq]; simp)
        by_cases hdv : m.dest = v
        · have hst : s.step hop limit (.deliver u v noticed) = (s.take u v).hand hop limit v m := by simp only [step, hq, hdv, if_true]
          rw [hst] at hd hA ⊢
          refine still_hand hW hp ?_ ?_ ?_ hd hA
          · intro _
            refine ⟨hx, fun hbad => ?_⟩
            have := fit.own hbad.1
            rw [hbad.2.2] at this
            cases this
          · intro hi
            exact hr hi m (by rw [hq]; rfl) hdv
          · intro hs
            exact okay (by rw [hdv]; exact hs)
        · simp only [step, hq]
          rw [if_neg hdv]
          split
          · exact hp
          · exact still_put hp _ _ _ (fun m' e => by cases e; exact ⟨hdp, ⟨me, fit⟩, okay⟩)
      | data t a d y =>
        by_cases hdv : d = v
        · cases hn : (noticed && FedId.isFederate v) with
          | false =>
            simp only [step, hq]
            rw [if_pos hdv, hn, if_neg (by simp)]
            exact hp
          | true =>
            have hst : s.step hop limit (.deliver u v noticed) = (s.take u v).fedAct hop limit v
                (if y then .message { action := .sendMessage, source := a, dest := v, actionTime := t } else .value { action := .pub, source := a, dest := v, actionTime := t }) := by
              simp only [step, hq]
              rw [if_pos hdv, hn, if_pos rfl]
            simp only [Bool.and_eq_true] at hn
            rw [hst] at hA ⊢
            refine still_fed hW hp hn.2 ?_ ?_ hA
            · cases y <;> exact ⟨rfl, hx⟩
            · intro x _ _
              cases y <;> exact fun _ => rfl
        · simp only [step, hq]
          rw [if_neg hdv]
          split
          · exact hp
          · exact still_put hp _ _ _ (fun m' e => nomatch e)
  | flush n =>
    cases hq : s.pend n with
    | nil => simp only [step, hq]; exact h
    | cons m rest =>
      simp only [step, hq]
      obtain ⟨a1, a2, a3⟩ := h.pend n m (by rw [hq]; simp)
      exact still_put (still_unqueue h n) _ _ _ (fun m' e => by cases e; exact ⟨a1, ⟨n, a2⟩, a3⟩)
  | start n =>
    cases hn : FedId.isFederate n with
    | true => simp only [step, hn, if_true]; exact h
    | false =>
      have hst : s.step hop limit (.start n) = (s.fwdAct n (s.fwd n).start, none) := by simp only [step, hn, Bool.false_eq_true, if_false]
      rw [hst] at hd ⊢
      refine still_fwd h hn hW (plain_start _) ?_ ?_ ?_
      · intro k g p _ _ _ hu hnA
        exact Fwd.hact_start _ (hf (.inl ⟨hu, hnA⟩))
      · intro p _ hdn
        exact Fwd.hact_start _ (hf (.inr hdn))
      · intro hu hnA
        have := hd n hu hnA
        dsimp only at this
        rw [fwd_fwd, if_pos rfl] at this
        exact this
  | leave n =>
    cases hn : FedId.isFederate n with
    | true => simp only [step, hn, if_true]; exact h
    | false =>
      simp only [step, hn, Bool.false_eq_true, if_false]
      refine still_fwd h hn hW (plain_disconnect _) ?_ ?_ ?_
      · intro k g p _ _ _ hu hnA; exact absurd (.inl ⟨hu, hnA⟩) hf
      · intro p _ hdn; exact absurd (.inr hdn) hf
      · intro hu hnA; exact absurd (.inl ⟨hu, hnA⟩) hf

end Tree
end Verif
