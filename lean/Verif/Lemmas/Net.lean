import Verif.Model.Net
import Verif.Lemmas.Signed
/-! Two federates of a federation, the sender's floor, what is on the way, and what the receiver's table says. -/
namespace Verif
open Causal

namespace Deps

theorem foldImpl_bound' (ig : FedId) (c : Int) (x : Time) (y : Time) (hx : 0 ≤ x) (hy : 0 ≤ y) (l : Deps) : ∀ m : TimeData,
    (m.next ≤ x ∧ m.Te ≤ y) ∨ (∃ d ∈ l, d.fedID ≠ ig ∧ (executing d = true → d.next ≤ x ∧ d.Te ≤ y)) →
    (l.foldl (minTimeImpl ig c) m).next ≤ x ∧ (l.foldl (minTimeImpl ig c) m).Te ≤ y := by
  induction l with
  | nil => intro m h; exact foldImpl_bound ig c x y hx hy [] m (h.imp id (fun ⟨d, hd, _⟩ => nomatch hd))
  | cons d l ih =>
    intro m h
    rw [List.foldl_cons]
    apply ih
    rcases h with h | ⟨e, he, h1, h2⟩
    · left
      have := foldImpl_bound ig c x y hx hy [d] m (.inl h)
      exact this
    · rcases List.mem_cons.1 he with rfl | he
      · left
        cases hex : executing e with
        | true => exact foldImpl_bound ig c x y hx hy [e] m (.inr ⟨e, by simp, h1, hex, h2 hex⟩)
        | false =>
          have h0 : e.state.rank < TimeState.granted.rank := by simp [executing] at hex; omega
          unfold minTimeImpl
          rw [if_pos h0, if_neg h1]
          obtain ⟨a, b, _⟩ := minTimeExec_fields m e
          rw [a, b]
          exact ⟨by show (-1 : Int) ≤ x; omega, hy⟩
      · exact .inr ⟨e, he, h1, h2⟩

theorem total_le' {ds : Deps} {d : DepInfo} (hd : d ∈ ds) (hdep : d.dependency = true) (hg : d.fedID ≠ invalidFed)
    {x y : Time} (hx : 0 ≤ x) (hr : Bool) (h1 : executing d = true → d.next ≤ x)
    (h2 : hr = false → executing d = true → d.Te ≤ y) (hy : hr = false → 0 ≤ y) (c : Int) :
    (minTimeTotal ds hr invalidFed invalidFed c).next ≤ if hr then x else max x y := by
  rw [minTimeTotal_eq]
  have hv : FedId.isValid invalidFed = false := by decide
  have hm : d ∈ totalParts ds invalidFed := by
    unfold totalParts; rw [List.mem_filter]; exact ⟨hd, by simp [hdep, hv]⟩
  obtain ⟨z, hz, hz1, hz2⟩ : ∃ z : Time, 0 ≤ z ∧ (executing d = true → d.Te ≤ z) ∧ (hr = false → z = y) := by
    cases hr with
    | false => exact ⟨y, hy rfl, h2 rfl, fun _ => rfl⟩
    | true => exact ⟨max 0 d.Te, by omega, fun _ => by omega, fun h => nomatch h⟩
  obtain ⟨k1, k2⟩ := foldImpl_bound' invalidFed c x z hx hz (totalParts ds invalidFed)
    (TimeData.ofStart maxVal .error) (Or.inr ⟨d, hm, hg, fun e => ⟨h1 e, hz1 e⟩⟩)
  generalize (totalParts ds invalidFed).foldl (minTimeImpl invalidFed c) (TimeData.ofStart maxVal .error) = m at k1 k2 ⊢
  unfold minTimeInit
  split
  · show (-1 : Int) ≤ _; split <;> omega
  · rw [(minTimeFinish_fields m hr).2.2.2]
    cases hr with
    | true => simp only [if_true]; exact k1
    | false =>
      have := hz2 rfl
      simp only [Bool.false_eq_true, if_false]
      omega

end Deps

namespace Causality
open Fed TC Deps

/-- the entry of `A`: nothing announced after `X`, and (with `F`) no event expected after `Y` -/
def Q (F : Prop) (A : FedId) (X Y : Time) (d : DepInfo) : Prop :=
  d.fedID = A → executing d = true → d.next ≤ X ∧ (F → d.Te ≤ Y)

/-- a command that, if it comes from `A`, announces nothing after `X` -/
def Speaks (F : Prop) (A : FedId) (X : Time) (m : Msg) : Prop :=
  m.source = A → m.action ≠ .globalError ∧ Within F X m

theorem kept_Q {F : Prop} {A B : FedId} (hAB : A ≠ B) {X Y : Time} (hXY : X ≤ Y) :
    Kept B (Speaks F A X) (Q F A X Y) (fun t => t ≤ Y) where
  fresh _ _ _ := fun _ h => nomatch h
  flags _ _ _ h := h
  again _ _ := fun _ h => nomatch h
  iterExec _ _ := fun _ h => nomatch h
  iterTime d h hs := fun e _ => by
    have := h e (by unfold executing; rw [hs]; decide)
    exact ⟨this.1, fun _ => by show d.next ≤ Y; omega⟩
  events d t ht h := fun e hx => by
    have := h e hx
    exact ⟨this.1, fun _ => by show max d.next t ≤ Y; omega⟩
  selfc d _ h := fun e => absurd (e.symm.trans h) hAB
  conn _ _ h _ := h
  version _ _ h := h
  process cmd d hk hs h := by
    intro e hx
    rw [process_fedID] at e
    have hk := hk (hs.symm.trans e)
    cases hw : word cmd with
    | silent =>
      obtain ⟨a, b, c⟩ := process_silent cmd d hw
      rw [a] at hx
      rw [b, c]
      exact h e hx
    | notStarted =>
      have := process_notStarted cmd d hw
      unfold NotStarted at this
      rw [this] at hx
      cases hx
    | «at» n t =>
      obtain ⟨_, b, c⟩ := process_at' cmd d n t hw
      have := hk.2 hk.1 n t hw
      exact ⟨by omega, fun hf => by have := this.2 hf; omega⟩
  bye cmd d hs _ hd _ := by
    intro e
    rw [process_fedID] at e
    exact absurd (e.symm.trans (hd.trans hs)) hAB

theorem Q.mono {F : Prop} {A : FedId} {X Y X' Y' : Time} {d : DepInfo} (h : Q F A X Y d) (h1 : X ≤ X') (h2 : Y ≤ Y') :
    Q F A X' Y' d := fun e hx => ⟨by have := (h e hx).1; omega, fun hf => by have := (h e hx).2 hf; omega⟩

/-- the latest event time the receiver may expect of the sender -/
def reach (X : Time) (f : Fed) : Time := if f.state = .executing then max X f.tc.granted else X

theorem reach_ge (X : Time) (f : Fed) : X ≤ reach X f := by unfold reach; split <;> omega
theorem reach_mono {X X' : Time} (f : Fed) (h : X ≤ X') : reach X f ≤ reach X' f := by unfold reach; split <;> omega

/-- the receiver's table, as long as it is not ending -/
def Table (F : Prop) (A : FedId) (X : Time) (f : Fed) : Prop :=
  f.state.rank ≤ FedState.executing.rank → Each (Q F A X (reach X f)) f.tc.deps

theorem Table.mono {F : Prop} {A : FedId} {X X' : Time} {f : Fed} (h : Table F A X f) (hx : X ≤ X') : Table F A X' f :=
  fun hr d hd => (h hr d hd).mono hx (reach_mono f hx)

theorem table_step {F : Prop} {A : FedId} {X : Time} {limit : Int} {f : Fed} (hi : Inv f) (hA : A ≠ f.tc.self) (o : FedOp)
    (ho : o.sane f.tc.self) (hk : opOk (Speaks F A X) o) (h : Table F A X f) : Table F A X (f.step limit o).1 := by
  intro hr
  have hok := step_ok limit f o hi ho
  have h1 : reach X f ≤ reach X (f.step limit o).1 := by
    unfold reach
    by_cases hs : f.state = .executing
    · have hs' := rank_exec hs hok.rank hr
      have := hok.mono hs hs'
      rw [if_pos hs, if_pos hs']
      omega
    · rw [if_neg hs]
      split <;> omega
  have h2 := each_step (limit := limit) hi o ho hk (kept_Q hA (reach_ge X f)) (ev := fun t => t ≤ reach X f)
    (fun hs => by unfold reach; rw [if_pos hs]; omega)
    (fun m hm _ e => absurd (e.symm.trans hm) hA) (h (Nat.le_trans hok.rank hr))
  exact fun d hd => (h2 d hd).mono (Int.le_refl _) h1

/-- facts about all entries, and the presence of a dependency, in the state that permits a time -/
theorem step_permitted_each {limit : Int} {f : Fed} {g : FedId} {R : DepInfo → Prop} {ok : Msg → Prop} {ev : Time → Prop}
    (hi : Inv f) (hs : f.state = .executing) (o : FedOp) (ho : o.sane f.tc.self) (hk : opOk ok o)
    (K : Kept f.tc.self ok R ev) (hev : ev f.tc.granted)
    (hown : ∀ m : Msg, m.source = f.tc.self → m.action = .timeCheck ∨ m.action = .execRequest → ok m)
    (hw : ∀ cmd, o = .msg cmd → rewires g cmd = false ∧ cmd.action ≠ .forceTimeGrant) (hg : g ≠ f.tc.self)
    (h : Has g (fun _ => True) f.tc.deps) (hR : Each R f.tc.deps) (T : Time) (hT : returned (f.step limit o) = some T) :
    ∃ c : TC, c.info = f.tc.info ∧ c.globalTime = f.tc.globalTime ∧ Has g (fun _ => True) c.deps ∧ Each R c.deps ∧ Permits c T := by
  have hrob : Robust (fun _ => True) := ⟨fun _ _ => trivial, fun _ _ => trivial, fun _ _ _ => trivial, fun _ _ _ => trivial⟩
  cases o with
  | msg cmd =>
    have he := process_effect f cmd hs (fun hx => ho.2 ⟨Or.inl hx.1, hx.2.1, hx.2.2⟩) hi.self
    obtain ⟨c, hc, hd, ht⟩ := granted_permitted he hi hs (hw cmd rfl).2 T hT
    exact ⟨c, congrArg Core.info hc, congrArg Core.globalTime hc,
      (has_tableAfter hrob h cmd (hw cmd rfl).1 (fun _ _ _ => trivial)).dr hrob hd hg (fun _ _ _ => trivial),
      (each_tableAfter hR K cmd hk).dr K hd hk, ht⟩
  | timeRequest t it nv nm =>
    simp only [step] at hT
    split at hT
    · unfold request at hT
      have hsf := timeRequest_fields f.tc t (f.limitIter limit it) nv nm
      obtain ⟨e1, e2, e3, e4, e5, e6, e7, e8⟩ := hsf
      have hgt := gt_timeRequest f.tc t (f.limitIter limit it) nv nm
      have hinv : Inv { f with tc := f.tc.timeRequest t (f.limitIter limit it) nv nm, mode := false } := by
        refine ⟨⟨?_, ?_, ?_, ?_⟩, ?_, ?_⟩
        · show TC.grantBase _ = TC.granted _; rw [e1, e2]; exact hi.good.base
        · show TC.granted _ ≤ _; rw [e1]; exact hi.good.range
        · show _ ≤ (TC.info _).timeDelta ∧ _; rw [e3]; exact hi.good.delta
        · show _ ≤ (TC.info _).offset ∧ _; rw [e3]; exact hi.good.offset
        · show TC.self _ ≠ _; rw [e4]; exact hi.self
        · intro _ _
          show TC.granted _ ≤ TC.requested _
          rw [e1, e8]
          have := nextPossible_ge' f.tc hi.good
          split <;> split <;> omega
      have he := process_effect { f with tc := f.tc.timeRequest t (f.limitIter limit it) nv nm, mode := false }
        { action := .timeCheck, source := f.tc.self, dest := f.tc.self, actionTime := t } hs
        (fun hx => by have := hx.1; cases this) hinv.self
      have h0 : Has g (fun _ => True) (f.tc.timeRequest t (f.limitIter limit it) nv nm).deps := by
        rw [deps_timeRequest]
        refine h.map _ (fun d hd hdep => ?_)
        rw [if_pos hdep]
        exact ⟨rfl, rfl, trivial⟩
      have h1 : Each R (f.tc.timeRequest t (f.limitIter limit it) nv nm).deps := by
        rw [deps_timeRequest]; exact hR.resetEvents K _ hev
      obtain ⟨c, hc, hd, ht⟩ := granted_permitted he hinv hs (by simp) T hT
      rw [tableAfter_check _ _ (Or.inr rfl)] at hd
      refine ⟨c, (congrArg Core.info hc).trans e3, (congrArg Core.globalTime hc).trans hgt, ?_, ?_, ht⟩
      · exact h0.dr hrob hd (by show g ≠ TC.self _; rw [e4]; exact hg) (fun _ _ _ => trivial)
      · have K' : Kept (f.tc.timeRequest t (f.limitIter limit it) nv nm).self ok R ev := by rw [e4]; exact K
        exact h1.dr K' hd (hown _ rfl (Or.inl rfl))
    · unfold returned at hT; rw [if_pos hs] at hT; cases hT
  | execRequest it =>
    simp only [step] at hT
    rw [if_neg (by rw [hs]; simp)] at hT
    unfold returned at hT; rw [if_pos hs] at hT; cases hT
  | value cmd => rw [returned_none (by simp [step]) (by simp [step]) (by simp [step])] at hT; cases hT
  | message cmd => rw [returned_none (by simp [step]) (by simp [step]) (by simp [step])] at hT; cases hT
  | setTime p v =>
    simp only [step] at hT
    split at hT <;> (rw [returned_none (by simp) (by simp) (by simp)] at hT; cases hT)
  | setFlag p v => rw [returned_none (by simp [step]) (by simp [step]) (by simp [step])] at hT; cases hT
  | setMaxIterations v => rw [returned_none (by simp [step]) (by simp [step]) (by simp [step])] at hT; cases hT

/-- the receiver's grants: bounded by `X`, or (in the default mode) by what it holds -/
theorem grant_bound {F : Prop} {A : FedId} {X : Time} {limit : Int} {f : Fed} (hi : Inv f) (hA : A ≠ f.tc.self)
    (hv : A ≠ invalidFed) (hX : 0 ≤ X) (o : FedOp)
    (ho : o.sane f.tc.self) (hk : opOk (Speaks F A X) o) (h : Table F A X f) (hs : f.state = .executing)
    (hw : ∀ cmd, o = .msg cmd → rewires A cmd = false ∧ cmd.action ≠ .forceTimeGrant)
    (hdep : Has A (fun _ => True) f.tc.deps) (hfar : far f.tc.info (if f.tc.info.restrictive || f.tc.globalTime then X else max X f.tc.granted))
    (hkind : (f.tc.info.restrictive || f.tc.globalTime) = true ∨ F)
    (T : Time) (hT : returned (f.step limit o) = some T) :
    T ≤ f.tc.info.inputDelay + (if f.tc.info.restrictive || f.tc.globalTime then X else max X f.tc.granted) := by
  obtain ⟨c, hc, hgt, ⟨d, hd, h1, h2, _⟩, hR, hp⟩ := step_permitted_each (limit := limit) (g := A) hi hs o ho hk
    (kept_Q hA (reach_ge X f)) (ev := fun t => t ≤ reach X f) (by unfold reach; rw [if_pos hs]; omega)
    (fun m hm _ e => absurd (e.symm.trans hm) hA) hw hA hdep (h (by rw [hs]; exact Nat.le_refl _)) T hT
  have hq := hR d hd h1
  have hdl := hi.good.delta
  generalize hB : (if f.tc.info.restrictive || f.tc.globalTime then X else max X f.tc.granted : Time) = B at hfar ⊢
  have ht := total_le' hd h2 (by rw [h1]; exact hv) (y := reach X f) hX (c.info.restrictive || c.globalTime) (fun e => (hq e).1)
    (fun e hx => (hq hx).2 (by
      rcases hkind with hk | hk
      · rw [hc, hgt, hk] at e; cases e
      · exact hk))
    (fun _ => by have := reach_ge X f; omega) c.seq
  have hb : (minTimeTotal c.deps (c.info.restrictive || c.globalTime) invalidFed invalidFed c.seq).next ≤ B := by
    refine Int.le_trans ht ?_
    rw [hc, hgt, ← hB]
    unfold reach
    rw [if_pos hs]
    split <;> omega
  have ha : c.updateTimeFactors.allow ≤ f.tc.info.inputDelay + B := by
    rw [updateTimeFactors_allow]
    simp only
    unfold far at hfar
    clear ht
    generalize (minTimeTotal c.deps (c.info.restrictive || c.globalTime) invalidFed invalidFed c.seq).next = tn at hb ⊢
    rw [hc]
    rw [if_pos (by omega)]
    omega
  unfold far at hfar
  rcases hp.limit with ⟨_, h3⟩ | h3
  · exfalso; omega
  · omega

end Causality
end Verif
