import Verif.Props.ReduceCases
/-!
# C48: minimum change and repeated reading

A publication with a minimum change sends a value exactly when it differs from what it sent last; an input
with one keeps a value within the minimum change of the latest that arrived; reading twice returns the same.
-/
namespace Verif.Value
open Verif.Wire (Byte)

/-! ## Publications -/

/-- a history of publish calls: the state and the calls whose value was sent, latest first -/
def PubApi.run (L : Lib) (le : Bool) (ne : Val → Val → Bool) : PubApi → List PubCall → PubApi × List PubCall
  | s, [] => (s, [])
  | s, c :: t =>
    let r := s.step L le ne c
    let q := PubApi.run L le ne r.1 t
    (q.1, q.2 ++ (if r.2.isSome then [c] else []))

/-- what the receivers have: the last value sent, or `p0` -/
def latest (t : DT) (p0 : Val) : List PubCall → Val
  | [] => p0
  | c :: _ => (c.seen t).keep

theorem step_same {L : Lib} {le : Bool} {ne : Val → Val → Bool} (s : PubApi) (c : PubCall) :
    (s.step L le ne c).1.type = s.type ∧ (s.step L le ne c).1.changeOn = s.changeOn ∧ (s.step L le ne c).1.delta = s.delta := by
  unfold PubApi.step
  split
  · dsimp only
    split <;> split <;> exact ⟨rfl, rfl, rfl⟩
  · exact ⟨rfl, rfl, rfl⟩

theorem run_same {L : Lib} {le : Bool} {ne : Val → Val → Bool} : ∀ (cs : List PubCall) (s : PubApi),
    (PubApi.run L le ne s cs).1.type = s.type ∧ (PubApi.run L le ne s cs).1.changeOn = s.changeOn ∧ (PubApi.run L le ne s cs).1.delta = s.delta
  | [], _ => ⟨rfl, rfl, rfl⟩
  | c :: t, s => by
    have h1 := step_same (L := L) (le := le) (ne := ne) s c
    have h2 := run_same (L := L) (le := le) (ne := ne) t (s.step L le ne c).1
    exact ⟨h2.1.trans h1.1, h2.2.1.trans h1.2.1, h2.2.2.trans h1.2.2⟩

theorem step_on {L : Lib} {le : Bool} {ne : Val → Val → Bool} {s : PubApi} (h : s.changeOn = true) (c : PubCall) (hv : ∀ v, c ≠ .val v) :
    ((s.step L le ne c).2.isSome = changed L s.prev (c.seen s.type) s.delta) ∧
      (s.step L le ne c).1.prev = if changed L s.prev (c.seen s.type) s.delta then (c.seen s.type).keep else s.prev := by
  unfold PubApi.step
  rw [if_pos h]
  cases c with
  | val v => exact absurd rfl (hv v)
  | _ => dsimp only; split <;> simp_all

theorem run_latest {L : Lib} {le : Bool} {ne : Val → Val → Bool} : ∀ (cs : List PubCall) (s : PubApi), s.changeOn = true →
    (∀ c ∈ cs, ∀ v, c ≠ .val v) → (PubApi.run L le ne s cs).1.prev = latest s.type s.prev (PubApi.run L le ne s cs).2
  | [], _, _, _ => rfl
  | c :: t, s, h, hv => by
    have hs := step_same (L := L) (le := le) (ne := ne) s c
    have ho := step_on (L := L) (le := le) (ne := ne) h c (hv c (by simp))
    have ih := run_latest (L := L) (le := le) (ne := ne) t (s.step L le ne c).1 (hs.2.1.trans h) (fun c hc => hv c (by simp [hc]))
    simp only [PubApi.run]
    rw [ih, hs.1]
    cases hq : (PubApi.run L le ne (s.step L le ne c).1 t).2 with
    | cons d r => rfl
    | nil =>
      simp only [List.nil_append, latest]
      rw [ho.2, ho.1]
      split <;> rfl

/-- a call is sent exactly when its value differs from what the receivers have -/
theorem sent_iff_changed {L : Lib} {le : Bool} {ne : Val → Val → Bool} {s : PubApi} (h : s.changeOn = true) (cs : List PubCall) (c : PubCall)
    (hv : ∀ x ∈ cs, ∀ v, x ≠ .val v) (hc : ∀ v, c ≠ .val v) :
    let r := PubApi.run L le ne s cs
    ((r.1.step L le ne c).2.isSome = true ↔ changed L (latest s.type s.prev r.2) (c.seen s.type) s.delta = true) := by
  intro r
  have hs := run_same (L := L) (le := le) (ne := ne) cs s
  have := step_on (L := L) (le := le) (ne := ne) (s := r.1) (hs.2.1.trans h) c hc
  rw [this.1, run_latest cs s h hv, hs.1, hs.2.2]

/-- two values of the same type no further apart than the minimum change, or equal -/
def Near (L : Lib) (δ : Dbl) : Val → Val → Prop
  | .dbl a, .dbl b => a = b ∨ L.far a b δ = false
  | .int a, .int b => a = b ∨ ((a.toInt - b.toInt).natAbs : Int) ≤ (L.trunc δ).toInt
  | .str a, .str b => a = b
  | .cplx a, .cplx b => a = b ∨ (L.far a.re b.re δ = false ∧ L.far a.im b.im δ = false)
  | .vec a, .vec b => a = b ∨ (a.length = b.length ∧ ∀ x ∈ a.zip b, L.far x.1 x.2 δ = false)
  | .cvec a, .cvec b => a = b ∨ (a.length = b.length ∧ ∀ x ∈ a.zip b, L.cfar x.1 x.2 δ = false)
  | _, _ => False

/-- calls that publish anything but times, named points and variants -/
def PubCall.simple : PubCall → Bool
  | .time _ | .np _ | .field _ _ | .val _ => false
  | _ => true

theorem near_refl {L : Lib} {δ : Dbl} (c : PubCall) (t : DT) (hc : c.simple = true) : Near L δ (c.seen t).keep (c.seen t).keep := by
  cases c <;> simp only [PubCall.simple] at hc <;> first | (cases hc; done) | skip
  case chr c => cases t <;> simp [PubCall.seen, Got.keep, Near]
  all_goals simp [PubCall.seen, Got.keep, Near]

theorem near_of {L : Lib} {δ : Dbl} (p : Val) (c : PubCall) (t : DT) (hc : c.simple = true) (h : changed L p (c.seen t) δ = false) :
    Near L δ p (c.seen t).keep := by
  have chrInt' : ∀ x : Int64, changed L p (.int x) δ = false → Near L δ p (.int x) := by
    intro x h
    cases p <;> simp only [changed] at h <;> first | (cases h; done) | skip
    simp only [ifar, decide_eq_false_iff_not, Int.not_lt] at h
    exact Or.inr h
  have chrStr : ∀ x : Str, changed L p (.str x) δ = false → Near L δ p (.str x) := by
    intro x h
    cases p <;> simp only [changed] at h <;> first | (cases h; done) | skip
    simp only [bne_eq_false_iff_eq] at h
    exact h.symm
  have cv : ∀ x : List Cplx, changed L p (.cvec x) δ = false → Near L δ p (.cvec x) := by
    intro x h
    cases p <;> simp only [changed] at h <;> first | (cases h; done) | skip
    split at h
    · rename_i hl
      exact Or.inr ⟨hl.symm, fun y hy => by
        have := List.any_eq_false.mp h y hy
        simpa using this⟩
    · cases h
  cases c <;> simp only [PubCall.simple] at hc <;> first | (cases hc; done) | skip
  case dbl d =>
    cases p <;> simp only [PubCall.seen, changed] at h <;> first | (cases h; done) | skip
    exact Or.inr h
  case int d => exact chrInt' _ h
  case chr d => cases t <;> first | exact chrStr _ h | exact chrInt' _ h
  case bool d => exact chrStr _ h
  case str d => exact chrStr _ h
  case vec x =>
    cases p <;> simp only [PubCall.seen, changed] at h <;> first | (cases h; done) | skip
    split at h
    · rename_i hl
      exact Or.inr ⟨hl.symm, fun y hy => by
        have := List.any_eq_false.mp h y hy
        simpa using this⟩
    · cases h
  case cvec x => exact cv _ h
  case cptr x => exact cv _ h
  case cplx x =>
    cases p <;> simp only [PubCall.seen, changed] at h <;> first | (cases h; done) | skip
    simp only [Bool.or_eq_false_iff] at h
    exact Or.inr h

/-- what the receivers have is always near what was last published -/
theorem receivers_close {L : Lib} {le : Bool} {ne : Val → Val → Bool} {s : PubApi} (h : s.changeOn = true)
    (cs : List PubCall) (c : PubCall) (hv : ∀ x ∈ cs, ∀ v, x ≠ .val v) (hc : c.simple = true) :
    Near L s.delta (latest s.type s.prev (PubApi.run L le ne s (cs ++ [c])).2) (c.seen s.type).keep := by
  have key : ∀ (cs : List PubCall) (s : PubApi), s.changeOn = true → (∀ x ∈ cs, ∀ v, x ≠ .val v) →
      Near L s.delta (PubApi.run L le ne s (cs ++ [c])).1.prev (c.seen s.type).keep := by
    intro cs
    induction cs with
    | nil =>
      intro s h _
      have ho := step_on (L := L) (le := le) (ne := ne) h c (by intro v e; subst e; cases hc)
      simp only [List.nil_append, PubApi.run]
      rw [ho.2]
      split
      · exact near_refl c _ hc
      · rename_i hf
        exact near_of _ c _ hc (by simpa using hf)
    | cons e t ih =>
      intro s h hv
      have hs := step_same (L := L) (le := le) (ne := ne) s e
      have := ih (s.step L le ne e).1 (hs.2.1.trans h) (fun x hx => hv x (by simp [hx]))
      rw [hs.2.2, hs.1] at this
      exact this
  have hl := run_latest (L := L) (le := le) (ne := ne) (cs ++ [c]) s h (by
    intro x hx v
    simp only [List.mem_append, List.mem_singleton] at hx
    rcases hx with hx | rfl
    · exact hv x hx v
    · intro e; subst e; cases hc)
  rw [← hl]
  exact key cs s h hv

/-- doubles: a number is sent exactly when it is further from the last one sent than the minimum change -/
theorem double_sent_iff {L : Lib} {le : Bool} {ne : Val → Val → Bool} {s : PubApi} {p : Dbl} (h : s.changeOn = true) (cs : List PubCall)
    (hv : ∀ x ∈ cs, ∀ v, x ≠ .val v) (hp : latest s.type s.prev (PubApi.run L le ne s cs).2 = .dbl p) (d : Dbl) :
    ((PubApi.run L le ne s cs).1.step L le ne (.dbl d)).2 = (if L.far p d s.delta then some (publish L le s.type (.dbl d)) else none) := by
  have hs := run_same (L := L) (le := le) (ne := ne) cs s
  have hl := run_latest (L := L) (le := le) (ne := ne) cs s h hv
  rw [hp] at hl
  unfold PubApi.step
  rw [if_pos (hs.2.1.trans h), hl, hs.2.2, hs.1]
  simp only [PubCall.seen, changed]
  by_cases hf : L.far p d s.delta = true <;> simp only [hf, if_true, if_false, Bool.false_eq_true]

/-- without a minimum change every call is sent -/
theorem always_sent {L : Lib} {le : Bool} {ne : Val → Val → Bool} {s : PubApi} (h : s.changeOn = false) (c : PubCall) :
    s.step L le ne c = (s, some (publish L le s.type c)) := by
  unfold PubApi.step
  rw [if_neg (by simp [h])]

/-! ## Inputs -/

/-- type of a returned value -/
def Got.kind : Got → Kind
  | .dbl _ => .dbl | .int _ => .int | .str _ => .str | .cplx _ => .cplx | .vec _ => .vec | .cvec _ => .cvec
  | .np _ => .np | .bool _ => .bool | .time _ => .time | .chr _ => .chr

theorem map_kind {α : Type} {r : Res α} {f : α → Got} {g : Got} {k : Kind} (hf : ∀ a, (f a).kind = k) (h : r.map f = .ok g) : g.kind = k := by
  cases r with
  | ok a => simp only [Res.map_ok, Res.ok.injEq] at h; rw [← h]; exact hf a
  | fault => cases h
  | throw => cases h

theorem rd_kind {L : Lib} {le : Bool} {d : List Byte} {t : DT} {k : Kind} {g : Got} (h : rd L le d t k = .ok g) : g.kind = k := by
  cases k <;> exact map_kind (fun _ => rfl) h

theorem ex_kind {L : Lib} {v : Val} {k : Kind} {g : Got} (h : ex L v k = .ok g) : g.kind = k := by
  cases k <;> first | exact map_kind (fun _ => rfl) h | (simp only [ex, Res.ok.injEq] at h; rw [← h]; rfl)

theorem block_kind {L : Lib} {le : Bool} {s : Inp} {k : Kind} {g : Got} (h : s.block L le k = .ok g) : g.kind = k := by
  unfold Inp.block at h
  have bk : ∀ r : Res Val, (r.bind fun v => ex L v k) = .ok g → g.kind = k := by
    intro r h
    cases r with
    | ok v => exact ex_kind h
    | fault => cases h
    | throw => cases h
  split at h
  · exact bk _ h
  · split at h
    · exact bk _ h
    · exact rd_kind h

theorem chr_back (c : Byte) : toChar (chrInt c) = c := by
  unfold toChar chrInt
  ext i hi; rw [BitVec.truncate_eq_setWidth, BitVec.getElem_setWidth, BitVec.getLsbD_signExtend]; simp [hi]; omega

/-- a value kept is read back as it was -/
theorem keep_read (L : Lib) (g : Got) : ex L g.keep g.kind = .ok g := by
  cases g <;> try rfl
  case bool b => cases b <;> rfl
  case chr c => simp [Got.keep, Got.kind, ex, exChar, chr_back]

/-- reading twice in a row: same result, and the second time nothing changes any more -/
theorem read_twice {L : Lib} {le : Bool} {s s1 : Inp} {k : Kind} {g : Got} (h : s.getValue L le k = .ok (g, s1)) :
    s1.getValue L le k = .ok (g, s1) := by
  have again : ∀ (s1 : Inp), s1.fedUpd = false → s1.upd = false → ex L s1.last k = .ok g → s1.getValue L le k = .ok (g, s1) := by
    intro s1 h1 h2 h3
    have hf : s1.fresh = false := by simp [Inp.fresh, h1, h2]
    have ha : s1.asked = s1 := by simp [Inp.asked, h1, h2]
    unfold Inp.getValue
    by_cases hk : k = .chr
    · subst hk
      rw [if_pos rfl]
      unfold Inp.getChar
      rw [if_neg (by simp [hf]), Res.bind_ok, ha]
      simp only [ex] at h3
      cases hx : exChar L s1.last with
      | ok c =>
        rw [hx] at h3
        simp only [Res.map_ok, Res.ok.injEq] at h3 ⊢
        subst h3
        cases s1; simp_all
      | fault => rw [hx] at h3; cases h3
      | throw => rw [hx] at h3; cases h3
    · rw [if_neg hk, if_neg (by simp [hf]), h3, Res.map_ok, ha]
      cases s1; simp_all
  have hask : s.asked.fedUpd = false := by
    unfold Inp.asked
    split
    · rfl
    · rename_i h; simp only [Bool.or_eq_true, not_or, Bool.not_eq_true] at h; exact h.1
  unfold Inp.getValue at h
  by_cases hk : k = .chr
  · subst hk
    rw [if_pos rfl] at h
    unfold Inp.getChar at h
    generalize (if s.fresh then _ else _ : Res Val) = r at h
    cases r with
    | fault => cases h
    | throw => cases h
    | ok last =>
      rw [Res.bind_ok] at h
      cases hx : exChar L last with
      | ok c =>
        rw [hx] at h
        simp only [Res.map_ok, Res.ok.injEq, Prod.mk.injEq] at h
        obtain ⟨rfl, rfl⟩ := h
        exact again _ hask rfl (by simp [ex, hx])
      | fault => rw [hx] at h; cases h
      | throw => rw [hx] at h; cases h
  · rw [if_neg hk] at h
    have fin : ∀ last, ex L last k = .ok g → s1 = { s.asked with last := last, upd := false } → s1.getValue L le k = .ok (g, s1) := by
      rintro last hl rfl
      exact again _ hask rfl hl
    have old : (ex L s.last k).map (fun g => (g, { s.asked with upd := false })) = .ok (g, s1) → s1.getValue L le k = .ok (g, s1) := by
      intro h
      cases hx : ex L s.last k with
      | ok c =>
        rw [hx] at h
        simp only [Res.map_ok, Res.ok.injEq, Prod.mk.injEq] at h
        obtain ⟨rfl, rfl⟩ := h
        refine fin s.last hx ?_
        unfold Inp.asked
        split <;> rfl
      | fault => rw [hx] at h; cases h
      | throw => rw [hx] at h; cases h
    split at h
    · cases hb : s.block L le k with
      | fault => rw [hb] at h; cases h
      | throw => rw [hb] at h; cases h
      | ok b =>
        rw [hb, Res.bind_ok] at h
        have keepRead : ex L b.keep k = .ok b := by
          have := block_kind hb
          rw [← this]
          exact keep_read L b
        split at h
        · split at h
          · simp only [Res.ok.injEq, Prod.mk.injEq] at h
            obtain ⟨rfl, rfl⟩ := h
            exact fin _ keepRead rfl
          · exact old h
        · simp only [Res.ok.injEq, Prod.mk.injEq] at h
          obtain ⟨rfl, rfl⟩ := h
          exact fin _ keepRead rfl
    · exact old h

/-- what an input goes through: a double arrives, or it is read -/
inductive InOp
  | arrive (d : Dbl)
  | read (k : Kind)
  deriving DecidableEq
def Inp.apply (L : Lib) (le : Bool) (s : Inp) : InOp → Res Inp
  | .arrive d => s.arrive L le (encDbl le d)
  | .read k => (s.getValue L le k).map (·.2)
def Inp.run (L : Lib) (le : Bool) : Inp → List InOp → Res Inp
  | s, [] => .ok s
  | s, o :: t => (s.apply L le o).bind fun s => Inp.run L le s t

/-- a double input with a minimum change, without a reduction -/
structure Inp.Filtered (s : Inp) : Prop where
  inj : s.inj = .double
  on : s.changeOn = true
  idle : s.fedUpd = false
  last : ∃ p, s.last = .dbl p

theorem dbl_reads (L : Lib) (d : Dbl) (k : Kind) : ∃ g, ex L (.dbl d) k = .ok g := by cases k <;> exact ⟨_, rfl⟩

theorem filtered_read {L : Lib} {le : Bool} {s : Inp} (h : s.Filtered) (k : Kind) :
    ∃ g, s.getValue L le k = .ok (g, { s with upd := false }) ∧ ex L s.last k = .ok g := by
  obtain ⟨p, hp⟩ := h.last
  have hf : s.fresh = false := by simp [Inp.fresh, h.idle, h.on]
  have ha : s.asked = s := by simp [Inp.asked, h.idle, h.on]
  obtain ⟨g, hg⟩ := dbl_reads L p k
  refine ⟨g, ?_, by rw [hp]; exact hg⟩
  unfold Inp.getValue
  by_cases hk : k = .chr
  · subst hk
    rw [if_pos rfl]
    unfold Inp.getChar
    rw [if_neg (by simp [hf]), Res.bind_ok, ha, hp]
    simp only [ex] at hg
    cases hx : exChar L (.dbl p) with
    | ok c =>
      rw [hx] at hg
      simp only [Res.map_ok, Res.ok.injEq] at hg ⊢
      subst hg
      rw [← hp]
    | fault => rw [hx] at hg; cases hg
    | throw => rw [hx] at hg; cases hg
  · rw [if_neg hk, if_neg (by simp [hf]), hp, hg, Res.map_ok, ha, ← hp]

/-- an arriving number in the input's units -/
def Inp.conv (s : Inp) (d : Dbl) : Dbl := match s.units with | some f => f d | none => d

theorem filtered_arrive {L : Lib} {le : Bool} {s : Inp} (h : s.Filtered) (d : Dbl) :
    ∃ s1 x, s.arrive L le (encDbl le d) = .ok s1 ∧ s1.Filtered ∧ s1.last = .dbl x ∧ s1.delta = s.delta ∧ s1.units = s.units ∧
      (∀ p, s.last = .dbl p → if L.far p (s.conv d) s.delta then x = s.conv d ∧ s1.upd = true else x = p ∧ s1.upd = s.upd) := by
  obtain ⟨p, hp⟩ := h.last
  have hb : ∀ s' : Inp, s'.inj = .double → s'.units = s.units → s'.data = encDbl le d → s'.block L le .dbl = .ok (.dbl (s.conv d)) := by
    intro s' h1 h2 h3
    unfold Inp.block
    rw [if_pos h1, h2, h3]
    simp only [dblUnits, decDbl_enc, Res.map_ok, Res.bind_ok, ex, exDbl, Inp.conv]
    cases s.units <;> rfl
  have ha : s.arrive L le (encDbl le d) =
      .ok (if L.far p (s.conv d) s.delta then { s with data := encDbl le d, fedUpd := false, last := .dbl (s.conv d), upd := true }
        else { s with data := encDbl le d, fedUpd := false }) := by
    unfold Inp.arrive Inp.checkUpdate
    rw [if_pos h.on]
    dsimp only
    have hk : s.last.kind = .dbl := by rw [hp]; rfl
    rw [hk, hb { s with data := encDbl le d, fedUpd := false } h.inj rfl rfl, Res.map_ok]
    simp only [hp, changed, Got.keep]
  by_cases hf : L.far p (s.conv d) s.delta = true
  · rw [if_pos hf] at ha
    refine ⟨_, s.conv d, ha, ⟨h.inj, h.on, rfl, _, rfl⟩, rfl, rfl, rfl, ?_⟩
    intro q hq
    rw [hp] at hq
    cases hq
    rw [if_pos hf]
    exact ⟨rfl, rfl⟩
  · rw [if_neg hf] at ha
    refine ⟨_, p, ha, ⟨h.inj, h.on, rfl, p, hp⟩, hp, rfl, rfl, ?_⟩
    intro q hq
    rw [hp] at hq
    cases hq
    rw [if_neg hf]
    exact ⟨rfl, rfl⟩

theorem filtered_run {L : Lib} {le : Bool} : ∀ (os : List InOp) (s : Inp), s.Filtered →
    ∃ s1, s.run L le os = .ok s1 ∧ s1.Filtered ∧ s1.delta = s.delta ∧ s1.units = s.units
  | [], s, h => ⟨s, rfl, h, rfl, rfl⟩
  | .arrive d :: t, s, h => by
    obtain ⟨s1, x, ha, hf, _, hd, hu, _⟩ := filtered_arrive (L := L) (le := le) h d
    obtain ⟨s2, hr, h2, hd2, hu2⟩ := filtered_run (L := L) (le := le) t s1 hf
    exact ⟨s2, by simp only [Inp.run, Inp.apply, ha, Res.bind_ok, hr], h2, hd2.trans hd, hu2.trans hu⟩
  | .read k :: t, s, h => by
    obtain ⟨g, hg, _⟩ := filtered_read (L := L) (le := le) h k
    obtain ⟨s2, hr, h2, hd2, hu2⟩ := filtered_run (L := L) (le := le) t { s with upd := false } ⟨h.inj, h.on, h.idle, h.last⟩
    exact ⟨s2, by simp only [Inp.run, Inp.apply, hg, Res.map_ok, Res.bind_ok, hr], h2, hd2, hu2⟩

theorem filtered_reads {L : Lib} {le : Bool} : ∀ (ks : List Kind) (s : Inp), s.Filtered →
    ∃ s1, s.run L le (ks.map .read) = .ok s1 ∧ s1.Filtered ∧ s1.last = s.last
  | [], s, h => ⟨s, rfl, h, rfl⟩
  | k :: t, s, h => by
    obtain ⟨g, hg, _⟩ := filtered_read (L := L) (le := le) h k
    obtain ⟨s2, hr, h2, hl⟩ := filtered_reads (L := L) (le := le) t { s with upd := false } ⟨h.inj, h.on, h.idle, h.last⟩
    exact ⟨s2, by simp only [List.map_cons, Inp.run, Inp.apply, hg, Res.map_ok, Res.bind_ok, hr], h2, hl⟩

theorem run_append {L : Lib} {le : Bool} : ∀ (a b : List InOp) (s : Inp), s.run L le (a ++ b) = (s.run L le a).bind fun s => s.run L le b
  | [], _, _ => rfl
  | o :: t, b, s => by
    simp only [List.cons_append, Inp.run]
    cases s.apply L le o with
    | ok s1 => simp only [Res.bind_ok]; exact run_append t b s1
    | fault => rfl
    | throw => rfl

/-- whatever arrived before and however the input was read since, the number read is the latest that arrived, or no
further from it than the minimum change -/
theorem read_close {L : Lib} {le : Bool} {s : Inp} (h : s.Filtered) (before : List InOp) (d : Dbl) (reads : List Kind) :
    ∃ s1 s2 x, s.run L le (before ++ [.arrive d] ++ reads.map .read) = .ok s1 ∧ s1.getValue L le .dbl = .ok (.dbl x, s2) ∧
      (x = s.conv d ∨ L.far x (s.conv d) s.delta = false) := by
  obtain ⟨s1, hr1, hf1, hd1, hu1⟩ := filtered_run (L := L) (le := le) before s h
  obtain ⟨s2, x, ha, hf2, hl, hd2, hu2, hx⟩ := filtered_arrive (L := L) (le := le) hf1 d
  obtain ⟨s3, hr3, hf3, hl3⟩ := filtered_reads (L := L) (le := le) reads s2 hf2
  obtain ⟨g, hg, he⟩ := filtered_read (L := L) (le := le) hf3 .dbl
  rw [hl3, hl] at he
  simp only [ex, exDbl, Res.map_ok, Res.ok.injEq] at he
  subst he
  have hc : s1.conv d = s.conv d := by unfold Inp.conv; rw [hu1]
  refine ⟨s3, _, x, ?_, hg, ?_⟩
  · rw [run_append, run_append, hr1]
    simp only [Res.bind_ok, Inp.run, Inp.apply, ha, hr3]
  · obtain ⟨p, hp⟩ := hf1.last
    have := hx p hp
    rw [hc, hd1] at this
    split at this
    · exact Or.inl this.1
    · rename_i hf
      rw [this.1]
      exact Or.inr (by simpa using hf)

/-! ## Cases -/

def pub0 : PubApi := { type := .double, changeOn := true, delta := dZero }
def in0 : Inp := { inj := .double, changeOn := true, delta := dZero }
theorem in0_filtered : in0.Filtered := ⟨rfl, rfl, rfl, _, rfl⟩

example : Near demo dZero (latest .double pub0.prev (PubApi.run demo true (fun a b => a != b) pub0 ([.dbl dOne, .str []] ++ [.dbl dOne])).2) (.dbl dOne) :=
  receivers_close (s := pub0) rfl [.dbl dOne, .str []] (.dbl dOne) (by simp) rfl
example : ∃ s1 s2 x, in0.run demo true ([.arrive dZero, .read .str] ++ [.arrive dOne] ++ [.bool, .int].map .read) = .ok s1 ∧
    s1.getValue demo true .dbl = .ok (.dbl x, s2) ∧ (x = dOne ∨ demo.far x dOne dZero = false) :=
  read_close in0_filtered [.arrive dZero, .read .str] dOne [.bool, .int]

/-- the first value is compared with a zero that was never sent: a first value within the minimum change of zero is not sent -/
theorem bug_first_value (L : Lib) (le : Bool) (ne : Val → Val → Bool) (d δ : Dbl) (h : L.far dZero d δ = false) :
    PubApi.run L le ne { type := .double, changeOn := true, delta := δ } [.dbl d] = ({ type := .double, changeOn := true, delta := δ }, []) := by
  simp [PubApi.run, PubApi.step, PubCall.seen, changed, h]

/-- NaN is further from nothing than any distance, so it is never sent, and an input keeps its old number -/
theorem bug_nan_not_sent (L : Lib) (le : Bool) (ne : Val → Val → Bool) (s : PubApi) (p : Dbl) (h : s.changeOn = true) (hp : s.prev = .dbl p)
    (hn : ∀ a δ, L.far a dNaN δ = false) : (s.step L le ne (.dbl dNaN)).2 = none := by
  simp [PubApi.step, h, hp, PubCall.seen, changed, hn]

/-- an input with a minimum change compares what arrives as a double until it holds another type: a text that is not a
number is then read as the text of the "invalid" number -/
theorem bug_text_lost (L : Lib) (le : Bool) (s : Str) (δ : Dbl) (hs : s.length < 2 ^ 32) (ht : textDbl L s = .ok dInvalid)
    (hf : L.far dInvalid dInvalid δ = false) :
    ∃ s1 s2, ({ inj := .string, changeOn := true, delta := δ } : Inp).arrive L le (encStr s) = .ok s1 ∧ s1.upd = false ∧
      s1.getValue L le .str = .ok (.str (L.toStr dInvalid), s2) := by
  have hb : Inp.block L le { inj := .string, changeOn := true, delta := δ, data := encStr s } .dbl = .ok (.dbl dInvalid) := by
    unfold Inp.block
    rw [if_neg (by simp), if_neg (by simp)]
    simp only [rd, rdDbl, decStr_enc s hs, Res.bind_ok, ht, Res.map_ok]
  refine ⟨{ inj := .string, changeOn := true, delta := δ, data := encStr s }, { inj := .string, changeOn := true, delta := δ, data := encStr s }, ?_, rfl, rfl⟩
  unfold Inp.arrive Inp.checkUpdate
  rw [if_pos rfl]
  show Res.map _ (Inp.block L le { inj := .string, changeOn := true, delta := δ, data := encStr s } .dbl) = _
  rw [hb, Res.map_ok]
  simp [changed, hf]

end Verif.Value
