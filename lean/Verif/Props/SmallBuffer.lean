import Verif.Lemmas.SmallBuffer
/-!
# C25: the byte buffer is a byte string, and its memory is safe

`Spec` says what each call does to the byte strings users see; it mentions neither pointers nor ownership.
`Legal` lists what the caller has to respect and `Refused` when a call throws.
-/
namespace Verif
namespace SB
open World

/-! ## Specification -/

abbrev Views := Nat → Option (List Byte)

/-- `v` with buffer `b` holding `x` -/
def Views.set (v : Views) (b : Nat) (x : Option (List Byte)) : Views := fun k => if k = b then x else v k

def Alive (w : World) (b : Nat) : Prop := ∃ s, w.buf b = some s

/-- No buffer other than `b` uses block `n`. -/
def OnlyUser (w : World) (b n : Nat) : Prop := ∀ c t, c ≠ b → w.buf c = some t → t.ptr ≠ .blk n

/-- The buffer uses memory outside the object. -/
def Outside (w : World) (b : Nat) : Prop := ∃ s, w.buf b = some s ∧ s.alloc = true

/-- Block `n` is the outside memory of `b`. -/
def Uses (w : World) (b n : Nat) : Prop := ∃ s, w.buf b = some s ∧ s.ptr = .blk n

def Locked (w : World) (b : Nat) : Prop := ∃ s, w.buf b = some s ∧ s.locked = true

/-- `b` cannot be made to hold `n` bytes: it would have to grow, and it is locked or the size is beyond the limit. -/
def NoRoom (w : World) (b n : Nat) : Prop :=
  ∃ s, w.buf b = some s ∧ s.cap < n ∧ (bigSize < n ∨ s.locked = true)

/-- The argument is not a part of the buffer itself. -/
def Apart (b : Nat) (src : Src) : Prop := ∀ c off len, src = .part c off len → c ≠ b

/-- What the caller has to respect.  Every exclusion here is needed: see the counterexamples at the end. -/
def Legal (w : World) : Op → Prop
  | .new b | .newSize b _ _ => w.buf b = none
  | .newFrom b src => w.buf b = none ∧ ∃ d, w.srcBytes src = some d
  | .newMove b c => w.buf b = none ∧ Alive w c
  | .copyAssign b c => Alive w b ∧ Alive w c
  | .moveAssign b c => b ≠ c ∧ Alive w b ∧ Alive w c
  | .assign b src | .append b src => Alive w b ∧ (∃ d, w.srcBytes src = some d) ∧ Apart b src
  | .assignView b src => Alive w b ∧ (∃ d, w.srcBytes src = some d) ∧ ∀ c off len, src = .part c off len → c = b → off = 0
  | .del b | .popBack b | .reserve b _ | .resize b _ | .resizeWith b _ _ | .clear b | .nullTerminate b | .lock b _
  | .release b => Alive w b
  | .put b i _ checked => ∃ v, w.view b = some v ∧ (checked = true ∨ i < v.length)
  | .swap b c => Alive w b ∧ Alive w c ∧ (Outside w c → Outside w b)
  | .adopt b n size cap | .span b n size cap =>
    Alive w b ∧ size ≤ cap ∧ (∃ l, w.blk n = some l ∧ cap ≤ l.length) ∧ OnlyUser w b n
  | .user _ => True
  | .free n => (w.blk n).isSome = true ∧ ∀ c, ¬ Uses w c n

/-- The calls that throw. -/
def Refused (w : World) : Op → Prop
  | .newFrom _ src => ∃ d, w.srcBytes src = some d ∧ bigSize < d.length
  | .newSize _ n _ => bigSize < n
  | .copyAssign b c => b ≠ c ∧ ∃ v, w.view c = some v ∧ NoRoom w b v.length
  | .assign b src => ∃ d, w.srcBytes src = some d ∧ NoRoom w b d.length
  | .assignView b src => ∃ d, w.srcBytes src = some d ∧ NoRoom w b d.length
  | .append b src => ∃ v d, w.view b = some v ∧ w.srcBytes src = some d ∧ NoRoom w b (v.length + d.length)
  | .reserve b n | .resize b n | .resizeWith b n _ => NoRoom w b n
  | .nullTerminate b => ∃ v, w.view b = some v ∧ NoRoom w b (v.length + 1)
  | .put b i _ checked => checked = true ∧ ∃ v, w.view b = some v ∧ v.length ≤ i
  | _ => False

/-- What a call that does not throw does to the byte strings. -/
def Spec (w w' : World) : Op → Prop
  | .new b => w'.view = Views.set w.view b (some [])
  | .newFrom b src | .assign b src | .assignView b src => w'.view = Views.set w.view b (w.srcBytes src)
  | .newSize b n none => ∃ d, d.length = n ∧ w'.view = Views.set w.view b (some d)
  | .newSize b n (some x) => w'.view = Views.set w.view b (some (List.replicate n x))
  | .newMove b c => w'.view = Views.set (Views.set w.view b (w.view c)) c (some [])
  | .del b => w'.view = Views.set w.view b none
  | .copyAssign b c => w'.view = Views.set w.view b (w.view c)
  | .moveAssign b c =>
    (¬ Locked w b → w'.view = Views.set (Views.set w.view b (w.view c)) c (some [])) ∧
    (Locked w b → ∀ v, w.view c = some v →
      (¬ NoRoom w b v.length → w'.view = Views.set w.view b (some v)) ∧
      (NoRoom w b v.length → w'.view = w.view ∧ ∃ s, w'.buf b = some s ∧ s.err = 2))
  | .append b src => ∀ v d, w.view b = some v → w.srcBytes src = some d → w'.view = Views.set w.view b (some (v ++ d))
  | .popBack b => ∀ v, w.view b = some v → w'.view = Views.set w.view b (some v.dropLast)
  | .put b i x _ => ∀ v, w.view b = some v → w'.view = Views.set w.view b (some (v.set i x))
  | .reserve b n => w'.view = w.view ∧ ∃ s, w'.buf b = some s ∧ n ≤ s.cap
  | .resize b n => ∀ v, w.view b = some v →
      ∃ d, d.length = n ∧ d.take v.length = v.take n ∧ w'.view = Views.set w.view b (some d)
  | .resizeWith b n x => ∀ v, w.view b = some v →
      w'.view = Views.set w.view b (some (v.take n ++ List.replicate (n - v.length) x))
  | .clear b => w'.view = Views.set w.view b (some [])
  | .nullTerminate b => w'.view = w.view ∧ Terminated w' b
  | .lock b x => w'.view = w.view ∧ (Locked w' b ↔ x = true)
  | .swap b c => w'.view = Views.set (Views.set w.view b (w.view c)) c (w.view b)
  | .adopt b n size _ | .span b n size _ => ∀ l, w.blk n = some l → w'.view = Views.set w.view b (some (l.take size))
  | .release b => (Outside w b → w'.view = Views.set w.view b (some [])) ∧ (¬ Outside w b → w'.view = w.view)
  | .user _ | .free _ => w'.view = w.view

/-- The blocks the caller has to give back, before and after a call. -/
def Owed (w : World) (U : Nat → Prop) : Op → (Nat → Prop)
  | .adopt _ n _ _ => fun m => U m ∧ m ≠ n
  | .free n => fun m => U m ∧ m ≠ n
  | .release b => fun m => U m ∨ Uses w b m
  | .user _ => fun m => U m ∨ m = w.fresh
  | _ => U

/-! ## Theorems -/

theorem views_one {b : Nat} {w w' : World} (h : Keep (· = b) w w') {x} (hx : w'.view b = x) : w'.view = Views.set w.view b x := by
  funext k
  unfold Views.set
  split
  · next e => subst e; exact hx
  · next e => exact h.view e

theorem views_same {b : Nat} {w w' : World} (h : Keep (· = b) w w') (hx : w'.view b = w.view b) : w'.view = w.view := by
  rw [views_one h hx]
  funext k; unfold Views.set; split
  · next e => subst e; rfl
  · rfl

theorem views_two {b c : Nat} {w w' : World} (h : Keep (fun k => k = b ∨ k = c) w w') {x y} (hx : w'.view b = x) (hy : w'.view c = y)
    (hbc : b ≠ c) : w'.view = Views.set (Views.set w.view b x) c y := by
  funext k
  unfold Views.set
  by_cases e1 : k = c
  · subst e1; rw [if_pos rfl, hy]
  · rw [if_neg e1]
    by_cases e2 : k = b
    · subst e2; rw [if_pos rfl, hx]
    · rw [if_neg e2]; exact h.view (fun e => e.elim e2 e1)

theorem view_of {w : World} (h : w.WF) {b s} (hb : w.buf b = some s) : ∃ v, w.view b = some v ∧ v.length = s.size := by
  obtain ⟨l, hl, _⟩ := h.region hb
  exact ⟨_, h.view hb hl, view_size h hb (h.view hb hl)⟩

theorem noRoom_iff {w : World} {b s n} (hb : w.buf b = some s) : NoRoom w b n ↔ TooBig s n := by
  constructor
  · rintro ⟨s', h1, h2, h3⟩; rw [hb] at h1; cases h1; exact ⟨h2, h3⟩
  · intro h; exact ⟨s, hb, h⟩

/-- A legal call that is refused throws and changes nothing. -/
theorem refused_ok {w : World} (h : w.WF) {op : Op} (hl : Legal w op) (hr : Refused w op) : w.step op = .threw w := by
  cases op with
  | newFrom b src => obtain ⟨d, h1, h2⟩ := hr; exact constructFrom_no h hl.1 h1 h2
  | newSize b n v => exact constructSize_no h hl hr
  | copyAssign b c =>
    obtain ⟨e, v, h1, h2⟩ := hr
    obtain ⟨⟨s, hb⟩, _⟩ := hl
    exact copyAssign_no h hb h1 e ((noRoom_iff hb).mp h2)
  | assign b src =>
    obtain ⟨d, h1, h2⟩ := hr
    obtain ⟨⟨s, hb⟩, _, ha⟩ := hl
    exact assign_no h hb h1 ha ((noRoom_iff hb).mp h2)
  | assignView b src =>
    obtain ⟨d, h1, h2⟩ := hr
    obtain ⟨⟨s, hb⟩, _, ha⟩ := hl
    have h3 := (noRoom_iff hb).mp h2
    refine assignView_no h hb h1 ?_ h3
    rintro c off len rfl rfl
    have := ha c off len rfl rfl; subst this
    obtain ⟨v, hv, hlen⟩ := view_of h hb
    have hsz := (h.ok _ _ hb).2.1
    simp only [World.srcBytes, hv] at h1
    split at h1
    · cases h1
      have := h3.1
      simp at this; omega
    · cases h1
  | append b src =>
    obtain ⟨v, d, h1, h2, h3⟩ := hr
    obtain ⟨⟨s, hb⟩, _, ha⟩ := hl
    exact append_no h hb h2 ha (by rw [← view_size h hb h1]; exact (noRoom_iff hb).mp h3)
  | reserve b n => obtain ⟨s, hb⟩ := hl; exact reserve_no hb ((noRoom_iff hb).mp hr)
  | resize b n => obtain ⟨s, hb⟩ := hl; exact resize_no hb ((noRoom_iff hb).mp hr)
  | resizeWith b n x => obtain ⟨s, hb⟩ := hl; exact resizeWith_no hb ((noRoom_iff hb).mp hr)
  | nullTerminate b =>
    obtain ⟨s, hb⟩ := hl
    obtain ⟨v, h1, h2⟩ := hr
    have h2 := (noRoom_iff hb).mp h2
    rw [view_size h hb h1] at h2
    have hsz := (h.ok _ _ hb).2.1
    exact nullTerminate_no h hb ⟨by have := h2.1; omega, h2⟩
  | put b i x k =>
    obtain ⟨rfl, v, h1, h2⟩ := hr
    cases hb : w.buf b with
    | none => simp [World.view, hb] at h1
    | some s => exact put_no h hb h1 (by omega)
  | _ => exact hr.elim

/-- A legal call that is not refused does what the specification says, and is not undefined behaviour. -/
theorem call_ok {w : World} (h : w.WF) {op : Op} (hl : Legal w op) (hr : ¬ Refused w op) :
    ∃ w', w.step op = .done w' ∧ w'.WF ∧ Spec w w' op ∧ ∀ m, Loose w' m ↔ Owed w (Loose w) op m := by
  cases op with
  | new b =>
    obtain ⟨q1, q2, q3, q4⟩ := construct_ok h hl
    exact ⟨_, rfl, q1.wf, views_one q1 q3, q4⟩
  | newFrom b src =>
    obtain ⟨hb, d, hd⟩ := hl
    obtain ⟨w', q1, q2, q3, q4⟩ := constructFrom_ok h hb hd (fun e => hr ⟨d, hd, e⟩)
    exact ⟨w', q1, q2.wf, views_one q2 (q3.trans hd.symm), q4⟩
  | newSize b n v =>
    obtain ⟨w', d, q1, q2, q3, q4, q5, q6⟩ := constructSize_ok h hl (v := v) hr
    refine ⟨w', q1, q2.wf, ?_, q6⟩
    cases v with
    | none => exact ⟨d, q4, views_one q2 q3⟩
    | some x => exact views_one q2 (by rw [q3, q5 x rfl])
  | newMove b c =>
    obtain ⟨hb, t, hc⟩ := hl
    obtain ⟨w', q1, q2, q3, q4, q5⟩ := moveConstruct_ok h hb hc
    exact ⟨w', q1, q2.wf, views_two q2 q3 q4 (fun e => by subst e; rw [hb] at hc; cases hc), q5⟩
  | del b =>
    obtain ⟨s, hb⟩ := hl
    obtain ⟨w', q1, q2, q3, q4⟩ := destroy_ok h hb
    exact ⟨w', q1, q2.wf, views_one q2 (by simp [World.view, q3]), q4⟩
  | copyAssign b c =>
    obtain ⟨⟨s, hb⟩, t, hc⟩ := hl
    obtain ⟨v, hv, _⟩ := view_of h hc
    obtain ⟨w', q1, q2, q3, q4⟩ := copyAssign_ok h hb hv
      (by
        by_cases e : b = c
        · exact .inl e
        · exact .inr fun g => hr ⟨e, v, hv, (noRoom_iff hb).mpr g⟩)
    exact ⟨w', q1, q2.wf, views_one q2 (q3.trans hv.symm), q4⟩
  | moveAssign b c =>
    obtain ⟨hbc, ⟨s, hb⟩, t, hc⟩ := hl
    cases hlk : s.locked
    · obtain ⟨w', q1, q2, q3, q4, q5⟩ := moveAssign_ok h hbc hb hc hlk
      refine ⟨w', q1, q2.wf, ⟨fun _ => views_two q2 q3 q4 hbc, ?_⟩, q5⟩
      rintro ⟨s', h1, h2⟩; rw [hb] at h1; cases h1; rw [hlk] at h2; cases h2
    · obtain ⟨v, hv, _⟩ := view_of h hc
      obtain ⟨w', q1, q2, q3, q4⟩ := moveAssign_locked h hbc hb hv hlk
      refine ⟨w', q1, q2.wf, ⟨fun hn => absurd ⟨s, hb, hlk⟩ hn, ?_⟩, q3⟩
      intro _ v' hv'
      rw [hv] at hv'; cases hv'
      rcases q4 with ⟨g1, g2, g3⟩ | ⟨g1, g2⟩
      · exact ⟨fun hn => absurd ⟨s, hb, g1, .inr hlk⟩ hn, fun _ => ⟨views_same q2 g2, g3⟩⟩
      · refine ⟨fun _ => views_one q2 g2, ?_⟩
        intro hn; have := ((noRoom_iff hb).mp hn).1; omega
  | assign b src =>
    obtain ⟨⟨s, hb⟩, ⟨d, hd⟩, ha⟩ := hl
    obtain ⟨w', q1, q2, q3, q4⟩ := assign_ok h hb hd ha (fun g => hr ⟨d, hd, (noRoom_iff hb).mpr g⟩)
    exact ⟨w', q1, q2.wf, views_one q2 (q3.trans hd.symm), q4⟩
  | assignView b src =>
    obtain ⟨⟨s, hb⟩, ⟨d, hd⟩, ha⟩ := hl
    obtain ⟨w', q1, q2, q3, q4⟩ := assignView_ok h hb hd ha (fun g => hr ⟨d, hd, (noRoom_iff hb).mpr g⟩)
    exact ⟨w', q1, q2.wf, views_one q2 (q3.trans hd.symm), q4⟩
  | append b src =>
    obtain ⟨⟨s, hb⟩, ⟨d, hd⟩, ha⟩ := hl
    obtain ⟨v, hv, hlen⟩ := view_of h hb
    obtain ⟨w', q1, q2, q3, q4, _⟩ := append_ok h hb hd hv ha
      (fun g => hr ⟨v, d, hv, hd, (noRoom_iff hb).mpr (by rw [hlen]; exact g)⟩)
    refine ⟨w', q1, q2.wf, ?_, q4⟩
    intro v' d' hv' hd'
    rw [hv] at hv'; cases hv'; rw [hd] at hd'; cases hd'
    exact views_one q2 q3
  | popBack b =>
    obtain ⟨s, hb⟩ := hl
    obtain ⟨v, hv, hlen⟩ := view_of h hb
    obtain ⟨w', q1, q2, q3, q4, _⟩ := popBack_ok h hb hv
    refine ⟨w', q1, q2.wf, ?_, q4⟩
    intro v' hv'; rw [hv] at hv'; cases hv'
    exact views_one q2 q3
  | put b i x k =>
    obtain ⟨v, hv, hk⟩ := hl
    cases hb : w.buf b with
    | none => simp [World.view, hb] at hv
    | some s =>
      have hi : i < v.length := by
        rcases hk with hk | hk
        · apply Decidable.byContradiction; intro g; exact hr ⟨hk, v, hv, by omega⟩
        · exact hk
      obtain ⟨w', q1, q2, q3, q4⟩ := put_ok h hb hv (x := x) (k := k) hi
      refine ⟨w', q1, q2.wf, ?_, q4⟩
      intro v' hv'; rw [hv] at hv'; cases hv'
      exact views_one q2 q3
  | reserve b n =>
    obtain ⟨s, hb⟩ := hl
    obtain ⟨l, hlr, hcap⟩ := h.region hb
    obtain ⟨w', s', l', q1, q2, q3, q4, q5, q6, q7, q8, q9, q10, q11⟩ := reserve_ok h hb hlr (n := n) (fun g => hr ((noRoom_iff hb).mpr g))
    refine ⟨w', q1, q2.wf, ⟨views_same q2 ?_, s', q3, q7⟩, q11⟩
    rw [q2.wf.view q3 q4, h.view hb hlr, q6, q5]
  | resize b n =>
    obtain ⟨s, hb⟩ := hl
    obtain ⟨l, hlr, hcap⟩ := h.region hb
    obtain ⟨w', s', l', q1, q2, q3, q4, q5, q6, q7, q8, q9⟩ := resize_ok h hb hlr (n := n) (fun g => hr ((noRoom_iff hb).mpr g))
    refine ⟨w', q1, q2.wf, ?_, q9⟩
    intro v hv
    have hs := (h.ok b s hb).2.1
    rw [h.view hb hlr] at hv; cases hv
    obtain ⟨l'', e1, e2⟩ := q2.wf.region q3
    rw [q4] at e1; cases e1
    refine ⟨l'.take n, by simp; omega, ?_, ?_⟩
    · have : (l.take s.size).length = s.size := by simp; omega
      rw [this, List.take_take, Nat.min_comm, ← List.take_take, q5]
    · have hv := views_one q2 (q2.wf.view q3 q4)
      rw [q6] at hv
      exact hv
  | resizeWith b n x =>
    obtain ⟨s, hb⟩ := hl
    obtain ⟨v, hv, hlen⟩ := view_of h hb
    obtain ⟨w', q1, q2, q3, q4⟩ := resizeWith_ok h hb hv (x := x) (fun g => hr ((noRoom_iff hb).mpr g))
    refine ⟨w', q1, q2.wf, ?_, q4⟩
    intro v' hv'; rw [hv] at hv'; cases hv'
    exact views_one q2 q3
  | clear b =>
    obtain ⟨s, hb⟩ := hl
    obtain ⟨w', q1, q2, q3, q4⟩ := clear_ok h hb
    exact ⟨w', q1, q2.wf, views_one q2 q3, q4⟩
  | nullTerminate b =>
    obtain ⟨s, hb⟩ := hl
    obtain ⟨v, hv, hlen⟩ := view_of h hb
    obtain ⟨w', q1, q2, q3, q4, q5⟩ := nullTerminate_ok h hb
      (fun g => hr ⟨v, hv, (noRoom_iff hb).mpr (by rw [hlen]; exact g.2)⟩)
    exact ⟨w', q1, q2.wf, ⟨views_same q2 q3, q4⟩, q5⟩
  | lock b x =>
    obtain ⟨s, hb⟩ := hl
    obtain ⟨w', q1, q2, q3, ⟨s', q4, q5⟩, q6⟩ := lock_ok h hb (x := x)
    refine ⟨w', q1, q2.wf, ⟨views_same q2 q3, ?_⟩, q6⟩
    constructor
    · rintro ⟨s'', g1, g2⟩; rw [q4] at g1; cases g1; rw [← q5, g2]
    · intro e; exact ⟨s', q4, by rw [q5, e]⟩
  | swap b c =>
    obtain ⟨⟨s, hb⟩, ⟨t, hc⟩, ho⟩ := hl
    by_cases hbc : b = c
    · subst hbc
      refine ⟨w, swap_self hb, h, ?_, fun _ => Iff.rfl⟩
      show w.view = _
      funext k; unfold Views.set
      by_cases e : k = b
      · subst e; simp
      · simp [e]
    · obtain ⟨w', q1, q2, q3, q4, q5⟩ := swap_ok h hbc hb hc
        (by
          rintro ⟨g1, g2⟩
          obtain ⟨s', g3, g4⟩ := ho ⟨t, hc, g2⟩
          rw [hb] at g3; cases g3; rw [g1] at g4; cases g4)
      exact ⟨w', q1, q2.wf, views_two q2 q3 q4 hbc, q5⟩
  | adopt b n size cap =>
    obtain ⟨⟨s, hb⟩, h1, ⟨l, hl1, h2⟩, h3⟩ := hl
    obtain ⟨w', q1, q2, q3, q4⟩ := adopt_ok h hb hl1 h1 h2 h3
    refine ⟨w', q1, q2.wf, ?_, q4⟩
    intro l' hl'; rw [hl1] at hl'; cases hl'; exact views_one q2 q3
  | span b n size cap =>
    obtain ⟨⟨s, hb⟩, h1, ⟨l, hl1, h2⟩, h3⟩ := hl
    obtain ⟨w', q1, q2, q3, q4⟩ := span_ok h hb hl1 h1 h2 h3
    refine ⟨w', q1, q2.wf, ?_, q4⟩
    intro l' hl'; rw [hl1] at hl'; cases hl'; exact views_one q2 q3
  | release b =>
    obtain ⟨s, hb⟩ := hl
    obtain ⟨w', q1, q2, q3, q4⟩ := release_ok h hb
    refine ⟨w', q1, q2.wf, ⟨?_, ?_⟩, ?_⟩
    · rintro ⟨s', g1, g2⟩; rw [hb] at g1; cases g1
      exact views_one q2 (by rw [q3, if_pos g2])
    · intro hn
      exact views_same q2 (by rw [q3, if_neg (fun g => hn ⟨s, hb, g⟩)])
    · intro m
      rw [q4]
      refine or_congr Iff.rfl ⟨fun e => ⟨s, hb, e⟩, ?_⟩
      rintro ⟨s', g1, g2⟩; rw [hb] at g1; cases g1; exact g2
  | user l =>
    obtain ⟨q1, q2⟩ := user_ok h (l := l)
    exact ⟨_, rfl, q1.wf, funext fun k => q1.view (by simp), q2⟩
  | free n =>
    obtain ⟨h1, h2⟩ := hl
    obtain ⟨w', q1, q2, q3⟩ := free_ok h h1 (fun c t hc hp => h2 c ⟨t, hc, hp⟩)
    exact ⟨w', q1, q2.wf, funext fun k => q2.view (by simp), q3⟩

/-- The worlds histories of legal calls lead to, with the blocks the caller still owes; a call that throws is
over and the history goes on. -/
inductive Reach (junk : Nat → Nat → Byte) : World → (Nat → Prop) → Prop
  | start : Reach junk (World.empty junk) (fun _ => False)
  | done {w U op w'} : Reach junk w U → Legal w op → w.step op = .done w' → Reach junk w' (Owed w U op)
  | threw {w U op w'} : Reach junk w U → Legal w op → w.step op = .threw w' → Reach junk w' U

theorem empty_wf (junk) : (World.empty junk).WF :=
  ⟨fun _ _ h => (nomatch h), fun _ _ _ _ _ _ h => (nomatch h), fun _ _ => rfl⟩

theorem reach_inv {junk w U} (h : Reach junk w U) : w.WF ∧ ∀ n, Loose w n ↔ U n := by
  induction h with
  | start =>
    refine ⟨empty_wf junk, fun n => ⟨fun g => ?_, False.elim⟩⟩
    have := g.1; cases this
  | @done w U op w' _ hl hs ih =>
    obtain ⟨h1, h2⟩ := ih
    by_cases hr : Refused w op
    · rw [refused_ok h1 hl hr] at hs; cases hs
    · obtain ⟨w'', q1, q2, q3, q4⟩ := call_ok h1 hl hr
      rw [q1] at hs; cases hs
      refine ⟨q2, fun n => ?_⟩
      have : Loose w = U := funext fun n => propext (h2 n)
      rw [q4 n, this]
  | @threw w U op w' _ hl hs ih =>
    obtain ⟨h1, h2⟩ := ih
    by_cases hr : Refused w op
    · rw [refused_ok h1 hl hr] at hs; cases hs
      exact ⟨h1, h2⟩
    · obtain ⟨w'', q1, q2, q3, q4⟩ := call_ok h1 hl hr
      rw [q1] at hs; cases hs

/-- C25: after every history of legal calls, every further legal call is free of undefined behaviour; it throws
exactly when it is refused and then nothing has changed; otherwise the byte strings change as specified. -/
theorem C25_buffer {junk w U} (h : Reach junk w U) {op : Op} (hl : Legal w op) :
    (Refused w op → w.step op = .threw w) ∧
    (¬ Refused w op → ∃ w', w.step op = .done w' ∧ Spec w w' op) := by
  have hw := (reach_inv h).1
  refine ⟨refused_ok hw hl, fun hr => ?_⟩
  obtain ⟨w', q1, _, q3, _⟩ := call_ok hw hl hr
  exact ⟨w', q1, q3⟩

/-- C25: no memory is lost and none is freed behind the caller's back: after every history, the living blocks are
those the caller owes and those owned by exactly one living buffer. -/
theorem C25_memory {junk w U} (h : Reach junk w U) (n : Nat) :
    (w.blk n).isSome = true ↔ U n ∨ ∃ b s, w.buf b = some s ∧ s.ptr = .blk n ∧ s.nonOwning = false ∧
      ∀ c t, w.buf c = some t → t.ptr = .blk n → c = b := by
  obtain ⟨hw, hU⟩ := reach_inv h
  rw [← hU n]
  constructor
  · intro hs
    by_cases e : ∃ b s, w.buf b = some s ∧ s.ptr = .blk n ∧ s.nonOwning = false
    · obtain ⟨b, s, h1, h2, h3⟩ := e
      refine .inr ⟨b, s, h1, h2, h3, fun c t hc hp => ?_⟩
      apply Decidable.byContradiction
      intro g
      exact hw.sep b c s t n (fun e => g e.symm) h1 hc h2 hp
    · refine .inl ⟨hs, fun b s hb hp => ?_⟩
      cases hno : s.nonOwning
      · exact absurd ⟨b, s, hb, hp, hno⟩ e
      · rfl
  · rintro (g | ⟨b, s, h1, h2, h3, _⟩)
    · exact g.1
    · obtain ⟨_, _, g | ⟨_, m, l, g1, g2, _⟩⟩ := hw.ok b s h1
      · rw [h2] at g; cases g.2.1
      · rw [h2] at g1; cases g1; rw [g2]; rfl

/-- C25: when the last buffer is gone, only what the caller owes is left. -/
theorem C25_no_leak {junk w U} (h : Reach junk w U) (hd : ∀ b, w.buf b = none) (n : Nat) : (w.blk n).isSome = true ↔ U n := by
  rw [C25_memory h n]
  constructor
  · rintro (g | ⟨b, s, h1, _⟩)
    · exact g
    · rw [hd] at h1; cases h1
  · exact .inl

/-! ## Examples and counterexamples -/

def run (w : World) : List Op → Out
  | [] => .done w
  | op :: l => (w.step op).bind fun w => run w l

def Out.viewOf (o : Out) (b : Nat) : Option (List Byte) :=
  match o with
  | .done w => w.view b
  | _ => none

def Out.isUb : Out → Bool
  | .ub => true
  | _ => false

def zeros : Nat → Nat → Byte := fun _ _ => 0

/-- A history of legal calls that allocates, moves, appends and swaps; its last state meets the hypotheses above. -/
example : ∃ w U, Reach zeros w U ∧ Legal w (.append 2 (.part 1 1 2)) ∧ ¬ Refused w (.append 2 (.part 1 1 2)) ∧
    (w.view 2) = some (List.replicate 70 7) ∧ w.view 1 = some [1, 2, 3] := by
  have r1 := Reach.done (Reach.start (junk := zeros)) (w' := _) (op := .newSize 0 70 (some 7)) (by exact rfl) rfl
  have r2 := Reach.done r1 (op := .newFrom 1 (.bytes [1, 2, 3])) (by exact ⟨rfl, _, rfl⟩) rfl
  have r3 := Reach.done r2 (op := .newMove 2 0) (by exact ⟨rfl, _, rfl⟩) rfl
  refine ⟨_, _, r3, ⟨⟨_, rfl⟩, ⟨[2, 3], by decide +kernel⟩, by rintro c off len h; cases h; decide⟩, ?_, by decide +kernel, by decide +kernel⟩
  rintro ⟨v, d, h1, h2, s, h3, h4, h5⟩
  cases h3
  have hv : v = List.replicate 70 7 := by
    have : some v = some (List.replicate 70 7) := h1.symm.trans (by decide +kernel)
    exact Option.some.inj this
  have hd : d = [2, 3] := by
    have : some d = some [2, 3] := h2.symm.trans (by decide +kernel)
    exact Option.some.inj this
  subst hv; subst hd
  revert h4
  decide +kernel

/-- Swapping an inline buffer with one that has outside memory leaves the second buffer in the first one's inline
storage: the bytes move, but clearing up the first object then takes the bytes of the second. -/
theorem C25_swap_fails :
    let ops : List Op := [.newFrom 0 (.bytes [1, 2]), .newSize 1 70 (some 7), .swap 0 1]
    (run (World.empty zeros) ops).viewOf 1 = some [1, 2] ∧
    (run (World.empty zeros) (ops ++ [.del 0])).viewOf 1 = none ∧
    (run (World.empty zeros) (ops ++ [.new 2, .append 2 (.bytes [9, 9]), .moveAssign 0 2])).viewOf 1 = some [9, 9] := by
  decide +kernel

/-- Appending a buffer to itself reads memory already freed. -/
theorem C25_append_self_fails :
    (run (World.empty zeros) [.newSize 0 70 (some 7), .append 0 (.part 0 0 70)]).isUb = true := by decide +kernel

/-- Assigning a later part of a buffer to itself copies between overlapping ranges. -/
theorem C25_assign_self_fails :
    (run (World.empty zeros) [.newFrom 0 (.bytes [1, 2, 3]), .assign 0 (.part 0 1 2)]).isUb = true := by decide +kernel

/-- Moving a buffer to itself empties it when its bytes are inline, and does nothing otherwise. -/
theorem C25_self_move_fails :
    (run (World.empty zeros) [.newFrom 0 (.bytes [1, 2, 3]), .moveAssign 0 0]).viewOf 0 = some [] ∧
    (run (World.empty zeros) [.newSize 0 70 (some 7), .moveAssign 0 0]).viewOf 0 = some (List.replicate 70 7) := by
  decide +kernel

end SB
end Verif
