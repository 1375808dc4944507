import Verif.Lemmas.Values
import Verif.Model.InputApi
/-! What a publication sends is a well-formed block of a known type. -/
namespace Verif.Value
open Verif.Wire (Byte)

/-- type of the block a publication of type `t` always sends -/
def stored : DT → Option DT
  | .double => some .double
  | .int | .time => some .int
  | .string | .char | .bool => some .string
  | .complex => some .complex
  | .vector => some .vector
  | .cvector => some .cvector
  | .namedPoint => some .namedPoint
  | _ => none

/-- a block of a publication of type `t` -/
def Shape (le : Bool) (t : DT) (b : List Byte) : Prop := ∃ v : Val, b = encVal le v ∧ ∀ u, stored t = some u → v.loc' = u

macro "shape_tac" : tactic => `(tactic| first
  | exact ⟨.dbl _, rfl, by intro u h; cases h <;> rfl⟩
  | exact ⟨.int _, rfl, by intro u h; cases h <;> rfl⟩
  | exact ⟨.str _, rfl, by intro u h; cases h <;> rfl⟩
  | exact ⟨.cplx _, rfl, by intro u h; cases h <;> rfl⟩
  | exact ⟨.vec _, rfl, by intro u h; cases h <;> rfl⟩
  | exact ⟨.cvec _, rfl, by intro u h; cases h <;> rfl⟩
  | exact ⟨.np _, rfl, by intro u h; cases h <;> rfl⟩)

theorem empty_shape (L : Lib) (le : Bool) (t i : DT) : Shape le t (emptyBlock L le t i) := by
  cases t <;> cases i <;> shape_tac

theorem cvtDbl_shape (L : Lib) (le : Bool) (t : DT) (d : Dbl) (h : t ≠ .json) : Shape le t (cvtDbl L le t d) := by
  cases t <;> first | exact absurd rfl h | shape_tac
theorem cvtInt_shape (L : Lib) (le : Bool) (t : DT) (d : Int64) (h : t ≠ .json) : Shape le t (cvtInt L le t d) := by
  cases t <;> first | exact absurd rfl h | shape_tac | skip
  simp only [cvtInt]
  split <;> shape_tac

theorem thr_ok {α : Type} {o : Option α} {a : α} (h : thr o = .ok a) : o = some a := by
  cases o with
  | none => cases h
  | some x => cases h; rfl
theorem map_ok_iff {α β : Type} {r : Res α} {f : α → β} {b : β} (h : r.map f = .ok b) : ∃ a, r = .ok a ∧ b = f a := by
  cases r with
  | ok a => cases h; exact ⟨a, rfl, rfl⟩
  | fault => cases h
  | throw => cases h
theorem bind_ok_iff {α β : Type} {r : Res α} {f : α → Res β} {b : β} (h : r.bind f = .ok b) : ∃ a, r = .ok a ∧ f a = .ok b := by
  cases r with
  | ok a => exact ⟨a, rfl, h⟩
  | fault => cases h
  | throw => cases h

theorem cvtStr_shape (L : Lib) (le : Bool) (t : DT) (s : Str) (h : t ≠ .json) {b : List Byte}
    (hb : cvtStr L le t s = .ok b) : Shape le t b := by
  unfold cvtStr at hb
  split at hb
  · cases hb; exact empty_shape _ _ _ _
  · cases t <;> first
      | exact absurd rfl h
      | (cases hb; shape_tac)
      | (obtain ⟨d, _, rfl⟩ := map_ok_iff hb; shape_tac)

theorem cvtVec_shape (L : Lib) (le : Bool) (t : DT) (v : List Dbl) (h : t ≠ .json) : Shape le t (cvtVec L le t v) := by
  match v with
  | [] => exact empty_shape L le t .vector
  | [x] => exact cvtDbl_shape _ _ _ _ h
  | x :: y :: z => cases t <;> first | exact absurd rfl h | shape_tac
theorem cvtCplx_shape (L : Lib) (le : Bool) (t : DT) (c : Cplx) (h : t ≠ .json) : Shape le t (cvtCplx L le t c) := by
  unfold cvtCplx
  split
  · exact cvtDbl_shape _ _ _ _ h
  · cases t <;> first | exact absurd rfl h | shape_tac
theorem cvtCVec_shape (L : Lib) (le : Bool) (t : DT) (v : List Cplx) (h : t ≠ .json) : Shape le t (cvtCVec L le t v) := by
  match v with
  | [] => exact empty_shape L le t .cvector
  | [x] => exact cvtCplx_shape _ _ _ _ h
  | x :: y :: z => cases t <;> first | exact absurd rfl h | shape_tac
theorem cvtCPtr_shape (L : Lib) (le : Bool) (t : DT) (v : List Cplx) (h : t ≠ .json) : Shape le t (cvtCPtr L le t v) := by
  match v with
  | [] => exact empty_shape L le t .cvector
  | [x] => exact cvtCplx_shape _ _ _ _ h
  | x :: y :: z => cases t <;> first | exact absurd rfl h | shape_tac
theorem cvtNP_shape (L : Lib) (le : Bool) (t : DT) (p : NPoint) (h : t ≠ .json) {b : List Byte}
    (hb : cvtNP L le t p = .ok b) : Shape le t b := by
  unfold cvtNP at hb
  split at hb
  · rename_i ht; subst ht; cases hb; shape_tac
  · split at hb
    · exact cvtStr_shape _ _ _ _ h hb
    · cases hb
      cases t <;> first | exact absurd rfl h | shape_tac
theorem cvtField_shape (L : Lib) (le : Bool) (t : DT) (s : Str) (d : Dbl) (h : t ≠ .json) {b : List Byte}
    (hb : cvtField L le t s d = .ok b) : Shape le t b := by
  unfold cvtField at hb
  split at hb
  · rename_i ht; subst ht; cases hb; shape_tac
  · split at hb
    · exact cvtStr_shape _ _ _ _ h hb
    · cases hb
      cases t <;> first | exact absurd rfl h | shape_tac
theorem cvtVal_shape (L : Lib) (le : Bool) (t : DT) (v : Val) (h : t ≠ .json) {b : List Byte}
    (hb : cvtVal L le t v = .ok b) : Shape le t b := by
  cases v with
  | dbl d => cases hb; exact cvtDbl_shape _ _ _ _ h
  | int d => cases hb; exact cvtInt_shape _ _ _ _ h
  | str s => exact cvtStr_shape _ _ _ _ h hb
  | cplx d => cases hb; exact cvtCplx_shape _ _ _ _ h
  | vec d => cases hb; exact cvtVec_shape _ _ _ _ h
  | cvec d => cases hb; exact cvtCVec_shape _ _ _ _ h
  | np s => exact cvtNP_shape _ _ _ _ h hb

/-- every publish call on a publication of type `t` sends a block of the type `t` stands for -/
theorem publish_shape (L : Lib) (le : Bool) (t : DT) (c : PubCall) (h : t ≠ .json) {b : List Byte}
    (hb : publish L le t c = .ok b) : Shape le t b := by
  cases c with
  | dbl d => cases hb; exact cvtDbl_shape _ _ _ _ h
  | int d => cases hb; exact cvtInt_shape _ _ _ _ h
  | chr c =>
    simp only [publish] at hb
    split at hb
    · exact cvtStr_shape _ _ _ _ h hb
    · exact cvtStr_shape _ _ _ _ h hb
    · exact cvtStr_shape _ _ _ _ h hb
    · exact cvtStr_shape _ _ _ _ h hb
    · cases hb; exact cvtInt_shape _ _ _ _ h
  | time d => cases hb; exact cvtInt_shape _ _ _ _ h
  | bool b => exact cvtStr_shape _ _ _ _ h hb
  | str s => exact cvtStr_shape _ _ _ _ h hb
  | cplx d => cases hb; exact cvtCplx_shape _ _ _ _ h
  | vec d => cases hb; exact cvtVec_shape _ _ _ _ h
  | cvec d => cases hb; exact cvtCVec_shape _ _ _ _ h
  | cptr d => cases hb; exact cvtCPtr_shape _ _ _ _ h
  | np s => exact cvtNP_shape _ _ _ _ h hb
  | field s d => exact cvtField_shape _ _ _ _ _ h hb
  | val v => exact cvtVal_shape _ _ _ _ h hb

/-! Reading such a block stays inside it. -/

/-- the call read outside the block -/
def Res.bad {α : Type} : Res α → Prop
  | .fault => True
  | _ => False

theorem thr_bad {α : Type} (o : Option α) : ¬ (thr o).bad := by cases o <;> exact id
theorem map_bad {α β : Type} {r : Res α} (f : α → β) (h : ¬ r.bad) : ¬ (r.map f).bad := by
  cases r with
  | ok a => exact id
  | fault => exact absurd trivial h
  | throw => exact id
theorem bind_bad {α β : Type} {r : Res α} {f : α → Res β} (h : ¬ r.bad) (hf : ∀ a, r = .ok a → ¬ (f a).bad) : ¬ (r.bind f).bad := by
  cases r with
  | ok a => exact hf a rfl
  | fault => exact absurd trivial h
  | throw => exact id
theorem ok_bad {α : Type} {r : Res α} {a : α} (h : r = .ok a) : ¬ r.bad := by rw [h]; exact id

theorem textDbl_bad (L : Lib) (s : Str) : ¬ (textDbl L s).bad := by
  unfold textDbl; split
  · exact map_bad _ (thr_bad _)
  · exact thr_bad _
theorem textInt_bad (L : Lib) (s : Str) : ¬ (textInt L s).bad := by
  unfold textInt; split
  · exact thr_bad _
  · exact map_bad _ (thr_bad _)
theorem exDbl_bad (L : Lib) (v : Val) : ¬ (exDbl L v).bad := by
  cases v <;> simp only [exDbl] <;> first | exact id | exact textDbl_bad _ _ | skip
  split
  · exact textDbl_bad _ _
  · exact id
theorem exInt_bad (L : Lib) (v : Val) : ¬ (exInt L v).bad := by
  cases v <;> simp only [exInt] <;> first | exact id | exact textInt_bad _ _ | skip
  split
  · exact textInt_bad _ _
  · exact id
theorem exTime_bad (L : Lib) (v : Val) : ¬ (exTime L v).bad := by
  cases v with
  | vec v => cases v <;> exact id
  | cvec v => cases v <;> exact id
  | np p =>
    simp only [exTime]
    split
    · split
      · exact map_bad _ (thr_bad _)
      · exact thr_bad _
    · exact id
  | _ => exact id
theorem exChar_bad (L : Lib) (v : Val) : ¬ (exChar L v).bad := by
  cases v with
  | vec v => cases v <;> exact id
  | cvec v => cases v <;> exact id
  | np p =>
    simp only [exChar]
    split
    · exact map_bad _ (thr_bad _)
    · exact id
  | _ => exact id
theorem exCVec_bad (L : Lib) (v : Val) (h : v ≠ .vec []) : ¬ (exCVec L v).bad := by
  cases v with
  | vec v => 
    simp only [exCVec, pairs]
    rw [if_neg (fun e => h (by rw [e]))]
    exact id
  | str s => exact thr_bad _
  | np p =>
    simp only [exCVec]
    split
    · exact thr_bad _
    · exact id
  | _ => exact id
theorem textChar_bad (L : Lib) (s : Str) (h : s ≠ []) : ¬ (textChar L s).bad := by
  unfold textChar
  split
  · exact id
  · refine bind_bad (thr_bad _) fun a _ => ?_
    split
    · exact id
    · cases s with
      | nil => exact absurd rfl h
      | cons _ _ => exact id

/-- the two readings with no bounds check on their argument: an empty vector as complex vector, an empty text as
character -/
def Val.awkward (v : Val) (k : Kind) : Prop :=
  (k = .cvec ∧ v = .vec []) ∨ (k = .chr ∧ v.count = 0)

theorem rd_stored_bad (L : Lib) (le : Bool) (t : DT) (v : Val) (k : Kind) (hc : v.count < 2 ^ 32)
    (ht : ∃ u, stored t = some u) (hs : ∀ u, stored t = some u → v.loc' = u) (hk : ¬ v.awkward k) : ¬ (rd L le (encVal le v) t k).bad := by
  obtain ⟨u, hu⟩ := ht
  have hl := hs u hu
  cases t <;> simp only [stored] at hu <;> first | (cases hu; done) | skip
  all_goals (cases hu; cases v <;> simp only [Val.loc'] at hl <;> first | (cases hl; done) | skip)
  all_goals
    simp only [Val.count] at hc
    cases k <;>
      simp only [rd, rdDbl, rdInt, rdStr, rdCplx, rdVec, rdCVec, rdNP, rdBool, rdTime, rdChar, encVal, decDbl_enc, decInt_enc,
        decCplx_enc, decStr_enc, decNP_enc, decVec_enc, decCVec_enc, hc, Res.map_ok, Res.bind_ok] <;>
      first
        | exact id
        | exact map_bad _ (textDbl_bad _ _)
        | exact map_bad _ (textInt_bad _ _)
        | exact map_bad _ (thr_bad _)
        | exact map_bad _ (exTime_bad _ _)
        | exact map_bad _ (exCVec_bad L (.vec _) fun e => hk (Or.inl ⟨rfl, e⟩))
        | exact map_bad _ (textChar_bad _ _ fun e => hk (Or.inr ⟨rfl, by simp [Val.count, e]⟩))
        | (refine map_bad _ ?_; split <;> first | exact id | exact thr_bad _ | exact textChar_bad _ _ fun e => hk (Or.inr ⟨rfl, by simp [Val.count, e]⟩))
        | skip
  all_goals
    rename_i s
    cases s with
    | nil => exact absurd (Or.inr ⟨rfl, rfl⟩) hk
    | cons _ _ => exact id

theorem rd_open_bad (L : Lib) (le : Bool) (t : DT) (v : Val) (k : Kind) (hc : v.count < 2 ^ 32) (ht : stored t = none)
    (hj : t ≠ .json) (hk : k = .chr → t = .unknown → v.count ≠ 0) : ¬ (rd L le (encVal le v) t k).bad := by
  have ha := rdVal_any L le v hc
  obtain ⟨x, hx⟩ := decStr_encVal le v
  have hx0 : v.count ≠ 0 → x ≠ [] := by
    intro h e
    obtain ⟨y, h1, h2⟩ := encVal_header le v
    rw [h1, decStr, dataSize_wraps, Res.bind_ok, Nat.mod_eq_of_lt hc] at hx
    unfold slice at hx
    rw [if_pos (by simp; omega)] at hx
    cases hx
    have := congrArg List.length e
    rw [List.length_take, List.length_drop, List.length_append, headerBytes_length, List.length_nil] at this
    omega
  cases t <;> simp only [stored] at ht <;> first | (cases ht; done) | exact absurd rfl hj | skip
  all_goals
    cases k <;>
      simp only [rd, rdDbl, rdInt, rdStr, rdCplx, rdVec, rdCVec, rdNP, rdBool, rdTime, rdChar, ha, hx, Res.map_ok, Res.bind_ok] <;>
      first
        | exact id
        | exact map_bad _ (textDbl_bad _ _)
        | exact map_bad _ (textInt_bad _ _)
        | exact map_bad _ (thr_bad _)
        | exact map_bad _ (exDbl_bad _ _)
        | exact map_bad _ (exInt_bad _ _)
        | exact map_bad _ (exChar_bad _ _)
        | exact map_bad _ (textChar_bad _ _ (hx0 (hk rfl rfl)))

end Verif.Value
