import Verif.Props.Values
/-!
# C46: conversions follow the documented table

Both halves of "SetValueType -> PublicationType -> GetValueType"
(docs/developer-guide/typeConversions.md) against `doc`.  Where the code does something else, `sendGap` and
`readGap` say so; the disagreements are proved in `ValueCases`.
-/
namespace Verif.Value
open Verif.Wire (Byte)

/-- elementary facts of the arithmetic and parsing library -/
structure Lib.Sane (L : Lib) : Prop where
  trunc0 : L.trunc dZero = 0#64
  trunc1 : L.trunc dOne = 1#64
  norm0 : L.norm [] = dZero
  cnorm0 : L.cnorm [] = dZero
  /-- a one-element vector has norm zero iff the element is zero -/
  norm1 : ∀ x, isZero (L.norm [x]) = isZero x
  cabs0 : ∀ c, isZero c.im = true → isZero (L.cabs c) = isZero c.re
  cnorm1 : ∀ c, isZero (L.cnorm [c]) = isZero (L.cabs c)
  bit : ∀ b, L.getComplex (bStr b) = ⟨if b then dOne else dZero, dZero⟩
  bitVec : ∀ b, L.getVector (bStr b) = [if b then dOne else dZero]
  bitCVec : ∀ b, L.getCVector (bStr b) = some [⟨if b then dOne else dZero, dZero⟩]
  bitNP : ∀ b, L.getNPoint (bStr b) = ⟨asc "value", if b then dOne else dZero⟩

/-- text whose first character makes the documented reader look for a list -/
def listText (s : Str) : Bool := match s with
  | [] => false
  | c :: _ => c = BitVec.ofNat 8 'v'.toNat ∨ c = BitVec.ofNat 8 'c'.toNat ∨ c = BitVec.ofNat 8 '['.toNat

/-- texts the code takes for false although they are not on the documented list -/
def extraFalse : List Str := [List.replicate 8 0#8, asc "False", asc "-", asc "No", asc "NO"]

/-- the documented list of false texts, but for the extra ones -/
theorem boolValue_doc {s : Str} (h : s ∉ extraFalse) : boolValue s = decide (s ∉ docFalse) := by
  simp only [extraFalse, List.mem_cons, List.not_mem_nil, or_false, not_or] at h
  simp only [boolValue, docFalse, List.mem_cons, List.not_mem_nil, or_false]
  rw [Bool.eq_iff_iff]
  simp only [Bool.not_eq_true', decide_eq_false_iff_not, decide_eq_true_eq, not_or]
  constructor
  · intro h; simp only [h, not_false_eq_true, and_true]
  · intro h'; simp only [h', h, not_false_eq_true, and_true]

/-- where text is sent differently: a text that is false without being listed, empty text, text as an integer, a list as a complex number -/
def strGap (s : Str) (k : Kind) : Bool :=
  match k with
  | .str | .np => false
  | .bool => s ∈ extraFalse
  | .int => true
  | .cplx => s = [] || listText s
  | _ => s = []

/-- where sending differs from the table -/
def sendGap (x : Src) (k : Kind) : Bool :=
  match x with
  | .str s => strGap s k
  | .np p => k != .np && isNaN p.value && (strGap p.name k || k == .np)
  | .bool _ => k == .np
  | .vec v => (v = [] && (k == .np || k == .cplx)) || (v.length = 1 && k == .str)
  | .cvec v => (v = [] && (k == .np || k == .cplx)) || (2 ≤ v.length && k == .vec) || (v.length = 1 && k == .str)
  | _ => false

/-- the types of the table -/
def Kind.tabled (k : Kind) : Bool := match k with
  | .time | .chr => false
  | _ => true

theorem bool_text (b : Bool) : (bStr b != asc "0") = b := by cases b <;> decide
theorem bool_text' (b : Bool) : decStr (encStr (bStr b)) = .ok (bStr b) := decStr_enc _ (by cases b <;> decide)

theorem nan_nan : isNaN dNaN = true := by decide

/-- small values: sizes fit the header -/
def Src.size (L : Lib) : Src → Nat
  | .dbl d => (L.dblStr d).length
  | .int i => (L.intStr i).length
  | .str s => s.length + (L.getVector s).length + ((L.getCVector s).getD []).length
  | .vec v => v.length + (L.vecStr v).length + (match v with | [x] => (L.dblStr x).length | _ => 0)
  | .cvec v => v.length + (L.cvecStr v).length + (match v with | [x] => (cplxStr L x).length | _ => 0)
  | .cplx c => (cplxStr L c).length
  | .np p => p.name.length + (L.npStr p.name p.value).length + (L.getVector p.name).length + ((L.getCVector p.name).getD []).length
    + (L.dblStr p.value).length
  | .bool _ => 0

theorem small_value : (asc "value").length < 2 ^ 32 := by decide

theorem decNP_value (le : Bool) (d : Dbl) : decNP le (encNP le ⟨asc "value", d⟩) = .ok ⟨asc "value", d⟩ :=
  decNP_enc le ⟨asc "value", d⟩ small_value

/-- reading back what `typeConvert(DataType, double)` wrote -/
theorem send_dbl {L : Lib} {le : Bool} {d : Dbl} {k : Kind} (hk : k.tabled = true) (hn : (L.dblStr d).length < 2 ^ 32) :
    ∃ g, docDbl L d k = some g ∧ rd L le (cvtDbl L le k.dt d) k.dt k = .ok g := by
  cases k <;> simp only [Kind.tabled] at hk <;> first | (cases hk; done) | skip
  all_goals
    refine ⟨_, rfl, ?_⟩
    simp [cvtDbl, Kind.dt, rd, rdDbl, rdInt, rdStr, rdCplx, rdVec, rdCVec, rdNP, rdBool, decDbl_enc, decInt_enc, decCplx_enc,
      decStr_enc, decNP_value, decVec_enc, decCVec_enc, hn, bool_text, bool_text']

theorem send_int {L : Lib} {le : Bool} {d : Int64} {k : Kind} (hk : k.tabled = true) (hn : (L.intStr d).length < 2 ^ 32) :
    ∃ g, docInt L d k = some g ∧ rd L le (cvtInt L le k.dt d) k.dt k = .ok g := by
  cases k <;> simp only [Kind.tabled] at hk <;> first | (cases hk; done) | skip
  case np =>
    refine ⟨_, rfl, ?_⟩
    simp only [cvtInt, Kind.dt, rd, rdNP]
    split
    · rw [decNP_enc le ⟨L.intStr d, dNaN⟩ hn]
      rfl
    · rw [decNP_value]
      rfl
  all_goals
    refine ⟨_, rfl, ?_⟩
    simp [cvtInt, Kind.dt, rd, rdDbl, rdInt, rdStr, rdCplx, rdVec, rdCVec, rdNP, rdBool, decDbl_enc, decInt_enc, decCplx_enc,
      decStr_enc, decNP_value, decVec_enc, decCVec_enc, hn, bool_text, bool_text']

theorem getComplexFrom_plain {L : Lib} {s : Str} (h : s ≠ []) (hl : listText s = false) : getComplexFrom L s = L.getComplex s := by
  cases s with
  | nil => exact absurd rfl h
  | cons c t =>
    simp only [listText, decide_eq_false_iff_not] at hl
    simp only [getComplexFrom]
    rw [if_neg hl]

theorem send_str {L : Lib} {le : Bool} {s : Str} {k : Kind} (hk : k.tabled = true) (hn : (Src.str s).size L < 2 ^ 32)
    (hg : strGap s k = false) :
    match docStr L s k with
    | some g => ∃ b, cvtStr L le k.dt s = .ok b ∧ rd L le b k.dt k = .ok g
    | none => cvtStr L le k.dt s = .throw := by
  simp only [Src.size] at hn
  have h1 : s.length < 2 ^ 32 := by omega
  have h2 : (L.getVector s).length < 2 ^ 32 := by omega
  have h3 : ((L.getCVector s).getD []).length < 2 ^ 32 := by omega
  by_cases he : s = []
  · subst he
    cases k <;> simp only [Kind.tabled, strGap] at hk hg <;> first | (cases hk; done) | (simp at hg; done) | skip
    · exact ⟨_, rfl, by simp only [rd, Kind.dt, rdStr, emptyBlock, decStr_enc [] (by decide), Res.map_ok]⟩
    · refine ⟨_, rfl, ?_⟩
      simp only [rd, Kind.dt, rdNP, emptyBlock]
      rw [decNP_enc le ⟨[], dNaN⟩ (by simp)]
      rfl
    · refine ⟨_, rfl, ?_⟩
      simp only [rd, Kind.dt, rdBool, emptyBlock]
      rw [show encStr (asc "0") = encStr (bStr false) from rfl, bool_text' false]
      rfl
  · cases k <;> simp only [Kind.tabled, strGap] at hk hg <;> first | (cases hk; done) | (cases hg; done) | skip
    · simp only [docStr, cvtStr, Kind.dt, if_neg he]
      cases getDouble L s with
      | none => rfl
      | some d => exact ⟨_, rfl, by simp [rd, rdDbl, decDbl_enc]⟩
    · simp only [docStr, cvtStr, Kind.dt, if_neg he]
      exact ⟨_, rfl, by simp [rd, rdStr, decStr_enc s h1]⟩
    · simp only [docStr, cvtStr, Kind.dt, if_neg he]
      simp only [Bool.or_eq_false_iff, decide_eq_false_iff_not] at hg
      rw [getComplexFrom_plain he hg.2]
      exact ⟨_, rfl, by simp [rd, rdCplx, decCplx_enc]⟩
    · simp only [docStr, cvtStr, Kind.dt, if_neg he]
      exact ⟨_, rfl, by simp [rd, rdVec, decVec_enc le _ h2]⟩
    · simp only [docStr, cvtStr, Kind.dt, if_neg he]
      revert h3
      cases L.getCVector s with
      | none => intro _; rfl
      | some v => intro h3; exact ⟨_, rfl, by simp only [rd, rdCVec, decCVec_enc le v h3, Res.map_ok]⟩
    · simp only [docStr, cvtStr, Kind.dt, if_neg he]
      exact ⟨_, rfl, by simp [rd, rdNP, decNP_enc le ⟨s, dNaN⟩ h1]⟩
    · simp only [docStr, cvtStr, Kind.dt, if_neg he]
      refine ⟨_, rfl, ?_⟩
      simp only [rd, rdBool, bool_text', Res.map_ok, bool_text, boolValue_doc (by simpa using hg)]

theorem send_vec {L : Lib} (hs : L.Sane) {le : Bool} {v : List Dbl} {k : Kind} (hk : k.tabled = true) (hn : (Src.vec v).size L < 2 ^ 32)
    (hg : sendGap (.vec v) k = false) : ∃ g, docVec L v k = some g ∧ rd L le (cvtVec L le k.dt v) k.dt k = .ok g := by
  match v with
  | [] =>
    simp only [Src.size] at hn
    have h1 : (L.vecStr []).length < 2 ^ 32 := by omega
    have hb := bool_text' false
    simp only [bStr] at hb
    cases k <;> simp only [Kind.tabled] at hk <;> first | (cases hk; done) | (simp [sendGap] at hg; done) | skip
    all_goals
      refine ⟨_, rfl, ?_⟩
      simp only [cvtVec, emptyBlock, Kind.dt, rd, rdDbl, rdInt, rdStr, rdVec, rdCVec, rdBool, decDbl_enc, decInt_enc,
        decStr_enc _ h1, decVec_enc le [] (by decide), decCVec_enc le [] (by decide), Res.map_ok, hs.norm0, hs.trunc0]
    · rfl
    · rw [show encStr (asc "0") = encStr (bStr false) from rfl, bool_text' false]
      rfl
  | [x] =>
    simp only [Src.size] at hn
    have e : docVec L [x] k = docDbl L x k := by
      cases k <;> first | (simp [sendGap] at hg; done) | rfl
    rw [e]
    exact send_dbl hk (by omega)
  | x :: y :: t =>
    have hn' : (x :: y :: t).length < 2 ^ 32 ∧ (L.vecStr (x :: y :: t)).length < 2 ^ 32 := by
      simp only [Src.size] at hn
      omega
    have hn2 : ((x :: y :: t).map fun d => (⟨d, dZero⟩ : Cplx)).length < 2 ^ 32 := by rw [List.length_map]; exact hn'.1
    cases k <;> simp only [Kind.tabled] at hk <;> first | (cases hk; done) | skip
    all_goals refine ⟨_, rfl, ?_⟩
    · simp [cvtVec, Kind.dt, rd, rdDbl, decDbl_enc]
    · simp [cvtVec, Kind.dt, rd, rdInt, decInt_enc]
    · simp only [cvtVec, Kind.dt, rd, rdStr, decStr_enc _ hn'.2, Res.map_ok]
    · simp [cvtVec, Kind.dt, rd, rdCplx, decCplx_enc]
    · simp only [cvtVec, Kind.dt, rd, rdVec, decVec_enc le _ hn'.1, Res.map_ok]
    · simp only [cvtVec, Kind.dt, rd, rdCVec, decCVec_enc le _ hn2, Res.map_ok]
    · have := decNP_enc le ⟨L.vecStr (x :: y :: t), dNaN⟩ hn'.2
      simp only [cvtVec, Kind.dt, rd, rdNP, this, Res.map_ok]
    · simp only [cvtVec, Kind.dt, rd, rdBool, bool_text', Res.map_ok, bool_text]

theorem send_cplx {L : Lib} {le : Bool} {c : Cplx} {k : Kind} (hk : k.tabled = true) (hn : (cplxStr L c).length < 2 ^ 32) :
    ∃ g, docCplx L c k = some g ∧ rd L le (cvtCplx L le k.dt c) k.dt k = .ok g := by
  unfold docCplx cvtCplx
  by_cases h : isZero c.im = true
  · rw [if_pos h, if_pos h]
    refine send_dbl hk ?_
    simpa [cplxStr, h] using hn
  · rw [if_neg h, if_neg h]
    have e : cplxStr L c = L.pairStr c.re c.im := by simp [cplxStr, h]
    have hp : (L.pairStr c.re c.im).length < 2 ^ 32 := by rw [← e]; exact hn
    rw [e]
    cases k <;> simp only [Kind.tabled] at hk <;> first | (cases hk; done) | skip
    all_goals refine ⟨_, rfl, ?_⟩
    · simp [Kind.dt, rd, rdDbl, decDbl_enc]
    · simp [Kind.dt, rd, rdInt, decInt_enc]
    · simp only [Kind.dt, rd, rdStr, decStr_enc _ hp, Res.map_ok]
    · simp [Kind.dt, rd, rdCplx, decCplx_enc]
    · simp [Kind.dt, rd, rdVec, decVec_enc]
    · simp [Kind.dt, rd, rdCVec, decCVec_enc]
    · have := decNP_enc le ⟨L.pairStr c.re c.im, dNaN⟩ hp
      simp only [Kind.dt, rd, rdNP, this, Res.map_ok]
    · simp only [Kind.dt, rd, rdBool, bool_text', Res.map_ok, bool_text]

theorem send_cvec {L : Lib} (hs : L.Sane) {le : Bool} {v : List Cplx} {k : Kind} (hk : k.tabled = true) (hn : (Src.cvec v).size L < 2 ^ 32)
    (hg : sendGap (.cvec v) k = false) : ∃ g, docCVec L v k = some g ∧ rd L le (cvtCVec L le k.dt v) k.dt k = .ok g := by
  match v with
  | [] =>
    simp only [Src.size] at hn
    have h1 : (L.cvecStr []).length < 2 ^ 32 := by omega
    cases k <;> simp only [Kind.tabled] at hk <;> first | (cases hk; done) | (simp [sendGap] at hg; done) | skip
    all_goals
      refine ⟨_, rfl, ?_⟩
      simp only [cvtCVec, emptyBlock, Kind.dt, rd, rdDbl, rdInt, rdStr, rdVec, rdCVec, rdBool, decDbl_enc, decInt_enc,
        decStr_enc _ h1, decVec_enc le [] (by decide), decCVec_enc le [] (by decide), Res.map_ok, hs.cnorm0, hs.trunc0]
    · rfl
    · rw [show encStr (asc "0") = encStr (bStr false) from rfl, bool_text' false]
      rfl
  | [x] =>
    simp only [Src.size] at hn
    have e : docCVec L [x] k = docCplx L x k := by
      cases k <;> first | (simp [sendGap] at hg; done) | rfl
    rw [e]
    exact send_cplx hk (by omega)
  | x :: y :: t =>
    have hn' : (x :: y :: t).length < 2 ^ 32 ∧ (L.cvecStr (x :: y :: t)).length < 2 ^ 32 := by
      simp only [Src.size] at hn
      omega
    cases k <;> simp only [Kind.tabled] at hk <;> first | (cases hk; done) | (simp [sendGap] at hg; done) | skip
    all_goals refine ⟨_, rfl, ?_⟩
    · simp [cvtCVec, Kind.dt, rd, rdDbl, decDbl_enc]
    · simp [cvtCVec, Kind.dt, rd, rdInt, decInt_enc]
    · simp only [cvtCVec, Kind.dt, rd, rdStr, decStr_enc _ hn'.2, Res.map_ok]
    · simp [cvtCVec, Kind.dt, rd, rdCplx, decCplx_enc]
    · simp only [cvtCVec, Kind.dt, rd, rdCVec, decCVec_enc le _ hn'.1, Res.map_ok]
    · have := decNP_enc le ⟨L.cvecStr (x :: y :: t), dNaN⟩ hn'.2
      simp only [cvtCVec, Kind.dt, rd, rdNP, this, Res.map_ok]
    · simp only [cvtCVec, Kind.dt, rd, rdBool, bool_text', Res.map_ok, bool_text]

theorem getDouble_bit {L : Lib} (hs : L.Sane) (b : Bool) : getDouble L (bStr b) = some (if b then dOne else dZero) := by
  have h0 : ∀ c : Byte, c = 48#8 ∨ c = 49#8 → getDouble L [c] = some (realOf L (L.getComplex [c])) := by
    rintro c (rfl | rfl) <;> rfl
  have := hs.bit b
  cases b
  · have e : bStr false = [48#8] := by decide
    rw [e] at this ⊢
    rw [h0 _ (Or.inl rfl), this]
    rfl
  · have e : bStr true = [49#8] := by decide
    rw [e] at this ⊢
    rw [h0 _ (Or.inr rfl), this]
    rfl

theorem bStr_ne (b : Bool) : bStr b ≠ [] := by cases b <;> decide

/-- what is sent: the publication's block, read as the publication's own type, is the documented conversion of the
published value; where the documented parser throws, so does the call -/
theorem send_follows_table {L : Lib} (hs : L.Sane) {le : Bool} (x : Src) (k : Kind) (hk : k.tabled = true)
    (hn : x.size L < 2 ^ 32) (hg : sendGap x k = false) :
    match doc L x k with
    | some g => ∃ b, publish L le k.dt x.call = .ok b ∧ rd L le b k.dt k = .ok g
    | none => publish L le k.dt x.call = .throw := by
  cases x with
  | dbl d =>
    obtain ⟨g, h1, h2⟩ := send_dbl (le := le) hk hn
    simp only [doc, h1]
    exact ⟨_, rfl, h2⟩
  | int d =>
    obtain ⟨g, h1, h2⟩ := send_int (le := le) hk hn
    simp only [doc, h1]
    exact ⟨_, rfl, h2⟩
  | str s => exact send_str hk hn hg
  | vec v =>
    obtain ⟨g, h1, h2⟩ := send_vec hs (le := le) hk hn hg
    simp only [doc, h1]
    exact ⟨_, rfl, h2⟩
  | cvec v =>
    obtain ⟨g, h1, h2⟩ := send_cvec hs (le := le) hk hn hg
    simp only [doc, h1]
    exact ⟨_, rfl, h2⟩
  | cplx c =>
    obtain ⟨g, h1, h2⟩ := send_cplx (le := le) hk hn
    simp only [doc, h1]
    exact ⟨_, rfl, h2⟩
  | np p =>
    simp only [doc, Src.call, publish]
    by_cases hp : k = .np
    · subst hp
      refine ⟨_, rfl, ?_⟩
      have : p.name.length < 2 ^ 32 := by simp only [Src.size] at hn; omega
      simp [rd, Kind.dt, rdNP, decNP_enc le p this]
    · have hdt : k.dt ≠ .namedPoint := by
        intro e
        cases k <;> simp [Kind.dt] at e
        exact hp rfl
      by_cases hv : isNaN p.value = true
      · have e1 : docNP L p k = docStr L p.name k := by
          cases k <;> first | exact absurd rfl hp | simp [docNP, hv]
        have e2 : cvtNP L le k.dt p = cvtStr L le k.dt p.name := by
          unfold cvtNP
          rw [if_neg hdt, if_pos hv]
        rw [e1, e2]
        refine send_str hk ?_ ?_
        · simp only [Src.size] at hn ⊢; omega
        · cases k <;> first | exact absurd rfl hp | simpa [sendGap, hv] using hg
      · have hv' : isNaN p.value = false := by simpa using hv
        have hd : (L.dblStr p.value).length < 2 ^ 32 := by simp only [Src.size] at hn; omega
        have hnp : (L.npStr p.name p.value).length < 2 ^ 32 := by simp only [Src.size] at hn; omega
        unfold docNP cvtNP
        rw [if_neg hdt, if_neg hv]
        have key := send_dbl (L := L) (le := le) (d := p.value) hk hd
        obtain ⟨g, h1, h2⟩ := key
        cases k <;> first
          | exact absurd rfl hp
          | (cases hk; done)
          | skip
        case str => simp only [hv', Bool.false_eq_true, if_false]; exact ⟨_, rfl, by simp only [Kind.dt, rd, rdStr, decStr_enc _ hnp, Res.map_ok]⟩
        all_goals
          simp only [hv', Bool.false_eq_true, if_false, h1]
          exact ⟨_, rfl, h2⟩
  | bool b =>
    have hd := getDouble_bit hs b
    simp only [doc, Src.call, publish]
    cases k <;> simp only [Kind.tabled, sendGap] at hk hg <;> first | (cases hk; done) | (cases hg; done) | skip
    all_goals simp only [docBool, cvtStr, Kind.dt, if_neg (bStr_ne b)]
    · exact ⟨_, by rw [hd]; rfl, by simp [rd, rdDbl, decDbl_enc]⟩
    · refine ⟨_, by rw [hd]; rfl, ?_⟩
      cases b <;> simp [rd, rdInt, decInt_enc, hs.trunc0, hs.trunc1]
    · refine ⟨_, rfl, ?_⟩
      simp only [rd, rdStr, bool_text', Res.map_ok]
      cases b <;> rfl
    · rw [hs.bit b]; exact ⟨_, rfl, by simp [rd, rdCplx, decCplx_enc]⟩
    · rw [hs.bitVec b]; exact ⟨_, rfl, by simp [rd, rdVec, decVec_enc]⟩
    · rw [hs.bitCVec b]; exact ⟨_, rfl, by simp [rd, rdCVec, decCVec_enc]⟩
    · refine ⟨_, rfl, ?_⟩
      have : boolValue (bStr b) = b := by cases b <;> decide
      simp only [rd, rdBool, bool_text', Res.map_ok, bool_text, this]

/-! ## The reading half -/

/-- type of publication registered for a source -/
def Src.type : Src → DT
  | .dbl _ => .double | .int _ => .int | .str _ => .string | .vec _ => .vector | .cvec _ => .cvector
  | .cplx _ => .complex | .np _ => .namedPoint | .bool _ => .bool

/-- where reading differs from the table -/
def readGap (L : Lib) (x : Src) (k : Kind) : Bool :=
  match x with
  | .dbl d => k == .str || (k == .bool && isNaN d)
  | .int i => k == .np && decide (2 ^ 52 < i.toInt.natAbs)
  | .str s =>
    match k with
    | .np => true
    | .cplx => s = [] || listText s
    | .dbl => intLike s
    | .int => !intLike s && (L.parseInt s).isSome
    | .bool => s ∈ extraFalse
    | _ => false
  | .vec v => (k == .cvec && v.length != 1) || (k == .cplx && v.isEmpty)
  | .cvec v =>
    match v with
    | [] => k == .cplx
    | [c] => (k == .vec && !isZero c.im) || (k == .np && isZero c.im)
    | _ => false
  | .cplx _ => false
  | .np p =>
    if isNaN p.value then
      match k with
      | .np | .str | .vec | .cvec => false
      | _ => true
    else k == .bool && decide (p.name ≠ asc "value")
  | .bool _ => false

/-- the block of a source on a publication of its own type; the sign of a zero imaginary part is not kept -/
def Src.own (le : Bool) : Src → List Byte
  | .dbl d => encDbl le d | .int i => encInt le i | .str s => encStr s | .vec v => encVec le v
  | .cvec v => encCVec le v | .cplx c => encCplx le c | .np p => encNP le p | .bool b => encStr (bStr b)

/-- outcome a documented conversion asks for -/
def want : Option Got → Res Got
  | some g => .ok g
  | none => .throw

theorem want_thr {α : Type} (o : Option α) (f : α → Got) : want (o.map f) = (thr o).map f := by cases o <;> rfl

theorem read_block {L : Lib} (hs : L.Sane) {le : Bool} (x : Src) (k : Kind) (hk : k.tabled = true)
    (hn : x.size L < 2 ^ 32) (hp : ∀ c, x = .cplx c ∨ x = .cvec [c] → c.plusZero) (hg : readGap L x k = false) :
    (if x.type = .double then (dblUnits le none (x.own le)).bind fun v => ex L v k
      else if x.type = .int then (intUnits L le none (x.own le)).bind fun v => ex L v k else rd L le (x.own le) x.type k)
      = want (doc L x k) := by
  cases x with
  | dbl d =>
    simp only [Src.type, Src.own, dblUnits, decDbl_enc, Res.map_ok, Res.bind_ok, if_true, doc]
    cases k <;> simp only [Kind.tabled, readGap] at hk hg <;> first | (cases hk; done) | (cases hg; done) | rfl | skip
    have : isNaN d = false := by simpa using hg
    simp [ex, exBool, this, docDbl, want]
  | int i =>
    rw [if_neg (by simp [Src.type]), if_pos (by rfl)]
    simp only [Src.own, intUnits, decInt_enc, Res.map_ok, Res.bind_ok, doc]
    cases k <;> simp only [Kind.tabled, readGap] at hk hg <;> first | (cases hk; done) | rfl | skip
    have : ¬ (2 ^ 52 < i.toInt.natAbs) := by simpa using hg
    simp [ex, exNP, docInt, want, this]
  | str s =>
    have h1 : s.length < 2 ^ 32 := by simp only [Src.size] at hn; omega
    rw [if_neg (by simp [Src.type]), if_neg (by simp [Src.type])]
    simp only [Src.own, Src.type, doc]
    cases k <;> simp only [Kind.tabled, readGap] at hk hg <;> first | (cases hk; done) | (cases hg; done) | skip
    all_goals simp only [rd, rdDbl, rdInt, rdStr, rdCplx, rdVec, rdCVec, rdBool, decStr_enc s h1, Res.map_ok, Res.bind_ok, docStr]
    · simp [textDbl, hg, want_thr]
    · unfold textInt
      by_cases hi : intLike s = true
      · rw [if_pos hi, want_thr]
      · rw [if_neg hi]
        have hp : L.parseInt s = none := by
          have hi' : intLike s = false := by simpa using hi
          simpa [hi'] using hg
        simp only [getInt, hp, Option.getD_none, if_true]
        cases getDouble L s <;> rfl
    · rfl
    · simp only [Bool.or_eq_false_iff, decide_eq_false_iff_not] at hg
      rw [getComplexFrom_plain hg.1 hg.2]
      rfl
    · rfl
    · rw [want_thr]
    · rw [boolValue_doc (by simpa using hg)]; rfl
  | vec v =>
    have h1 : v.length < 2 ^ 32 := by simp only [Src.size] at hn; omega
    rw [if_neg (by simp [Src.type]), if_neg (by simp [Src.type])]
    simp only [Src.own, Src.type, doc]
    match v, hg with
    | [], hg =>
      cases k <;> simp only [Kind.tabled, readGap] at hk hg <;> first | (cases hk; done) | (simp at hg; done) | skip
      all_goals simp only [rd, rdDbl, rdInt, rdStr, rdVec, rdNP, rdBool, decVec_enc le _ h1, Res.map_ok, Res.bind_ok]
      all_goals rfl
    | [x], hg =>
      cases k <;> simp only [Kind.tabled] at hk <;> first | (cases hk; done) | skip
      all_goals simp only [rd, rdDbl, rdInt, rdStr, rdCplx, rdVec, rdCVec, rdNP, rdBool, decVec_enc le _ h1, Res.map_ok, Res.bind_ok, hs.norm1]
      all_goals first | rfl | skip
    | x :: y :: t, hg =>
      cases k <;> simp only [Kind.tabled, readGap] at hk hg <;> first | (cases hk; done) | (simp at hg; done) | skip
      all_goals simp only [rd, rdDbl, rdInt, rdStr, rdCplx, rdVec, rdNP, rdBool, decVec_enc le _ h1, Res.map_ok, Res.bind_ok]
      all_goals rfl
  | cvec v =>
    have h1 : v.length < 2 ^ 32 := by simp only [Src.size] at hn; omega
    rw [if_neg (by simp [Src.type]), if_neg (by simp [Src.type])]
    simp only [Src.own, Src.type, doc]
    match v, hg with
    | [], hg =>
      cases k <;> simp only [Kind.tabled, readGap] at hk hg <;> first | (cases hk; done) | (simp at hg; done) | skip
      all_goals simp only [rd, rdDbl, rdInt, rdStr, rdVec, rdCVec, rdNP, rdBool, decCVec_enc le _ h1, Res.map_ok, Res.bind_ok]
      all_goals rfl
    | [c], hg =>
      by_cases hst : k = .str
      · subst hst
        simp only [rd, rdStr, decCVec_enc le _ h1, Res.map_ok]
        rfl
      have e : docCVec L [c] k = docCplx L c k := by
        cases k <;> first | exact absurd rfl hst | rfl
      rw [e]
      unfold docCplx
      by_cases hz : isZero c.im = true
      · rw [if_pos hz]
        cases k <;> simp only [Kind.tabled, readGap, hz] at hk hg <;> first | (cases hk; done) | (simp at hg; done) | (exact absurd rfl hst) | skip
        all_goals
          simp only [rd, rdDbl, rdInt, rdStr, rdCplx, rdVec, rdCVec, rdNP, rdBool, decCVec_enc le _ h1, Res.map_ok, Res.bind_ok, oneOfC,
            realOf, hz, if_true, List.map, hs.cnorm1, hs.cabs0 c hz]
        all_goals first | rfl | skip
        all_goals
          have := hp c (Or.inr rfl) hz
          cases c
          simp only at this
          subst this
          rfl
      · rw [if_neg hz]
        cases k <;> simp only [Kind.tabled, readGap, hz] at hk hg <;> first | (cases hk; done) | (simp at hg; done) | (exact absurd rfl hst) | skip
        all_goals
          simp only [rd, rdDbl, rdInt, rdStr, rdCplx, rdVec, rdCVec, rdNP, rdBool, decCVec_enc le _ h1, Res.map_ok, Res.bind_ok, oneOfC,
            realOf, if_neg hz, hs.cnorm1, cplxStr]
        all_goals rfl
    | x :: y :: t, hg =>
      cases k <;> simp only [Kind.tabled, readGap] at hk hg <;> first | (cases hk; done) | (simp at hg; done) | skip
      all_goals simp only [rd, rdDbl, rdInt, rdStr, rdCplx, rdVec, rdCVec, rdNP, rdBool, decCVec_enc le _ h1, Res.map_ok, Res.bind_ok]
      all_goals rfl
  | cplx c =>
    rw [if_neg (by simp [Src.type]), if_neg (by simp [Src.type])]
    simp only [Src.own, Src.type, doc, docCplx]
    by_cases hz : isZero c.im = true
    · rw [if_pos hz]
      cases k <;> simp only [Kind.tabled] at hk <;> first | (cases hk; done) | skip
      all_goals
        simp only [rd, rdDbl, rdInt, rdStr, rdCplx, rdVec, rdCVec, rdNP, rdBool, decCplx_enc, Res.map_ok, Res.bind_ok,
          realOf, cplxStr, hz, if_true, hs.cabs0 c hz]
      all_goals first | rfl | skip
      all_goals
        have := hp c (Or.inl rfl) hz
        cases c
        simp only at this
        subst this
        rfl
    · rw [if_neg hz]
      cases k <;> simp only [Kind.tabled] at hk <;> first | (cases hk; done) | skip
      all_goals
        simp only [rd, rdDbl, rdInt, rdStr, rdCplx, rdVec, rdCVec, rdNP, rdBool, decCplx_enc, Res.map_ok, Res.bind_ok,
          realOf, cplxStr, if_neg hz]
      all_goals rfl
  | np p =>
    have h1 : p.name.length < 2 ^ 32 := by simp only [Src.size] at hn; omega
    rw [if_neg (by simp [Src.type]), if_neg (by simp [Src.type])]
    simp only [Src.own, Src.type, doc, docNP]
    by_cases hv : isNaN p.value = true
    · cases k <;> simp only [Kind.tabled, readGap, hv, if_true] at hk hg <;> first | (cases hk; done) | (cases hg; done) | skip
      all_goals simp only [rd, rdStr, rdVec, rdCVec, rdNP, decNP_enc le p h1, Res.map_ok, Res.bind_ok, hv, if_true, docStr]
      all_goals first | rfl | rw [want_thr]
    · cases k <;> simp only [Kind.tabled, readGap, if_neg hv] at hk hg <;> first | (cases hk; done) | skip
      all_goals simp only [rd, rdDbl, rdInt, rdStr, rdCplx, rdVec, rdCVec, rdNP, rdBool, decNP_enc le p h1, Res.map_ok, Res.bind_ok, if_neg hv]
      all_goals first | rfl | skip
      have hn : p.name = asc "value" := by simpa using hg
      simp only [npBool, hn]
      have e1 : boolValue (asc "value") = true := by decide
      simp [e1, docDbl, want]
  | bool b =>
    rw [if_neg (by simp [Src.type]), if_neg (by simp [Src.type])]
    simp only [Src.own, Src.type, doc]
    cases k <;> simp only [Kind.tabled] at hk <;> first | (cases hk; done) | skip
    all_goals simp only [rd, rdDbl, rdInt, rdStr, rdCplx, rdVec, rdCVec, rdNP, rdBool, bool_text', Res.map_ok, Res.bind_ok, hs.bit, hs.bitVec,
      hs.bitCVec, hs.bitNP, bool_text]
    all_goals cases b <;> rfl

/-- what is read: a value on a publication of its own type, read as another type, is the documented conversion -/
theorem read_follows_table {L : Lib} (hs : L.Sane) {le : Bool} (x : Src) (k : Kind) (hk : k.tabled = true)
    (hn : x.size L < 2 ^ 32) (hp : ∀ c, x = .cplx c ∨ x = .cvec [c] → c.plusZero) (hg : readGap L x k = false)
    (s : Inp) (hi : s.Plain x.type) :
    ∃ b s1, publish L le x.type x.call = .ok b ∧ s.arrive L le b = .ok s1 ∧
      match doc L x k with
      | some g => ∃ s2, s1.getValue L le k = .ok (g, s2)
      | none => s1.getValue L le k = .throw := by
  have hb : publish L le x.type x.call = .ok (x.own le) := by
    cases x with
    | dbl d => rfl
    | int d => rfl
    | str s =>
      simp only [Src.call, Src.type, publish, cvtStr, Src.own]
      by_cases h : s = []
      · subst h; rfl
      · rw [if_neg h]
    | vec v => match v with
      | [] => rfl
      | [x] => rfl
      | x :: y :: t => rfl
    | cvec v => match v with
      | [] => rfl
      | [c] =>
        simp only [Src.call, Src.type, publish, cvtCVec, Src.own]
        unfold cvtCplx
        by_cases h : isZero c.im = true
        · rw [if_pos h]
          have := hp c (Or.inr rfl) h
          cases c
          simp only at this
          subst this
          rfl
        · rw [if_neg h]
      | x :: y :: t => rfl
    | cplx c =>
      simp only [Src.call, Src.type, publish, Src.own]
      unfold cvtCplx
      by_cases h : isZero c.im = true
      · rw [if_pos h]
        have := hp c (Or.inl rfl) h
        cases c
        simp only at this
        subst this
        rfl
      · rw [if_neg h]
    | np p => rfl
    | bool b => cases b <;> rfl
  have hne : x.own le ≠ [] := by cases x <;> exact enc_ne _ _ _
  have hkc : k ≠ .chr := by intro e; subst e; cases hk
  refine ⟨_, _, hb, arrive_plain hi _, ?_⟩
  have key := read_block hs (le := le) x k hk hn hp hg
  cases hd : doc L x k with
  | some g =>
    rw [hd] at key
    exact read_after hi _ hne k hkc g key
  | none =>
    rw [hd] at key
    unfold Inp.getValue
    rw [if_neg hkc, if_pos (fresh_after hi _ hne)]
    have hb : ({ s with data := x.own le, fedUpd := true, upd := true } : Inp).block L le k = .throw := by
      unfold Inp.block
      dsimp only
      rw [hi.inj, hi.units]
      exact key
    rw [hb]
    rfl

end Verif.Value
