import Verif.Props.ValueTable
/-!
# C46: the extraction functions and JSON publications follow the documented table
-/
namespace Verif.Value
open Verif.Wire (Byte)

/-- `valueExtract(data_view, DataType, X&)` on the block of a double or an integer: the documented conversion.
(`Input::getValue` does not come here for these two types, `valueExtract` is also called directly.) -/
theorem block_follows_table {L : Lib} {le : Bool} (x : Src) (k : Kind) (hk : k.tabled = true)
    (hx : (∃ d, x = .dbl d) ∨ ∃ i, x = .int i ∧ (k = .np → i.toInt.natAbs ≤ 2 ^ 52)) :
    rd L le (x.own le) x.type k = want (doc L x k) := by
  rcases hx with ⟨d, rfl⟩ | ⟨i, rfl, hi⟩
  · simp only [Src.own, Src.type, doc]
    cases k <;> simp only [Kind.tabled] at hk <;> first | (cases hk; done) | skip
    all_goals
      simp only [rd, rdDbl, rdInt, rdStr, rdCplx, rdVec, rdCVec, rdNP, rdBool, decDbl_enc, Res.map_ok]
      rfl
  · simp only [Src.own, Src.type, doc]
    cases k <;> simp only [Kind.tabled] at hk <;> first | (cases hk; done) | skip
    all_goals
      simp only [rd, rdDbl, rdInt, rdStr, rdCplx, rdVec, rdCVec, rdNP, rdBool, decInt_enc, Res.map_ok]
      first
        | rfl
        | (have : ¬ (2 ^ 52 < i.toInt.natAbs) := by have := hi rfl; omega
           simp only [docInt, want, if_neg this])

example {L : Lib} : rd L true ((Src.int 7#64).own true) (Src.int 7#64).type .np = .ok (.np ⟨asc "value", L.ofInt 7#64⟩) :=
  block_follows_table (.int 7#64) .np rfl (.inr ⟨_, rfl, fun _ => by decide⟩)

/-- a source as the library stores it -/
def Src.kept : Src → Val
  | .dbl d => .dbl d | .int i => .int i | .str s => .str s | .vec v => .vec v | .cvec v => .cvec v
  | .cplx c => .cplx c | .np p => .np p | .bool b => .str (bStr b)

/-- where a stored value is converted differently from the table -/
def keptGap (L : Lib) (x : Src) (k : Kind) : Bool :=
  match x with
  | .dbl d => k == .str || (k == .bool && isNaN d)
  | .int i => k == .np && decide (2 ^ 52 < i.toInt.natAbs)
  | .str s =>
    match k with
    | .np => true
    | .dbl => intLike s
    | .int => !intLike s && (L.parseInt s).isSome
    | .bool => s ∈ extraFalse
    | _ => false
  | .vec v => (k == .cvec && v.length != 1) || (k == .cplx && v.isEmpty)
  | .cvec v =>
    match v with
    | [] => k == .cplx
    | [c] => (k == .vec && !isZero c.im) || (k == .np && isZero c.im)
    | _ => false
  | .cplx c => (k == .np && isZero c.im) || (k == .bool && isNaN (L.cabs c))
  | .np p =>
    if isNaN p.value then
      match k with
      | .np | .str | .vec | .cvec | .cplx => false
      | _ => true
    else k == .bool && decide (p.name ≠ asc "value")
  | .bool _ => k != .str && k != .bool

theorem str_ex {L : Lib} {s : Str} {k : Kind} (hk : k.tabled = true) (hg : keptGap L (.str s) k = false) :
    ex L (.str s) k = want (docStr L s k) := by
  cases k <;> simp only [Kind.tabled, keptGap] at hk hg <;> first | (cases hk; done) | (cases hg; done) | skip
  all_goals simp only [ex, exDbl, exInt, exStr, exCplx, exVec, exCVec, exBool, docStr]
  · simp [textDbl, hg, want_thr]
  · unfold textInt
    by_cases hi : intLike s = true
    · rw [if_pos hi, want_thr]
    · rw [if_neg hi]
      have hp : L.parseInt s = none := by
        have hi' : intLike s = false := by simpa using hi
        simpa [hi'] using hg
      simp only [getInt, hp, Option.getD_none, if_true]
      cases getDouble L s <;> rfl
  · rfl
  · rfl
  · rfl
  · rw [want_thr]
  · rw [boolValue_doc (by simpa using hg)]; rfl

/-- `valueExtract(const defV&, X&)`: a stored value read as another type is the documented conversion -/
theorem stored_follows_table {L : Lib} (hs : L.Sane) (x : Src) (k : Kind) (hk : k.tabled = true)
    (hp : ∀ c, x = .cplx c ∨ x = .cvec [c] → c.plusZero) (hg : keptGap L x k = false) :
    ex L x.kept k = want (doc L x k) := by
  cases x with
  | dbl d =>
    simp only [Src.kept, doc]
    cases k <;> simp only [Kind.tabled, keptGap] at hk hg <;> first | (cases hk; done) | (cases hg; done) | rfl | skip
    have : isNaN d = false := by simpa using hg
    simp [ex, exBool, this, docDbl, want]
  | int i =>
    simp only [Src.kept, doc]
    cases k <;> simp only [Kind.tabled, keptGap] at hk hg <;> first | (cases hk; done) | rfl | skip
    have : ¬ (2 ^ 52 < i.toInt.natAbs) := by simpa using hg
    simp [ex, exNP, docInt, want, this]
  | str s => exact str_ex hk hg
  | vec v =>
    simp only [Src.kept, doc]
    match v, hg with
    | [], hg =>
      cases k <;> simp only [Kind.tabled, keptGap] at hk hg <;> first | (cases hk; done) | (simp at hg; done) | rfl
    | [x], hg =>
      cases k <;> simp only [Kind.tabled] at hk <;> first | (cases hk; done) | rfl | skip
      simp only [ex, exBool, hs.norm1]; rfl
    | x :: y :: t, hg =>
      cases k <;> simp only [Kind.tabled, keptGap] at hk hg <;> first | (cases hk; done) | (simp at hg; done) | rfl
  | cvec v =>
    simp only [Src.kept, doc]
    match v, hg with
    | [], hg =>
      cases k <;> simp only [Kind.tabled, keptGap] at hk hg <;> first | (cases hk; done) | (simp at hg; done) | rfl
    | [c], hg =>
      by_cases hst : k = .str
      · subst hst; rfl
      have e : docCVec L [c] k = docCplx L c k := by
        cases k <;> first | exact absurd rfl hst | rfl
      rw [e]
      unfold docCplx
      by_cases hz : isZero c.im = true
      · rw [if_pos hz]
        cases k <;> simp only [Kind.tabled, keptGap, hz] at hk hg <;> first | (cases hk; done) | (simp at hg; done) | (exact absurd rfl hst) | skip
        all_goals
          simp only [ex, exDbl, exInt, exCplx, exVec, exCVec, exNP, exBool, oneOfC,
            realOf, hz, if_true, List.map, hs.cnorm1, hs.cabs0 c hz]
        all_goals first | rfl | skip
        all_goals
          have := hp c (Or.inr rfl) hz
          cases c
          simp only at this
          subst this
          rfl
      · rw [if_neg hz]
        cases k <;> simp only [Kind.tabled, keptGap, hz] at hk hg <;> first | (cases hk; done) | (simp at hg; done) | (exact absurd rfl hst) | skip
        all_goals
          simp only [ex, exDbl, exInt, exCplx, exVec, exCVec, exNP, exBool, oneOfC,
            realOf, if_neg hz, hs.cnorm1, cplxStr]
        all_goals rfl
    | x :: y :: t, hg =>
      cases k <;> simp only [Kind.tabled, keptGap] at hk hg <;> first | (cases hk; done) | (simp at hg; done) | rfl
  | cplx c =>
    simp only [Src.kept, doc, docCplx]
    by_cases hz : isZero c.im = true
    · rw [if_pos hz]
      cases k <;> simp only [Kind.tabled, keptGap, hz] at hk hg <;> first | (cases hk; done) | (simp at hg; done) | skip
      all_goals
        simp only [ex, exDbl, exInt, exStr, exCplx, exVec, exCVec, exBool, realOf, cplxStr, hz, if_true, hs.cabs0 c hz]
      all_goals first | rfl | skip
      all_goals
        have hc := hp c (Or.inl rfl) hz
        first
          | (have hn : isNaN (L.cabs c) = false := by simpa using hg
             simp only [hn]; simp [docDbl, want])
          | (cases c
             simp only at hc
             subst hc
             rfl)
    · rw [if_neg hz]
      cases k <;> simp only [Kind.tabled, keptGap] at hk hg <;> first | (cases hk; done) | skip
      all_goals
        simp only [ex, exDbl, exInt, exStr, exCplx, exVec, exCVec, exNP, exBool, realOf, cplxStr, if_neg hz]
      all_goals first | rfl | skip
      have hn : isNaN (L.cabs c) = false := by simpa using hg
      simp [hn, want]
  | np p =>
    simp only [Src.kept, doc, docNP]
    by_cases hv : isNaN p.value = true
    · cases k <;> simp only [Kind.tabled, keptGap, hv, if_true] at hk hg <;> first | (cases hk; done) | (cases hg; done) | skip
      all_goals simp only [ex, exStr, exVec, exCVec, exCplx, exNP, hv, if_true, docStr]
      all_goals first | rfl | rw [want_thr]
    · cases k <;> simp only [Kind.tabled, keptGap, if_neg hv] at hk hg <;> first | (cases hk; done) | skip
      all_goals simp only [ex, exDbl, exInt, exStr, exVec, exCVec, exCplx, exNP, exBool, if_neg hv]
      all_goals first | rfl | skip
      have hn : p.name = asc "value" := by simpa using hg
      simp only [npBool, hn]
      have e1 : boolValue (asc "value") = true := by decide
      simp [e1, docDbl, want]
  | bool b =>
    simp only [Src.kept, doc]
    cases k <;> simp only [Kind.tabled, keptGap] at hk hg <;> first | (cases hk; done) | (simp at hg; done) | skip
    all_goals cases b <;> rfl

/-! ## JSON publications -/

/-- what a JSON publication keeps of a source: a single element loses its vector -/
def Src.thinC (c : Cplx) : Src := if isZero c.im then .dbl c.re else .cplx c
/-- the same for any source -/
def Src.thin : Src → Src
  | .vec [x] => .dbl x
  | .cplx c => thinC c
  | .cvec [c] => thinC c
  | .np p => if isNaN p.value then .str p.name else .np p
  | x => x

/-- where a JSON publication differs from the table: empty values, a one-element vector as text, a named
point without a value read as a named point, and where the stored value differs -/
def jsonGap (L : Lib) (x : Src) (k : Kind) : Bool :=
  match x with
  | .str s => s = [] || keptGap L x k
  | .vec v => v = [] || (v.length = 1 && k == .str) || keptGap L x.thin k
  | .cvec v => v = [] || (v.length = 1 && k == .str) || keptGap L x.thin k
  | .np p => (isNaN p.value && (p.name = [] || k == .np)) || keptGap L x.thin k
  | x => keptGap L x.thin k

theorem doc_thinC {L : Lib} (c : Cplx) (k : Kind) : doc L (Src.thinC c) k = docCplx L c k := by
  unfold Src.thinC docCplx
  by_cases h : isZero c.im = true
  · rw [if_pos h, if_pos h]; rfl
  · rw [if_neg h, if_neg h]
    simp only [doc, docCplx, if_neg h]

/-- a JSON publication read as another type: the documented conversion -/
theorem json_follows_table {L : Lib} (hs : L.Sane) (hj : L.JsonOk) {le : Bool} (x : Src) (k : Kind) (hk : k.tabled = true)
    (hg : jsonGap L x k = false) (s : Inp) (hi : s.Plain .json) :
    ∃ b s1, publish L le .json x.call = .ok b ∧ s.arrive L le b = .ok s1 ∧
      match doc L x k with
      | some g => ∃ s2, s1.getValue L le k = .ok (g, s2)
      | none => s1.getValue L le k = .throw := by
  have hkc : k ≠ .chr := by intro e; subst e; cases hk
  have hrd : ∀ b, rd L le b .json k = ex L (readJson L b) k := by
    intro b; cases k <;> first | (cases hk; done) | (exact absurd rfl hkc) | rfl
  -- enough: the block reads as a stored value that converts as documented
  have key : ∀ b v, publish L le .json x.call = .ok b → b ≠ [] → readJson L b = v → ex L v k = want (doc L x k) →
      ∃ b s1, publish L le .json x.call = .ok b ∧ s.arrive L le b = .ok s1 ∧
        match doc L x k with
        | some g => ∃ s2, s1.getValue L le k = .ok (g, s2)
        | none => s1.getValue L le k = .throw := by
    intro b v hb hne hv he
    refine ⟨b, _, hb, arrive_plain hi b, ?_⟩
    cases hd : doc L x k with
    | some g =>
      refine read_after hi b hne k hkc g ?_
      rw [if_neg (by decide), if_neg (by decide), hrd, hv, he, hd]; rfl
    | none =>
      unfold Inp.getValue
      rw [if_neg hkc, if_pos (fresh_after hi b hne)]
      have hb : ({ s with data := b, fedUpd := true, upd := true } : Inp).block L le k = .throw := by
        unfold Inp.block
        dsimp only
        rw [hi.inj, hi.units, if_neg (by decide), if_neg (by decide), hrd, hv, he, hd]
        rfl
      rw [hb]
      rfl
  have hcp : ∀ c : Cplx, publish L le .json (.cplx c) = .ok (cvtCplx L le .json c) := fun c => rfl
  have hcx : ∀ c : Cplx, cvtCplx L le .json c ≠ [] ∧ readJson L (cvtCplx L le .json c) = (Src.thinC c).kept := by
    intro c
    unfold cvtCplx Src.thinC
    by_cases h : isZero c.im = true
    · rw [if_pos h, if_pos h]; exact ⟨(hj _).2, by simp [cvtDbl, readJson, (hj _).1, Src.kept]⟩
    · rw [if_neg h, if_neg h]; exact ⟨(hj _).2, by simp [readJson, (hj _).1, Src.kept]⟩
  have hthin : ∀ c : Cplx, ∀ d, (Src.thinC c = .cplx d ∨ Src.thinC c = .cvec [d]) → d.plusZero := by
    intro c d h
    unfold Src.thinC at h
    by_cases hz : isZero c.im = true
    · rw [if_pos hz] at h; rcases h with h | h <;> cases h
    · rw [if_neg hz] at h
      rcases h with h | h
      · cases h; intro h'; exact absurd h' hz
      · cases h
  cases x with
  | dbl d =>
    exact key _ (Src.dbl d).kept rfl (hj _).2 (by simp [cvtDbl, readJson, (hj _).1, Src.kept])
      (stored_follows_table hs (.dbl d) k hk (by simp) hg)
  | int d =>
    exact key _ (Src.int d).kept rfl (hj _).2 (by simp [cvtInt, readJson, (hj _).1, Src.kept])
      (stored_follows_table hs (.int d) k hk (by simp) hg)
  | str t =>
    simp only [jsonGap, Bool.or_eq_false_iff, decide_eq_false_iff_not] at hg
    refine key (L.jsonText { type := .string, value := .text t }) (Src.str t).kept ?_ (hj _).2 (by simp [readJson, (hj _).1, Src.kept])
      (stored_follows_table hs (.str t) k hk (by simp) hg.2)
    simp only [Src.call, publish, cvtStr]; rw [if_neg hg.1]
  | cplx c =>
    exact key _ _ rfl (hcx c).1 (hcx c).2 (by
      rw [stored_follows_table hs (Src.thinC c) k hk (hthin c) hg, doc_thinC]; rfl)
  | vec v =>
    simp only [jsonGap, Bool.or_eq_false_iff, decide_eq_false_iff_not] at hg
    match v, hg with
    | [], hg => exact absurd rfl hg.1.1
    | [a], hg =>
      have hks : k ≠ .str := by intro e; subst e; simp at hg
      refine key _ (Src.dbl a).kept rfl (hj _).2 (by simp [cvtVec, cvtDbl, readJson, (hj _).1, Src.kept]) ?_
      rw [stored_follows_table hs (.dbl a) k hk (by simp) hg.2]
      cases k <;> first | (exact absurd rfl hks) | rfl
    | a :: b :: t, hg =>
      exact key _ (Src.vec (a :: b :: t)).kept rfl (hj _).2 (by simp [cvtVec, readJson, (hj _).1, Src.kept])
        (stored_follows_table hs _ k hk (by simp) hg.2)
  | cvec v =>
    simp only [jsonGap, Bool.or_eq_false_iff, decide_eq_false_iff_not] at hg
    match v, hg with
    | [], hg => exact absurd rfl hg.1.1
    | [a], hg =>
      have hks : k ≠ .str := by intro e; subst e; simp at hg
      refine key _ _ rfl (hcx a).1 (hcx a).2 ?_
      rw [stored_follows_table hs (Src.thinC a) k hk (hthin a) hg.2, doc_thinC]
      cases k <;> first | (exact absurd rfl hks) | rfl
    | a :: b :: t, hg =>
      refine key _ (Src.cvec (a :: b :: t)).kept rfl (hj _).2 ?_ (stored_follows_table hs _ k hk (by simp) hg.2)
      simp only [cvtCVec, readJson, (hj _).1, Src.kept]
      rw [if_neg (by simp [flat]), pairUp_flat]
  | np p =>
    simp only [jsonGap, Bool.or_eq_false_iff] at hg
    by_cases hv : isNaN p.value = true
    · simp only [hv, Bool.true_and, Bool.or_eq_false_iff, decide_eq_false_iff_not] at hg
      have hkn : k ≠ .np := by intro e; subst e; simp at hg
      have e1 : docNP L p k = docStr L p.name k := by
        cases k <;> first | exact absurd rfl hkn | simp [docNP, hv]
      refine key (L.jsonText { type := .string, value := .text p.name }) (Src.str p.name).kept ?_ (hj _).2
        (by simp [readJson, (hj _).1, Src.kept]) ?_
      · simp only [Src.call, publish]
        unfold cvtNP
        rw [if_neg (by decide), if_pos hv]
        simp only [cvtStr]; rw [if_neg hg.1.1]
      · have h2 := hg.2
        simp only [Src.thin, hv, if_true] at h2
        rw [stored_follows_table hs (.str p.name) k hk (by simp) h2]
        simp only [doc, e1]
    · refine key (L.jsonText { type := .namedPoint, name := p.name, value := .num p.value }) (Src.np p).kept ?_ (hj _).2
        (by simp [readJson, (hj _).1, Src.kept]) ?_
      · simp only [Src.call, publish]
        unfold cvtNP
        rw [if_neg (by decide), if_neg hv]
      · have h2 := hg.2
        simp only [Src.thin, if_neg hv] at h2
        exact stored_follows_table hs (.np p) k hk (by simp) h2
  | bool b =>
    refine key (L.jsonText { type := .string, value := .text (bStr b) }) (Src.bool b).kept ?_ (hj _).2
      (by simp [readJson, (hj _).1, Src.kept]) (stored_follows_table hs (.bool b) k hk (by simp) hg)
    simp only [Src.call, publish, cvtStr]; rw [if_neg (bStr_ne b)]

/-- The hypotheses are met: a complex number with a non-zero imaginary part on a JSON publication is read as a vector of
two elements. -/
example {L : Lib} (hs : L.Sane) (hj : L.JsonOk) (s : Inp) (hi : s.Plain .json) :
    ∃ b s1 s2, publish L true .json (.cplx ⟨dOne, dOne⟩) = .ok b ∧ s.arrive L true b = .ok s1 ∧
      s1.getValue L true .vec = .ok (.vec [dOne, dOne], s2) := by
  obtain ⟨b, s1, h1, h2, s2, h3⟩ := json_follows_table (le := true) hs hj (.cplx ⟨dOne, dOne⟩) .vec rfl
    (by simp [jsonGap, Src.thin, Src.thinC, show isZero dOne = false by decide, keptGap]) s hi
  exact ⟨b, s1, s2, h1, h2, h3⟩

end Verif.Value
