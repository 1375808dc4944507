import Verif.Props.ValueSpec
import Verif.Lemmas.ValueShape
/-!
# C37: a value read back as the type it was published as is the value published
-/
namespace Verif.Value
open Verif.Wire (Byte)

/-- no conversion is asked of the input: its source has type `t`, no units, no reduction, no change detection -/
structure Inp.Plain (s : Inp) (t : DT) : Prop where
  inj : s.inj = t
  units : s.units = none
  op : s.op = .none
  off : s.changeOn = false

theorem arrive_plain {L : Lib} {le : Bool} {s : Inp} {t : DT} (h : s.Plain t) (d : List Byte) :
    s.arrive L le d = .ok { s with data := d, fedUpd := true, upd := true } := by
  unfold Inp.arrive Inp.checkUpdate
  rw [if_neg (by simp [h.off])]

theorem fresh_after {s : Inp} {t : DT} (_h : s.Plain t) (d : List Byte) (hd : d ≠ []) :
    ({ s with data := d, fedUpd := true, upd := true } : Inp).fresh = true := by
  simp [Inp.fresh, hd]

/-- reading right after a block arrived: the block is read -/
theorem read_after {L : Lib} {le : Bool} {s : Inp} {t : DT} (h : s.Plain t) (d : List Byte) (hd : d ≠ []) (k : Kind)
    (hk : k ≠ .chr) (g : Got)
    (hr : (if t = .double then (dblUnits le none d).bind fun v => ex L v k
      else if t = .int then (intUnits L le none d).bind fun v => ex L v k else rd L le d t k) = .ok g) :
    ∃ s2, ({ s with data := d, fedUpd := true, upd := true } : Inp).getValue L le k = .ok (g, s2) := by
  unfold Inp.getValue
  rw [if_neg hk, if_pos (fresh_after h d hd)]
  have hb : ({ s with data := d, fedUpd := true, upd := true } : Inp).block L le k = .ok g := by
    unfold Inp.block
    dsimp only
    rw [h.inj, h.units]
    exact hr
  rw [hb, Res.bind_ok, if_neg (by simp [h.off])]
  exact ⟨_, rfl⟩

theorem char_after {L : Lib} {le : Bool} {s : Inp} (h : s.Plain .char) (d : List Byte) (hd : d ≠ []) (c : Byte)
    (hr : decStr d = .ok [c]) :
    ∃ s2, ({ s with data := d, fedUpd := true, upd := true } : Inp).getValue L le .chr = .ok (.chr c, s2) := by
  unfold Inp.getValue
  rw [if_pos rfl]
  unfold Inp.getChar
  rw [if_pos (fresh_after h d hd)]
  dsimp only
  rw [h.inj, if_pos (by decide)]
  simp only [rd, rdStr, hr, Res.map_ok, h.off, Res.bind_ok]
  exact ⟨_, rfl⟩

theorem enc_ne (c : Byte) (n : Nat) (x : List Byte) : headerBytes c n ++ x ≠ [] := by simp [headerBytes]

theorem same_type {L : Lib} {le : Bool} (v : Typed) (hn : v.size < 2 ^ 32) (hz : v.plusZero) (s : Inp) (hs : s.Plain v.type) :
    ∃ b s1 s2, publish L le v.type v.call = .ok b ∧ s.arrive L le b = .ok s1 ∧ s1.getValue L le v.kind = .ok (v.got, s2) := by
  have key : ∀ b, publish L le v.type v.call = .ok b → b ≠ [] → (v.kind ≠ .chr) →
      (if v.type = .double then (dblUnits le none b).bind fun w => ex L w v.kind
        else if v.type = .int then (intUnits L le none b).bind fun w => ex L w v.kind else rd L le b v.type v.kind) = .ok v.got →
      ∃ b s1 s2, publish L le v.type v.call = .ok b ∧ s.arrive L le b = .ok s1 ∧ s1.getValue L le v.kind = .ok (v.got, s2) := by
    intro b hb hne hk hr
    obtain ⟨s2, h2⟩ := read_after hs b hne v.kind hk v.got hr
    exact ⟨b, _, s2, hb, arrive_plain hs b, h2⟩
  cases v with
  | dbl d =>
    refine key (encDbl le d) rfl (enc_ne _ _ _) (by simp [Typed.kind]) ?_
    simp [Typed.type, Typed.kind, Typed.got, dblUnits, decDbl_enc, ex, exDbl]
  | int i =>
    refine key (encInt le i) rfl (enc_ne _ _ _) (by simp [Typed.kind]) ?_
    simp [Typed.type, Typed.kind, Typed.got, intUnits, decInt_enc, ex, exInt]
  | str x =>
    have hb : publish L le .string (.str x) = .ok (encStr x) := by
      simp only [publish, cvtStr]
      by_cases h : x = []
      · subst h; rfl
      · rw [if_neg h]
    refine key (encStr x) hb (enc_ne _ _ _) (by simp [Typed.kind]) ?_
    simp [Typed.type, Typed.kind, Typed.got, rd, rdStr, decStr_enc x hn]
  | cplx c =>
    have hb : publish L le .complex (.cplx c) = .ok (encCplx le c) := by
      simp only [publish, cvtCplx]
      by_cases h : isZero c.im = true
      · rw [if_pos h]
        have := hz h
        cases c
        simp only at this
        subst this
        rfl
      · rw [if_neg h]
    refine key (encCplx le c) hb (enc_ne _ _ _) (by simp [Typed.kind]) ?_
    simp [Typed.type, Typed.kind, Typed.got, rd, rdCplx, decCplx_enc]
  | vec x =>
    have hb : publish L le .vector (.vec x) = .ok (encVec le x) := by
      simp only [publish, cvtVec]
      cases x with
      | nil => rfl
      | cons a t => cases t <;> rfl
    refine key (encVec le x) hb (enc_ne _ _ _) (by simp [Typed.kind]) ?_
    simp [Typed.type, Typed.kind, Typed.got, rd, rdVec, decVec_enc le x hn]
  | cvec x =>
    have hb : publish L le .cvector (.cvec x) = .ok (encCVec le x) := by
      simp only [publish, cvtCVec]
      cases x with
      | nil => rfl
      | cons a t =>
        cases t with
        | nil =>
          dsimp only
          unfold cvtCplx
          by_cases h : isZero a.im = true
          · rw [if_pos h]
            have := hz h
            cases a
            simp only at this
            subst this
            rfl
          · rw [if_neg h]
        | cons b t => rfl
    refine key (encCVec le x) hb (enc_ne _ _ _) (by simp [Typed.kind]) ?_
    simp [Typed.type, Typed.kind, Typed.got, rd, rdCVec, decCVec_enc le x hn]
  | np p =>
    refine key (encNP le p) rfl (enc_ne _ _ _) (by simp [Typed.kind]) ?_
    simp [Typed.type, Typed.kind, Typed.got, rd, rdNP, decNP_enc le p hn]
  | bool b =>
    have hb : publish L le .bool (.bool b) = .ok (encStr (bStr b)) := by cases b <;> rfl
    refine key _ hb (enc_ne _ _ _) (by simp [Typed.kind]) ?_
    have := decStr_enc (bStr b) (by cases b <;> decide)
    simp only [Typed.type, Typed.kind, Typed.got, rd, rdBool, this, Res.map_ok]
    cases b <;> rfl
  | chr c =>
    have h1 := decStr_enc [c] (by simp)
    obtain ⟨s2, h2⟩ := char_after (L := L) (le := le) hs (encStr [c]) (enc_ne _ _ _) c h1
    exact ⟨encStr [c], _, s2, rfl, arrive_plain hs _, h2⟩
  | time t =>
    refine key (encInt le t) rfl (enc_ne _ _ _) (by simp [Typed.kind]) ?_
    simp [Typed.type, Typed.kind, Typed.got, rd, rdTime, decInt_enc]

/-- the C array, `const std::string&` and `getValueRef` readings: of primary types only -/
def Typed.primary : Typed → Bool
  | .dbl _ | .int _ | .str _ | .cplx _ | .vec _ | .cvec _ | .np _ => true
  | _ => false

theorem same_type_ref {L : Lib} {le : Bool} (v : Typed) (hp : v.primary = true) (hn : v.size < 2 ^ 32) (hz : v.plusZero)
    (s : Inp) (hs : s.Plain v.type) :
    ∃ b s1 s2, publish L le v.type v.call = .ok b ∧ s.arrive L le b = .ok s1 ∧ s1.getRef L le v.kind = .ok (v.got, s2) := by
  have key : ∀ (b : List Byte) (w : Val), publish L le v.type v.call = .ok b → b ≠ [] → rdVal L le b v.type = .ok w →
      refImpl L w v.kind = .ok (v.got, w) →
      ∃ b s1 s2, publish L le v.type v.call = .ok b ∧ s.arrive L le b = .ok s1 ∧ s1.getRef L le v.kind = .ok (v.got, s2) := by
    intro b w hb hne hr hi
    refine ⟨b, _, ?_, hb, arrive_plain hs b, ?_⟩
    rotate_left
    · unfold Inp.getRef
      rw [if_pos (fresh_after hs b hne)]
      dsimp only
      rw [if_neg (by simp [hs.off]), hs.inj, hr, Res.bind_ok, hi, Res.map_ok]
  obtain ⟨b, s1, s2, hb, ha, hg⟩ := same_type (L := L) (le := le) v hn hz s hs
  cases v with
  | dbl d => exact key (encDbl le d) (.dbl d) rfl (enc_ne _ _ _) (by simp [Typed.type, rdVal, decDbl_enc]) rfl
  | int d => exact key (encInt le d) (.int d) rfl (enc_ne _ _ _) (by simp [Typed.type, rdVal, decInt_enc]) rfl
  | str x =>
    refine key (encStr x) (.str x) ?_ (enc_ne _ _ _) (by simp [Typed.type, rdVal, decStr_enc x hn]) rfl
    simp only [Typed.type, Typed.call, publish, cvtStr]
    by_cases h : x = []
    · subst h; rfl
    · rw [if_neg h]
  | cplx c =>
    refine key (encCplx le c) (.cplx c) ?_ (enc_ne _ _ _) (by simp [Typed.type, rdVal, decCplx_enc]) rfl
    simp only [Typed.type, Typed.call, publish, cvtCplx]
    by_cases h : isZero c.im = true
    · rw [if_pos h]
      have := hz h
      cases c
      simp only at this
      subst this
      rfl
    · rw [if_neg h]
  | vec x =>
    refine key (encVec le x) (.vec x) ?_ (enc_ne _ _ _) (by simp [Typed.type, rdVal, decVec_enc le x hn]) rfl
    cases x with
    | nil => rfl
    | cons a t => cases t <;> rfl
  | cvec x =>
    refine key (encCVec le x) (.cvec x) ?_ (enc_ne _ _ _) (by simp [Typed.type, rdVal, decCVec_enc le x hn]) rfl
    match x, hz with
    | [], _ => rfl
    | [a], hz =>
      simp only [Typed.type, Typed.call, publish, cvtCVec]
      unfold cvtCplx
      by_cases h : isZero a.im = true
      · rw [if_pos h]
        have := hz h
        cases a
        simp only at this
        subst this
        rfl
      · rw [if_neg h]
    | a :: b :: t, _ => rfl
  | np p => exact key (encNP le p) (.np p) rfl (enc_ne _ _ _) (by simp [Typed.type, rdVal, decNP_enc le p hn]) rfl
  | bool b => cases hp
  | chr b => cases hp
  | time b => cases hp

/-- a publication of type `any`: numbers, Booleans and non-empty text come back -/
def Typed.anyOk : Typed → Prop
  | .dbl _ | .int _ | .bool _ => True
  | .str s => s ≠ []
  | _ => False

theorem any_type {L : Lib} {le : Bool} (v : Typed) (hn : v.size < 2 ^ 32) (ho : v.anyOk) (s : Inp) (hs : s.Plain .any) :
    ∃ b s1 s2, publish L le .any v.call = .ok b ∧ s.arrive L le b = .ok s1 ∧ s1.getValue L le v.kind = .ok (v.got, s2) := by
  have key : ∀ b, publish L le .any v.call = .ok b → b ≠ [] → (v.kind ≠ .chr) → rd L le b .any v.kind = .ok v.got →
      ∃ b s1 s2, publish L le .any v.call = .ok b ∧ s.arrive L le b = .ok s1 ∧ s1.getValue L le v.kind = .ok (v.got, s2) := by
    intro b hb hne hk hr
    obtain ⟨s2, h2⟩ := read_after (L := L) (le := le) hs b hne v.kind hk v.got (by rw [if_neg (by decide), if_neg (by decide)]; exact hr)
    exact ⟨b, _, s2, hb, arrive_plain hs b, h2⟩
  cases v with
  | dbl d =>
    refine key (encVal le (.dbl d)) rfl (enc_ne _ _ _) (by simp [Typed.kind]) ?_
    simp [Typed.kind, Typed.got, rd, rdDbl, rdVal_any L le (.dbl d) (by simp [Val.count]), exDbl]
  | int d =>
    refine key (encVal le (.int d)) rfl (enc_ne _ _ _) (by simp [Typed.kind]) ?_
    simp [Typed.kind, Typed.got, rd, rdInt, rdVal_any L le (.int d) (by simp [Val.count]), exInt]
  | str x =>
    refine key (encVal le (.str x)) (by simp only [Typed.call, publish, cvtStr]; rw [if_neg ho]; rfl) (enc_ne _ _ _) (by simp [Typed.kind]) ?_
    simp only [Typed.kind, Typed.got, rd, rdStr, encVal, decStr_enc x hn, Res.map_ok]
  | bool b =>
    refine key (encVal le (.str (bStr b))) (by cases b <;> rfl) (enc_ne _ _ _) (by simp [Typed.kind]) ?_
    have := rdVal_any L le (.str (bStr b)) (by cases b <;> decide)
    simp only [Typed.kind, Typed.got, rd, rdBool, this, Res.map_ok]
    cases b <;> rfl
  | cplx c => exact ho.elim
  | vec c => exact ho.elim
  | cvec c => exact ho.elim
  | np c => exact ho.elim
  | chr c => exact ho.elim
  | time c => exact ho.elim

/-- the JSON library reads back what it wrote -/
def Lib.JsonOk (L : Lib) : Prop := ∀ j, L.jsonLoad (L.jsonText j) = some j ∧ L.jsonText j ≠ []

/-- a publication of type JSON: everything comes back but empty values and named points without a value -/
def Typed.jsonOk : Typed → Prop
  | .str s => s ≠ []
  | .vec v => v ≠ []
  | .cvec v => v ≠ []
  | .np p => isNaN p.value = false
  | _ => True

theorem json_vec {L : Lib} (hj : L.JsonOk) (le : Bool) (x : List Dbl) (hx : x ≠ []) :
    ∃ b, cvtVec L le .json x = b ∧ b ≠ [] ∧ exVec L (readJson L b) = x := by
  refine ⟨_, rfl, ?_⟩
  match x, hx with
  | [a], _ =>
    refine ⟨(hj _).2, ?_⟩
    simp only [cvtVec, cvtDbl, readJson, (hj _).1, exVec]
  | a :: b :: t, _ =>
    refine ⟨(hj _).2, ?_⟩
    simp only [cvtVec, readJson, (hj _).1, exVec]

theorem json_type {L : Lib} {le : Bool} (hj : L.JsonOk) (v : Typed) (hz : v.plusZero) (ho : v.jsonOk) (s : Inp) (hs : s.Plain .json) :
    ∃ b s1 s2, publish L le .json v.call = .ok b ∧ s.arrive L le b = .ok s1 ∧ s1.getValue L le v.kind = .ok (v.got, s2) := by
  have key : ∀ b, publish L le .json v.call = .ok b → b ≠ [] → (v.kind ≠ .chr) → rd L le b .json v.kind = .ok v.got →
      ∃ b s1 s2, publish L le .json v.call = .ok b ∧ s.arrive L le b = .ok s1 ∧ s1.getValue L le v.kind = .ok (v.got, s2) := by
    intro b hb hne hk hr
    obtain ⟨s2, h2⟩ := read_after (L := L) (le := le) hs b hne v.kind hk v.got (by rw [if_neg (by decide), if_neg (by decide)]; exact hr)
    exact ⟨b, _, s2, hb, arrive_plain hs b, h2⟩
  have cplxRead : ∀ c : Cplx, c.plusZero → cvtCplx L le .json c ≠ [] ∧
      exCplx L ⟨dZero, dZero⟩ (readJson L (cvtCplx L le .json c)) = c ∧ exCVec L (readJson L (cvtCplx L le .json c)) = .ok [c] := by
    intro c hc
    unfold cvtCplx
    by_cases h : isZero c.im = true
    · rw [if_pos h]
      have := hc h
      cases c
      simp only at this
      subst this
      simp only [cvtDbl]
      refine ⟨(hj _).2, ?_⟩
      simp [readJson, (hj _).1, exCplx, exCVec]
    · rw [if_neg h]
      refine ⟨(hj _).2, ?_⟩
      simp [readJson, (hj _).1, exCplx, exCVec]
  cases v with
  | dbl d =>
    refine key _ rfl (hj _).2 (by simp [Typed.kind]) ?_
    simp [Typed.kind, Typed.got, rd, rdDbl, cvtDbl, readJson, (hj _).1, exDbl]
  | int d =>
    refine key _ rfl (hj _).2 (by simp [Typed.kind]) ?_
    simp [Typed.kind, Typed.got, rd, rdInt, cvtInt, readJson, (hj _).1, exInt]
  | str x =>
    refine key (L.jsonText { type := .string, value := .text x }) ?_ (hj _).2 (by simp [Typed.kind]) ?_
    · simp only [Typed.call, publish, cvtStr]; rw [if_neg ho]
    · simp [Typed.kind, Typed.got, rd, rdStr, readJson, (hj _).1, exStr]
  | cplx c =>
    have := cplxRead c hz
    refine key _ rfl this.1 (by simp [Typed.kind]) ?_
    simp [Typed.kind, Typed.got, rd, rdCplx, this.2.1]
  | vec x =>
    obtain ⟨b, hb, hne, hr⟩ := json_vec hj le x ho
    subst hb
    refine key _ rfl hne (by simp [Typed.kind]) ?_
    simp [Typed.kind, Typed.got, rd, rdVec, hr]
  | cvec x =>
    match x, ho, hz with
    | [a], _, hz =>
      have := cplxRead a hz
      refine key _ rfl this.1 (by simp [Typed.kind]) ?_
      simp [Typed.kind, Typed.got, rd, rdCVec, cvtCVec, this.2.2]
    | a :: b :: t, _, _ =>
      refine key _ rfl (hj _).2 (by simp [Typed.kind]) ?_
      simp only [Typed.kind, Typed.got, rd, rdCVec, cvtCVec, readJson, (hj _).1]
      rw [if_neg (by simp [flat]), pairUp_flat]
      rfl
  | np p =>
    refine key (L.jsonText { type := .namedPoint, name := p.name, value := .num p.value }) ?_ (hj _).2 (by simp [Typed.kind]) ?_
    · simp only [Typed.call, publish, cvtNP]
      rw [if_neg (by decide), if_neg (by rw [ho]; decide)]
    · simp [Typed.kind, Typed.got, rd, rdNP, readJson, (hj _).1, exNP]
  | bool b =>
    refine key (L.jsonText { type := .string, value := .text (bStr b) }) (by cases b <;> rfl) (hj _).2 (by simp [Typed.kind]) ?_
    simp only [Typed.kind, Typed.got, rd, rdBool, readJson, (hj _).1, exBool, Res.map_ok]
    cases b <;> rfl
  | chr c =>
    refine ⟨L.jsonText { type := .int, value := .int (chrInt c) }, _, ?_, rfl, arrive_plain hs _, ?_⟩
    rotate_left
    · unfold Inp.getValue
      rw [if_pos (by rfl)]
      unfold Inp.getChar
      rw [if_pos (fresh_after hs _ (hj _).2)]
      dsimp only
      rw [hs.inj, if_neg (by decide), if_neg (by decide)]
      simp only [rd, rdInt, readJson, (hj _).1, exInt, Res.map_ok, hs.off, Res.bind_ok, Got.keep, exChar, Bool.false_eq_true, if_false]
      have : toChar (chrInt c) = c := by
        unfold toChar chrInt
        ext i hi; rw [BitVec.truncate_eq_setWidth, BitVec.getElem_setWidth, BitVec.getLsbD_signExtend]; simp [hi]; omega
      rw [this]
      rfl
  | time t =>
    refine key _ rfl (hj _).2 (by simp [Typed.kind]) ?_
    simp [Typed.kind, Typed.got, rd, rdTime, cvtInt, readJson, (hj _).1, exTime]

/-- whatever was published and whatever it is read as, the reading stays inside the block.  The exceptions are an empty vector
read as complex vector, and an empty text or nameless point read as a character. -/
theorem read_in_bounds {L : Lib} {le : Bool} {t : DT} {c : PubCall} {b : List Byte} (hb : publish L le t c = .ok b)
    (hn : b.length < 2 ^ 32) (hj : t ≠ .json) (k : Kind) (hv : k = .cvec → 8 < b.length)
    (hc : k = .chr → t ≠ .namedPoint ∧ t ≠ .unknown ∧ 8 < b.length) : rd L le b t k ≠ .fault := by
  obtain ⟨v, rfl, hs⟩ := publish_shape L le t c hj hb
  have hcnt : v.count < 2 ^ 32 := Nat.lt_of_le_of_lt (count_le le v) hn
  have hlen := encVal_length le v
  intro hf
  have hbad : (rd L le (encVal le v) t k).bad := by rw [hf]; exact trivial
  revert hbad
  cases hst : stored t with
  | none =>
    refine rd_open_bad L le t v k hcnt hst hj ?_
    intro h1 h2
    exact absurd h2 (hc h1).2.1
  | some u =>
    refine rd_stored_bad L le t v k hcnt ⟨u, hst⟩ hs ?_
    rintro (⟨h1, h2⟩ | ⟨h1, h2⟩)
    · have := hv h1
      rw [hlen, h2] at this
      simp [binaryLength] at this
    · obtain ⟨n1, n2, n3⟩ := hc h1
      rw [hlen] at n3
      cases v with
      | np p =>
        have := hs u hst
        rw [← this] at hst
        cases t <;> simp only [stored, Val.loc', Option.some.injEq] at hst <;> first | (cases hst; done) | exact n1 rfl
      | _ => simp only [Val.count, binaryLength] at h2 n3; omega

/-- the header says the type: what `any` readers look at -/
theorem type_detected {L : Lib} {le : Bool} {t : DT} {c : PubCall} {b : List Byte} (hb : publish L le t c = .ok b)
    (hj : t ≠ .json) : ∃ u, detectType b = .ok u ∧ u ≠ .unknown ∧ ∀ w, stored t = some w → u = w := by
  obtain ⟨v, rfl, hs⟩ := publish_shape L le t c hj hb
  exact ⟨v.loc', detect_encVal le v, by cases v <;> simp [Val.loc'], hs⟩

end Verif.Value
