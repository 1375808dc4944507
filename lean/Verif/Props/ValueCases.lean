import Verif.Props.ValueTable
/-!
# C37 and C46: cases

A library that meets every assumption made of one, instances of the theorems, and the places where the code
does something else than the documentation or loses a value.
-/
namespace Verif.Value
open Verif.Wire (Byte)

/-! ## A library -/

/-- numbers of the types -/
def tyNum : DT → Nat
  | .unknown => 0 | .string => 1 | .double => 2 | .int => 3 | .complex => 4 | .vector => 5 | .cvector => 6
  | .namedPoint => 7 | .bool => 8 | .time => 9 | .char => 10 | .custom => 11 | .any => 12 | .json => 13 | .multi => 14
def tyOf : Nat → DT
  | 1 => .string | 2 => .double | 3 => .int | 4 => .complex | 5 => .vector | 6 => .cvector
  | 7 => .namedPoint | 8 => .bool | 9 => .time | 10 => .char | 11 => .custom | 12 => .any | 13 => .json | 14 => .multi
  | _ => .unknown
/-- self-delimiting text -/
def wrap : Str → Str
  | [] => [0#8]
  | c :: t => 1#8 :: c :: wrap t
def unwrap : Str → Str × Str
  | b :: c :: t => if b = 1#8 then let r := unwrap t; (c :: r.1, r.2) else ([], c :: t)
  | [_] => ([], [])
  | [] => ([], [])
def wordsIn : Str → List (BitVec 64)
  | a :: b :: c :: d :: e :: f :: g :: h :: t => wordOf true false [a, b, c, d, e, f, g, h] :: wordsIn t
  | _ => []
/-- shape and words of a JSON value -/
def jTag : JVal → Byte × Str
  | .num d => (0#8, word true d) | .int i => (1#8, word true i) | .bool b => (2#8, [if b then 1#8 else 0#8])
  | .text s => (3#8, s) | .arr v => (4#8, v.flatMap (word true))
def jWrite (j : JDoc) : Str := BitVec.ofNat 8 (tyNum j.type) :: (jTag j.value).1 :: (wrap j.name ++ (jTag j.value).2)
def jRead (s : Str) : Option JDoc :=
  match s with
  | t :: g :: r =>
    let p := unwrap r
    some { type := tyOf t.toNat, name := p.1,
           value := if g = 0#8 then .num ((wordsIn p.2).headD 0#64) else if g = 1#8 then .int ((wordsIn p.2).headD 0#64)
             else if g = 2#8 then .bool (p.2 == [1#8]) else if g = 3#8 then .text p.2 else .arr (wordsIn p.2) }
  | _ => none

theorem unwrap_wrap (n r : Str) : unwrap (wrap n ++ r) = (n, r) := by
  induction n with
  | nil => cases r <;> rfl
  | cons c t ih =>
    have e : wrap (c :: t) ++ r = 1#8 :: c :: (wrap t ++ r) := rfl
    rw [e, unwrap]
    simp only [ih]
    rfl

theorem wordsIn_word (d : BitVec 64) (r : Str) : wordsIn (word true d ++ r) = d :: wordsIn r := by
  have hl : (word true d).length = 8 := word_length _ _
  match hw : word true d, hl with
  | [a, b, c, e, f, g, h, i], _ =>
    have := wordOf_word true d
    rw [hw] at this
    show wordOf true false [a, b, c, e, f, g, h, i] :: wordsIn r = _
    rw [this]

theorem wordsIn_words (v : List (BitVec 64)) : wordsIn (v.flatMap (word true)) = v := by
  induction v with
  | nil => rfl
  | cons a t ih => rw [List.flatMap_cons, wordsIn_word, ih]

theorem jRead_jWrite (j : JDoc) : jRead (jWrite j) = some j := by
  obtain ⟨t, n, v⟩ := j
  have ht : tyOf (BitVec.ofNat 8 (tyNum t)).toNat = t := by cases t <;> decide
  simp only [jRead, jWrite, unwrap_wrap, ht]
  cases v with
  | num d =>
    have := wordsIn_word d []
    rw [List.append_nil] at this
    simp [jTag, this]
  | int d =>
    have := wordsIn_word d []
    rw [List.append_nil] at this
    simp [jTag, this]
  | bool b => cases b <;> simp [jTag]
  | text s => simp [jTag]
  | arr v => simp [jTag, wordsIn_words]

/-- a toy library: enough arithmetic to satisfy the assumptions; `decimals` prints with six digits or in short form -/
def demo : Lib where
  ofInt i := if i = 1#64 then dOne else i
  trunc d := if d = dOne then 1#64 else if d = dZero then 0#64 else 7#64
  toTicks d := if d = dOne then 1000000000#64 else 0#64
  ofTicks i := if i = 1000000000#64 then dOne else dZero
  cabs c := if isZero c.im then c.re else dOne
  norm v := match v with | [] => dZero | [x] => x | _ => dOne
  cnorm v := match v with | [] => dZero | [c] => if isZero c.im then c.re else dOne | _ => dOne
  toStr d := if d = dOne then asc "1.000000" else asc "0.000000"
  dblStr d := if d = dOne then asc "1" else asc "0"
  intStr i := if i = 1#64 then asc "1" else asc "0"
  vecStr v := if v.length = 1 then asc "v1[1]" else asc "v[]"
  cvecStr v := if v.length = 1 then asc "c1[1]" else asc "c[]"
  pairStr _ _ := asc "[1,1]"
  npStr _ _ := asc "{}"
  getComplex s := if s = asc "1" then ⟨dOne, dZero⟩ else if s = asc "0" then ⟨dZero, dZero⟩ else ⟨dInvalid, dZero⟩
  getVector s := if s = asc "1" then [dOne] else if s = asc "0" then [dZero] else if s = asc "[1,1]" then [dOne, dOne] else []
  getCVector s := if s = asc "1" then some [⟨dOne, dZero⟩] else if s = asc "0" then some [⟨dZero, dZero⟩] else none
  getNPoint s := if s = asc "1" then ⟨asc "value", dOne⟩ else if s = asc "0" then ⟨asc "value", dZero⟩ else ⟨s, dNaN⟩
  parseInt s := if s = asc "1" then some 1#64 else if s = asc "0" then some 0#64 else none
  stoll s := if s = asc "1" then some (1#64, true) else if s = asc "0" then some (0#64, true) else none
  timeText _ := none
  jsonText := jWrite
  jsonLoad := jRead
  far a b _ := a != b
  cfar a b _ := a != b
  tfar a b _ := a != b
  lt a b := a.toNat < b.toNat
  add a b := a + b
  sub a b := a - b
  div a _ := a
  csub a b := ⟨a.re - b.re, a.im - b.im⟩
  dMax := 0x7fefffffffffffff#64
  dLow := 0xffefffffffffffff#64
  jsonTexts l := l.flatten

theorem demo_json : demo.JsonOk := fun j => ⟨jRead_jWrite j, List.cons_ne_nil _ _⟩
theorem demo_sane : demo.Sane where
  trunc0 := by decide +kernel
  trunc1 := by decide +kernel
  norm0 := rfl
  cnorm0 := rfl
  norm1 _ := rfl
  cabs0 c h := by show isZero (if isZero c.im then c.re else dOne) = _; rw [if_pos h]
  cnorm1 _ := rfl
  bit b := by cases b <;> decide +kernel
  bitVec b := by cases b <;> decide +kernel
  bitCVec b := by cases b <;> decide +kernel
  bitNP b := by cases b <;> decide +kernel

/-- an input without units, reduction or change detection -/
def fresh (t : DT) : Inp := { inj := t, delta := dZero }
theorem fresh_plain (t : DT) : (fresh t).Plain t := ⟨rfl, rfl, rfl, rfl⟩

/-! ## Instances -/

/-- a named point on a big-endian machine -/
example : ∃ b s1 s2, publish demo false .namedPoint (.np ⟨asc "speed", dOne⟩) = .ok b ∧ (fresh .namedPoint).arrive demo false b = .ok s1 ∧
    s1.getValue demo false .np = .ok (.np ⟨asc "speed", dOne⟩, s2) :=
  same_type (.np ⟨asc "speed", dOne⟩) (by decide) trivial _ (fresh_plain _)
/-- a complex vector through a JSON publication -/
example : ∃ b s1 s2, publish demo true .json (.cvec [⟨dOne, dOne⟩, ⟨dZero, dOne⟩]) = .ok b ∧ (fresh .json).arrive demo true b = .ok s1 ∧
    s1.getValue demo true .cvec = .ok (.cvec [⟨dOne, dOne⟩, ⟨dZero, dOne⟩], s2) :=
  json_type demo_json (.cvec [⟨dOne, dOne⟩, ⟨dZero, dOne⟩]) trivial (by simp [Typed.jsonOk]) _ (fresh_plain _)
/-- a text through an `any` publication -/
example : ∃ b s1 s2, publish demo true .any (.str (asc "on")) = .ok b ∧ (fresh .any).arrive demo true b = .ok s1 ∧
    s1.getValue demo true .str = .ok (.str (asc "on"), s2) :=
  any_type (.str (asc "on")) (by decide) (by show asc "on" ≠ []; decide) _ (fresh_plain _)
/-- a vector on a string publication, and a vector publication read as a number -/
example : ∃ b, publish demo true .string (.vec [dOne, dOne]) = .ok b ∧ rd demo true b .string .str = .ok (.str (asc "v[]")) :=
  send_follows_table demo_sane (.vec [dOne, dOne]) .str rfl (by decide +kernel) rfl
example : ∃ b s1, publish demo true .vector (.vec [dOne, dOne]) = .ok b ∧ (fresh .vector).arrive demo true b = .ok s1 ∧
    ∃ s2, s1.getValue demo true .dbl = .ok (.dbl dOne, s2) :=
  read_follows_table demo_sane (.vec [dOne, dOne]) .dbl rfl (by decide +kernel) (by intro c h; cases h <;> contradiction) rfl _ (fresh_plain _)
example : rd demo true (encVec true [dOne, dOne]) .vector .bool ≠ .fault :=
  read_in_bounds (c := .vec [dOne, dOne]) (t := .vector) rfl (by decide +kernel) (by decide) .bool (by decide) (by decide)

/-- a block has arrived -/
def Inp.holds (s : Inp) (d : List Byte) : Inp := { s with data := d, fedUpd := true, upd := true }
/-- first read after a block arrived -/
theorem read_new (L : Lib) (le : Bool) (s : Inp) (h : s.changeOn = false) (d : List Byte) (hd : d ≠ []) (k : Kind) (hk : k ≠ .chr) :
    s.arrive L le d = .ok (s.holds d) ∧ (s.holds d).getValue L le k = ((s.holds d).block L le k).map fun g =>
      (g, { s with data := d, fedUpd := false, upd := false, last := g.keep }) := by
  constructor
  · unfold Inp.arrive Inp.checkUpdate
    rw [if_neg (by simp [h])]
    rfl
  · unfold Inp.getValue
    rw [if_neg hk, if_pos (by simp [Inp.fresh, Inp.holds, hd])]
    have : (s.holds d).changeOn = false := h
    simp only [this]
    cases (s.holds d).block L le k with
    | ok g => simp [Inp.holds, Inp.asked]
    | fault => rfl
    | throw => rfl

theorem ref_new (L : Lib) (le : Bool) (s : Inp) (h : s.changeOn = false) (d : List Byte) (hd : d ≠ []) (k : Kind) :
    (s.holds d).getRef L le k = (rdVal L le d s.inj).bind fun last => (refImpl L last k).map fun r =>
      (r.1, { s with data := d, fedUpd := false, upd := false, last := r.2 }) := by
  unfold Inp.getRef
  have hf : (s.holds d).fresh = true := by simp [Inp.fresh, Inp.holds, hd]
  have hc : (s.holds d).changeOn = false := h
  rw [if_pos hf, hc]
  simp only [Bool.false_eq_true, if_false, hf, Bool.not_true, Bool.false_and]
  rfl

/-! ## Where the documentation and the code part -/

/-- a complex vector on a vector publication: the table says one magnitude per element, the code sends both parts of each -/
theorem bug_cvec_to_vector (L : Lib) (le : Bool) (v : List Cplx) (h2 : 2 ≤ v.length) (hn : 2 * v.length < 2 ^ 32) :
    ∃ b w d, publish L le .vector (.cvec v) = .ok b ∧ rd L le b .vector .vec = .ok (.vec w) ∧ w.length = 2 * v.length ∧
      doc L (.cvec v) .vec = some (.vec d) ∧ d.length = v.length := by
  match v, h2 with
  | x :: y :: t, _ =>
    have hf : (flat (x :: y :: t)).length = 2 * (x :: y :: t).length := by simp [flat_length]
    refine ⟨encVec le (flat (x :: y :: t)), flat (x :: y :: t), _, rfl, ?_, hf, rfl, by simp⟩
    rw [rd, rdVec, decVec_enc le _ (by omega)]
    rfl

/-- a Boolean on a named-point publication: the table says `{"value", 0 or 1}`, the text "0" or "1" without value is sent -/
theorem bug_bool_to_np (L : Lib) (le b : Bool) :
    publish L le .namedPoint (.bool b) = .ok (encNP le ⟨bStr b, dNaN⟩) ∧
      doc L (.bool b) .np = some (.np ⟨asc "value", if b then dOne else dZero⟩) := by
  cases b <;> exact ⟨rfl, rfl⟩

/-- an empty text on a number publication sends zero, where the same text read from a string publication is "invalid" -/
theorem bug_empty_text (L : Lib) (le : Bool) :
    publish L le .double (.str []) = .ok (encDbl le dZero) ∧ doc L (.str []) .dbl = some (.dbl dInvalid) ∧
      publish L le .complex (.str []) = .ok (encCplx le ⟨dZero, dZero⟩) ∧ doc L (.str []) .cplx = some (.cplx ⟨dInvalid, dZero⟩) :=
  ⟨rfl, rfl, rfl, rfl⟩

/-- text on an integer publication goes through a double whatever the text: a whole number that a double cannot hold is changed,
while the documented reader keeps it -/
theorem bug_text_to_int (L : Lib) (le : Bool) (s : Str) (i : Int64) (d : Dbl) (hs : s ≠ []) (hp : L.parseInt s = some i)
    (hi : i ≠ intFail) (hd : getDouble L s = some d) :
    publish L le .int (.str s) = .ok (encInt le (L.trunc d)) ∧ doc L (.str s) .int = some (.int i) := by
  refine ⟨?_, ?_⟩
  · simp only [publish, cvtStr]
    rw [if_neg hs, hd]
    rfl
  · simp [doc, docStr, getInt, hp, hi]

/-- a list text on a complex publication: sent as the number a scalar parser makes of it -/
theorem bug_list_to_complex :
    publish demo true .complex (.str (asc "[1,1]")) = .ok (encCplx true ⟨dInvalid, dZero⟩) ∧
      doc demo (.str (asc "[1,1]")) .cplx = some (.cplx ⟨dOne, dOne⟩) := by decide +kernel

/-- the empty vector on a named-point publication: the text of the empty list is documented, a nameless point is sent -/
theorem bug_empty_vector_to_np (L : Lib) (le : Bool) :
    publish L le .namedPoint (.vec []) = .ok (encNP le ⟨[], dNaN⟩) ∧ doc L (.vec []) .np = some (.np ⟨L.vecStr [], dNaN⟩) :=
  ⟨rfl, rfl⟩

/-- a double publication read as text uses six decimals, a string publication of the same double the short form -/
theorem bug_two_texts (L : Lib) (le : Bool) (d : Dbl) :
    (∃ s1 s2, (fresh .double).arrive L le (encDbl le d) = .ok s1 ∧ s1.getValue L le .str = .ok (.str (L.toStr d), s2)) ∧
      publish L le .string (.dbl d) = .ok (encStr (L.dblStr d)) := by
  refine ⟨?_, rfl⟩
  obtain ⟨s2, h⟩ := read_after (L := L) (le := le) (fresh_plain .double) (encDbl le d) (enc_ne _ _ _) .str (by decide) (.str (L.toStr d))
    (by simp [dblUnits, decDbl_enc, ex, exStr])
  exact ⟨_, s2, arrive_plain (fresh_plain .double) _, h⟩

/-- a vector publication read as complex vector: the elements are paired up instead of getting zero imaginary parts -/
theorem bug_vector_paired (L : Lib) (le : Bool) (a b : Dbl) :
    rd L le (encVec le [a, b]) .vector .cvec = .ok (.cvec [⟨a, b⟩]) ∧
      doc L (.vec [a, b]) .cvec = some (.cvec [⟨a, dZero⟩, ⟨b, dZero⟩]) := by
  refine ⟨?_, rfl⟩
  rw [rd, rdCVec, decVec_enc le _ (by simp), Res.bind_ok]
  simp [pairs, pairUp]

/-! ## Values that are lost or misread -/

/-- the sign of a zero imaginary part is lost on a complex publication -/
theorem bug_negative_zero (L : Lib) (le : Bool) (x : Dbl) :
    publish L le .complex (.cplx ⟨x, 0x8000000000000000#64⟩) = .ok (encCplx le ⟨x, dZero⟩) := by
  have h : isZero (0x8000000000000000#64) = true := by decide +kernel
  simp [publish, cvtCplx, h, cvtDbl]

/-- the element count is kept in 32 bits: a text of `2 ^ 32` characters arrives empty -/
theorem bug_size_wraps (L : Lib) (le : Bool) (s : Str) (h : s.length = 2 ^ 32) :
    ∃ b s1 s2, publish L le .string (.str s) = .ok b ∧ (fresh .string).arrive L le b = .ok s1 ∧
      s1.getValue L le .str = .ok (.str [], s2) := by
  have hne : s ≠ [] := by intro e; subst e; simp at h
  have hd : decStr (encStr s) = .ok [] := by
    unfold decStr encStr
    rw [h]
    have e : headerBytes (codeOf .string) (2 ^ 32) = [0x0E#8, 0#8, 0#8, 0#8, 0#8, 0#8, 0#8, 0#8] := by decide +kernel
    rw [e]
    simp [dataSize, slice, Res.bind]
  obtain ⟨s2, h2⟩ := read_after (L := L) (le := le) (fresh_plain .string) (encStr s) (enc_ne _ _ _) .str (by decide) (.str [])
    (by rw [if_neg (by decide), if_neg (by decide)]; simp [rd, rdStr, hd])
  exact ⟨encStr s, _, s2, by simp only [publish, cvtStr]; rw [if_neg hne], arrive_plain (fresh_plain .string) _, h2⟩

/-- an empty vector read as a complex vector is read out of range: `ii < vec.size() - 1` on an unsigned size -/
theorem bug_empty_vector_fault (L : Lib) (le : Bool) :
    ∃ b s1, publish L le .vector (.vec []) = .ok b ∧ (fresh .vector).arrive L le b = .ok s1 ∧ s1.getValue L le .cvec = .fault := by
  obtain ⟨h1, h2⟩ := read_new L le (fresh .vector) rfl (encVec le []) (enc_ne _ _ _) .cvec (by decide)
  refine ⟨encVec le [], _, rfl, h1, h2.trans ?_⟩
  have : Inp.block L le ((fresh .vector).holds (encVec le [])) .cvec = rd L le (encVec le []) .vector .cvec := rfl
  rw [this, rd, rdCVec, decVec_enc le _ (by decide)]
  rfl

/-- a vector on an `any` publication read as a vector: the bytes of the numbers are parsed as text -/
theorem bug_any_vector (L : Lib) (le : Bool) (a b : Dbl) :
    publish L le .any (.vec [a, b]) = .ok (encVec le [a, b]) ∧
      rd L le (encVec le [a, b]) .any .vec = .ok (.vec (L.getVector ((word le a).take 2))) := by
  refine ⟨rfl, ?_⟩
  have hl : (word le a).length = 8 := word_length _ _
  simp [rd, rdVec, decStr, encVec, headerBytes, dataSize, slice, Res.bind, Res.map, hl, List.take_append]

/-- the empty text on an `any` publication is sent as the double zero -/
theorem bug_any_empty (L : Lib) (le : Bool) : publish L le .any (.str []) = .ok (encVal le (.dbl dZero)) := rfl
/-- the empty text on a JSON publication is sent as a binary double, which is not JSON -/
theorem bug_json_empty (L : Lib) (le : Bool) : publish L le .json (.str []) = .ok (encDbl le dZero) := rfl

/-- publishing complex numbers from a C array on a publication of another type uses only the first half of the array -/
theorem bug_half_array (L : Lib) (le : Bool) (a b : Cplx) :
    publish L le .vector (.cptr [a, b]) = .ok (encVec le [a.re, a.im]) ∧
      publish L le .vector (.cvec [a, b]) = .ok (encVec le [a.re, a.im, b.re, b.im]) := ⟨rfl, rfl⟩

/-- a time on a double publication is sent as its tick count, one second as a thousand million -/
theorem bug_time_ticks (L : Lib) (le : Bool) (t : Int64) : publish L le .double (.time t) = .ok (encDbl le (L.ofInt t)) := rfl

/-- `publish(name, value)` on a time publication truncates to whole ticks what `publish(NamedPoint)` converts to ticks -/
theorem bug_field_time (L : Lib) (le : Bool) (s : Str) (d : Dbl) (h : isNaN d = false) :
    publish L le .time (.field s d) = .ok (encInt le (L.trunc d)) ∧ publish L le .time (.np ⟨s, d⟩) = .ok (encInt le (L.toTicks d)) := by
  simp [publish, cvtField, cvtNP, h]

/-- `getValueRef` does not convert units, `getValue` does -/
theorem bug_ref_units (L : Lib) (le : Bool) (f : Dbl → Dbl) (d : Dbl) :
    ∃ s1 s2 s3, ({ fresh .double with units := some f } : Inp).arrive L le (encDbl le d) = .ok s1 ∧
      s1.getValue L le .dbl = .ok (.dbl (f d), s2) ∧ s1.getRef L le .dbl = .ok (.dbl d, s3) := by
  obtain ⟨h1, h2⟩ := read_new L le { fresh .double with units := some f } rfl (encDbl le d) (enc_ne _ _ _) .dbl (by decide)
  have hb : Inp.block L le (Inp.holds { fresh .double with units := some f } (encDbl le d)) .dbl = .ok (.dbl (f d)) := by
    unfold Inp.block
    rw [if_pos (by rfl)]
    simp [Inp.holds, dblUnits, decDbl_enc, ex, exDbl]
  rw [hb, Res.map_ok] at h2
  have hr : rdVal L le (encDbl le d) .double = .ok (.dbl d) := by simp [rdVal, decDbl_enc]
  have h3 := ref_new L le { fresh .double with units := some f } rfl (encDbl le d) (enc_ne _ _ _) .dbl
  rw [show ({ fresh .double with units := some f } : Inp).inj = .double from rfl, hr, Res.bind_ok, show refImpl L (.dbl d) .dbl = .ok (.dbl d, .dbl d) from rfl,
    Res.map_ok] at h3
  exact ⟨_, _, _, h1, h2, h3⟩

/-- reading as an integer and then as a double gives the truncated value: what the second call returns depends on the first -/
theorem bug_read_order (L : Lib) (le : Bool) (d : Dbl) :
    ∃ s1 s2 s3 s2', (fresh .double).arrive L le (encDbl le d) = .ok s1 ∧ s1.getValue L le .int = .ok (.int (L.trunc d), s2) ∧
      s2.getValue L le .dbl = .ok (.dbl (L.ofInt (L.trunc d)), s3) ∧ s1.getValue L le .dbl = .ok (.dbl d, s2') := by
  obtain ⟨h1, h2⟩ := read_new L le (fresh .double) rfl (encDbl le d) (enc_ne _ _ _) .int (by decide)
  obtain ⟨_, h3⟩ := read_new L le (fresh .double) rfl (encDbl le d) (enc_ne _ _ _) .dbl (by decide)
  have hi : Inp.block L le ((fresh .double).holds (encDbl le d)) .int = .ok (.int (L.trunc d)) := by
    unfold Inp.block
    rw [if_pos (by rfl)]
    simp [Inp.holds, fresh, dblUnits, decDbl_enc, ex, exInt]
  have hd : Inp.block L le ((fresh .double).holds (encDbl le d)) .dbl = .ok (.dbl d) := by
    unfold Inp.block
    rw [if_pos (by rfl)]
    simp [Inp.holds, fresh, dblUnits, decDbl_enc, ex, exDbl]
  rw [hi, Res.map_ok] at h2
  rw [hd, Res.map_ok] at h3
  exact ⟨_, _, _, _, h1, h2, rfl, h3⟩

/-- publishing with the publication's own units publishes twice -/
theorem bug_units_twice (f : Dbl → Dbl) (d : Dbl) : publishUnits true (some f) d = ([d, f d], false) := rfl

end Verif.Value
