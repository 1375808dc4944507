import Verif.Model.Wire
/-!
# Values: what a publication sends and what an input reads

Models the byte form of values (src/helics/application_api/ValueConverter.cpp), the conversion of a
published value to the type of the publication (src/helics/application_api/helicsTypes.cpp), the reading
of a block or of a stored value as any of the primary types
(src/helics/application_api/helicsPrimaryTypes.cpp, HelicsPrimaryTypes.hpp) and the reading functions of
an input (src/helics/application_api/Inputs.hpp, Inputs.cpp).

A `double` is its 64-bit pattern; a `Time` is its 64-bit tick count.  Floating-point arithmetic, number
printing and parsing, the JSON library and unit conversion are the fields of `Lib`: no theorem assumes
anything of them unless it says so.  Reading outside a block is the outcome `fault`, a C++ exception is
`throw`.
-/
namespace Verif.Value
open Verif.Wire (Byte leBytes ofLe toBytes ofBytes)

/-- bit pattern of a `double` -/
abbrev Dbl := BitVec 64
/-- `std::int64_t`, and the tick count of a `Time` -/
abbrev Int64 := BitVec 64
/-- `std::string` -/
abbrev Str := List Byte

/-- `std::complex<double>` -/
structure Cplx where
  re : Dbl
  im : Dbl
  deriving DecidableEq
/-- `NamedPoint` (src/helics/application_api/helicsTypes.hpp). -/
structure NPoint where
  name : Str
  value : Dbl
  deriving DecidableEq

/-- `DataType` (src/helics/application_api/helicsTypes.hpp:273-290). -/
inductive DT
  | unknown | string | double | int | complex | vector | cvector | namedPoint | bool | time | char | custom
  | any | json | multi
  deriving DecidableEq

/-- `defV` (src/helics/application_api/HelicsPrimaryTypes.hpp:31-37). -/
inductive Val
  | dbl (d : Dbl)
  | int (i : Int64)
  | str (s : Str)
  | cplx (c : Cplx)
  | vec (v : List Dbl)
  | cvec (v : List Cplx)
  | np (p : NPoint)
  deriving DecidableEq

/-- outcome of a call -/
inductive Res (α : Type)
  | ok (a : α)
  /-- read outside the block -/
  | fault
  /-- C++ exception left the call -/
  | throw
  deriving DecidableEq

/-- sequencing -/
def Res.bind {α β : Type} : Res α → (α → Res β) → Res β
  | .ok a, f => f a
  | .fault, _ => .fault
  | .throw, _ => .throw
/-- post-processing -/
def Res.map {α β : Type} (f : α → β) (r : Res α) : Res β := r.bind fun a => .ok (f a)

/-- positive zero -/
def dZero : Dbl := 0#64
/-- `1.0` -/
def dOne : Dbl := 0x3ff0000000000000#64
/-- `std::nan("0")` -/
def dNaN : Dbl := 0x7ff8000000000000#64
/-- `invalidDouble`, -1e49 (src/helics/application_api/helicsTypes.hpp:499). -/
def dInvalid : Dbl := 0xca1b5e7e08ca3a8f#64
/-- `d == 0.0`: both zeros, nothing else -/
def isZero (d : Dbl) : Bool := (d &&& 0x7fffffffffffffff#64) == 0#64
/-- `std::isnan(d)` -/
def isNaN (d : Dbl) : Bool := (0x7ff0000000000000#64).toNat < (d &&& 0x7fffffffffffffff#64).toNat
/-- `invalidValue<int64_t>()` (src/helics/application_api/helicsTypes.hpp:508-511). -/
def iInvalid : Int64 := 0x8000000000000000#64

/-- a JSON number, boolean, text or list of numbers, as written under "value" -/
inductive JVal
  | num (d : Dbl) | int (i : Int64) | bool (b : Bool) | text (s : Str) | arr (v : List Dbl)
  deriving DecidableEq
/-- the JSON objects written for a value of a JSON publication: "type", "value" and, for named points,
"name".  Simplification: the type name is the `DT` it stands for. -/
structure JDoc where
  type : DT
  name : Str := []
  value : JVal
  deriving DecidableEq

/-- the library functions the conversions call -/
structure Lib where
  /-- `static_cast<double>(int64_t)` -/
  ofInt : Int64 → Dbl
  /-- `static_cast<int64_t>(double)` -/
  trunc : Dbl → Int64
  /-- `Time(double).getBaseTimeCode()` -/
  toTicks : Dbl → Int64
  /-- `static_cast<double>(Time)` -/
  ofTicks : Int64 → Dbl
  /-- `std::abs(std::complex<double>)` -/
  cabs : Cplx → Dbl
  /-- `vectorNorm` of doubles (src/helics/application_api/helicsTypes.cpp:109-117) -/
  norm : List Dbl → Dbl
  /-- `vectorNorm` of complex numbers (src/helics/application_api/helicsTypes.cpp:119-129) -/
  cnorm : List Cplx → Dbl
  /-- `std::to_string(double)` -/
  toStr : Dbl → Str
  /-- `helicsDoubleString`: `fmt::format("{}", val)` (src/helics/application_api/helicsTypes.cpp:368-371) -/
  dblStr : Dbl → Str
  /-- `helicsIntString`, `std::to_string(int64_t)` (src/helics/application_api/helicsTypes.cpp:363-366) -/
  intStr : Int64 → Str
  /-- `helicsVectorString` (src/helics/application_api/helicsTypes.cpp:373-381) -/
  vecStr : List Dbl → Str
  /-- `helicsComplexVectorString` (src/helics/application_api/helicsTypes.cpp:383-386) -/
  cvecStr : List Cplx → Str
  /-- `fmt::format("[{},{}]", real, imag)` (src/helics/application_api/helicsTypes.cpp:133) -/
  pairStr : Dbl → Dbl → Str
  /-- `helicsNamedPointString` (src/helics/application_api/helicsTypes.cpp:388-401) -/
  npStr : Str → Dbl → Str
  /-- `helicsGetComplex` (src/helics/application_api/helicsTypes.cpp:304-361) -/
  getComplex : Str → Cplx
  /-- `helicsGetVector` (src/helics/application_api/helicsTypes.cpp:522-569) -/
  getVector : Str → List Dbl
  /-- `helicsGetComplexVector` (src/helics/application_api/helicsTypes.cpp:571-656); none: it throws -/
  getCVector : Str → Option (List Cplx)
  /-- `helicsGetNamedPoint` (src/helics/application_api/helicsTypes.cpp:417-449) -/
  getNPoint : Str → NPoint
  /-- `numeric_conversionComplete<int64_t>`: none when the whole text is not an integer -/
  parseInt : Str → Option Int64
  /-- `std::stoll(s, &index)`; none when it throws, and whether the whole text was used -/
  stoll : Str → Option (Int64 × Bool)
  /-- `loadTimeFromString`; none when it throws -/
  timeText : Str → Option Int64
  /-- `fileops::generateJsonString` -/
  jsonText : JDoc → Str
  /-- `fileops::loadJsonStr` of a block, none when it is not such an object -/
  jsonLoad : Str → Option JDoc
  /-- `std::abs(a - b) > delta` on doubles -/
  far : Dbl → Dbl → Dbl → Bool
  /-- `std::abs(a - b) > delta` on complex numbers -/
  cfar : Cplx → Cplx → Dbl → Bool
  /-- `std::abs(Time(a) - Time(b)) > delta` -/
  tfar : Int64 → Int64 → Dbl → Bool
  /-- `a < b` on doubles -/
  lt : Dbl → Dbl → Bool
  /-- `a + b`, `a - b`, `a / b` on doubles -/
  add : Dbl → Dbl → Dbl
  sub : Dbl → Dbl → Dbl
  div : Dbl → Dbl → Dbl
  /-- `a - b` on complex numbers -/
  csub : Cplx → Cplx → Cplx
  /-- `std::numeric_limits<double>::max()` and its negative -/
  dMax : Dbl
  dLow : Dbl
  /-- `generateJsonString` of an array of texts -/
  jsonTexts : List Str → Str

/-! ## Byte form -/

/-- codes of the stored types (src/helics/application_api/ValueConverter.cpp:69-76) -/
def codeOf : DT → Byte
  | .double => 0xB0#8 | .int => 0x50#8 | .complex => 0x12#8 | .string => 0x0E#8 | .vector => 0x6C#8
  | .namedPoint => 0xAE#8 | .cvector => 0x62#8 | _ => 0xF4#8

/-- `addCodeAndSize` (src/helics/application_api/ValueConverter.cpp:87-96). -/
def headerBytes (code : Byte) (size : Nat) : List Byte :=
  [code, 0#8, 0#8, 0#8, BitVec.ofNat 8 (size / 2 ^ 24), BitVec.ofNat 8 (size / 2 ^ 16), BitVec.ofNat 8 (size / 2 ^ 8),
    BitVec.ofNat 8 size]

/-- memory image of a 64-bit word on a machine that is little endian iff `le` -/
def word (le : Bool) (d : BitVec 64) : List Byte := toBytes le 8 d.toNat

/-- `convertToBinary(double)` (src/helics/application_api/ValueConverter.cpp:98-103). -/
def encDbl (le : Bool) (d : Dbl) : List Byte := headerBytes (codeOf .double) 1 ++ word le d
/-- `convertToBinary(int64_t)` (src/helics/application_api/ValueConverter.cpp:105-110). -/
def encInt (le : Bool) (i : Int64) : List Byte := headerBytes (codeOf .int) 1 ++ word le i
/-- `convertToBinary(std::complex<double>)` (src/helics/application_api/ValueConverter.cpp:112-117). -/
def encCplx (le : Bool) (c : Cplx) : List Byte := headerBytes (codeOf .complex) 2 ++ (word le c.re ++ word le c.im)
/-- `convertToBinary(std::string_view)` (src/helics/application_api/ValueConverter.cpp:119-126). -/
def encStr (s : Str) : List Byte := headerBytes (codeOf .string) s.length ++ s
/-- `convertToBinary(const NamedPoint&)` (src/helics/application_api/ValueConverter.cpp:128-136). -/
def encNP (le : Bool) (p : NPoint) : List Byte := headerBytes (codeOf .namedPoint) p.name.length ++ (word le p.value ++ p.name)
/-- `convertToBinary(std::vector<double>)` and the pointer form (src/helics/application_api/ValueConverter.cpp:138-154). -/
def encVec (le : Bool) (v : List Dbl) : List Byte := headerBytes (codeOf .vector) v.length ++ v.flatMap (word le)
/-- `convertToBinary(std::vector<std::complex<double>>)` and the pointer form
(src/helics/application_api/ValueConverter.cpp:156-170). -/
def encCVec (le : Bool) (v : List Cplx) : List Byte :=
  headerBytes (codeOf .cvector) v.length ++ v.flatMap fun c => word le c.re ++ word le c.im

/-- a value in the form of its own type -/
def encVal (le : Bool) : Val → List Byte
  | .dbl d => encDbl le d
  | .int i => encInt le i
  | .str s => encStr s
  | .cplx c => encCplx le c
  | .vec v => encVec le v
  | .cvec v => encCVec le v
  | .np p => encNP le p

/-- `getBinaryLength`, the size the buffer is given before the value is written
(src/helics/application_api/ValueConverter.hpp:28-65, 125-136). -/
def binaryLength : Val → Nat
  | .dbl _ | .int _ => 16
  | .cplx _ => 24
  | .str s => s.length + 8
  | .vec v => v.length * 8 + 8
  | .np p => p.name.length + 16
  | .cvec v => v.length * 8 * 2 + 8

/-- `getDataSize` (src/helics/application_api/ValueConverter.cpp:172-176). -/
def dataSize (d : List Byte) : Res Nat :=
  match d with
  | _ :: _ :: _ :: _ :: a :: b :: c :: e :: _ => .ok (a.toNat * 2 ^ 24 + b.toNat * 2 ^ 16 + c.toNat * 2 ^ 8 + e.toNat)
  | _ => .fault

/-- `detectType` (src/helics/application_api/ValueConverter.cpp:178-192). -/
def detectType (d : List Byte) : Res DT :=
  match d with
  | [] => .fault
  | c :: _ =>
    .ok (if c = codeOf .int then .int else if c = codeOf .double then .double else if c = codeOf .complex then .complex
      else if c = codeOf .vector then .vector else if c = codeOf .cvector then .cvector
      else if c = codeOf .namedPoint then .namedPoint else if c = codeOf .custom then .custom
      else if c = codeOf .string then .string else .unknown)

/-- `memcpy` of `n` bytes at offset `off` of the block -/
def slice (d : List Byte) (off n : Nat) : Res (List Byte) :=
  if off + n ≤ d.length then .ok ((d.drop off).take n) else .fault

/-- `(data[0] & endianMask) != littleEndianCode` (src/helics/application_api/ValueConverter.cpp:78,84). -/
def swapped (d : List Byte) : Bool :=
  match d with
  | [] => false
  | c :: _ => (c &&& 1#8) != 0#8

/-- eight bytes as a word, swapped when the block says so (`swapBytes<8>`,
src/helics/application_api/ValueConverter.cpp:60-66). -/
def wordOf (le sw : Bool) (bs : List Byte) : BitVec 64 :=
  BitVec.ofNat 64 (ofBytes le (if sw then bs.reverse else bs))

/-- one word of the block -/
def readWord (le : Bool) (d : List Byte) (off : Nat) : Res (BitVec 64) :=
  (slice d off 8).map (wordOf le (swapped d))
/-- consecutive words of the block -/
def readWords (le : Bool) (d : List Byte) : Nat → Nat → Res (List (BitVec 64))
  | _, 0 => .ok []
  | off, n + 1 => (readWord le d off).bind fun w => (readWords le d (off + 8) n).map (w :: ·)

/-- `convertFromBinary(double&)` (src/helics/application_api/ValueConverter.cpp:194-200). -/
def decDbl (le : Bool) (d : List Byte) : Res Dbl := readWord le d 8
/-- `convertFromBinary(int64_t&)` (src/helics/application_api/ValueConverter.cpp:202-208). -/
def decInt (le : Bool) (d : List Byte) : Res Int64 := readWord le d 8
/-- `convertFromBinary(std::complex<double>&)` (src/helics/application_api/ValueConverter.cpp:215-225). -/
def decCplx (le : Bool) (d : List Byte) : Res Cplx :=
  (readWord le d 8).bind fun a => (readWord le d 16).map fun b => ⟨a, b⟩
/-- `convertFromBinary(std::string&)` and `(std::string_view&)` (src/helics/application_api/ValueConverter.cpp:230-241). -/
def decStr (d : List Byte) : Res Str := (dataSize d).bind fun n => slice d 8 n
/-- `convertFromBinary(NamedPoint&)` (src/helics/application_api/ValueConverter.cpp:249-258). -/
def decNP (le : Bool) (d : List Byte) : Res NPoint :=
  (readWord le d 8).bind fun v => (dataSize d).bind fun n => (slice d 16 n).map fun s => ⟨s, v⟩
/-- `convertFromBinary(std::vector<double>&)` (src/helics/application_api/ValueConverter.cpp:260-272). -/
def decVec (le : Bool) (d : List Byte) : Res (List Dbl) := (dataSize d).bind fun n => readWords le d 8 n
/-- pairs of consecutive elements -/
def pairUp : List Dbl → List Cplx
  | a :: b :: t => ⟨a, b⟩ :: pairUp t
  | _ => []
/-- `convertFromBinary(std::vector<std::complex<double>>&)` (src/helics/application_api/ValueConverter.cpp:293-310). -/
def decCVec (le : Bool) (d : List Byte) : Res (List Cplx) :=
  (dataSize d).bind fun n => (readWords le d 8 (2 * n)).map pairUp

/-! ## Text -/

/-- text of a string literal -/
def asc (s : String) : Str := s.toList.map fun c => BitVec.ofNat 8 c.toNat

/-- `helicsBoolValue` (src/helics/application_api/helicsTypes.cpp:658-706). -/
def boolValue (s : Str) : Bool :=
  !(s ∈ ([asc "0", asc "00", [0#8], asc "0000", List.replicate 8 0#8, asc "false", asc "off", asc "OFF", asc "False",
    asc "FALSE", asc "f", asc "-", asc "F", asc "n", asc "N", asc "no", asc "No", asc "NO", asc "disable",
    asc "disabled", []] : List Str))

/-- `helicsComplexString` (src/helics/application_api/helicsTypes.cpp:131-140). -/
def cplxStr (L : Lib) (c : Cplx) : Str := if isZero c.im then L.dblStr c.re else L.pairStr c.re c.im

/-- magnitude used when a complex number is read as a real one:
`(cv.imag() != 0.0) ? std::abs(cv) : cv.real()` -/
def realOf (L : Lib) (c : Cplx) : Dbl := if isZero c.im then c.re else L.cabs c

/-- `getDoubleFromString` (src/helics/application_api/helicsTypes.cpp:503-520); `none` when the parser throws. -/
def getDouble (L : Lib) (s : Str) : Option Dbl :=
  match s with
  | [] => some dInvalid
  | c :: _ =>
    if c = BitVec.ofNat 8 'v'.toNat ∨ c = BitVec.ofNat 8 '['.toNat then
      match L.getVector s with
      | [x] => some x
      | v => some (L.norm v)
    else if c = BitVec.ofNat 8 'c'.toNat then
      match L.getCVector s with
      | none => none
      | some [x] => some (realOf L x)
      | some v => some (L.cnorm v)
    else some (realOf L (L.getComplex s))

/-- the value `getIntFromString` takes for a failed conversion (src/helics/application_api/helicsTypes.cpp:494). -/
def intFail : Int64 := iInvalid + 3#64
/-- `getIntFromString` (src/helics/application_api/helicsTypes.cpp:492-501). -/
def getInt (L : Lib) (s : Str) : Option Int64 :=
  let i := (L.parseInt s).getD intFail
  if i = intFail then (getDouble L s).map L.trunc else some i

/-- `getComplexFromString` (src/helics/application_api/helicsTypes.cpp:474-490). -/
def getComplexFrom (L : Lib) (s : Str) : Cplx :=
  match s with
  | [] => ⟨dInvalid, dZero⟩
  | c :: _ =>
    if c = BitVec.ofNat 8 'v'.toNat ∨ c = BitVec.ofNat 8 'c'.toNat ∨ c = BitVec.ofNat 8 '['.toNat then
      match L.getVector s with
      | [] => ⟨dInvalid, dZero⟩
      | [x] => ⟨x, dZero⟩
      | x :: y :: _ => ⟨x, y⟩
    else L.getComplex s

/-- `v.find_first_of(".eE[]") == npos` (src/helics/application_api/HelicsPrimaryTypes.hpp:185). -/
def intLike (s : Str) : Bool :=
  !(s.any fun c => c ∈ ([BitVec.ofNat 8 '.'.toNat, BitVec.ofNat 8 'e'.toNat, BitVec.ofNat 8 'E'.toNat,
    BitVec.ofNat 8 '['.toNat, BitVec.ofNat 8 ']'.toNat] : List Byte))

/-- lift a parser that may throw -/
def thr {α : Type} : Option α → Res α
  | some a => .ok a
  | none => .throw

/-! ## What a publication of a given type sends -/

/-- `emptyBlock` (src/helics/application_api/helicsTypes.cpp:708-744).  `HELICS_JSON` and `HELICS_ANY` take the
default branch. -/
def emptyBlock (L : Lib) (le : Bool) (out inp : DT) : List Byte :=
  match out with
  | .int | .time => encInt le 0#64
  | .complex => encCplx le ⟨dZero, dZero⟩
  | .bool => encStr (asc "0")
  | .namedPoint => encNP le ⟨[], dNaN⟩
  | .string | .char =>
    match inp with
    | .vector => encStr (L.vecStr [])
    | .cvector => encStr (L.cvecStr [])
    | .namedPoint => encStr (asc "0")
    | _ => encStr []
  | .cvector => encCVec le []
  | .vector => encVec le []
  | _ => encDbl le dZero

/-- text of a boolean -/
def bStr (b : Bool) : Str := if b then asc "1" else asc "0"

/-- `typeConvert(DataType, double)` (src/helics/application_api/helicsTypes.cpp:745-777). -/
def cvtDbl (L : Lib) (le : Bool) (t : DT) (d : Dbl) : List Byte :=
  match t with
  | .int => encInt le (L.trunc d)
  | .time => encInt le (L.toTicks d)
  | .complex => encCplx le ⟨d, dZero⟩
  | .bool => encStr (bStr (!isZero d))
  | .string | .char => encStr (L.dblStr d)
  | .namedPoint => encNP le ⟨asc "value", d⟩
  | .cvector => encCVec le [⟨d, dZero⟩]
  | .vector => encVec le [d]
  | .json => L.jsonText { type := .double, value := .num d }
  | _ => encDbl le d

/-- `typeConvert(DataType, int64_t)` (src/helics/application_api/helicsTypes.cpp:778-821).  `2ULL << 51U` is
`2 ^ 52`; `std::abs(INT64_MIN)` is taken to be `2 ^ 63`. -/
def cvtInt (L : Lib) (le : Bool) (t : DT) (i : Int64) : List Byte :=
  match t with
  | .double => encDbl le (L.ofInt i)
  | .complex => encCplx le ⟨L.ofInt i, dZero⟩
  | .bool => encStr (bStr (i != 0#64))
  | .string | .char => encStr (L.intStr i)
  | .namedPoint => if 2 ^ 52 < i.toInt.natAbs then encNP le ⟨L.intStr i, dNaN⟩ else encNP le ⟨asc "value", L.ofInt i⟩
  | .cvector => encCVec le [⟨L.ofInt i, dZero⟩]
  | .vector => encVec le [L.ofInt i]
  | .json => L.jsonText { type := .int, value := .int i }
  | _ => encInt le i

/-- `typeConvert(DataType, std::string_view)` (src/helics/application_api/helicsTypes.cpp:823-859). -/
def cvtStr (L : Lib) (le : Bool) (t : DT) (s : Str) : Res (List Byte) :=
  if s = [] then .ok (emptyBlock L le t .any)
  else
    match t with
    | .double => (thr (getDouble L s)).map (encDbl le)
    | .int => (thr (getDouble L s)).map fun d => encInt le (L.trunc d)
    | .time => (thr (getDouble L s)).map fun d => encInt le (L.toTicks d)
    | .complex => .ok (encCplx le (L.getComplex s))
    | .bool => .ok (encStr (bStr (boolValue s)))
    | .namedPoint => .ok (encNP le ⟨s, dNaN⟩)
    | .cvector => (thr (L.getCVector s)).map (encCVec le)
    | .vector => .ok (encVec le (L.getVector s))
    | .json => .ok (L.jsonText { type := .string, value := .text s })
    | _ => .ok (encStr s)

/-- `typeConvert(DataType, const double*, size_t)` and the vector form
(src/helics/application_api/helicsTypes.cpp:861-917). -/
def cvtVec (L : Lib) (le : Bool) (t : DT) (v : List Dbl) : List Byte :=
  match v with
  | [] => emptyBlock L le t .vector
  | [x] => cvtDbl L le t x
  | x :: y :: _ =>
    match t with
    | .double => encDbl le (L.norm v)
    | .time => encInt le (L.toTicks (L.norm v))
    | .int => encInt le (L.trunc (L.norm v))
    | .complex => encCplx le ⟨x, y⟩
    | .bool => encStr (bStr (!isZero (L.norm v)))
    | .string | .char => encStr (L.vecStr v)
    | .namedPoint => encNP le ⟨L.vecStr v, dNaN⟩
    | .cvector => encCVec le (v.map fun d => ⟨d, dZero⟩)
    | .json => L.jsonText { type := .vector, value := .arr v }
    | _ => encVec le v

/-- `typeConvert(DataType, const std::complex<double>&)` (src/helics/application_api/helicsTypes.cpp:1030-1069). -/
def cvtCplx (L : Lib) (le : Bool) (t : DT) (c : Cplx) : List Byte :=
  if isZero c.im then cvtDbl L le t c.re
  else
    match t with
    | .double => encDbl le (L.cabs c)
    | .int => encInt le (L.trunc (L.cabs c))
    | .time => encInt le (L.toTicks (L.cabs c))
    | .bool => encStr (bStr (!isZero (L.cabs c)))
    | .string | .char => encStr (cplxStr L c)
    | .namedPoint => encNP le ⟨cplxStr L c, dNaN⟩
    | .cvector => encCVec le [c]
    | .vector => encVec le [c.re, c.im]
    | .json => L.jsonText { type := .complex, value := .arr [c.re, c.im] }
    | _ => encCplx le c

/-- real and imaginary parts in turn -/
def flat (v : List Cplx) : List Dbl := v.flatMap fun c => [c.re, c.im]

/-- `typeConvert(DataType, const std::vector<std::complex<double>>&)`
(src/helics/application_api/helicsTypes.cpp:978-1028). -/
def cvtCVec (L : Lib) (le : Bool) (t : DT) (v : List Cplx) : List Byte :=
  match v with
  | [] => emptyBlock L le t .cvector
  | [x] => cvtCplx L le t x
  | x :: _ :: _ =>
    match t with
    | .double => encDbl le (L.cnorm v)
    | .time => encInt le (L.toTicks (L.cnorm v))
    | .int => encInt le (L.trunc (L.cnorm v))
    | .complex => encCplx le x
    | .bool => encStr (bStr (!isZero (L.cnorm v)))
    | .string | .char => encStr (L.cvecStr v)
    | .namedPoint => encNP le ⟨L.cvecStr v, dNaN⟩
    | .vector => encVec le (flat v)
    | .json => L.jsonText { type := .cvector, value := .arr (flat v) }
    | _ => encCVec le v

/-- `typeConvertComplex(DataType, const double*, size_t)` (src/helics/application_api/helicsTypes.cpp:919-976).  `v` is
the array of complex numbers the caller passed; the code's `vals[0 .. size)` is the first half of the
interleaved array. -/
def cvtCPtr (L : Lib) (le : Bool) (t : DT) (v : List Cplx) : List Byte :=
  let half := (flat v).take v.length
  match v with
  | [] => emptyBlock L le t .cvector
  | [x] => cvtCplx L le t x
  | x :: _ :: _ =>
    match t with
    | .double => encDbl le (L.norm half)
    | .time => encInt le (L.toTicks (L.norm half))
    | .int => encInt le (L.trunc (L.norm half))
    | .complex => encCplx le x
    | .bool => encStr (bStr (!isZero (L.norm half)))
    | .string | .char => encStr (L.cvecStr v)
    | .namedPoint => encNP le ⟨L.vecStr half, dNaN⟩
    | .cvector => encCVec le v
    | .json => L.jsonText { type := .vector, value := .arr half }
    | _ => encVec le half

/-- `typeConvert(DataType, const NamedPoint&)` (src/helics/application_api/helicsTypes.cpp:1071-1113). -/
def cvtNP (L : Lib) (le : Bool) (t : DT) (p : NPoint) : Res (List Byte) :=
  if t = .namedPoint then .ok (encNP le p)
  else if isNaN p.value then cvtStr L le t p.name
  else
    .ok (match t with
      | .double => encDbl le p.value
      | .int => encInt le (L.trunc p.value)
      | .time => encInt le (L.toTicks p.value)
      | .complex => encCplx le ⟨p.value, dZero⟩
      | .bool => encStr (bStr (!isZero p.value))
      | .string | .char => encStr (L.npStr p.name p.value)
      | .cvector => encCVec le [⟨p.value, dZero⟩]
      | .vector => encVec le [p.value]
      | .json => L.jsonText { type := .namedPoint, name := p.name, value := .num p.value }
      | _ => encNP le p)

/-- `typeConvert(DataType, std::string_view, double)` (src/helics/application_api/helicsTypes.cpp:1115-1154). -/
def cvtField (L : Lib) (le : Bool) (t : DT) (s : Str) (d : Dbl) : Res (List Byte) :=
  if t = .namedPoint then .ok (encNP le ⟨s, d⟩)
  else if isNaN d then cvtStr L le t s
  else
    .ok (match t with
      | .double => encDbl le d
      | .int | .time => encInt le (L.trunc d)
      | .complex => encCplx le ⟨d, dZero⟩
      | .bool => encStr (bStr (!isZero d))
      | .string | .char => encStr (L.npStr s d)
      | .cvector => encCVec le [⟨d, dZero⟩]
      | .vector => encVec le [d]
      | .json => L.jsonText { type := .namedPoint, name := s, value := .num d }
      | _ => encNP le ⟨s, d⟩)

/-- `typeConvertDefV(DataType, const defV&)` (src/helics/application_api/helicsPrimaryTypes.cpp:1227-1246). -/
def cvtVal (L : Lib) (le : Bool) (t : DT) : Val → Res (List Byte)
  | .dbl d => .ok (cvtDbl L le t d)
  | .int i => .ok (cvtInt L le t i)
  | .str s => cvtStr L le t s
  | .cplx c => .ok (cvtCplx L le t c)
  | .vec v => .ok (cvtVec L le t v)
  | .cvec v => .ok (cvtCVec L le t v)
  | .np p => cvtNP L le t p

/-- the publish calls of `Publication` (src/helics/application_api/Publications.cpp:70-335) -/
inductive PubCall
  | dbl (d : Dbl) | int (i : Int64) | chr (c : Byte) | time (t : Int64) | bool (b : Bool) | str (s : Str)
  | vec (v : List Dbl) | cvec (v : List Cplx) | cptr (v : List Cplx) | cplx (c : Cplx) | np (p : NPoint)
  | field (s : Str) (d : Dbl) | val (v : Val)
  deriving DecidableEq

/-- sign extension of a `char` -/
def chrInt (c : Byte) : Int64 := c.signExtend 64

/-- the block sent by a publish call on a publication of type `t`, change detection off
(src/helics/application_api/Publications.cpp:70-335). `publish(Time)` converts the tick count and
`publish(bool)` the text "1" or "0". -/
def publish (L : Lib) (le : Bool) (t : DT) : PubCall → Res (List Byte)
  | .dbl d => .ok (cvtDbl L le t d)
  | .int i => .ok (cvtInt L le t i)
  | .chr c =>
    match t with
    | .bool => cvtStr L le t (bStr (!(c = BitVec.ofNat 8 '0'.toNat ∨ c = BitVec.ofNat 8 'f'.toNat ∨ c = 0#8 ∨
        c = BitVec.ofNat 8 'F'.toNat ∨ c = BitVec.ofNat 8 '-'.toNat)))
    | .string | .namedPoint | .char => cvtStr L le t [c]
    | _ => .ok (cvtInt L le t (chrInt c))
  | .time x => .ok (cvtInt L le t x)
  | .bool b => cvtStr L le t (bStr b)
  | .str s => cvtStr L le t s
  | .vec v => .ok (cvtVec L le t v)
  | .cvec v => .ok (cvtCVec L le t v)
  | .cptr v => .ok (cvtCPtr L le t v)
  | .cplx c => .ok (cvtCplx L le t c)
  | .np p => cvtNP L le t p
  | .field s d => cvtField L le t s d
  | .val v => cvtVal L le t v

/-! ## Reading a stored value -/

/-- `valueExtract(const defV&, std::string&)` (src/helics/application_api/helicsPrimaryTypes.cpp:174-202). -/
def exStr (L : Lib) : Val → Str
  | .dbl d => L.toStr d
  | .int i => L.intStr i
  | .str s => s
  | .cplx c => cplxStr L c
  | .vec v => L.vecStr v
  | .cvec v => L.cvecStr v
  | .np p => if isNaN p.value then p.name else L.npStr p.name p.value

/-- `valueExtract(const defV&, std::complex<double>&)` (src/helics/application_api/helicsPrimaryTypes.cpp:204-246).
`old` is the caller's variable, which an empty vector leaves alone. -/
def exCplx (L : Lib) (old : Cplx) : Val → Cplx
  | .dbl d => ⟨d, dZero⟩
  | .int i => ⟨L.ofInt i, dZero⟩
  | .str s => getComplexFrom L s
  | .cplx c => c
  | .vec v => match v with
    | [] => old
    | [x] => ⟨x, dZero⟩
    | x :: y :: _ => ⟨x, y⟩
  | .cvec v => match v with
    | [] => old
    | x :: _ => x
  | .np p => if isNaN p.value then getComplexFrom L p.name else ⟨p.value, dZero⟩

/-- `valueExtract(const defV&, std::vector<double>&)` (src/helics/application_api/helicsPrimaryTypes.cpp:248-298). -/
def exVec (L : Lib) : Val → List Dbl
  | .dbl d => [d]
  | .int i => [L.ofInt i]
  | .str s => L.getVector s
  | .cplx c => if isZero c.im then [c.re] else [c.re, c.im]
  | .vec v => v
  | .cvec v => v.map (realOf L)
  | .np p => if isNaN p.value then L.getVector p.name else [p.value]

/-- the loop that pairs the elements of a vector: `ii < vec.size() - 1` on an unsigned size, so an empty
vector is read out of range; an odd last element gets a zero imaginary part
(src/helics/application_api/helicsPrimaryTypes.cpp:323-328, 727-732). -/
def pairs (v : List Dbl) : Res (List Cplx) :=
  if v = [] then .fault
  else .ok (pairUp v ++ if v.length % 2 = 1 then [⟨v.getLastD dZero, dZero⟩] else [])

/-- `valueExtract(const defV&, std::vector<std::complex<double>>&)`
(src/helics/application_api/helicsPrimaryTypes.cpp:300-346). -/
def exCVec (L : Lib) : Val → Res (List Cplx)
  | .dbl d => .ok [⟨d, dZero⟩]
  | .int i => .ok [⟨L.ofInt i, dZero⟩]
  | .str s => thr (L.getCVector s)
  | .cplx c => .ok [c]
  | .vec v => pairs v
  | .cvec v => .ok v
  | .np p => if isNaN p.value then thr (L.getCVector p.name) else .ok [⟨p.value, dZero⟩]

/-- `valueExtract(const defV&, NamedPoint&)` (src/helics/application_api/helicsPrimaryTypes.cpp:348-394). -/
def exNP (L : Lib) : Val → NPoint
  | .dbl d => ⟨asc "value", d⟩
  | .int i => ⟨asc "value", L.ofInt i⟩
  | .str s => L.getNPoint s
  | .cplx c => ⟨cplxStr L c, dNaN⟩
  | .vec v => match v with
    | [x] => ⟨asc "value", x⟩
    | _ => ⟨L.vecStr v, dNaN⟩
  | .cvec v => match v with
    | [x] => ⟨cplxStr L x, dNaN⟩
    | _ => ⟨L.cvecStr v, dNaN⟩
  | .np p => p

/-- text as a time: a whole number is a tick count, other text goes to `loadTimeFromString`, and any
failure gives time zero (src/helics/application_api/helicsPrimaryTypes.cpp:406-424, 902-916). -/
def textTime (L : Lib) (s : Str) : Int64 :=
  match L.stoll s with
  | none => 0#64
  | some (i, true) => i
  | some (_, false) => (L.timeText s).getD 0#64

/-- the search `name.find(".[eE")` looks for that four-character text, not for one of its characters
(src/helics/application_api/helicsPrimaryTypes.cpp:441, 936). -/
def hasMarker (s : Str) : Bool := (List.range (s.length + 1)).any fun k => asc ".[eE" == (s.drop k).take 4

/-- `valueExtract(const defV&, Time&)` (src/helics/application_api/helicsPrimaryTypes.cpp:396-452). -/
def exTime (L : Lib) : Val → Res Int64
  | .dbl d => .ok (L.toTicks d)
  | .int i => .ok i
  | .str s => .ok (textTime L s)
  | .cplx c => .ok (L.toTicks c.re)
  | .vec v => match v with
    | [] => .ok 0#64
    | x :: _ => .ok (L.toTicks x)
  | .cvec v => match v with
    | [] => .ok 0#64
    | x :: _ => .ok (L.toTicks x.re)
  | .np p =>
    if isNaN p.value then
      if hasMarker p.name then (thr (getDouble L p.name)).map L.toTicks else thr (getInt L p.name)
    else .ok (L.toTicks p.value)

/-- `static_cast<char>` of an integer -/
def toChar (i : Int64) : Byte := i.truncate 8

/-- `valueExtract(const defV&, char&)` (src/helics/application_api/helicsPrimaryTypes.cpp:454-498).  A
`static_cast<char>(double)` is taken through `int64_t`. -/
def exChar (L : Lib) : Val → Res Byte
  | .dbl d => .ok (toChar (L.trunc d))
  | .int i => .ok (toChar i)
  | .str s => .ok (s.headD 0#8)
  | .cplx c => .ok (toChar (L.trunc c.re))
  | .vec v => match v with
    | [] => .ok 0#8
    | x :: _ => .ok (toChar (L.trunc x))
  | .cvec v => match v with
    | [] => .ok 0#8
    | x :: _ => .ok (toChar (L.trunc x.re))
  | .np p =>
    if isNaN p.value then
      (thr (getDouble L p.name)).map fun d => if d ≠ dInvalid then toChar (L.trunc d) else p.name.headD 0#8
    else .ok (toChar (L.trunc p.value))

/-- boolean reading of a named point (src/helics/application_api/helicsPrimaryTypes.cpp:530-539, 970-981). -/
def npBool (p : NPoint) : Bool :=
  (p.name = [] || boolValue p.name) && !((p.name = asc "value" || p.name = []) && isZero p.value)

/-- `valueExtract(const defV&, bool&)` (src/helics/application_api/helicsPrimaryTypes.cpp:500-541).
`std::abs(d) > 0.0` is false for NaN. -/
def exBool (L : Lib) : Val → Bool
  | .dbl d => !isZero d && !isNaN d
  | .int i => i != 0#64
  | .str s => boolValue s
  | .cplx c => !isZero (L.cabs c) && !isNaN (L.cabs c)
  | .vec v => !isZero (L.norm v)
  | .cvec v => !isZero (L.cnorm v)
  | .np p => npBool p

/-- number in a text: integer reading unless the text has one of `.eE[]`
(src/helics/application_api/HelicsPrimaryTypes.hpp:182-190); for `double` results. -/
def textDbl (L : Lib) (s : Str) : Res Dbl :=
  if intLike s then (thr (getInt L s)).map L.ofInt else thr (getDouble L s)
/-- the same for `int64_t` results -/
def textInt (L : Lib) (s : Str) : Res Int64 :=
  if intLike s then thr (getInt L s) else (thr (getDouble L s)).map L.trunc

/-- one number standing for a vector -/
def oneOf (L : Lib) (v : List Dbl) : Dbl := match v with
  | [x] => x
  | _ => L.norm v
/-- one number standing for a complex vector -/
def oneOfC (L : Lib) (v : List Cplx) : Dbl := match v with
  | [x] => realOf L x
  | _ => L.cnorm v

/-- `valueExtract(const defV&, X&)` for `double` (src/helics/application_api/HelicsPrimaryTypes.hpp:171-236). -/
def exDbl (L : Lib) : Val → Res Dbl
  | .dbl d => .ok d
  | .int i => .ok (L.ofInt i)
  | .str s => textDbl L s
  | .cplx c => .ok (realOf L c)
  | .vec v => .ok (oneOf L v)
  | .cvec v => .ok (oneOfC L v)
  | .np p => if isNaN p.value then textDbl L p.name else .ok p.value

/-- `valueExtract(const defV&, X&)` for `int64_t` (src/helics/application_api/HelicsPrimaryTypes.hpp:171-236). -/
def exInt (L : Lib) : Val → Res Int64
  | .dbl d => .ok (L.trunc d)
  | .int i => .ok i
  | .str s => textInt L s
  | .cplx c => .ok (L.trunc (realOf L c))
  | .vec v => .ok (L.trunc (oneOf L v))
  | .cvec v => .ok (L.trunc (oneOfC L v))
  | .np p => if isNaN p.value then textInt L p.name else .ok (L.trunc p.value)

/-! ## Reading a block -/

/-- `readJsonValue` (src/helics/application_api/helicsPrimaryTypes.cpp:543-594).  Any failure gives the block's text.
Simplifications: the value is of the shape the type asks for or the reading fails; a JSON integer read as
a `double` is converted. -/
def readJson (L : Lib) (d : List Byte) : Val :=
  match L.jsonLoad d with
  | none => .str d
  | some j =>
    match j.type, j.value with
    | .double, .num x => .dbl x
    | .double, .int i => .dbl (L.ofInt i)
    | .complex, .arr (a :: b :: _) => .cplx ⟨a, b⟩
    | .bool, .bool b => .int (if b then 1#64 else 0#64)
    | .vector, .arr v => .vec v
    | .cvector, .arr v => if v = [] then .str d else .cvec (pairUp v)
    | .int, .int i => .int i
    | .time, .int i => .int i
    | .string, .text s => .str s
    | .char, .text s => .str s
    | .namedPoint, .num x => .np ⟨j.name, x⟩
    | _, _ => .str d

/-- `valueExtract(const data_view&, DataType, defV&)` (src/helics/application_api/helicsPrimaryTypes.cpp:1102-1142). -/
def rdVal (L : Lib) (le : Bool) (d : List Byte) (t : DT) : Res Val :=
  (if t = .any ∨ t = .unknown then detectType d else .ok t).bind fun t =>
    match t with
    | .double => (decDbl le d).map .dbl
    | .int | .time => (decInt le d).map .int
    | .string | .char | .bool | .any => (decStr d).map .str
    | .unknown | .custom | .multi => .ok (.str d)
    | .vector => (decVec le d).map .vec
    | .complex => (decCplx le d).map .cplx
    | .cvector => (decCVec le d).map .cvec
    | .namedPoint => (decNP le d).map .np
    | .json => .ok (readJson L d)

/-- `valueExtract(const data_view&, DataType, std::string&)` (src/helics/application_api/helicsPrimaryTypes.cpp:596-640). -/
def rdStr (L : Lib) (le : Bool) (d : List Byte) : DT → Res Str
  | .double => (decDbl le d).map L.dblStr
  | .int | .time => (decInt le d).map L.intStr
  | .string | .char | .bool | .any => decStr d
  | .unknown | .custom | .multi => .ok d
  | .namedPoint => (decNP le d).map fun p => if isNaN p.value then p.name else L.npStr p.name p.value
  | .vector => (decVec le d).map L.vecStr
  | .complex => (decCplx le d).map (cplxStr L)
  | .cvector => (decCVec le d).map L.cvecStr
  | .json => .ok (exStr L (readJson L d))

/-- `valueExtract(const data_view&, DataType, std::vector<double>&)`
(src/helics/application_api/helicsPrimaryTypes.cpp:642-701). -/
def rdVec (L : Lib) (le : Bool) (d : List Byte) : DT → Res (List Dbl)
  | .double => (decDbl le d).map fun x => [x]
  | .int => (decInt le d).map fun i => [L.ofInt i]
  | .time => (decInt le d).map fun i => [L.ofTicks i]
  | .namedPoint => (decNP le d).map fun p => if isNaN p.value then L.getVector p.name else [p.value]
  | .vector => decVec le d
  | .complex => (decCplx le d).map fun c => if isZero c.im then [c.re] else [c.re, c.im]
  | .cvector => (decCVec le d).map (List.map (realOf L))
  | .json => .ok (exVec L (readJson L d))
  | _ => (decStr d).map L.getVector

/-- `valueExtract(const data_view&, DataType, std::vector<std::complex<double>>&)`
(src/helics/application_api/helicsPrimaryTypes.cpp:703-758). -/
def rdCVec (L : Lib) (le : Bool) (d : List Byte) : DT → Res (List Cplx)
  | .double => (decDbl le d).map fun x => [⟨x, dZero⟩]
  | .int => (decInt le d).map fun i => [⟨L.ofInt i, dZero⟩]
  | .time => (decInt le d).map fun i => [⟨L.ofTicks i, dZero⟩]
  | .vector => (decVec le d).bind pairs
  | .cvector => decCVec le d
  | .namedPoint => (decNP le d).bind fun p => if isNaN p.value then thr (L.getCVector p.name) else .ok [⟨p.value, dZero⟩]
  | .complex => (decCplx le d).map fun c => [c]
  | .json => exCVec L (readJson L d)
  | _ => (decStr d).bind fun s => thr (L.getCVector s)

/-- `valueExtract(const data_view&, DataType, std::complex<double>&)`
(src/helics/application_api/helicsPrimaryTypes.cpp:760-815). -/
def rdCplx (L : Lib) (le : Bool) (old : Cplx) (d : List Byte) : DT → Res Cplx
  | .double => (decDbl le d).map fun x => ⟨x, dZero⟩
  | .int => (decInt le d).map fun i => ⟨L.ofInt i, dZero⟩
  | .time => (decInt le d).map fun i => ⟨L.ofTicks i, dZero⟩
  | .namedPoint => (decNP le d).map fun p => if isNaN p.value then L.getComplex p.name else ⟨p.value, dZero⟩
  | .vector => (decVec le d).map fun v => match v with
    | [] => old
    | [x] => ⟨x, dZero⟩
    | x :: y :: _ => ⟨x, y⟩
  | .complex => decCplx le d
  | .cvector => (decCVec le d).map fun v => match v with
    | [] => old
    | x :: _ => x
  | .json => .ok (exCplx L old (readJson L d))
  | _ => (decStr d).map L.getComplex

/-- `valueExtract(const data_view&, DataType, NamedPoint&)` (src/helics/application_api/helicsPrimaryTypes.cpp:817-885). -/
def rdNP (L : Lib) (le : Bool) (d : List Byte) : DT → Res NPoint
  | .double => (decDbl le d).map fun x => ⟨asc "value", x⟩
  | .int => (decInt le d).map fun i => ⟨asc "value", L.ofInt i⟩
  | .time => (decInt le d).map fun i => ⟨asc "time", L.ofTicks i⟩
  | .vector => (decVec le d).map fun v => match v with
    | [x] => ⟨asc "value", x⟩
    | _ => ⟨L.vecStr v, dNaN⟩
  | .complex => (decCplx le d).map fun c => if isZero c.im then ⟨asc "value", c.re⟩ else ⟨cplxStr L c, dNaN⟩
  | .cvector => (decCVec le d).map fun v => match v with
    | [x] => ⟨cplxStr L x, dNaN⟩
    | _ => ⟨L.cvecStr v, dNaN⟩
  | .namedPoint => decNP le d
  | .json => .ok (exNP L (readJson L d))
  | _ => (decStr d).map L.getNPoint

/-- `valueExtract(const data_view&, DataType, Time&)` (src/helics/application_api/helicsPrimaryTypes.cpp:887-951). -/
def rdTime (L : Lib) (le : Bool) (d : List Byte) : DT → Res Int64
  | .double => (decDbl le d).map L.toTicks
  | .int | .time => decInt le d
  | .vector => (decVec le d).map fun v => match v with
    | [] => 0#64
    | x :: _ => L.toTicks x
  | .complex => (decCplx le d).map fun c => L.toTicks c.re
  | .cvector => (decCVec le d).map fun v => match v with
    | [] => 0#64
    | x :: _ => L.toTicks x.re
  | .namedPoint => (decNP le d).bind fun p => exTime L (.np p)
  | .json => exTime L (readJson L d)
  | _ => (decStr d).map (textTime L)

/-- `valueExtract(const data_view&, DataType, bool&)` (src/helics/application_api/helicsPrimaryTypes.cpp:953-1015). -/
def rdBool (L : Lib) (le : Bool) (d : List Byte) : DT → Res Bool
  | .any => (rdVal L le d .any).map (exBool L)
  | .bool => (decStr d).map fun s => s != asc "0"
  | .namedPoint => (decNP le d).map npBool
  | .double => (decDbl le d).map fun x => !isZero x
  | .int | .time => (decInt le d).map fun i => i != 0#64
  | .vector => (decVec le d).map fun v => !isZero (L.norm v)
  | .complex => (decCplx le d).map fun c => !isZero (L.cabs c)
  | .cvector => (decCVec le d).map fun v => !isZero (L.cnorm v)
  | .json => .ok (exBool L (readJson L d))
  | .custom => .throw
  | _ => (decStr d).map boolValue

/-- `valueExtract(const data_view&, DataType, X&)` for `double` (src/helics/application_api/HelicsPrimaryTypes.hpp:239-337).
The named-point branch catches `std::invalid_argument`; every parser failure is taken to be one. -/
def rdDbl (L : Lib) (le : Bool) (d : List Byte) : DT → Res Dbl
  | .any => (rdVal L le d .any).bind (exDbl L)
  | .bool => (decStr d).map fun s => if s ≠ asc "0" then dOne else dZero
  | .namedPoint => (decNP le d).map fun p =>
      if isNaN p.value then (match textDbl L p.name with | .ok x => x | _ => dInvalid) else p.value
  | .double => decDbl le d
  | .int => (decInt le d).map L.ofInt
  | .time => (decInt le d).map L.ofTicks
  | .vector => (decVec le d).map (oneOf L)
  | .complex => (decCplx le d).map (realOf L)
  | .cvector => (decCVec le d).map (oneOfC L)
  | .json => exDbl L (readJson L d)
  | .custom => .throw
  | _ => (decStr d).bind (textDbl L)

/-- `valueExtract(const data_view&, DataType, X&)` for `int64_t` (src/helics/application_api/HelicsPrimaryTypes.hpp:239-337). -/
def rdInt (L : Lib) (le : Bool) (d : List Byte) : DT → Res Int64
  | .any => (rdVal L le d .any).bind (exInt L)
  | .bool => (decStr d).map fun s => if s ≠ asc "0" then 1#64 else 0#64
  | .namedPoint => (decNP le d).map fun p =>
      if isNaN p.value then (match textInt L p.name with | .ok x => x | _ => iInvalid) else L.trunc p.value
  | .double => (decDbl le d).map L.trunc
  | .int => decInt le d
  | .time => decInt le d
  | .vector => (decVec le d).map fun v => L.trunc (oneOf L v)
  | .complex => (decCplx le d).map fun c => L.trunc (realOf L c)
  | .cvector => (decCVec le d).map fun v => L.trunc (oneOfC L v)
  | .json => exInt L (readJson L d)
  | .custom => .throw
  | _ => (decStr d).bind (textInt L)

/-- first character of a text; an empty one is read out of range -/
def head? (s : Str) : Res Byte := match s with
  | [] => .fault
  | c :: _ => .ok c
/-- a text as a character (src/helics/application_api/helicsPrimaryTypes.cpp:1029-1037, 1046-1054). -/
def textChar (L : Lib) (s : Str) : Res Byte :=
  match s with
  | [c] => .ok c
  | _ => (thr (getDouble L s)).bind fun d => if d ≠ dInvalid then .ok (toChar (L.trunc d)) else head? s

/-- `valueExtract(const data_view&, DataType, char&)` (src/helics/application_api/helicsPrimaryTypes.cpp:1017-1100).  A
`static_cast<char>(double)` is taken through `int64_t`. -/
def rdChar (L : Lib) (le : Bool) (d : List Byte) : DT → Res Byte
  | .any => (rdVal L le d .any).bind (exChar L)
  | .bool => (decStr d).bind head?
  | .namedPoint => (decNP le d).bind fun p => if isNaN p.value then textChar L p.name else .ok (toChar (L.trunc p.value))
  | .double => (decDbl le d).map fun x => toChar (L.trunc x)
  | .int | .time => (decInt le d).map toChar
  | .vector => (decVec le d).map fun v => toChar (L.trunc (oneOf L v))
  | .complex => (decCplx le d).map fun c => toChar (L.trunc (realOf L c))
  | .cvector => (decCVec le d).map fun v => toChar (L.trunc (oneOfC L v))
  | .json => exChar L (readJson L d)
  | .custom | .multi => .throw
  | _ => (decStr d).bind (textChar L)

/-- `valueConvert` (src/helics/application_api/helicsPrimaryTypes.cpp:1144-1225). -/
def convertVal (L : Lib) (v : Val) : DT → Res Val
  | .double => match v with
    | .dbl _ => .ok v
    | _ => (exDbl L v).map .dbl
  | .int => match v with
    | .int _ => .ok v
    | _ => (exInt L v).map .int
  | .time => match v with
    | .int _ => .ok v
    | _ => (exTime L v).map .int
  | .json => .ok v
  | .vector => match v with
    | .vec _ => .ok v
    | _ => .ok (.vec (exVec L v))
  | .complex => match v with
    | .cplx _ => .ok v
    | _ => .ok (.cplx (exCplx L ⟨dZero, dZero⟩ v))
  | .cvector => match v with
    | .cvec _ => .ok v
    | _ => (exCVec L v).map .cvec
  | .namedPoint => match v with
    | .np _ => .ok v
    | _ => .ok (.np (exNP L v))
  | _ => match v with
    | .str _ => .ok v
    | _ => .ok (.str (exStr L v))

end Verif.Value
