import Verif.Model.InputApi
/-!
# What value exchange means

Specification used by the theorems on published values: a value with the type the user thinks of it as,
the publish call and the reading call that go with it, and the documented conversion table
(docs/developer-guide/typeConversions.md).  No encoder, decoder or converter of the model is used here.
-/
namespace Verif.Value
open Verif.Wire (Byte)

/-- a value as the user thinks of it -/
inductive Typed
  | dbl (d : Dbl) | int (i : Int64) | str (s : Str) | cplx (c : Cplx) | vec (v : List Dbl) | cvec (v : List Cplx)
  | np (p : NPoint) | bool (b : Bool) | chr (c : Byte) | time (t : Int64)
  deriving DecidableEq

/-- type of publication registered for such values -/
def Typed.type : Typed → DT
  | .dbl _ => .double | .int _ => .int | .str _ => .string | .cplx _ => .complex | .vec _ => .vector
  | .cvec _ => .cvector | .np _ => .namedPoint | .bool _ => .bool | .chr _ => .char | .time _ => .time
/-- `publish(v)` -/
def Typed.call : Typed → PubCall
  | .dbl d => .dbl d | .int i => .int i | .str s => .str s | .cplx c => .cplx c | .vec v => .vec v
  | .cvec v => .cvec v | .np p => .np p | .bool b => .bool b | .chr c => .chr c | .time t => .time t
/-- `getValue` of the same type -/
def Typed.kind : Typed → Kind
  | .dbl _ => .dbl | .int _ => .int | .str _ => .str | .cplx _ => .cplx | .vec _ => .vec | .cvec _ => .cvec
  | .np _ => .np | .bool _ => .bool | .chr _ => .chr | .time _ => .time
/-- that it returns `v` -/
def Typed.got : Typed → Got
  | .dbl d => .dbl d | .int i => .int i | .str s => .str s | .cplx c => .cplx c | .vec v => .vec v
  | .cvec v => .cvec v | .np p => .np p | .bool b => .bool b | .chr c => .chr c | .time t => .time t

/-- number of characters or elements -/
def Typed.size : Typed → Nat
  | .str s => s.length | .vec v => v.length | .cvec v => v.length | .np p => p.name.length | _ => 0

/-- an imaginary part that is zero is the positive zero -/
def Cplx.plusZero (c : Cplx) : Prop := isZero c.im = true → c.im = dZero
/-- the same for a lone complex number -/
def Typed.plusZero : Typed → Prop
  | .cplx c => c.plusZero
  | .cvec [c] => c.plusZero
  | _ => True

/-! ## The documented table -/

/-- sources of the documented table -/
inductive Src
  | dbl (d : Dbl) | int (i : Int64) | str (s : Str) | vec (v : List Dbl) | cvec (v : List Cplx) | cplx (c : Cplx)
  | np (p : NPoint) | bool (b : Bool)
  deriving DecidableEq

/-- `publish` of a source -/
def Src.call : Src → PubCall
  | .dbl d => .dbl d | .int i => .int i | .str s => .str s | .vec v => .vec v | .cvec v => .cvec v
  | .cplx c => .cplx c | .np p => .np p | .bool b => .bool b

/-- the documentation's "Conversion from Double" -/
def docDbl (L : Lib) (d : Dbl) : Kind → Option Got
  | .int => some (.int (L.trunc d))
  | .dbl => some (.dbl d)
  | .cplx => some (.cplx ⟨d, dZero⟩)
  | .vec => some (.vec [d])
  | .cvec => some (.cvec [⟨d, dZero⟩])
  | .np => some (.np ⟨asc "value", d⟩)
  | .str => some (.str (L.dblStr d))
  | .bool => some (.bool (!isZero d))
  | _ => none

/-- "Conversion from INT"; footnote 2: an integer that does not fit in a double's mantissa is kept as text -/
def docInt (L : Lib) (i : Int64) : Kind → Option Got
  | .int => some (.int i)
  | .dbl => some (.dbl (L.ofInt i))
  | .cplx => some (.cplx ⟨L.ofInt i, dZero⟩)
  | .vec => some (.vec [L.ofInt i])
  | .cvec => some (.cvec [⟨L.ofInt i, dZero⟩])
  | .np => some (.np (if 2 ^ 52 < i.toInt.natAbs then ⟨L.intStr i, dNaN⟩ else ⟨asc "value", L.ofInt i⟩))
  | .str => some (.str (L.intStr i))
  | .bool => some (.bool (i != 0#64))
  | _ => none

/-- the texts the documentation of `helicsBoolValue` lists as false (`"\\0"` is the text of one zero character) -/
def docFalse : List Str :=
  [asc "0", asc "00", asc "0000", [0#8], asc "false", asc "f", asc "F", asc "FALSE", asc "N", asc "no", asc "n", asc "OFF",
    asc "off", [], asc "disable", asc "disabled"]

/-- "Conversion from String"; a parser that throws gives no value -/
def docStr (L : Lib) (s : Str) : Kind → Option Got
  | .int => (getInt L s).map .int
  | .dbl => (getDouble L s).map .dbl
  | .cplx => some (.cplx (getComplexFrom L s))
  | .vec => some (.vec (L.getVector s))
  | .cvec => (L.getCVector s).map .cvec
  | .np => some (.np ⟨s, dNaN⟩)
  | .str => some (.str s)
  | .bool => some (.bool (decide (s ∉ docFalse)))
  | _ => none

/-- "Conversion from vector double"; but for the text, a single element is treated as a double -/
def docVec (L : Lib) (v : List Dbl) (k : Kind) : Option Got :=
  match v with
  | [x] => match k with
    | .str => some (.str (L.vecStr [x]))
    | _ => docDbl L x k
  | _ =>
    match k with
    | .int => some (.int (L.trunc (L.norm v)))
    | .dbl => some (.dbl (L.norm v))
    | .cplx => match v with
      | x :: y :: _ => some (.cplx ⟨x, y⟩)
      | _ => none
    | .vec => some (.vec v)
    | .cvec => some (.cvec (v.map fun x => ⟨x, dZero⟩))
    | .np => some (.np ⟨L.vecStr v, dNaN⟩)
    | .str => some (.str (L.vecStr v))
    | .bool => some (.bool (!isZero (L.norm v)))
    | _ => none

/-- "Conversion from Complex"; a zero imaginary part is treated as a double -/
def docCplx (L : Lib) (c : Cplx) (k : Kind) : Option Got :=
  if isZero c.im then docDbl L c.re k
  else
    match k with
    | .int => some (.int (L.trunc (L.cabs c)))
    | .dbl => some (.dbl (L.cabs c))
    | .cplx => some (.cplx c)
    | .vec => some (.vec [c.re, c.im])
    | .cvec => some (.cvec [c])
    | .np => some (.np ⟨L.pairStr c.re c.im, dNaN⟩)
    | .str => some (.str (L.pairStr c.re c.im))
    | .bool => some (.bool (!isZero (L.cabs c)))
    | _ => none

/-- "Conversion from Complex Vector"; but for the text, a single element is treated as a complex number -/
def docCVec (L : Lib) (v : List Cplx) (k : Kind) : Option Got :=
  match v with
  | [x] => match k with
    | .str => some (.str (L.cvecStr [x]))
    | _ => docCplx L x k
  | _ =>
    match k with
    | .int => some (.int (L.trunc (L.cnorm v)))
    | .dbl => some (.dbl (L.cnorm v))
    | .cplx => match v with
      | x :: _ => some (.cplx x)
      | _ => none
    | .vec => some (.vec (v.map fun c => if isZero c.im then c.re else L.cabs c))
    | .cvec => some (.cvec v)
    | .np => some (.np ⟨L.cvecStr v, dNaN⟩)
    | .str => some (.str (L.cvecStr v))
    | .bool => some (.bool (!isZero (L.cnorm v)))
    | _ => none

/-- "Conversion from a Named Point" -/
def docNP (L : Lib) (p : NPoint) (k : Kind) : Option Got :=
  match k with
  | .np => some (.np p)
  | _ =>
    if isNaN p.value then docStr L p.name k
    else
      match k with
      | .str => some (.str (L.npStr p.name p.value))
      | _ => docDbl L p.value k

/-- "Conversion from Bool" -/
def docBool (b : Bool) : Kind → Option Got
  | .int => some (.int (if b then 1#64 else 0#64))
  | .dbl => some (.dbl (if b then dOne else dZero))
  | .cplx => some (.cplx ⟨if b then dOne else dZero, dZero⟩)
  | .vec => some (.vec [if b then dOne else dZero])
  | .cvec => some (.cvec [⟨if b then dOne else dZero, dZero⟩])
  | .np => some (.np ⟨asc "value", if b then dOne else dZero⟩)
  | .str => some (.str (if b then asc "1" else asc "0"))
  | .bool => some (.bool b)
  | _ => none

/-- the documented result of converting a source to a type; `none`: not documented, or the parser throws -/
def doc (L : Lib) : Src → Kind → Option Got
  | .dbl d => docDbl L d
  | .int i => docInt L i
  | .str s => docStr L s
  | .vec v => docVec L v
  | .cvec v => docCVec L v
  | .cplx c => docCplx L c
  | .np p => docNP L p
  | .bool b => docBool b

end Verif.Value
