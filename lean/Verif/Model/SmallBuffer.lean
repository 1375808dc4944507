/-!
# SmallBuffer

The byte buffer that carries all payloads (src/helics/core/SmallBuffer.hpp), with its memory: buffer objects with 64
bytes of inline storage, and heap blocks.  Pointers are explicit, so that aliasing, use after free, double free,
reads outside a block and leaks can be expressed.  Undefined behaviour is an outcome of its own (`ub`).

Not modelled: failure of `new` itself below the size limit of `reserve`, `userKey`, iterators, and the conversions of
`std::string_view`-like arguments (the argument is the bytes they denote).
-/
namespace Verif
namespace SB

/-- `std::byte` -/
abbrev Byte := BitVec 8

/-- Where a pointer leads: the inline storage of buffer object `b`, or heap block `n`. -/
inductive Ptr
  | inl (b : Nat)
  | blk (n : Nat)
  deriving DecidableEq, Repr

/-- A `SmallBuffer` object (src/helics/core/SmallBuffer.hpp:390-398). -/
structure Buf where
  store : List Byte := List.replicate 64 0
  size : Nat := 0
  cap : Nat := 64
  ptr : Ptr
  nonOwning : Bool := false
  locked : Bool := false
  alloc : Bool := false
  err : Int := 0
  deriving DecidableEq, Repr

/-- The living objects and heap blocks; `junk` is what freshly allocated memory holds. -/
structure World where
  buf : Nat → Option Buf
  blk : Nat → Option (List Byte)
  fresh : Nat
  junk : Nat → Nat → Byte

inductive Out
  | done (w : World)
  /-- `std::bad_alloc` or another exception leaves the call -/
  | threw (w : World)
  /-- undefined behaviour -/
  | ub

def Out.bind (o : Out) (f : World → Out) : Out :=
  match o with
  | .done w => f w
  | .threw w => .threw w
  | .ub => .ub

namespace World

def setBuf (w : World) (b : Nat) (s : Option Buf) : World := { w with buf := fun k => if k = b then s else w.buf k }
def setBlk (w : World) (n : Nat) (l : Option (List Byte)) : World := { w with blk := fun k => if k = n then l else w.blk k }

/-- The memory a pointer leads to. -/
def region (w : World) : Ptr → Option (List Byte)
  | .inl b => (w.buf b).map (·.store)
  | .blk n => w.blk n

def read (w : World) (p : Ptr) (off n : Nat) : Option (List Byte) :=
  match w.region p with
  | none => none
  | some l => if off + n ≤ l.length then some ((l.drop off).take n) else none

/-- bytes `d` written over `l` at `off` -/
def over (l : List Byte) (off : Nat) (d : List Byte) : List Byte := l.take off ++ d ++ l.drop (off + d.length)

def write (w : World) (p : Ptr) (off : Nat) (d : List Byte) : Option World :=
  match p with
  | .inl b =>
    match w.buf b with
    | none => none
    | some s => if off + d.length ≤ s.store.length then some (w.setBuf b (some { s with store := over s.store off d })) else none
  | .blk n =>
    match w.blk n with
    | none => none
    | some l => if off + d.length ≤ l.length then some (w.setBlk n (some (over l off d))) else none

/-- `memcpy`: undefined when a range leaves its memory or the ranges overlap.  Simplification: copying a range onto
exactly itself, formally undefined too, is taken as doing nothing, as it does in practice. -/
def memcpy (w : World) (dst : Ptr) (doff : Nat) (src : Ptr) (soff n : Nat) : Out :=
  if n = 0 then .done w
  else if dst = src ∧ doff ≠ soff ∧ doff < soff + n ∧ soff < doff + n then .ub
  else match w.read src soff n with
    | none => .ub
    | some d => match w.write dst doff d with
      | none => .ub
      | some w' => .done w'

/-- `delete[]`: undefined unless the pointer is a living heap block. -/
def delete (w : World) : Ptr → Out
  | .inl _ => .ub
  | .blk n => if (w.blk n).isSome then .done (w.setBlk n none) else .ub

/-- `delete[] heap` when the memory is owned (src/helics/core/SmallBuffer.hpp:80-82,314-316). -/
def drop (w : World) (s : Buf) : Out := if s.alloc && !s.nonOwning then w.delete s.ptr else .done w

/-- the largest size `reserve` accepts (src/helics/core/SmallBuffer.hpp:307), for 64-bit machines -/
def bigSize : Nat := 0x10000000000

/-- `reserve` (src/helics/core/SmallBuffer.hpp:305-322). -/
def reserve (w : World) (b n : Nat) : Out :=
  match w.buf b with
  | none => .ub
  | some s =>
    if n ≤ s.cap then .done w
    else if bigSize < n ∨ s.locked = true then .threw w
    else
      let w1 := { w.setBlk w.fresh (some ((List.range (n + 8)).map (w.junk w.fresh))) with fresh := w.fresh + 1 }
      (w1.memcpy (.blk w.fresh) 0 s.ptr 0 s.size).bind fun w2 =>
        (w2.drop s).bind fun w3 =>
          .done (w3.setBuf b (some { s with ptr := .blk w.fresh, nonOwning := false, alloc := true, cap := n + 8 }))

/-- set the size of a living buffer -/
def setSize (w : World) (b n : Nat) : Out :=
  match w.buf b with
  | none => .ub
  | some s => .done (w.setBuf b (some { s with size := n }))

/-- `resize(size)` (src/helics/core/SmallBuffer.hpp:292-296). -/
def resize (w : World) (b n : Nat) : Out := (w.reserve b n).bind fun w => w.setSize b n

/-- `resize(size, val)` (src/helics/core/SmallBuffer.hpp:297-304). -/
def resizeWith (w : World) (b n : Nat) (v : Byte) : Out :=
  (w.reserve b n).bind fun w =>
    match w.buf b with
    | none => .ub
    | some s =>
      if s.size < n then
        match w.write s.ptr s.size (List.replicate (n - s.size) v) with
        | none => .ub
        | some w => w.setSize b n
      else w.setSize b n

/-- Where the bytes of an argument are: elsewhere in memory, or in the data of a buffer. -/
inductive Src
  | bytes (l : List Byte)
  | part (c off len : Nat)
  deriving DecidableEq, Repr

def Src.len : Src → Nat
  | .bytes l => l.length
  | .part _ _ n => n

/-- the pointer of an argument, taken when the call is made -/
def srcPtr (w : World) : Src → Option (List Byte ⊕ (Ptr × Nat))
  | .bytes l => some (.inl l)
  | .part c off _ => (w.buf c).map fun s => .inr (s.ptr, off)

/-- copy the argument to `off` in the data of buffer `b` -/
def copyIn (w : World) (b off : Nat) (p : List Byte ⊕ (Ptr × Nat)) (len : Nat) : Out :=
  match w.buf b with
  | none => .ub
  | some s =>
    match p with
    | .inl l => match w.write s.ptr off l with
      | none => .ub
      | some w => .done w
    | .inr (q, qoff) => w.memcpy s.ptr off q qoff len

/-- `assign` (src/helics/core/SmallBuffer.hpp:190-206): the size first, then the bytes. -/
def assign (w : World) (b : Nat) (src : Src) : Out :=
  match w.srcPtr src with
  | none => .ub
  | some p => (w.resize b src.len).bind fun w => w.copyIn b 0 p src.len

/-- `append` (src/helics/core/SmallBuffer.hpp:207-234): the old size is kept as the place to write. -/
def append (w : World) (b : Nat) (src : Src) : Out :=
  match w.srcPtr src, w.buf b with
  | some p, some s => (w.resize b (s.size + src.len)).bind fun w => w.copyIn b s.size p src.len
  | _, _ => .ub

/-- `operator=` with a view (src/helics/core/SmallBuffer.hpp:144-158): a view that starts at the buffer's own data
only changes the size. -/
def assignView (w : World) (b : Nat) (src : Src) : Out :=
  match w.srcPtr src, w.buf b with
  | some (.inr (q, 0)), some s =>
    if q = s.ptr then w.setSize b src.len
    else (w.resize b src.len).bind fun w => w.copyIn b 0 (.inr (q, 0)) src.len
  | some p, some _ => (w.resize b src.len).bind fun w => w.copyIn b 0 p src.len
  | _, _ => .ub

/-- The default constructor (src/helics/core/SmallBuffer.hpp:27). -/
def construct (w : World) (b : Nat) : World := w.setBuf b (some { ptr := .inl b })

/-- The constructor from bytes and the copy constructor (src/helics/core/SmallBuffer.hpp:29-33,53-66).  When an
exception leaves a constructor, the object does not come to life. -/
def constructFrom (w : World) (b : Nat) (src : Src) : Out :=
  match (w.construct b).assign b src with
  | .threw w => .threw (w.setBuf b none)
  | o => o

/-- The constructors from a size (src/helics/core/SmallBuffer.hpp:67-76). -/
def constructSize (w : World) (b n : Nat) (v : Option Byte) : Out :=
  match (match v with | none => (w.construct b).resize b n | some v => (w.construct b).resizeWith b n v) with
  | .threw w => .threw (w.setBuf b none)
  | o => o

/-- The destructor (src/helics/core/SmallBuffer.hpp:77-83). -/
def destroy (w : World) (b : Nat) : Out :=
  match w.buf b with
  | none => .ub
  | some s => (w.drop s).bind fun w => .done (w.setBuf b none)

/-- The move constructor (src/helics/core/SmallBuffer.hpp:35-51). -/
def moveConstruct (w : World) (b c : Nat) : Out :=
  match w.buf c with
  | none => .ub
  | some t =>
    let w1 := w.construct b
    let emptied := { t with ptr := Ptr.inl c, cap := 64, size := 0, alloc := false }
    if t.alloc then
      .done ((w1.setBuf b (some { ptr := t.ptr, cap := t.cap, alloc := true, nonOwning := t.nonOwning, size := t.size })).setBuf c
        (some emptied))
    else
      (w1.memcpy (.inl b) 0 t.ptr 0 t.size).bind fun w2 =>
        match w2.buf b, w2.buf c with
        | some s, some t => .done ((w2.setBuf b (some { s with size := t.size })).setBuf c
            (some { t with ptr := Ptr.inl c, cap := 64, size := 0, alloc := false }))
        | _, _ => .ub

/-- Copy assignment (src/helics/core/SmallBuffer.hpp:84-92). -/
def copyAssign (w : World) (b c : Nat) : Out :=
  if b = c then (if (w.buf b).isSome then .done w else .ub)
  else match w.buf c with
    | none => .ub
    | some t => w.assign b (.part c 0 t.size)

/-- the second half of move assignment (src/helics/core/SmallBuffer.hpp:122-142) -/
def steal (w : World) (b c : Nat) : Out :=
  match w.buf b, w.buf c with
  | some s, some t =>
    if t.alloc then
      let s := { s with ptr := t.ptr, cap := t.cap, alloc := true, nonOwning := t.nonOwning, locked := t.locked, size := t.size }
      let w := w.setBuf b (some s)
      match w.buf c with
      | none => .ub
      | some t => .done (w.setBuf c (some { t with ptr := Ptr.inl c, cap := 64, size := 0, alloc := false, locked := false }))
    else
      (w.memcpy (.inl b) 0 t.ptr 0 t.size).bind fun w =>
        match w.buf b, w.buf c with
        | some s, some t =>
          let w := w.setBuf b (some { s with alloc := false, nonOwning := false, ptr := .inl b, cap := 64, locked := t.locked, size := t.size })
          match w.buf c with
          | none => .ub
          | some t => .done (w.setBuf c (some { t with ptr := Ptr.inl c, cap := 64, size := 0, alloc := false, locked := false }))
        | _, _ => .ub
  | _, _ => .ub

/-- Move assignment (src/helics/core/SmallBuffer.hpp:93-143). -/
def moveAssign (w : World) (b c : Nat) : Out :=
  match w.buf b, w.buf c with
  | some s, some t =>
    if s.locked then
      match w.copyAssign b c with
      | .threw w => match w.buf b with
        | none => .ub
        | some s => .done (w.setBuf b (some { s with err := 2 }))
      | o => o
    else if s.alloc then
      if t.ptr = s.ptr then
        .done (w.setBuf b (some { s with size := t.size, cap := if s.nonOwning then t.cap else s.cap }))
      else (w.drop s).bind fun w => w.steal b c
    else w.steal b c
  | _, _ => .ub

/-- `operator[]` used to write, and the checked `at` (src/helics/core/SmallBuffer.hpp:169-188); `at` throws outside the
data, `operator[]` does not check. -/
def put (w : World) (b i : Nat) (v : Byte) (checked : Bool) : Out :=
  match w.buf b with
  | none => .ub
  | some s =>
    if checked && decide (s.size ≤ i) then .threw w
    else match w.write s.ptr i [v] with
      | none => .ub
      | some w => .done w

/-- `pop_back` (src/helics/core/SmallBuffer.hpp:236). -/
def popBack (w : World) (b : Nat) : Out :=
  match w.buf b with
  | none => .ub
  | some s => w.setSize b (s.size - 1)

/-- `null_terminate` (src/helics/core/SmallBuffer.hpp:243-252). -/
def nullTerminate (w : World) (b : Nat) : Out :=
  match w.buf b with
  | none => .ub
  | some s =>
    if s.size < s.cap then
      match w.write s.ptr s.size [0] with
      | none => .ub
      | some w => .done w
    else (w.append b (.bytes [0])).bind fun w => w.popBack b

/-- `moveAssign(data, size, capacity)`: the buffer takes over a block (src/helics/core/SmallBuffer.hpp:255-270). -/
def adopt (w : World) (b n size cap : Nat) : Out :=
  match w.buf b with
  | none => .ub
  | some s =>
    (if s.alloc && !s.nonOwning && decide (Ptr.blk n ≠ s.ptr) then w.delete s.ptr else .done w).bind fun w =>
      .done (w.setBuf b (some { s with ptr := .blk n, cap := cap, size := size, nonOwning := false, alloc := true, locked := false }))

/-- `spanAssign`: the buffer uses memory it does not own (src/helics/core/SmallBuffer.hpp:271-291). -/
def span (w : World) (b n size cap : Nat) : Out :=
  match w.buf b with
  | none => .ub
  | some s =>
    if s.alloc && !s.nonOwning && decide (Ptr.blk n = s.ptr) then .done (w.setBuf b (some { s with size := size, cap := cap }))
    else (w.drop s).bind fun w =>
      .done (w.setBuf b (some { s with locked := false, ptr := .blk n, cap := cap, size := size, nonOwning := true, alloc := true }))

/-- `release` (src/helics/core/SmallBuffer.hpp:374-388): the block leaves the buffer. -/
def release (w : World) (b : Nat) : Out :=
  match w.buf b with
  | none => .ub
  | some s =>
    if !s.alloc then .done w
    else .done (w.setBuf b (some { s with ptr := .inl b, alloc := false, nonOwning := false, locked := false, cap := 64, size := 0 }))

/-- `lock` and `clear` (src/helics/core/SmallBuffer.hpp:323,335). -/
def lock (w : World) (b : Nat) (v : Bool) : Out :=
  match w.buf b with
  | none => .ub
  | some s => .done (w.setBuf b (some { s with locked := v }))

def clear (w : World) (b : Nat) : Out := w.setSize b 0

/-- `swap` (src/helics/core/SmallBuffer.hpp:337-373), called on `b` with the argument `c`.  In the third case the code
points the second buffer at the inline storage of the FIRST one. -/
def swap (w : World) (b c : Nat) : Out :=
  match w.buf b, w.buf c with
  | some s, some t =>
    if t.alloc && s.alloc then
      .done ((w.setBuf b (some { s with ptr := t.ptr, nonOwning := t.nonOwning, cap := t.cap, size := t.size })).setBuf c
        (some (if b = c then s else { t with ptr := s.ptr, nonOwning := s.nonOwning, cap := s.cap, size := s.size })))
    else if s.alloc then
      let w := w.setBuf c (some { t with ptr := s.ptr, cap := s.cap, alloc := true, nonOwning := s.nonOwning, size := s.size })
      let w := w.setBuf b (some { s with alloc := false, nonOwning := false, ptr := .inl b, cap := 64, size := t.size })
      w.memcpy (.inl b) 0 (.inl c) 0 t.size
    else if t.alloc then
      let w := w.setBuf b (some { s with ptr := t.ptr, cap := t.cap, alloc := true, nonOwning := t.nonOwning, size := t.size })
      let w := w.setBuf c (some { t with alloc := false, nonOwning := false, ptr := .inl b, cap := 64, size := s.size })
      w.memcpy (.inl b) 0 (.inl b) 0 s.size
    else
      .done ((w.setBuf b (some { s with store := t.store, size := t.size })).setBuf c
        (some (if b = c then s else { t with store := s.store, size := s.size })))
  | _, _ => .ub

end World

/-- The calls of the interface.  `user` is memory allocated by the caller and `free` memory given
back by the caller. -/
inductive Op
  | new (b : Nat)
  | newFrom (b : Nat) (src : World.Src)
  | newSize (b n : Nat) (v : Option Byte)
  | newMove (b c : Nat)
  | del (b : Nat)
  | copyAssign (b c : Nat)
  | moveAssign (b c : Nat)
  | assign (b : Nat) (src : World.Src)
  | assignView (b : Nat) (src : World.Src)
  | append (b : Nat) (src : World.Src)
  | popBack (b : Nat)
  | put (b i : Nat) (v : Byte) (checked : Bool)
  | reserve (b n : Nat)
  | resize (b n : Nat)
  | resizeWith (b n : Nat) (v : Byte)
  | clear (b : Nat)
  | nullTerminate (b : Nat)
  | lock (b : Nat) (v : Bool)
  | swap (b c : Nat)
  | adopt (b n size cap : Nat)
  | span (b n size cap : Nat)
  | release (b : Nat)
  | user (l : List Byte)
  | free (n : Nat)
  deriving DecidableEq, Repr

def World.step (w : World) : Op → Out
  | .new b => .done (w.construct b)
  | .newFrom b src => w.constructFrom b src
  | .newSize b n v => w.constructSize b n v
  | .newMove b c => w.moveConstruct b c
  | .del b => w.destroy b
  | .copyAssign b c => w.copyAssign b c
  | .moveAssign b c => w.moveAssign b c
  | .assign b src => w.assign b src
  | .assignView b src => w.assignView b src
  | .append b src => w.append b src
  | .popBack b => w.popBack b
  | .put b i v k => w.put b i v k
  | .reserve b n => w.reserve b n
  | .resize b n => w.resize b n
  | .resizeWith b n v => w.resizeWith b n v
  | .clear b => w.clear b
  | .nullTerminate b => w.nullTerminate b
  | .lock b v => w.lock b v
  | .swap b c => w.swap b c
  | .adopt b n size cap => w.adopt b n size cap
  | .span b n size cap => w.span b n size cap
  | .release b => w.release b
  | .user l => .done { w.setBlk w.fresh (some l) with fresh := w.fresh + 1 }
  | .free n => w.delete (.blk n)

/-- The bytes a user sees in buffer `b` (`to_string`, src/helics/core/SmallBuffer.hpp:237-241). -/
def World.view (w : World) (b : Nat) : Option (List Byte) :=
  match w.buf b with
  | none => none
  | some s => w.read s.ptr 0 s.size

/-- Nothing exists yet. -/
def World.empty (junk : Nat → Nat → Byte) : World := { buf := fun _ => none, blk := fun _ => none, fresh := 0, junk := junk }

end SB
end Verif
