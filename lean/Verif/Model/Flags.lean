/-!
# Flag words

Models src/helics/core/flagOperations.hpp: 16-bit flag words of messages and interfaces.  A flag index is the number of the bit;
the mask is a 32-bit shift cut to 16 bits.  Shifting by 32 or more is undefined in C++ and gives a zero mask here; every flag
of the enumerations (lines 15-130) is below 16.
-/
namespace Verif.Flags

/-- `static_cast<uint16_t>((1U) << flag)` -/
def mask (flag : Nat) : BitVec 16 := ((1#32) <<< flag).setWidth 16
/-- `setActionFlag` (src/helics/core/flagOperations.hpp:152-156). -/
def setFlag (w : BitVec 16) (flag : Nat) : BitVec 16 := w ||| mask flag
/-- `checkActionFlag` (src/helics/core/flagOperations.hpp:160-172). -/
def checkFlag (w : BitVec 16) (flag : Nat) : Bool := (w &&& mask flag) != 0#16
/-- `clearActionFlag` (src/helics/core/flagOperations.hpp:175-179): the complement is taken at 32 bits before cutting. -/
def clearFlag (w : BitVec 16) (flag : Nat) : BitVec 16 := w &&& (~~~((1#32) <<< flag)).setWidth 16
/-- `toggleActionFlag` (src/helics/core/flagOperations.hpp:182-190). -/
def toggleAction (w : BitVec 16) (flag : Nat) : BitVec 16 := if checkFlag w flag then clearFlag w flag else setFlag w flag
/-- `make_flags(f)` (src/helics/core/flagOperations.hpp:193-196). -/
def make1 (f : Nat) : BitVec 16 := mask f
/-- `make_flags(f1, f2)` (src/helics/core/flagOperations.hpp:199-202). -/
def make2 (f1 f2 : Nat) : BitVec 16 := make1 f1 ||| make1 f2
/-- `make_flags(f1, f2, f3)` (src/helics/core/flagOperations.hpp:205-208). -/
def make3 (f1 f2 f3 : Nat) : BitVec 16 := make2 f1 f2 ||| make1 f3
/-- `toggle_flag` (src/helics/core/flagOperations.hpp:211-214). -/
def toggleFlag (base : BitVec 16) (flag : Nat) : BitVec 16 := base ^^^ make1 flag

/-- one operation on a flag word -/
inductive Op | set (f : Nat) | clear (f : Nat) | toggle (f : Nat) | xor (f : Nat)
/-- run one operation -/
def Op.run (w : BitVec 16) : Op → BitVec 16
  | .set f => setFlag w f
  | .clear f => clearFlag w f
  | .toggle f => toggleAction w f
  | .xor f => toggleFlag w f
end Verif.Flags
