/-!
Packed handles: `src/cursor_position.hpp`, `src/font_common.hpp`,
`src/font.hpp`.  All arithmetic is on 32-bit words as in the code.
-/
namespace RichText

/-- `CursorAffinity`, src/cursor_position.hpp:7-10. -/
inductive Affinity where
  | default
  | opposite
deriving Repr, DecidableEq

/-- `CursorPosition`, src/cursor_position.hpp:12-57: one `uint32_t`. -/
structure CursorPosition where
  data : BitVec 32
deriving Repr, DecidableEq

namespace CursorPosition

/-- src/cursor_position.hpp:13. -/
def affinityMask : BitVec 32 := 1#32 <<< 31
/-- src/cursor_position.hpp:14. -/
def positionMask : BitVec 32 := ~~~affinityMask
/-- src/cursor_position.hpp:15. -/
def invalidValue : BitVec 32 := ~~~0#32

/-- `set_position`, src/cursor_position.hpp:19-21 (`pos` is an `int32_t`). -/
def setPosition (c : CursorPosition) (pos : Int) : CursorPosition :=
  ⟨(c.data &&& affinityMask) ||| (BitVec.ofInt 32 pos &&& positionMask)⟩

/-- `set_affinity`, src/cursor_position.hpp:23-30. -/
def setAffinity (c : CursorPosition) (a : Affinity) : CursorPosition :=
  match a with
  | .opposite => ⟨c.data ||| (1#32 <<< 31)⟩
  | .default => ⟨c.data &&& positionMask⟩

/-- `set_invalid`, src/cursor_position.hpp:32-34. -/
def setInvalid (_ : CursorPosition) : CursorPosition := ⟨invalidValue⟩

/-- `get_position`, src/cursor_position.hpp:36-38. -/
def getPosition (c : CursorPosition) : Int := (c.data &&& positionMask).toInt

/-- `get_affinity`, src/cursor_position.hpp:40-42 (the shifted word is 0 or 1,
the two enumerators). -/
def getAffinity (c : CursorPosition) : Affinity :=
  if c.data >>> 31 = 0#32 then .default else .opposite

/-- `is_valid`, src/cursor_position.hpp:44-46. -/
def isValid (c : CursorPosition) : Bool := c.data != invalidValue

end CursorPosition

/-- `FontFamily`, src/font_common.hpp:29-49: a `uint16_t`, `~0` invalid. -/
abbrev FamilyHandle := BitVec 16

/-- `INVALID_FAMILY`, src/font_common.hpp:30. -/
def invalidFamily : FamilyHandle := ~~~0#16

/-- `FontFamily::valid` / `operator bool`, src/font_common.hpp:42-48. -/
def FamilyHandle.valid (f : FamilyHandle) : Bool := f != invalidFamily

/-- `FontStyle`, src/font_common.hpp:7-11. -/
inductive FontStyle where
  | normal
  | italic
deriving Repr, DecidableEq

/-- numeric value of a style. -/
def FontStyle.toBits : FontStyle → BitVec 32
  | .normal => 0#32
  | .italic => 1#32

/-- `FontFace`, src/font.hpp:7-45: one `uint32_t`.  `FontWeight` is its numeric
value (`THIN` = 0 ... `BLACK` = 8, src/font_common.hpp:13-24). -/
structure FontFace where
  handle : BitVec 32
deriving Repr, DecidableEq

namespace FontFace

/-- `make_handle`, src/font.hpp:42-44. -/
def make (family : FamilyHandle) (weight : BitVec 8) (style : FontStyle) : FontFace :=
  ⟨(family.zeroExtend 32 <<< 16) ||| (weight.zeroExtend 32 <<< 1) ||| style.toBits⟩

/-- default member initialiser, src/font.hpp:40. -/
def invalid : FontFace := make invalidFamily 3#8 .normal

/-- `get_family`, src/font.hpp:20-22. -/
def getFamily (f : FontFace) : FamilyHandle := (f.handle >>> 16).truncate 16

/-- `get_weight`, src/font.hpp:24-26. -/
def getWeight (f : FontFace) : BitVec 8 := ((f.handle >>> 1) &&& 0xF#32).truncate 8

/-- `get_style`, src/font.hpp:28-30. -/
def getStyle (f : FontFace) : FontStyle :=
  if f.handle &&& 1#32 = 0#32 then .normal else .italic

/-- `valid`, src/font.hpp:32-34. -/
def valid (f : FontFace) : Bool := FamilyHandle.valid f.getFamily

end FontFace

/-- `Font`, src/font.hpp:47-74: a face and a `uint32_t` size. -/
structure Font where
  face : FontFace
  size : BitVec 32
deriving Repr, DecidableEq

/-- `Font(family, weight, style, size)`, src/font.hpp:51-53. -/
def Font.make (family : FamilyHandle) (weight : BitVec 8) (style : FontStyle) (size : BitVec 32) :
    Font := ⟨.make family weight style, size⟩

end RichText
