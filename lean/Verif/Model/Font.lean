import Verif.Model.Handles
/-!
Resolved fonts: `FaceDataHandle` of `src/font_common.hpp` and `SingleScriptFont`
of `src/font.hpp`.
-/
namespace RichText

/-- `FaceDataHandle`, src/font_common.hpp:51-76: index of a face (`~0` invalid)
with the weight and style of its font file. -/
structure FaceDataHandle where
  handle : BitVec 16 := ~~~0#16
  sourceWeight : BitVec 4 := 3#4
  sourceStyle : FontStyle := .normal
deriving Repr, DecidableEq

/-- `valid`, src/font_common.hpp:69-71. -/
def FaceDataHandle.valid (f : FaceDataHandle) : Bool := f.handle != ~~~0#16

/-- `SingleScriptFont`, src/font.hpp:76-86. -/
structure SingleScriptFont where
  face : FaceDataHandle
  size : BitVec 32
  weight : BitVec 4
  style : FontStyle
  subscript : Bool := false
  superscript : Bool := false
  smallcaps : Bool := false
  syntheticSubscript : Bool := false
  syntheticSuperscript : Bool := false
  syntheticSmallCaps : Bool := false
deriving Repr, DecidableEq

/-- `SingleScriptFont::operator==`, src/font.hpp:97-99; `FaceDataHandle`s are
compared field by field, src/font_common.hpp:61-63. -/
def SingleScriptFont.same (a b : SingleScriptFont) : Bool :=
  (a.face.handle == b.face.handle && a.face.sourceWeight == b.face.sourceWeight &&
    a.face.sourceStyle == b.face.sourceStyle) && a.size == b.size

end RichText
