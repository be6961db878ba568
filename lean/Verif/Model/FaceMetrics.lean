import Verif.Model.FontSize
import Verif.Model.Rounding
import Verif.Model.LayoutBuilder
import Verif.Model.Draw
/-!
Metrics of a face at a size: the request for a size made by
`FontRegistry::get_font_data` (src/font_registry.cpp:288-292), what FreeType
computes for it, and the metrics that `src/font_data.cpp` derives from it.

FreeType is modelled by the formulas of `FT_Request_Metrics` and
`ft_recompute_scaled_metrics` (ftobjs.c, version 2.8 and later) for scalable
faces with grid fitting of the metrics, `FT_MulFix` and `FT_DivFix` for 64-bit
integers.  `none` stands for a request that fails; the code does not look at the
error and keeps the metrics of whatever size was set before.  `float` operations
are rounded with `f32Round`.
-/
namespace RichText

/-- `FT_FaceRec` (`units_per_EM`, `ascender`, `descender`, `underline_position`,
`underline_thickness`) and `TT_OS2` (`yStrikeoutPosition`, `yStrikeoutSize`), in
font units, upwards. -/
structure FaceUnits where
  upem : Int
  ascender : Int
  descender : Int
  underlinePos : Int
  underlineThickness : Int
  strikeoutPos : Int
  strikeoutSize : Int
deriving Repr, DecidableEq

/-- `FT_MulFix`: the product of a number and a 16.16 number, rounded, halves away
from zero. -/
def ftMulFix (a b : Int) : Int :=
  if 0 ≤ a * b then (a * b + 32768) / 65536 else -((-(a * b) + 32768) / 65536)

/-- `FT_DivFix` of a number that is not negative and a positive number. -/
def ftDivFix (a b : Int) : Int := (a * 65536 + b / 2) / b

/-- `FT_PIX_CEIL`, in pixels. -/
def pixCeil (a : Int) : Int := (a + 63) / 64

/-- `FT_PIX_FLOOR`, in pixels. -/
def pixFloor (a : Int) : Int := a / 64

/-- `FT_Size_Metrics`: `y_scale`, `y_ppem`, and `ascender` and `descender` in
26.6 fixed point. -/
structure SizeMetrics where
  yScale : Int
  ppem : Int
  ascender : Int
  descender : Int
deriving Repr, DecidableEq

/-- `FT_Request_Size` with `FT_SIZE_REQUEST_TYPE_REAL_DIM`, a height in 26.6 fixed
point, no width and no resolution, src/font_registry.cpp:288-292. -/
def FaceUnits.request (f : FaceUnits) (height : Int) : Option SizeMetrics :=
  let h : Int := (f.ascender - f.descender).natAbs
  if h = 0 then none else
  let y := ftDivFix height h
  let ppem := (ftMulFix f.upem y + 32) / 64
  if 65535 < ppem then none else
  some ⟨y, ppem, pixCeil (ftMulFix f.ascender y) * 64, pixFloor (ftMulFix f.descender y) * 64⟩

/-- A face with a size and the synthetic features of `SyntheticFontInfo`,
src/font_common.hpp:77-86. -/
structure SizedFont where
  face : FaceUnits
  size : Nat
  smallCaps : Bool
  subscript : Bool
  superscript : Bool
deriving Repr, DecidableEq

/-- The value of a `float` of `Model/FontSize.lean`. -/
def F32.value (a : F32) : Rat := a.m * (2 : Rat) ^ a.e

namespace SizedFont

/-- `syntheticSubscript || syntheticSuperscript`. -/
def subSuper (f : SizedFont) : Bool := f.subscript || f.superscript

/-- The size set on the face, src/font_registry.cpp:255-256, 288-292. -/
def metrics (f : SizedFont) : Option SizeMetrics :=
  (effectiveSize f.size f.smallCaps f.subSuper).bind fun e => f.face.request ((e : Int) * 64)

/-- `get_ascent`, src/font_data.cpp:37-40. -/
def getAscent (f : SizedFont) (m : SizeMetrics) : Rat :=
  f32Round (f32Round (f32Round (m.ascender : Rat) / 64) / (fontScale false f.subSuper).value)

/-- `get_descent`, src/font_data.cpp:42-45. -/
def getDescent (f : SizedFont) (m : SizeMetrics) : Rat :=
  f32Round (f32Round (f32Round (m.descender : Rat) / 64) / (fontScale false f.subSuper).value)

/-- `get_scale_y`, src/font_data.cpp:64-67. -/
def getScaleY (f : SizedFont) (m : SizeMetrics) : Rat :=
  f32Round (f32Round (m.ppem : Rat) / f32Round (f.face.upem : Rat))

/-- `get_underline_position`, src/font_data.cpp:90-92. -/
def getUnderlinePosition (f : SizedFont) (m : SizeMetrics) : Rat :=
  f32Round (f.getScaleY m * f32Round ((-f.face.underlinePos : Int) : Rat))

/-- `get_underline_thickness`, src/font_data.cpp:94-96. -/
def getUnderlineThickness (f : SizedFont) (m : SizeMetrics) : Rat :=
  f32Round (f.getScaleY m * f32Round (f.face.underlineThickness : Rat))

/-- `get_strikethrough_position`, src/font_data.cpp:98-100, with the sign of
src/font_registry.cpp:295. -/
def getStrikethroughPosition (f : SizedFont) (m : SizeMetrics) : Rat :=
  f32Round (f.getScaleY m * f32Round ((-f.face.strikeoutPos : Int) : Rat))

/-- `get_strikethrough_thickness`, src/font_data.cpp:102-104. -/
def getStrikethroughThickness (f : SizedFont) (m : SizeMetrics) : Rat :=
  f32Round (f.getScaleY m * f32Round (f.face.strikeoutSize : Rat))

/-- `SUBSCRIPT_OFFSET_RATIO`, src/font_common.hpp:92: `0.2f`. -/
def subscriptRatio : Rat := 13421773 / 67108864

/-- `SUPERSCRIPT_OFFSET_RATIO`, src/font_common.hpp:93: `0.34f`. -/
def superscriptRatio : Rat := 11408507 / 33554432

/-- `get_baseline_offset`, src/font.hpp:91-94, `calc_baseline_offset`,
src/font_common.hpp:107-112: downwards. -/
def baselineOffset (f : SizedFont) : Rat :=
  f32Round (f32Round (f32Round ((f.subscript.toNat : Rat) * subscriptRatio) +
    f32Round ((f.superscript.toNat : Rat) * -superscriptRatio)) * f32Round (f.size : Rat))

/-- What the layout builder asks for, src/layout_builder.cpp:547-555. -/
def lineMetrics (f : SizedFont) (m : SizeMetrics) : Metrics := ⟨f.getAscent m, f.getDescent m⟩

/-- What `draw_text` asks for, src/text_draw_util.hpp:72-110. -/
def drawMetrics (f : SizedFont) (m : SizeMetrics) : FontMetrics where
  underlinePos := f.getUnderlinePosition m
  underlineThickness := f.getUnderlineThickness m
  strikePos := f.getStrikethroughPosition m
  strikeThickness := f.getStrikethroughThickness m

end SizedFont

end RichText
