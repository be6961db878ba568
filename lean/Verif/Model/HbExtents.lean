import Verif.Model.FaceMetrics
import Verif.Model.HarfbuzzFont
/-!
The callbacks by which HarfBuzz asks for the extents of lines, for the origin of glyphs in vertical text and for kerning,
src/harfbuzz_font.cpp:409-460, 601-638.

FreeType is as in `Model/FaceMetrics.lean`; `float` as in `Model/HarfbuzzFont.lean`.  Not modelled: `FT_Long` of metrics that
do not fit 32 bits, emboldening (`y_strength` is never set), the transformation (`HAVE_FT_GET_TRANSFORM` is not defined).
-/
namespace RichText

/-- `(hb_position_t)(y_mult * v)` for an integer. -/
def timesMult (scale v : Int) : Option Int := floatToInt (scaleSign scale * floatInt v)

/-- `hb_font_extents_t`, as far as it is set. -/
structure HbExtents where
  ascender : Int
  descender : Int
  lineGap : Int
deriving Repr, DecidableEq

/-- `hb_ft_get_font_h_extents`, src/harfbuzz_font.cpp:601-638, for a face with a size; `height` is `ftFace->height` in font
units, `sizeHeight` is `size->metrics.height`, `scale` is `font->y_scale`. -/
def hExtents (f : FaceUnits) (m : SizeMetrics) (height sizeHeight scale : Int) : Option HbExtents :=
  let asc := if f.upem ≠ 0 then ftMulFix f.ascender m.yScale else m.ascender
  let desc := if f.upem ≠ 0 then ftMulFix f.descender m.yScale else m.descender
  let gap := (if f.upem ≠ 0 then ftMulFix height m.yScale else sizeHeight) - (asc - desc)
  match timesMult scale asc, timesMult scale desc, timesMult scale gap with
  | some a, some d, some g => some ⟨a, d, g⟩
  | _, _, _ => none

/-- `FT_Glyph_Metrics`, the bearings, in 26.6 fixed point. -/
structure Bearings where
  horiX : Int
  horiY : Int
  vertX : Int
  vertY : Int
deriving Repr, DecidableEq

/-- `hb_ft_get_glyph_v_origin`, src/harfbuzz_font.cpp:409-446, for a glyph that loads; `none` inside is a conversion that
does not fit. -/
def vOrigin (scaleX scaleY : Int) (b : Bearings) : Option (Int × Int) :=
  match timesMult scaleX (b.horiX - b.vertX), timesMult scaleY (b.horiY - (-b.vertY)) with
  | some x, some y => some (x, y)
  | _, _ => none

/-- `hb_ft_get_glyph_h_kerning`, src/harfbuzz_font.cpp:448-460: `kerning fitted` is what `FT_Get_Kerning` answers, `none` an
error. -/
def hKerning (xPpem : Nat) (kerning : Bool → Option Int) : Int :=
  match kerning (decide (xPpem ≠ 0)) with
  | none => 0
  | some x => x

end RichText
