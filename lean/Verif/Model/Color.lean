import Verif.Model.FontSize
import Verif.Model.Formatting
/-!
Colours as 32-bit words, `src/color.hpp`, and the pixels of the glyph atlas,
`sample/text_atlas.cpp:104-123`, with exact binary32 arithmetic (`F32`).

A word is a `Nat` below 2^32.  `none` is a conversion to `uint32_t` that is
undefined: of a number that does not fit, of an infinity or of NaN.
-/
namespace RichText

/-- Division; `none` is an infinity or NaN.  The quotient is computed to at least 25
bits and a last bit that tells whether something is left, which is enough to round
it. -/
def F32.div (a b : F32) : Option F32 :=
  if b.m = 0 then none
  else
    let k := Nat.log2 b.m + 26
    let q := a.m * 2 ^ k / b.m
    let s := if a.m * 2 ^ k % b.m = 0 then 0 else 1
    some (.round (2 * q + s) (a.e - b.e - (k + 1 : Nat)))

/-- `255.f`. -/
def f32Max : F32 := ⟨255, 0⟩

/-- `static_cast<float>(n) / 255.f`. -/
def colorChannel (n : Nat) : Option F32 := (F32.ofNat n).div f32Max

/-- `from_rgb` of four integers, src/color.hpp:13-15. -/
def fromRgb (r g b a : Nat) : Option (Color F32) :=
  match colorChannel r, colorChannel g, colorChannel b, colorChannel a with
  | some r, some g, some b, some a => some ⟨r, g, b, a⟩
  | _, _, _, _ => none

/-- `from_abgr_uint`, src/color.hpp:17-20: the first shift is not masked. -/
def fromAbgr (n : Nat) : Option (Color F32) := fromRgb (n / 65536) (n / 256 % 256) (n % 256) (n / 16777216 % 256)

/-- `from_argb_uint`, src/color.hpp:22-25. -/
def fromArgb (n : Nat) : Option (Color F32) := fromRgb (n % 256) (n / 256 % 256) (n / 65536 % 256) (n / 16777216 % 256)

/-- `from_rgba_uint`, src/color.hpp:27-30. -/
def fromRgba (n : Nat) : Option (Color F32) := fromRgb (n / 16777216 % 256) (n / 65536 % 256) (n / 256 % 256) (n % 256)

/-- `static_cast<uint32_t>(c * 255.f) & 0xFF`. -/
def channelByte (c : F32) : Option Nat := (c.mul f32Max).toUInt32.map (· % 256)

/-- The four bytes of a colour put at their places. -/
def packBytes (c : Color F32) (r g b a : Nat) : Option Nat :=
  match channelByte c.r, channelByte c.g, channelByte c.b, channelByte c.a with
  | some x, some y, some z, some w => some (x * r ||| y * g ||| z * b ||| w * a)
  | _, _, _, _ => none

/-- `to_abgr`, src/color.hpp:32-37. -/
def toAbgr (c : Color F32) : Option Nat := packBytes c 65536 256 1 16777216

/-- `to_argb`, src/color.hpp:39-44. -/
def toArgb (c : Color F32) : Option Nat := packBytes c 1 256 65536 16777216

/-- `to_rgba`, src/color.hpp:46-51. -/
def toRgba (c : Color F32) : Option Nat := packBytes c 16777216 65536 256 1

/-- The pixel for a byte of a grey bitmap, sample/text_atlas.cpp:107-108 with
`Bitmap::set_pixel`, sample/bitmap.cpp:76-78. -/
def greyPixel (v : Nat) : Option Nat := (colorChannel v).bind fun a => toArgb ⟨f32One, f32One, f32One, a⟩

/-- The pixel for four bytes of a coloured bitmap, sample/text_atlas.cpp:115-119. -/
def colorPixel (b g r a : Nat) : Option Nat :=
  (colorChannel b).bind fun b => (colorChannel g).bind fun g => (colorChannel r).bind fun r => (colorChannel a).bind fun a =>
    (r.div a).bind fun r => (g.div a).bind fun g => (b.div a).bind fun b => toArgb ⟨r, g, b, a⟩

end RichText
