import Mathlib.Data.Rat.Floor
/-!
The callbacks by which HarfBuzz asks for glyphs, names and extents, src/harfbuzz_font.cpp:249-306, 462-557, 572-599, and
`FontData::has_codepoint`, `map_codepoint_to_glyph`, src/font_data.cpp:69-80.

FreeType is a parameter (`FtFont`).  Not modelled: strides of the arrays (lists here), emboldening (`x_strength`, `y_strength` are
never set by this project), negative scales, rounding of `float` in the extents (metrics are integers, exact below 2^24).
-/
namespace RichText

/-- `OT::OS2::font_page_t`, as far as it matters. -/
inductive FontPage where
  | none | simpArabic | tradArabic | other
deriving Repr, DecidableEq

/-- The answers of FreeType (and the tables of HarfBuzz) for one face. -/
structure FtFont where
  /-- `FT_Get_Char_Index`, 0: no glyph -/
  charIndex : Nat → Nat
  /-- `isSymbolCharmap` -/
  symbol : Bool
  /-- `get_font_page` of the table OS/2 -/
  page : FontPage
  /-- `_hb_arabic_pua_simp_map` -/
  simpMap : Nat → Nat
  /-- `_hb_arabic_pua_trad_map` -/
  tradMap : Nat → Nat
  /-- `FT_Get_Name_Index`, 0: not found or glyph 0 -/
  nameIndex : List UInt8 → Nat
  /-- `FT_Get_Glyph_Name`, `none` is an error -/
  glyphName : Nat → Option (List UInt8)

namespace FtFont
variable (F : FtFont)

/-- The glyph of a symbol font for a character it does not have itself, src/harfbuzz_font.cpp:255-278. -/
def symbolGlyph (unicode : Nat) : Nat :=
  match F.page with
  | .none => if unicode ≤ 0xFF then F.charIndex (0xF000 + unicode) else 0
  | .simpArabic => F.charIndex (F.simpMap unicode)
  | .tradArabic => F.charIndex (F.tradMap unicode)
  | .other => 0

/-- `hb_ft_get_nominal_glyph`, src/harfbuzz_font.cpp:249-290. -/
def nominalGlyph (unicode : Nat) : Option Nat :=
  if F.charIndex unicode ≠ 0 then some (F.charIndex unicode)
  else if F.symbol then (if F.symbolGlyph unicode ≠ 0 then some (F.symbolGlyph unicode) else none)
  else none

/-- `hb_ft_get_nominal_glyphs`, src/harfbuzz_font.cpp:292-306: the glyphs of the first characters; their number is the result. -/
def nominalGlyphs : List Nat → List Nat
  | [] => []
  | u :: us => if F.charIndex u ≠ 0 then F.charIndex u :: nominalGlyphs us else []

/-- How HarfBuzz maps text: as many characters as it can at once, one by itself, and so on (its manual: the result of
`nominal_glyphs` is the number of characters processed).  A character without glyph gets `none`. -/
def mapText : Nat → List Nat → List (Option Nat)
  | 0, _ => []
  | fuel + 1, us =>
    let gs := F.nominalGlyphs us
    gs.map some ++ match us.drop gs.length with
      | [] => []
      | u :: rest => F.nominalGlyph u :: mapText fuel rest

/-- `FontData::has_codepoint`, src/font_data.cpp:69-72. -/
def hasCodepoint (u : Nat) : Bool := (F.nominalGlyph u).isSome

/-- `FontData::map_codepoint_to_glyph`, src/font_data.cpp:74-80. -/
def mapCodepoint (u : Nat) : Nat := (F.nominalGlyph u).getD 0

/-- `FT_Get_Glyph_Name` with a buffer of 128 bytes: whether it succeeds and the string in the buffer (empty after an error, says
FreeType's manual). -/
def nameBuffer (glyph : Nat) : Bool × List UInt8 :=
  match F.glyphName glyph with
  | some s => (true, s.take 127)
  | none => (false, [])

/-- The comparison with the name of glyph 0, src/harfbuzz_font.cpp:589-596; `n` is `len` after line 583.  The condition means
`(succeeded && len < 0) ? strcmp : strncmp`; the number of bytes for `strncmp` is unsigned, for a negative `len` all of them. -/
def isGlyph0 (name : List UInt8) (len : Int) (n : Nat) : Bool :=
  if (F.nameBuffer 0).1 && decide (len < 0) then decide ((F.nameBuffer 0).2 = name)
  else if len < 0 then decide ((F.nameBuffer 0).2 = name) else decide ((F.nameBuffer 0).2.take n = name.take n)

/-- `hb_ft_get_glyph_from_name`, src/harfbuzz_font.cpp:572-599.  `name`: the bytes at the pointer up to the terminating zero (with
a negative `len`) or the first `len` ones, none of them zero. -/
def glyphFromName (name : List UInt8) (len : Int) : Option Nat :=
  let n := (min len 127).toNat
  let g := F.nameIndex (if len < 0 then name else name.take n)
  if g ≠ 0 then some g else if F.isGlyph0 name len n then some 0 else none

end FtFont

/-- `FT_Glyph_Metrics`, in units of 1/64 pixel. -/
structure GlyphMetrics where
  bearingX : Int
  bearingY : Int
  width : Int
  height : Int
deriving Repr, DecidableEq

/-- `hb_glyph_extents_t`. -/
structure GlyphExtents where
  xBearing : Int
  yBearing : Int
  width : Int
  height : Int
deriving Repr, DecidableEq

/-- `hb_ft_get_glyph_extents`, src/harfbuzz_font.cpp:462-534, with positive scales. -/
def glyphExtents (m : GlyphMetrics) (slant : Rat) : GlyphExtents :=
  let x1 : Rat := m.bearingX
  let y1 : Rat := m.bearingY
  let x2 : Rat := x1 + m.width
  let y2 : Rat := y1 + -m.height
  let (x1, x2) := if slant ≠ 0 then (x1 + min (y1 * slant) (y2 * slant), x2 + max (y1 * slant) (y2 * slant)) else (x1, x2)
  ⟨⌊x1⌋, ⌊y1⌋, ⌈x2⌉ - ⌊x1⌋, ⌈y2⌉ - ⌊y1⌋⟩

/-- `hb_ft_get_glyph_contour_point`, src/harfbuzz_font.cpp:536-557, after the glyph was loaded; `outline` is `none` for a glyph
that is not an outline. -/
def contourPoint (outline : Option (List (Int × Int))) (i : Nat) : Option (Int × Int) :=
  match outline with
  | none => none
  | some points => if i ≥ points.length then none else points[i]?

end RichText
