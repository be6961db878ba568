import Verif.Model.FaceMetrics
/-!
Vocabulary for the metrics of faces: what a usual face says, and where the text
of a font lies relative to the baseline of its line.
-/
namespace RichText

/-- A face whose numbers are in the range of the tables of a font file, with the
ascender above and the descender below the baseline. -/
structure FaceUnits.Usual (f : FaceUnits) : Prop where
  upem : 0 < f.upem ∧ f.upem ≤ 65535
  ascender : 0 ≤ f.ascender ∧ f.ascender ≤ 32767
  descender : -32768 ≤ f.descender ∧ f.descender ≤ 0
  height : 0 < f.ascender - f.descender
  underlinePos : -32768 ≤ f.underlinePos ∧ f.underlinePos ≤ 32767
  underlineThickness : -32768 ≤ f.underlineThickness ∧ f.underlineThickness ≤ 32767
  strikeoutPos : -32768 ≤ f.strikeoutPos ∧ f.strikeoutPos ≤ 32767
  strikeoutSize : -32768 ≤ f.strikeoutSize ∧ f.strikeoutSize ≤ 32767

/-- From the ascender to the descender, in font units. -/
def FaceUnits.extent (f : FaceUnits) : Int := f.ascender - f.descender

/-- The height of a line in one font, as the layout adds it up. -/
def SizedFont.lineHeight (f : SizedFont) (m : SizeMetrics) : Rat :=
  (f.lineMetrics m).ascent - (f.lineMetrics m).descent

/-- How far the text of a font reaches above the baseline of its line: the
ascender FreeType gives for the size that the glyphs are drawn at, moved by the
offset the glyphs are drawn with. -/
def SizedFont.top (f : SizedFont) (m : SizeMetrics) : Rat := (m.ascender : Rat) / 64 - f.baselineOffset

/-- How far it reaches below the baseline. -/
def SizedFont.bottom (f : SizedFont) (m : SizeMetrics) : Rat := f.baselineOffset - (m.descender : Rat) / 64

end RichText
