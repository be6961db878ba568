import Verif.Spec.Built
/-!
Where HarfBuzz puts glyphs.
-/
namespace RichText
variable {β φ : Type _}

/-- Pen position before glyph `i`: the advances of the glyphs in front of it. -/
def penX (hb : List HbGlyph) (i : Nat) : Int := ((hb.take i).map (·.xAdvance)).sum

/-- The same across the line. -/
def penY (hb : List HbGlyph) (i : Nat) : Int := ((hb.take i).map (·.yAdvance)).sum

/-- A paragraph in one line, one font and one direction, shaped by one
call of HarfBuzz, without tabs. -/
structure ParaEnv.OneRun (e : ParaEnv β φ) (v : β) (f : φ) : Prop where
  font : e.subFont v e.line.start (e.line.start + e.line.length) = (f, e.line.start + e.line.length)
  noBreak : e.line.area = 0
  noTab : ∀ c, e.isTab c = false
  noTab' : ∀ c, e.line.isTab c = false
  bidi : ∃ level, level % 2 = (if e.reversed v then 1 else 0) ∧
    e.bidi e.line.start (e.line.start + e.line.length) = [⟨e.line.start, e.line.length, level⟩]

/-- Where HarfBuzz puts glyph `i`, in pixels relative to the start of the run and the
baseline, with y downwards as on the screen: at the pen position, moved by the offsets. -/
def hbPlace (hb : List HbGlyph) (i : Nat) (g : HbGlyph) : Rat × Rat :=
  (((penX hb i + g.xOffset : Int) : Rat) / 64, -((penY hb i + g.yOffset : Int) : Rat) / 64)

end RichText
