import Verif.Model.LayoutInfo
/-!
Model of `LayoutInfo::for_each_glyph`, src/layout_info.hpp:227-243.

The code passes `*run.pFont`, but `VisualRun` (lines 176-183) has no member of that name: the
template does not compile once it is used.  The model passes `run.font`, which is what the
member was replaced by.
-/
namespace RichText
namespace Layout
variable {φ : Type _}

/-- The arguments of the functor: glyph, character, position, font of the run, start and base
line of the line. -/
structure GlyphCall (φ : Type _) where
  glyph : Nat
  char : Nat
  x : Rat
  y : Rat
  font : φ
  lineX : Rat
  lineY : Rat
deriving Repr, DecidableEq

/-- The loop over the glyphs of a run, src/layout_info.hpp:235-239: the calls from glyph
`glyphIndex` with position `posIndex` on. -/
def glyphCalls (L : Layout φ) (font : φ) (lineX lineY : Rat) (stop glyphIndex posIndex : Nat) :
    Option (List (GlyphCall φ)) :=
  if glyphIndex < stop then
    match L.glyphs[glyphIndex]?, L.charIdx[glyphIndex]?, L.pos[posIndex]?, L.pos[posIndex + 1]? with
    | some g, some c, some x, some y =>
      (glyphCalls L font lineX lineY stop (glyphIndex + 1) (posIndex + 2)).map (⟨g, c, x, y, font, lineX, lineY⟩ :: ·)
    | _, _, _, _ => none
  else some []
termination_by stop - glyphIndex

/-- The callback of `for_each_run`, src/layout_info.hpp:232-242, as a pass over its calls;
`glyphIndex` and `posIndex` are captured by reference. -/
def forEachGlyphOver (L : Layout φ) : Nat → Nat → List (Nat × Nat × Rat × Rat) → Option (List (GlyphCall φ))
  | _, _, [] => some []
  | glyphIndex, posIndex, (_, r, x, y) :: rest =>
    match L.runs[r]? with
    | none => none
    | some run =>
      match L.glyphCalls run.font x y run.glyphEnd glyphIndex posIndex with
      | none => none
      | some calls =>
        -- line 241: past the position where the run ends
        (forEachGlyphOver L (max glyphIndex run.glyphEnd) (posIndex + 2 * (run.glyphEnd - glyphIndex) + 2) rest).map
          (calls ++ ·)

/-- `for_each_glyph`, src/layout_info.hpp:227-243. -/
def forEachGlyph (L : Layout φ) (textWidth : Rat) (align : XAlignment) : Option (List (GlyphCall φ)) :=
  (L.forEachRun textWidth align).bind (L.forEachGlyphOver 0 0)

end Layout
end RichText
