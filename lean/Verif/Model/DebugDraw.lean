import Verif.Model.GLDraw
import Verif.Model.DrawSelection
import Verif.Model.BuildText
/-!
The outlines that `UIContainer::draw_text` draws on request, sample/ui_container.cpp:195-219, and text that is laid out and
drawn at once, `UIContainer::draw_text_immediate`, sample/ui_container.cpp:222-237.

The outlines of glyphs (`CVars::showGlyphOutlines`) are in `Model/GLDraw.lean`.
-/
namespace RichText
variable {φ : Type}

/-- One call after the other; `none` if one of them leaves a vector. -/
def overRuns {β : Type} (f : Nat × Nat × Rat × Rat → Option (List β)) : List (Nat × Nat × Rat × Rat) → Option (List β)
  | [] => some []
  | c :: cs =>
    match f c with
    | none => none
    | some q => (overRuns f cs).map (q ++ ·)

/-- The outline of a run, sample/ui_container.cpp:198-204. -/
def runOutline (L : Layout φ) (posX posY : Rat) (c : Nat × Nat × Rat × Rat) : Option (List FrameStep) := do
  let positions ← L.firstPositionIndex c.2.1
  let minBound ← L.pos[positions]?
  let count ← L.runGlyphCount c.2.1
  let maxBound ← L.pos[positions + 2 * count]?
  let line ← L.lines[c.1]?
  let height ← L.lineHeight c.1
  some [.rect (posX + c.2.2.1 + minBound) (posY + c.2.2.2 - line.ascent) (maxBound - minBound) height outlineColor .outline none]

/-- The loop over the positions of a run, sample/ui_container.cpp:213-217, from `i` on. -/
def boundaryMarks (L : Layout φ) (x y height : Rat) (positions count i : Nat) : Option (List FrameStep) :=
  if i ≤ count then
    match L.pos[positions + 2 * i]? with
    | none => none
    | some p => (boundaryMarks L x y height positions count (i + 1)).map
        (.rect (x + p) y (1 / 2) height outlineColor .outline none :: ·)
  else some []
termination_by count + 1 - i

/-- The marks at the glyphs of a run, sample/ui_container.cpp:211-217. -/
def runMarks (L : Layout φ) (posX posY : Rat) (c : Nat × Nat × Rat × Rat) : Option (List FrameStep) := do
  let positions ← L.firstPositionIndex c.2.1
  let count ← L.runGlyphCount c.2.1
  let line ← L.lines[c.1]?
  let height ← L.lineHeight c.1
  boundaryMarks L (posX + c.2.2.1) (posY + c.2.2.2 - line.ascent) height positions count 0

/-- `CVars::showRunOutlines`, `CVars::showGlyphBoundaries`, sample/config_vars.hpp. -/
structure DebugFlags where
  runOutlines : Bool
  glyphBoundaries : Bool

/-- What follows the text, sample/ui_container.cpp:195-219. -/
def debugSteps (L : Layout φ) (flags : DebugFlags) (posX posY W : Rat) (al : XAlignment) : Option (List FrameStep) := do
  let runs ← if flags.runOutlines then (L.forEachRun W al).bind (overRuns (runOutline L posX posY)) else some []
  let marks ← if flags.glyphBoundaries then (L.forEachRun W al).bind (overRuns (runMarks L posX posY)) else some []
  some (runs ++ marks)

/-! ### Text laid out and drawn at once -/

namespace BuildLibs

/-- The paragraphs of a text in one font with the runs of small capitals, subscripts and superscripts left null,
sample/ui_container.cpp:225-234, src/layout_builder.cpp:167-170. -/
def planPlain (b : BuildLibs) (text : Bytes) (font : Font) : List ParaPlan :=
  plans (b.bounds text) 0 (textCalls (text.length + 1) 0 (b.spans text (b.bounds text) 0) 0
    (startIters (.single font text.length) none none none text.length)).1

/-- `build_layout_info` on a new layout, sample/ui_container.cpp:224-234. -/
def buildPlainT (b : BuildLibs) (text : Bytes) (font : Font) (yAlign : YAlignment) (areaHeight : Rat) (t : FontThread) :
    Option (FontThread × Layout SingleScriptFont) :=
  (b.paragraphsOpsT text (.single font text.length) text.length (b.planPlain text font) 0 t).bind fun ops =>
  (execLayout {} (.clear :: ops.2)).map fun L' => (ops.1, L'.alignY areaHeight yAlign)

/-- `UIContainer::draw_text_immediate`, sample/ui_container.cpp:222-237: the state of the thread and the rectangles; the width of
the area is also in `b.area`. -/
def drawImmediate {κ σ : Type} (b : BuildLibs) (p : Painter SingleScriptFont κ σ) (font : Font) (color : κ) (text : Bytes)
    (x y width height : Rat) (xAlign : XAlignment) (yAlign : YAlignment) (t : FontThread) :
    Option (FontThread × List (Quad κ)) :=
  (b.buildPlainT text font yAlign height t).bind fun r =>
  (paintPlain r.2 p x y width xAlign color).map fun quads => (r.1, quads)

end BuildLibs

end RichText
