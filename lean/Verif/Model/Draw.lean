import Verif.Model.LayoutInfo
import Verif.Model.ValueRuns
import Verif.Model.Formatting
/-!
Model of `src/formatting_iterator.cpp` and `src/text_draw_util.hpp`.

Colours are an arbitrary type `κ` with equality, stroke states an arbitrary
type `σ` with the test `stroke.color.a > 0` as a parameter.  `none` is
undefined behaviour.  Character indices are natural numbers, compared with run
limits as integers.
-/
namespace RichText

/-- The part of `FormattingRuns` that is read when drawing. -/
structure FmtView (κ σ : Type) where
  color : RunView κ
  stroke : RunView σ
  strike : RunView Bool
  underline : RunView Bool

/-- `FormattingRuns` seen as a formatting to draw with, src/formatting.hpp:18-27. -/
def FormattingRuns.drawView {F : Type} (f : FormattingRuns F) : FmtView (Color F) (StrokeState F) where
  color := f.color.view
  stroke := f.stroke.view
  strike := (f.flags .strikethrough).view
  underline := (f.flags .underline).view

/-- First loop of `advance_run`, src/formatting_iterator.cpp:69-71. -/
def advanceUp {α : Type _} (v : RunView α) (c : Nat) (i : Nat) : Option Nat :=
  if i + 1 < v.count then
    match v.limit i with
    | none => none
    | some l => if l ≤ (c : Int) then advanceUp v c (i + 1) else some i
  else some i
termination_by v.count - i

/-- Second loop of `advance_run`, src/formatting_iterator.cpp:73-75. -/
def advanceDown {α : Type _} (v : RunView α) (c : Nat) : Nat → Option Nat
  | 0 => some 0
  | i + 1 =>
    match v.limit i with
    | none => none
    | some l => if (c : Int) < l then advanceDown v c i else some (i + 1)

/-- `advance_run`, src/formatting_iterator.cpp:67-78. -/
def advanceRun {α : Type _} (v : RunView α) (i c : Nat) : Option Nat :=
  match advanceUp v c i with
  | none => none
  | some j => advanceDown v c j

/-- `FormattingIterator`, src/formatting_iterator.hpp:33-42; `prevColor` is not
initialised by the constructor. -/
structure FmtIter (κ : Type) where
  colorRun : Nat
  strokeRun : Nat
  strikeRun : Nat
  underlineRun : Nat
  color : κ
  prevColor : Option κ
  strike : Bool
  underline : Bool
deriving Repr, DecidableEq

namespace FmtIter
variable {κ σ : Type}

/-- The constructor, src/formatting_iterator.cpp:9-17. -/
def make (f : FmtView κ σ) (c : Nat) : Option (FmtIter κ) := do
  let colorRun ← f.color.getRunContainingIndex c
  let strokeRun ← f.stroke.getRunContainingIndex c
  let strikeRun ← f.strike.getRunContainingIndex c
  let underlineRun ← f.underline.getRunContainingIndex c
  let color ← f.color.value colorRun
  some ⟨colorRun, strokeRun, strikeRun, underlineRun, color, none, false, false⟩

/-- `static_cast<uint32_t>(event) * condition`, src/formatting_iterator.cpp:31-38. -/
def bit (n : Nat) (b : Bool) : Nat := n * b.toNat

/-- `FormattingEvent` constants, src/formatting_iterator.hpp:10-16. -/
def strikeBegin : Nat := 1
/-- `STRIKETHROUGH_END` -/
def strikeEnd : Nat := 2
/-- `UNDERLINE_BEGIN` -/
def underlineBegin : Nat := 4
/-- `UNDERLINE_END` -/
def underlineEnd : Nat := 8

/-- The event bits, src/formatting_iterator.cpp:30-38. -/
def eventOf (strike wasStrike underline wasUnderline colorChanged : Bool) : Nat :=
  bit strikeBegin (strike && (!wasStrike || colorChanged))
    ||| bit strikeEnd ((!strike && wasStrike) || (strike && colorChanged))
    ||| bit underlineBegin (underline && (!wasUnderline || colorChanged))
    ||| bit underlineEnd ((!underline && wasUnderline) || (underline && colorChanged))

/-- `(event & e) != NONE`. -/
def hasEvent (event e : Nat) : Bool := event &&& e != 0

/-- `advance_to`, src/formatting_iterator.cpp:19-46: the event and the new state. -/
def advanceTo [DecidableEq κ] (f : FmtView κ σ) (it : FmtIter κ) (c : Nat) : Option (Nat × FmtIter κ) := do
  let strokeRun ← advanceRun f.stroke it.strokeRun c
  let colorRun ← advanceRun f.color it.colorRun c
  let strikeRun ← advanceRun f.strike it.strikeRun c
  let underlineRun ← advanceRun f.underline it.underlineRun c
  let color ← f.color.value colorRun
  let strike ← f.strike.value strikeRun
  let underline ← f.underline.value underlineRun
  some (eventOf strike it.strike underline it.underline (decide (color ≠ it.color)),
    ⟨colorRun, strokeRun, strikeRun, underlineRun, color, some it.color, strike, underline⟩)

/-- `get_stroke_state`, src/formatting_iterator.cpp:56-58. -/
def strokeState (f : FmtView κ σ) (it : FmtIter κ) : Option σ := f.stroke.value it.strokeRun

/-- A sequence of `advance_to` calls: the last state. -/
def advances [DecidableEq κ] (f : FmtView κ σ) : FmtIter κ → List Nat → Option (FmtIter κ)
  | it, [] => some it
  | it, c :: cs =>
    match it.advanceTo f c with
    | none => none
    | some (_, it) => it.advances f cs

end FmtIter

/-- What `FontData` gives for drawing: `get_underline_position` etc.,
src/font_data.hpp. -/
structure FontMetrics where
  underlinePos : Rat
  underlineThickness : Rat
  strikePos : Rat
  strikeThickness : Rat

/-- The calls of the visitor.  The two kinds of rectangles have the same
signature in the code; `strike` records which statement made the call. -/
inductive DrawCall (φ κ σ : Type) where
  | run (line run : Nat)
  | stroke (font : φ) (glyph : Nat) (x y : Rat) (stroke : σ)
  | glyph (font : φ) (glyph : Nat) (x y : Rat) (color : κ)
  | rect (strike : Bool) (x y w h : Rat) (color : κ)
deriving Repr, DecidableEq

/-- The variables of the glyph loop that depend on the formatting. -/
structure DecoState (κ : Type) where
  it : FmtIter κ
  strikeStart : Rat
  underlineStart : Rat
deriving Repr, DecidableEq

section
variable {φ κ σ : Type} [DecidableEq κ]

/-- The rectangle of an `END` event or of the end of the run,
src/text_draw_util.hpp:74-77, 85-88, 98-102, 106-110. -/
def decoRect (strike : Bool) (m : FontMetrics) (lineX lineY start stop : Rat) (c : κ) : DrawCall φ κ σ :=
  if strike then .rect true (lineX + start) (lineY + m.strikePos) (stop - start) (m.strikeThickness + 1 / 2) c
  else .rect false (lineX + start) (lineY + m.underlinePos) (stop - start) (m.underlineThickness + 1 / 2) c

/-- `END` event, src/text_draw_util.hpp:73-77 and 84-88; the previous colour is
read only here. -/
def endRect (strike : Bool) (ended : Bool) (m : FontMetrics) (lineX lineY start pX : Rat) (prev : Option κ) :
    Option (List (DrawCall φ κ σ)) :=
  if ended then prev.map fun c => [decoRect strike m lineX lineY start pX c] else some []

/-- The body of the glyph loop, src/text_draw_util.hpp:58-93. -/
def drawGlyph (f : FmtView κ σ) (visible : σ → Bool) (m : FontMetrics) (font : φ) (lineX lineY : Rat)
    (id char : Nat) (pX pY : Rat) (s : DecoState κ) : Option (List (DrawCall φ κ σ) × DecoState κ) := do
  let (event, it) ← s.it.advanceTo f char
  let stroke ← it.strokeState f
  let u ← endRect false (FmtIter.hasEvent event FmtIter.underlineEnd) m lineX lineY s.underlineStart pX it.prevColor
  let k ← endRect true (FmtIter.hasEvent event FmtIter.strikeEnd) m lineX lineY s.strikeStart pX it.prevColor
  some ((if visible stroke then [.stroke font id (lineX + pX) (lineY + pY) stroke] else [])
      ++ [.glyph font id (lineX + pX) (lineY + pY) it.color] ++ u ++ k,
    ⟨it, if FmtIter.hasEvent event FmtIter.strikeBegin then pX else s.strikeStart,
      if FmtIter.hasEvent event FmtIter.underlineBegin then pX else s.underlineStart⟩)

/-- The glyph loop, src/text_draw_util.hpp:56-93, from glyph `i` and position
index `p` on: the calls, the final `glyphPosIndex` and the final state. -/
def drawGlyphs (L : Layout φ) (f : FmtView κ σ) (visible : σ → Bool) (m : FontMetrics) (font : φ) (lineX lineY : Rat)
    (stop i p : Nat) (s : DecoState κ) : Option (List (DrawCall φ κ σ) × Nat × DecoState κ) :=
  if i < stop then
    match L.pos[p]?, L.pos[p + 1]?, L.glyphs[i]?, L.charIdx[i]? with
    | some pX, some pY, some id, some char =>
      match drawGlyph f visible m font lineX lineY id char pX pY s with
      | none => none
      | some (calls, s) =>
        match drawGlyphs L f visible m font lineX lineY stop (i + 1) (p + 2) s with
        | none => none
        | some (rest, q) => some (calls ++ rest, q)
    | _, _, _, _ => none
  else some ([], p, s)
termination_by stop - i

/-- The rectangles after the glyph loop, src/text_draw_util.hpp:95-110;
`endPos` is read only if a decoration is open. -/
def finishRun (m : FontMetrics) (lineX lineY : Rat) (endPos : Option Rat) (s : DecoState κ) :
    Option (List (DrawCall φ κ σ)) := do
  let k ← endRect true s.it.strike m lineX lineY s.strikeStart (endPos.getD 0) (endPos.map fun _ => s.it.color)
  let u ← endRect false s.it.underline m lineX lineY s.underlineStart (endPos.getD 0) (endPos.map fun _ => s.it.color)
  some (k ++ u)

/-- The callback of `for_each_run` in `draw_text`, src/text_draw_util.hpp:45-113;
the pair is `(glyphIndex, glyphPosIndex)`. -/
def drawRun (L : Layout φ) (f : FmtView κ σ) (visible : σ → Bool) (metrics : φ → FontMetrics)
    (call : Nat × Nat × Rat × Rat) (st : Nat × Nat) : Option (List (DrawCall φ κ σ) × Nat × Nat) := do
  let run ← L.runs[call.2.1]?
  let it ← FmtIter.make f (if run.rtl then run.charEnd else run.charStart)
  let start ← L.pos[st.2]?
  let (calls, p, s) ← drawGlyphs L f visible (metrics run.font) run.font call.2.2.1 call.2.2.2 run.glyphEnd st.1 st.2
    ⟨it, start, start⟩
  let last ← finishRun (metrics run.font) call.2.2.1 call.2.2.2 L.pos[p]? s
  some (.run call.1 call.2.1 :: (calls ++ last), max st.1 run.glyphEnd, p + 2)

/-- The runs one after the other. -/
def drawRuns (L : Layout φ) (f : FmtView κ σ) (visible : σ → Bool) (metrics : φ → FontMetrics) :
    List (Nat × Nat × Rat × Rat) → Nat × Nat → Option (List (DrawCall φ κ σ))
  | [], _ => some []
  | c :: cs, st =>
    match drawRun L f visible metrics c st with
    | none => none
    | some (calls, st) =>
      match drawRuns L f visible metrics cs st with
      | none => none
      | some rest => some (calls ++ rest)

/-- `draw_text` with formatting, src/text_draw_util.hpp:36-114: the visitor calls
in order. -/
def drawText (L : Layout φ) (f : FmtView κ σ) (visible : σ → Bool) (metrics : φ → FontMetrics) (W : Rat)
    (al : XAlignment) : Option (List (DrawCall φ κ σ)) :=
  match L.forEachRun W al with
  | none => none
  | some calls => drawRuns L f visible metrics calls (0, 0)

end

section
variable {φ : Type}

/-- The glyph loop of the plain `draw_text`, src/text_draw_util.hpp:22-31: the
calls `visitor(font, glyphID, x, y)` and the final `glyphPosIndex`. -/
def plainGlyphs (L : Layout φ) (font : φ) (lineX lineY : Rat) (stop i p : Nat) :
    Option (List (φ × Nat × Rat × Rat) × Nat) :=
  if i < stop then
    match L.pos[p]?, L.pos[p + 1]?, L.glyphs[i]? with
    | some pX, some pY, some id =>
      match plainGlyphs L font lineX lineY stop (i + 1) (p + 2) with
      | none => none
      | some (rest, q) => some ((font, id, lineX + pX, lineY + pY) :: rest, q)
    | _, _, _ => none
  else some ([], p)
termination_by stop - i

/-- The runs of the plain `draw_text`, src/text_draw_util.hpp:17-33. -/
def plainRuns (L : Layout φ) : List (Nat × Nat × Rat × Rat) → Nat × Nat → Option (List (φ × Nat × Rat × Rat))
  | [], _ => some []
  | c :: cs, st =>
    match L.runs[c.2.1]? with
    | none => none
    | some run =>
      match plainGlyphs L run.font c.2.2.1 c.2.2.2 run.glyphEnd st.1 st.2 with
      | none => none
      | some (calls, p) =>
        match plainRuns L cs (max st.1 run.glyphEnd, p + 2) with
        | none => none
        | some rest => some (calls ++ rest)

/-- The plain `draw_text`, src/text_draw_util.hpp:10-34. -/
def drawPlain (L : Layout φ) (W : Rat) (al : XAlignment) : Option (List (φ × Nat × Rat × Rat)) :=
  match L.forEachRun W al with
  | none => none
  | some calls => plainRuns L calls (0, 0)

end
end RichText
