import Verif.Model.Formatting
import Verif.Model.LayoutBuilder
import Verif.Model.TextBox
/-!
The text box of the sample on top of the parser and the layout builder: what
`TextBox::recalc_text` calls, with only the libraries left as parameters.
-/
namespace RichText

/-- What `recalc_text` (sample/text_box.cpp:420-457) depends on: the font, colour and
stroke of the box; the parser's libraries; ICU's break iterators; and for a text with
its formatting the paragraphs `build_layout_info` (src/layout_builder.cpp:159-241) is
led through by SheenBidi, ICU, the font registry and HarfBuzz.  `height` and `yAlign`
are the box's.  The last field is not used by the code; it is the length up to which
the theorems consider texts. -/
structure App (F β φ : Type _) where
  parser : Env F
  font : Font
  color : Color F
  stroke : StrokeState F
  breaks : Bytes → BreakEnv
  paragraphs : Bytes → FormattingRuns F → List (Paragraph β φ)
  width : Rat
  height : Rat
  align : XAlignment
  yAlign : YAlignment
  emptyHeight : Rat
  limit : Nat

namespace App
variable {F β φ : Type _}

/-- sample/text_box.cpp:429-432: the text shown and its formatting. -/
def formatted (a : App F β φ) (rich : Bool) (text : Bytes) : Except Fault (Bytes × FormattingRuns F) :=
  if rich then parseInlineFormatting a.parser text a.font a.color a.stroke
  else .ok (makeDefaultRuns text a.font a.color a.stroke)

/-- `recalc_text`, sample/text_box.cpp:420-457, with its calls of the parser and the
layout builder, which overwrites the layout the box has. -/
def recalc (a : App F β φ) (s : TextBox φ) : Option (TextBox φ) :=
  match a.formatted s.showsRich s.text with
  | .error _ => none
  | .ok r =>
    if r.1 = [] then some { s with ctrl := r.1, info := ⟨0, 0, a.emptyHeight, 0⟩ }
    else
      (buildLayout s.layout (a.paragraphs r.1 r.2) r.1.length a.yAlign a.height).bind fun L =>
      (L.cursorPixelPos a.width a.align s.cursor.1 s.cursor.2).map fun info =>
        { s with ctrl := r.1, layout := L, info := info }

/-- The text and its formatting as the box gets them; where a buffer of the parser is
overrun (C12) the text itself. -/
def shownAs (a : App F β φ) (rich : Bool) (text : Bytes) : Bytes × FormattingRuns F :=
  match a.formatted rich text with
  | .ok r => r
  | .error _ => makeDefaultRuns text a.font a.color a.stroke

/-- What the model of the text box (Verif/Model/TextBox.lean) has as parameters. -/
def box (a : App F β φ) : BoxEnv φ where
  breaks := a.breaks
  content t := (a.shownAs true t).1
  layout rich t :=
    let r := a.shownAs rich t
    (buildLayout {} (a.paragraphs r.1 r.2) r.1.length a.yAlign a.height).getD {}
  width := a.width
  align := a.align
  emptyHeight := a.emptyHeight
  limit := a.limit

end App
end RichText
