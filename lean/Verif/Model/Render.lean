import Verif.Model.App
import Verif.Model.BoxThread
import Verif.Model.DrawSelection
/-!
The text box of the sample with the formatting it keeps, and how it is drawn.
-/
namespace RichText
namespace App
variable {F β φ : Type}

/-- `recalc_text`, sample/text_box.cpp:420-457, with `m_formatting` as the state that is passed on (429-432). -/
def recalcF (a : App F β φ) : TextBox.Recalc φ (FormattingRuns F) := fun s _ =>
  match a.formatted s.showsRich s.text with
  | .error _ => none
  | .ok r => (a.recalc s).map fun s' => (r.2, s')

/-- A sequence of inputs to a box with its formatting, sample/text_box.cpp:13-179. -/
def runF (a : App F β φ) (s : TextBox φ) (is : List TextBox.Input) (f : FormattingRuns F) : Option (FormattingRuns F × TextBox φ) :=
  TextBox.runT a.box a.recalcF s is f

/-- `TextBox::render`, sample/text_box.cpp:192-205, for a box at `x`, `y`: the rectangles of the text, then that of the caret (`black` is
the colour `{0, 0, 0, 1}`). -/
def render [DecidableEq (Color F)] (a : App F β φ) (p : Painter φ (Color F) (StrokeState F)) (black : Color F)
    (visible : StrokeState F → Bool) (metrics : φ → FontMetrics) (x y : Rat) (f : FormattingRuns F) (s : TextBox φ) :
    Option (List (Quad (Color F))) :=
  (paintText s.layout f.drawView visible metrics p x y a.width a.align (s.sel.map (·.1)) s.cursor.1).map fun text =>
    text ++ if s.caretShown then [⟨x + s.info.x, y + s.info.y, 1, s.info.height, unitTex, black⟩] else []

end App
end RichText
