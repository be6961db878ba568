import Verif.Model.Shader
import Verif.Model.ToolBar
import Verif.Model.LayoutBuilder
/-!
Model of the window of the sample (`sample/main.cpp`): its size, the places of the text box and the tool bar, where things are drawn and
where the pointer is; and of the blinking of the caret (`sample/text_box.cpp:181-205`).

* Of GLFW: a window has a size in screen coordinates, in which the pointer is given, and a framebuffer that is `scale` times
  as large; `glfwSetFramebufferSizeCallback` is called with the size of the framebuffer when it changes.
* Numbers are exact; sizes of windows are whole and below 2^24, which `float` has.
-/
namespace RichText

/-- Position and size, sample/ui_object.hpp:84-85. -/
structure UiRect where
  x : Rat := 0
  y : Rat := 0
  width : Rat := 0
  height : Rat := 0
  deriving DecidableEq

/-- The viewport and the objects `on_resize` changes. -/
structure SampleWindow where
  view : Int × Int := (0, 0)
  container : Pt := (0, 0)
  box : UiRect := {}
  bar : UiRect := {}

namespace SampleWindow

/-- `INSET`, sample/main.cpp:26. -/
def inset : Rat := 10

/-- `TOOL_BAR_HEIGHT`, sample/tool_bar.hpp:9. -/
def barHeight : Rat := 20

/-- `on_resize`, sample/main.cpp:170-186; both children are found by their names (sample/main.cpp:80, 196), `set_size`,
sample/ui_object.cpp:87-91, keeps positions. -/
def onResize (s : SampleWindow) (width height : Int) : SampleWindow :=
  { view := (width, height)
    container := (width, height)
    box := { s.box with width := width - 2 * inset, height := height - inset }
    bar := { s.bar with width := width, height := barHeight } }

/-- `main`, sample/main.cpp:79-87, 100, with `ToolBar::create`, sample/tool_bar.cpp:9-14: for the size the window is created with. -/
def start (width height : Int) : SampleWindow :=
  onResize
    { box := ⟨inset, barHeight, width - 2 * inset, height - inset - barHeight⟩, bar := ⟨0, 0, width, barHeight⟩ }
    width height

/-- The window is resized again and again. -/
def resized (s : SampleWindow) (l : List (Int × Int)) : SampleWindow := l.foldl (fun s p => s.onResize p.1 p.2) s

/-- `fixedTextAreaWidth`, src/layout_builder.cpp:185, for the wrapped text of the box, sample/text_box.cpp:443: `float` to integer
truncates. -/
def areaWidth (s : SampleWindow) : Int := (s.box.width * 64).num.tdiv (s.box.width * 64).den

/-- Where a point of the user interface is drawn, from the top left of a framebuffer of the given height: the vertex shaders
divide by the size of the container (sample/ui_container.cpp:124-126), OpenGL multiplies by that of the viewport and counts from the bottom. -/
def drawnAt (s : SampleWindow) (framebufferHeight : Rat) (p : Pt) : Pt :=
  let w := toWindow (s.view.1, s.view.2) (toClip (1 / s.container.1, 1 / s.container.2) p)
  (w.1, framebufferHeight - w.2)

end SampleWindow

end RichText
