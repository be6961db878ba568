import Verif.Model.ToolBar
import Verif.Model.GLDraw
/-!
What the tool bar of the sample draws, sample/tool_bar.cpp:58-62, sample/tool_bar_menu.cpp:61-82,
sample/tool_bar_menu_item.cpp:33-56, sample/frame.cpp:9-14, sample/ui_object.cpp:199-210.

Coordinates are exact, as in `Model/ToolBar.lean`.  Texts are left out: a step says which text is drawn in which area.  How a
text is drawn in its area is in `Model/DebugDraw.lean`.
-/
namespace RichText

/-- The arguments of `Color::from_rgb`, src/color.hpp:13-15. -/
abbrev Rgba := Nat × Nat × Nat × Nat

/-- `Color::from_rgb`, src/color.hpp:13-15. -/
def Rgba.vec (c : Rgba) : Vec4 := ((c.1 : Rat) / 255, (c.2.1 : Rat) / 255, (c.2.2.1 : Rat) / 255, (c.2.2.2 : Rat) / 255)

/-- A text of the tool bar: the name of a menu, the check mark, the text of an item. -/
inductive BarLabel where
  | name (menu : Nat)
  | tick
  | label (menu index : Nat)
  deriving DecidableEq, Repr

/-- A call that draws: `emit_rect` with the pipeline for rectangles or for outlines, `draw_text_immediate` with an area and
an alignment. -/
inductive BarStep where
  | fill (x y width height : Rat) (color : Rgba)
  | outline (x y width height : Rat) (color : Rgba)
  | text (label : BarLabel) (x y width height : Rat) (alignX : XAlignment) (alignY : YAlignment)
  deriving DecidableEq, Repr

/-- What a call that draws a rectangle adds to the frame, sample/ui_container.cpp:67-71. -/
def BarStep.frameStep : BarStep → Option FrameStep
  | .fill x y w h c => some (.rect x y w h c.vec .rect none)
  | .outline x y w h c => some (.rect x y w h c.vec .outline none)
  | .text .. => none

/-- `ToolBarMenuItem::render`, sample/tool_bar_menu_item.cpp:33-56, at the absolute position `(x, y)`. -/
def BarItem.draw (i : BarItem) (k j : Nat) (x y : Rat) : List BarStep :=
  (if i.hovered then [.fill x y 166 22 (145, 201, 247, 255)] else []) ++
  (if i.selected then
    (if i.hovered then [.fill x y 22 22 (86, 176, 250, 255)] else []) ++ [.text .tick x y 22 22 .center .center]
  else []) ++
  [.text (.label k j) (x + 32) y 166 22 .left .center]

/-- `Frame::render`, sample/frame.cpp:9-14, of the tray of a menu, whose size is set in sample/tool_bar_menu.cpp:26-29, 92. -/
def BarMenu.drawTray (m : BarMenu) (x y : Rat) : List BarStep :=
  [.fill x y (172 - 1) m.trayHeight (242, 242, 242, 255), .outline x y (172 - 1) m.trayHeight (204, 204, 204, 255)]

/-- `ToolBarMenu::render`, sample/tool_bar_menu.cpp:65-81. -/
def BarMenu.drawTitle (m : BarMenu) (k : Nat) (x y : Rat) : List BarStep :=
  (if m.open then
    [.fill (x + 1) (y + 1) (m.width - 2) ((20 - 1) - 2) (153, 209, 255, 127),
      .outline x y (m.width - 1) ((20 - 1) - 1) (51, 163, 255, 127)]
  else if m.hovered then
    [.fill (x + 1) (y + 1) (m.width - 2) ((20 - 1) - 2) (211, 224, 255, 127),
      .outline x y (m.width - 1) ((20 - 1) - 1) (153, 209, 255, 127)]
  else []) ++
  [.text (.name k) x y m.width (20 - 1) .center .center]

/-- `render_internal` of a menu, sample/ui_object.cpp:199-210: the title, then the tray with its items if the tray is
visible. -/
def BarMenu.draw (k : Nat) (m : BarMenu) : List BarStep :=
  m.drawTitle k (0 + m.x) (0 + 0) ++
  (if m.trayVisible then
    m.drawTray (0 + m.x + 0) (0 + 0 + 20) ++
      (m.items.mapIdx fun j i => i.draw k j (0 + m.x + 0 + 3) (0 + 0 + 20 + i.y)).flatten
  else [])

/-- `render_internal` of the tool bar: the line below it, sample/tool_bar.cpp:58-62, then the menus. -/
def ToolBar.draw (b : ToolBar) : List BarStep :=
  .fill 0 (0 + 20 - 2) b.width 2 (240, 240, 240, 255) :: (b.menus.mapIdx BarMenu.draw).flatten

end RichText
