import Verif.Model.TextBox
/-!
The tool bar of the sample, `sample/tool_bar.cpp`, `sample/tool_bar_menu.cpp`,
`sample/tool_bar_menu_item.cpp`, and the window with the tool bar above the text box,
`sample/main.cpp`.

Names and texts are left out (of a menu's name only the length matters), as are the
colours and everything drawn.  Coordinates are exact; those the code computes are whole
numbers, of which `float` rounds none below 2^24.  The tree is fixed: the text box and
the tool bar are children of the container, in this order, and only trays are ever
hidden.  So the objects asked in `for_each_descendant_bottom_up` (C69) are the visible
items and titles from the last to the first, then the text box.
-/
namespace RichText

/-- `is_mouse_inside`, sample/ui_object.cpp:170-173. -/
def mouseInside (x y width height mx my : Rat) : Bool :=
  decide (mx ≥ x) && decide (my ≥ y) && decide (mx - x ≤ width) && decide (my - y ≤ height)

/-- `ToolBarMenuItem`, sample/tool_bar_menu_item.hpp:34-39, with its position in the
tray.  `setting` is the variable the item's callback sets, sample/config_vars.hpp. -/
structure BarItem where
  y : Rat
  hovered : Bool := false
  selected : Bool := false
  setting : Bool := false
  deriving DecidableEq, Repr

/-- `ToolBarMenu`, sample/tool_bar_menu.hpp:21-24, with its position, its size and its
tray. -/
structure BarMenu where
  x : Rat
  width : Rat
  trayHeight : Rat
  trayVisible : Bool := false
  «open» : Bool := false
  hovered : Bool := false
  items : List BarItem := []
  deriving DecidableEq, Repr

/-- `ToolBar`, sample/tool_bar.hpp. -/
structure ToolBar where
  width : Rat
  menusOpen : Bool := false
  menus : List BarMenu := []
  deriving DecidableEq, Repr

namespace BarItem

/-- `is_mouse_inside` of an item of a menu at `x`: the tray is 20 below the bar's top,
sample/tool_bar_menu.cpp:28, items are 3 inside of the tray and 166 by 22 large,
sample/tool_bar_menu.cpp:89-90, sample/tool_bar_menu_item.hpp:9-10. -/
def inside (i : BarItem) (x mx my : Rat) : Bool := mouseInside (x + 0 + 3) (0 + 20 + i.y) 166 22 mx my

/-- `handle_mouse_move`, sample/tool_bar_menu_item.cpp:25-29. -/
def move (i : BarItem) (x mx my : Rat) : BarItem := { i with hovered := i.inside x mx my }

/-- The callbacks set in sample/main.cpp:200-225. -/
def click (i : BarItem) : BarItem := { i with selected := !i.selected, setting := !i.selected }

end BarItem

namespace BarMenu

/-- `ToolBarMenu::create`, sample/tool_bar_menu.cpp:20-34; `name` is the length of the
name, `x` the position `add_menu` gives it. -/
def create (x : Rat) (name : Nat) : BarMenu := { x := x, width := 10 * name, trayHeight := 2 * 3 - 1 }

/-- `add_item`, sample/tool_bar_menu.cpp:85-96. -/
def addItem (m : BarMenu) : BarMenu :=
  { m with items := m.items ++ [{ y := m.trayHeight - 3 + 1 }], trayHeight := m.trayHeight + 22 }

/-- `is_mouse_inside` of the title. -/
def inside (m : BarMenu) (mx my : Rat) : Bool := mouseInside m.x 0 m.width (20 - 1) mx my

/-- `set_open`, sample/tool_bar_menu.cpp:98-101. -/
def setOpen (m : BarMenu) (o : Bool) : BarMenu := { m with «open» := o, trayVisible := o }

/-- The handlers of the items, called by `for_each_descendant`. -/
def moveItems (m : BarMenu) (mx my : Rat) : BarMenu := { m with items := m.items.map (·.move m.x mx my) }

end BarMenu

/-- The last element that satisfies a test: the first one found from the end. -/
def lastWhere {α : Type _} (p : α → Bool) : List α → Option Nat
  | [] => none
  | a :: as =>
    match lastWhere p as with
    | some n => some (n + 1)
    | none => if p a then some 0 else none

/-- An object of the tool bar that takes mouse buttons. -/
inductive BarPart where
  | title (menu : Nat)
  | item (menu index : Nat)
  deriving DecidableEq, Repr

namespace ToolBar

/-- `ToolBar::create`, sample/tool_bar.cpp:9-14. -/
def create (width : Rat) : ToolBar := { width := width }

/-- `add_menu`, sample/tool_bar.cpp:63-77. -/
def addMenu (b : ToolBar) (name : Nat) : ToolBar :=
  { b with menus := b.menus ++ [.create (b.menus.foldl (fun offset m => offset + m.width) 0) name] }

/-- `add_item` of a menu. -/
def addItem (b : ToolBar) (menu : Nat) : ToolBar := { b with menus := b.menus.modify menu BarMenu.addItem }

/-- `set_size` on the tool bar, sample/main.cpp:186-188. -/
def resize (b : ToolBar) (width : Rat) : ToolBar := { b with width := width }

/-- `handle_mouse_move` of the tool bar, sample/tool_bar.cpp:16-55. -/
def moveBar (b : ToolBar) (mx my : Rat) : ToolBar :=
  if b.menusOpen && mouseInside 0 0 b.width 20 mx my then
    match b.menus.findIdx? (·.inside mx my) with
    | some found =>
      { b with menus := b.menus.mapIdx fun k m =>
          { (if k = found then m.setOpen true else m.setOpen false) with hovered := false } }
    | none => b
  else if !b.menusOpen then
    { b with menus := b.menus.map fun m => { m with hovered := m.inside mx my } }
  else b

/-- A mouse move: first the tool bar, then what is below it. -/
def move (b : ToolBar) (mx my : Rat) : ToolBar :=
  { b.moveBar mx my with menus := (b.moveBar mx my).menus.map (·.moveItems mx my) }

/-- The part of a menu that takes a mouse button: visible items from the last to the
first, then the title, which takes the left button only,
sample/tool_bar_menu_item.cpp:14-23 and sample/tool_bar_menu.cpp:36-61. -/
def hitMenu (left : Bool) (mx my : Rat) (k : Nat) (m : BarMenu) : Option BarPart :=
  match (if m.trayVisible then lastWhere (·.inside m.x mx my) m.items else none) with
  | some j => some (.item k j)
  | none => if left && m.inside mx my then some (.title k) else none

/-- The part of the tool bar that takes a mouse button: menus from the last to the
first. -/
def hitFrom (left : Bool) (mx my : Rat) : Nat → List BarMenu → Option BarPart
  | _, [] => none
  | k, m :: ms =>
    match hitFrom left mx my (k + 1) ms with
    | some p => some p
    | none => hitMenu left mx my k m

/-- The part of the tool bar that takes a mouse button. -/
def hit (b : ToolBar) (left : Bool) (mx my : Rat) : Option BarPart := hitFrom left mx my 0 b.menus

/-- The left button pressed on a part, sample/tool_bar_menu.cpp:39-56 and
sample/tool_bar_menu_item.cpp:18-20. -/
def pressPart (b : ToolBar) : BarPart → ToolBar
  | .title k =>
    { b with
      menusOpen := !b.menusOpen
      menus := b.menus.modify k fun m =>
        if !b.menusOpen then { m.setOpen true with hovered := false } else { m.setOpen false with hovered := true } }
  | .item k j => { b with menus := b.menus.modify k fun m => { m with items := m.items.modify j BarItem.click } }

/-- The left button pressed. -/
def press (b : ToolBar) (mx my : Rat) : ToolBar :=
  match b.hit true mx my with
  | some p => b.pressPart p
  | none => b

end ToolBar

/-- What happens to a tool bar. -/
inductive BarEvent where
  | move (mx my : Rat)
  | press (mx my : Rat)
  | resize (width : Rat)
  deriving DecidableEq, Repr

namespace ToolBar

/-- One event. -/
def step (b : ToolBar) : BarEvent → ToolBar
  | .move mx my => b.move mx my
  | .press mx my => b.press mx my
  | .resize width => b.resize width

/-- A sequence of events. -/
def run (b : ToolBar) (es : List BarEvent) : ToolBar := es.foldl step b

/-- Menus and their items set up one after the other, as in sample/main.cpp:192-226:
the length of the name and the number of items of each. -/
def setup (b : ToolBar) (menus : List (Nat × Nat)) : ToolBar :=
  menus.foldl (fun b m => (List.range m.2).foldl (fun b' _ => b'.addItem b.menus.length) (b.addMenu m.1)) b

/-- `set_up_toolbar`, sample/main.cpp:192-226: "Format" with one item, "View" with
three. -/
def sample (width : Rat) : ToolBar := (create width).setup [(6, 1), (4, 3)]

end ToolBar

/-- The window: the tool bar, the text box at `(boxX, boxY)` of size `boxW` by `boxH`,
whether the left button is down, and where the mouse is. -/
structure Window (φ : Type _) where
  bar : ToolBar
  box : TextBox φ
  boxX : Rat := 10
  boxY : Rat := 20
  boxW : Rat
  boxH : Rat
  down : Bool := false
  mouse : Rat × Rat := (0, 0)

/-- What the user does. -/
inductive WindowEvent where
  | move (mx my : Rat)
  | press (shift : Bool) (clicks : Nat)
  | release
  | key (i : TextBox.Input)
  | char (c : Nat)
  | unfocus

namespace Window
variable {φ : Type _}

/-- `is_mouse_inside` of the text box. -/
def insideBox (w : Window φ) : Bool := mouseInside w.boxX w.boxY w.boxW w.boxH w.mouse.1 w.mouse.2

/-- Whether an input is a key. -/
def isKey : TextBox.Input → Bool
  | .press .. | .move .. | .release | .char _ | .focus | .blur => false
  | _ => true

/-- What the text box gets to see of an event:
`UIContainer::handle_mouse_button`, `handle_key_press`, `handle_mouse_move`,
`handle_text_input`, `handle_focus_lost`, sample/ui_container.cpp:250-333.  A part of the
tool bar that takes a press gets the focus, so the text box loses it; so it does when
nothing takes the press. -/
def forBox (w : Window φ) : WindowEvent → Option TextBox.Input
  | .move mx my => some (.move (mx - w.boxX) (my - w.boxY))
  | .press shift clicks =>
    if (w.bar.hit true w.mouse.1 w.mouse.2).isSome then some .blur
    else if w.insideBox then some (.press (w.mouse.1 - w.boxX) (w.mouse.2 - w.boxY) shift clicks)
    else some .blur
  | .release => if (w.bar.hit true w.mouse.1 w.mouse.2).isSome then none else some .release
  | .key i => if w.insideBox && isKey i then some i else none
  | .char c => some (.char c)
  | .unfocus => some .blur

/-- One event. -/
def step (e : BoxEnv φ) (w : Window φ) (ev : WindowEvent) : Option (Window φ) :=
  let box := match w.forBox ev with
    | some i => w.box.handle e i
    | none => some w.box
  box.map fun box =>
    match ev with
    | .move mx my => { w with box := box, bar := w.bar.move mx my, mouse := (mx, my) }
    | .press _ _ => { w with box := box, bar := w.bar.press w.mouse.1 w.mouse.2, down := true }
    | .release => { w with box := box, down := false }
    | _ => { w with box := box }

/-- A sequence of events. -/
def run (e : BoxEnv φ) : Window φ → List WindowEvent → Option (Window φ)
  | w, [] => some w
  | w, ev :: evs => (w.step e ev).bind fun w => run e w evs

/-- `on_resize`, sample/main.cpp:169-189, as far as positions and sizes go. -/
def resize (w : Window φ) (width height : Rat) : Window φ :=
  { w with bar := w.bar.resize width, boxW := width - 2 * 10, boxH := height - 10 }

end Window
end RichText
