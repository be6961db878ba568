import Verif.Model.UIObject
/-!
`sample/ui_container.cpp`: clipped rectangles, focus, clicks and the delivery of mouse
presses.  Lengths are exact rational numbers.
-/
namespace RichText

/-- Texture coordinates: origin and size. -/
structure TexRect where
  u : Rat
  v : Rat
  uw : Rat
  vh : Rat
  deriving DecidableEq, Repr

/-- What `draw_rect_internal` draws. -/
structure Quad (κ : Type) where
  x : Rat
  y : Rat
  width : Rat
  height : Rat
  tex : TexRect
  color : κ
  deriving DecidableEq, Repr

/-- `UIContainer::emit_rect`, sample/ui_container.cpp:16-65, for a texture that is not null.
`white` is the colour `{1.f, 1.f, 1.f, 1.f}`. -/
def emitRect {κ : Type} (white : κ) (x y width height : Rat) (tex : TexRect) (color : κ) (clip : Option (Rat × Rat)) : List (Quad κ) :=
  match clip with
  | none => [⟨x, y, width, height, tex, color⟩]
  | some (first, second) =>
    if x ≥ second ∨ x + width ≤ first then [⟨x, y, width, height, tex, color⟩]
    else
      let newX := x
      let newWidth := width
      let newU := tex.u
      let newUW := tex.uw
      let (newX, newWidth, newU, newUW, left) :=
        if first ≥ x + 1 ∧ first < x + width then
          let diff := first - x
          let tcDiff := tex.uw * diff / width
          (newX + diff, newWidth - diff, newU + tcDiff, newUW - tcDiff, [⟨x, y, diff, height, ⟨tex.u, tex.v, tcDiff, tex.vh⟩, color⟩])
        else (newX, newWidth, newU, newUW, [])
      let (newWidth, newUW, right) :=
        if second > x ∧ second + 1 ≤ x + width then
          let diff := x + width - second
          let tcDiff := tex.uw * diff / width
          (newWidth - diff, newUW - tcDiff, [⟨x + width - diff, y, diff, height, ⟨tex.u + tex.uw - tcDiff, tex.v, tcDiff, tex.vh⟩, color⟩])
        else (newWidth, newUW, [])
      left ++ right ++ [⟨newX, y, newWidth, height, ⟨newU, tex.v, newUW, tex.vh⟩, white⟩]

/-- The focus of a container.  `log` is not part of the program: it records the calls of
`handle_focused` (`true`) and `handle_focus_lost` (`false`). -/
structure Focus (π : Type) where
  alive : Nat → Bool
  flag : Nat → Bool
  focused : Option Nat := none
  clicks : Nat := 0
  lastPos : Option π := none
  lastTime : Rat := 0
  log : List (Nat × Bool) := []

/-- What an event handler may ask of the container. -/
inductive FocusCall
  | focus (i : Nat)
  | release
  deriving DecidableEq, Repr

namespace Focus
variable {π : Type}

/-- `m_focusedObject.lock()`. -/
def current (s : Focus π) : Option Nat := s.focused.filter (s.alive ·)

/-- `release_focused_object` and `focus_object`, sample/ui_container.cpp:335-356, when the
handlers of object `i` make the calls `gained i` and `lost i`. -/
def call (gained lost : Nat → List FocusCall) : Nat → FocusCall → Focus π → Option (Focus π)
  | 0, _, _ => none
  | n + 1, .release, s =>
    let s' : Option (Focus π) :=
      match s.current with
      | some o =>
        (lost o).foldl (fun (s : Option (Focus π)) c => s.bind (call gained lost n c))
          (some { s with flag := fun j => if j = o then false else s.flag j, log := s.log ++ [(o, false)] })
      | none => some s
    s'.map fun s => { s with focused := none, clicks := 0, lastPos := none }
  | n + 1, .focus i, s =>
    if s.current = some i then some s
    else
      (call gained lost n .release s).bind fun s =>
        (gained i).foldl (fun (s : Option (Focus π)) c => s.bind (call gained lost n c))
          (some { s with focused := some i, flag := fun j => if j = i then true else s.flag j, log := s.log ++ [(i, true)] })

/-- `text_box_click`, sample/ui_container.cpp:370-384. -/
def click [DecidableEq π] (s : Focus π) (pos : π) (time : Rat) : Focus π :=
  { s with
    clicks := if s.lastPos = some pos ∧ time - s.lastTime ≤ 1 / 2 then s.clicks + 1 else 0
    lastTime := time
    lastPos := some pos }

end Focus

namespace Ui
variable {α : Type}

/-- The objects `for_each_descendant` visits, sample/ui_object.hpp:141-150, from a sibling
on, with a function that always continues. -/
def descendants (u : Ui α) : Nat → Option Nat → Option (List Nat)
  | 0, _ => none
  | _ + 1, none => some []
  | n + 1, some c =>
    (u.descendants n (u.obj c).first).bind fun below => (u.descendants n (u.obj c).next).map fun rest => c :: below ++ rest

/-- The objects drawn by `render_internal`, sample/ui_object.cpp:191-202, from a sibling
on; `UIContainer::render`, sample/ui_container.cpp:239-248, starts with the first
child. -/
def drawn (u : Ui α) : Nat → Option Nat → Option (List Nat)
  | 0, _ => none
  | _ + 1, none => some []
  | n + 1, some c =>
    (if (u.obj c).visible then (u.drawn n (u.obj c).first).map (c :: ·) else some []).bind fun this =>
      (u.drawn n (u.obj c).next).map fun rest => this ++ rest

/-- `is_visible_from_ancestors`, sample/ui_object.cpp:136-153. -/
def visibleFrom (u : Ui α) : Nat → Nat → Option Bool
  | 0, _ => none
  | n + 1, i =>
    if !(u.obj i).visible then some false
    else
      match u.lock (u.obj i).parent with
      | none => some true
      | some p => u.visibleFrom n p

/-- `for_each_descendant_bottom_up`, sample/ui_object.hpp:152-161, until `f` is true; the
result is that object. -/
def bottomUp (u : Ui α) (f : Nat → Option Bool) : Nat → Option Nat → Option (Option Nat)
  | 0, _ => none
  | n + 1, w =>
    match u.lock w with
    | none => some none
    | some c =>
      (u.bottomUp f n (u.obj c).last).bind fun r =>
        match r with
        | some i => some (some i)
        | none => (f c).bind fun b => if b then some (some c) else u.bottomUp f n (u.obj c).prev

/-- The object that takes a mouse press, `UIContainer::handle_mouse_button`,
sample/ui_container.cpp:251-278; `takes i` is what `handle_mouse_button` of object `i`
answers.  The handlers asked before do not change the tree. -/
def pressed (u : Ui α) (takes : Nat → Bool) (n c : Nat) : Option (Option Nat) :=
  u.bottomUp (fun i => (u.visibleFrom n i).map (· && takes i)) n (u.obj c).last

end Ui

/-- The object under the mouse.  `log` is not part of the program: it records the calls of
`handle_mouse_enter` (`true`) and `handle_mouse_leave` (`false`). -/
structure Hover where
  hovered : Option Nat := none
  log : List (Nat × Bool) := []

/-- `handle_mouse_leave` in `UIContainer::handle_mouse_move`, sample/ui_container.cpp:307-311;
`under` is the object found under the mouse, `alive` the objects that still exist. -/
def Hover.leave (h : Hover) (alive : Nat → Bool) (under : Option Nat) : Hover :=
  match h.hovered.filter alive with
  | some l => if under ≠ some l then { h with log := h.log ++ [(l, false)] } else h
  | none => h

/-- The second half of `UIContainer::handle_mouse_move`, sample/ui_container.cpp:307-316. -/
def Hover.move (h : Hover) (alive : Nat → Bool) (under : Option Nat) : Hover :=
  let h := h.leave alive under
  match under with
  | some i => { hovered := some i, log := h.log ++ [(i, true)] }
  | none => h

end RichText
