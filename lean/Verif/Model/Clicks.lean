import Verif.Model.TextBox
import Verif.Model.UIContainer
/-!
Presses of the mouse button on a text box together with the clicks its container counts.
-/
namespace RichText
variable {φ : Type}
namespace TextBox

/-- The mouse button pressed inside a box at a time, `TextBox::handle_mouse_button`, sample/text_box.cpp:18-58, with
`UIContainer::text_box_click`, sample/ui_container.cpp:370-384, and, for a box without focus, `focus_object` behind it,
sample/ui_container.cpp:266-268, 335-356: `f` is what the container remembers of the clicks.  Of `focus_object` only what it
does to this box and to the count is kept here (the other boxes are in `Focus.call`). -/
def clickAt (e : BoxEnv φ) (w : TextBox φ × Focus Cursor) (x y : Rat) (shift : Bool) (time : Rat) : Option (TextBox φ × Focus Cursor) :=
  if w.1.focused then
    match toMouse e w.1 x y shift with
    | none => none
    | some s =>
      let f := w.2.click s.cursor time
      match clickSelect e s f.clicks with
      | none => none
      | some s => some ({ s with drag := true }, f)
  else
    match recalc e w.1 with
    | none => none
    | some s =>
      match toMouse e s x y shift with
      | none => none
      | some s =>
        match focus e { s with drag := true } with
        | none => none
        | some s => some (s, { w.2 with clicks := 0, lastPos := none })

/-- Presses at one point, one after the other, at the times given. -/
def clicksAt (e : BoxEnv φ) (x y : Rat) : TextBox φ × Focus Cursor → List Rat → Option (TextBox φ × Focus Cursor)
  | w, [] => some w
  | w, t :: ts =>
    match clickAt e w x y false t with
    | none => none
    | some w => clicksAt e x y w ts

end TextBox
end RichText
