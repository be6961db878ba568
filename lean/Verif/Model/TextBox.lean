import Verif.Model.Bytes
import Verif.Model.CursorController
/-!
Model of `sample/text_box.cpp`, the editable text field of the sample.

* The font is set (without one nothing is laid out).
* `none` is undefined behaviour or an exception that is not caught.
* The break iterators, the inline formatting parser, the layout builder and the
  system's clipboard are parameters; so are the box's width and alignment.
* Blinking, drawing and the setters that only store a value are left out.
-/
namespace RichText

/-- Text as bytes. -/
abbrev Bytes := List UInt8

/-- What the text box calls: the break iterator on a text, the displayed text of a
rich text (`parse_inline_formatting`), the layout of a text (the flag: as rich
text), and the box's properties that go into them.  The last field is not used by
the code; it is the length up to which the theorems consider texts. -/
structure BoxEnv (φ : Type _) where
  breaks : Bytes → BreakEnv
  content : Bytes → Bytes
  layout : Bool → Bytes → Layout φ
  width : Rat
  align : XAlignment
  emptyHeight : Rat
  limit : Nat := 2147483647

/-- `TextBox`, sample/text_box.hpp:36-58, with `UIObject::m_focused` and the
system's clipboard (`none`: no text there).  The selection start is `none` when it is
`INVALID_VALUE`; `ctrl` is the text the cursor controller was given. -/
structure TextBox (φ : Type _) where
  text : Bytes := []
  cursor : Cursor := (0, .default)
  sel : Option Cursor := none
  multiLine : Bool := true
  rich : Bool := false
  editable : Bool := true
  drag : Bool := false
  focused : Bool := false
  layout : Layout φ := {}
  info : Layout.CursorInfo := ⟨0, 0, 0, 0⟩
  ctrl : Bytes := []
  clip : Option Bytes := none
  timer : Rat := 0
  flash : Nat := 0

namespace TextBox
variable {φ : Type _}

/-- Which text is shown as rich text, sample/text_box.cpp:421 with
`should_focused_use_rich_text`, sample/text_box.cpp:207-211. -/
def showsRich (s : TextBox φ) : Bool := if s.focused then s.rich && !s.editable else s.rich

/-- `recalc_text`, sample/text_box.cpp:420-457.  For an empty text the layout
stays as it is. -/
def recalc (e : BoxEnv φ) (s : TextBox φ) : Option (TextBox φ) :=
  let rich := s.showsRich
  let text := if rich then e.content s.text else s.text
  if text = [] then some { s with ctrl := text, info := ⟨0, 0, e.emptyHeight, 0⟩ }
  else
    let L := e.layout rich s.text
    match L.cursorPixelPos e.width e.align s.cursor.1 s.cursor.2 with
    | none => none
    | some info => some { s with ctrl := text, layout := L, info := info }

/-- `set_text`, sample/text_box.cpp:466-469. -/
def setText (e : BoxEnv φ) (s : TextBox φ) (text : Bytes) : Option (TextBox φ) := recalc e { s with text := text }

/-- `set_cursor_position_internal`, sample/text_box.cpp:267-283; the last two lines let the caret blink from the start. -/
def setCursor (e : BoxEnv φ) (s : TextBox φ) (pos : Cursor) (selecting : Bool) : Option (TextBox φ) :=
  let sel := if selecting then (match s.sel with | none => some s.cursor | some c => some c) else none
  match s.layout.cursorPixelPos e.width e.align pos.1 pos.2 with
  | none => none
  | some info => some { s with sel := sel, cursor := pos, info := info, timer := 0, flash := 0 }

/-! ### Movement, sample/text_box.cpp:213-265 -/

/-- sample/text_box.cpp:213-215. -/
def nextCharacter (e : BoxEnv φ) (s : TextBox φ) (selecting : Bool) : Option (TextBox φ) :=
  setCursor e s ((e.breaks s.ctrl).nextCharacter s.cursor) selecting

/-- sample/text_box.cpp:217-219. -/
def prevCharacter (e : BoxEnv φ) (s : TextBox φ) (selecting : Bool) : Option (TextBox φ) :=
  setCursor e s ((e.breaks s.ctrl).prevCharacter s.cursor) selecting

/-- sample/text_box.cpp:221-223. -/
def nextWord (e : BoxEnv φ) (s : TextBox φ) (selecting : Bool) : Option (TextBox φ) :=
  match (e.breaks s.ctrl).nextWord s.cursor with
  | none => none
  | some c => setCursor e s c selecting

/-- sample/text_box.cpp:225-227. -/
def prevWord (e : BoxEnv φ) (s : TextBox φ) (selecting : Bool) : Option (TextBox φ) :=
  match (e.breaks s.ctrl).prevWord s.cursor with
  | none => none
  | some c => setCursor e s c selecting

/-- `cursor_move_to_next_line`, sample/text_box.cpp:229-235; `get_line_count() - 1` wraps round without
lines. -/
def nextLine (e : BoxEnv φ) (s : TextBox φ) (selecting : Bool) : Option (TextBox φ) :=
  if s.layout.lines.length = 0 ∨ s.info.line < s.layout.lines.length - 1 then
    match (e.breaks s.ctrl).closestInLine s.layout e.width e.align (s.info.line + 1) s.info.x with
    | none => none
    | some c => setCursor e s c selecting
  else setCursor e s s.cursor selecting

/-- `cursor_move_to_prev_line`, sample/text_box.cpp:237-243. -/
def prevLine (e : BoxEnv φ) (s : TextBox φ) (selecting : Bool) : Option (TextBox φ) :=
  if s.info.line > 0 then
    match (e.breaks s.ctrl).closestInLine s.layout e.width e.align (s.info.line - 1) s.info.x with
    | none => none
    | some c => setCursor e s c selecting
  else setCursor e s s.cursor selecting

/-- `cursor_move_to_line_start`, sample/text_box.cpp:245-247. -/
def lineStart (e : BoxEnv φ) (s : TextBox φ) (selecting : Bool) : Option (TextBox φ) :=
  match s.layout.lineStart s.info.line with
  | none => none
  | some c => setCursor e s c selecting

/-- `cursor_move_to_line_end`, sample/text_box.cpp:249-251. -/
def lineEnd (e : BoxEnv φ) (s : TextBox φ) (selecting : Bool) : Option (TextBox φ) :=
  match s.layout.lineEnd s.info.line with
  | none => none
  | some c => setCursor e s c selecting

/-- sample/text_box.cpp:253-255. -/
def textStart (e : BoxEnv φ) (s : TextBox φ) (selecting : Bool) : Option (TextBox φ) :=
  setCursor e s (0, .default) selecting

/-- sample/text_box.cpp:257-259. -/
def textEnd (e : BoxEnv φ) (s : TextBox φ) (selecting : Bool) : Option (TextBox φ) :=
  setCursor e s (s.ctrl.length, .default) selecting

/-- `cursor_move_to_mouse`, sample/text_box.cpp:261-265; the point is relative to the box. -/
def toMouse (e : BoxEnv φ) (s : TextBox φ) (x y : Rat) (selecting : Bool) : Option (TextBox φ) :=
  match (e.breaks s.ctrl).closestToPosition s.layout e.width e.align x y with
  | none => none
  | some c => setCursor e s c selecting

/-! ### Editing -/

/-- `remove_text`, sample/text_box.cpp:398-402: `substr` throws when the end is
behind the text. -/
def removeText (e : BoxEnv φ) (s : TextBox φ) (a b : Nat) : Option (TextBox φ) :=
  if b ≤ s.text.length then setText e s (s.text.take a ++ s.text.drop b) else none

/-- `remove_highlighted_text`, sample/text_box.cpp:404-418. -/
def removeHighlighted (e : BoxEnv φ) (s : TextBox φ) : Option (TextBox φ) :=
  match s.sel with
  | none => some s
  | some start =>
    if start = s.cursor then some s
    else if start.1 > s.cursor.1 then removeText e { s with sel := none } s.cursor.1 start.1
    else removeText e { s with cursor := start, sel := none } start.1 s.cursor.1

/-- `insert_text`, sample/text_box.cpp:385-396. -/
def insertText (e : BoxEnv φ) (s : TextBox φ) (ins : Bytes) (start : Nat) : Option (TextBox φ) :=
  let s' := { s with cursor := (s.cursor.1 + ins.length, .default) }
  if start < s.text.length then setText e s' (s.text.take start ++ ins ++ s.text.drop start)
  else setText e s' (s.text ++ ins)

/-- `U8_APPEND_UNSAFE`, unicode/utf8.h. -/
def utf8Encode (c : Nat) : Bytes :=
  if c ≤ 0x7F then [UInt8.ofNat c]
  else if c ≤ 0x7FF then [UInt8.ofNat (c / 64 ||| 0xC0), UInt8.ofNat (c % 64 ||| 0x80)]
  else if c ≤ 0xFFFF then
    [UInt8.ofNat (c / 4096 ||| 0xE0), UInt8.ofNat (c / 64 % 64 ||| 0x80), UInt8.ofNat (c % 64 ||| 0x80)]
  else
    [UInt8.ofNat (c / 262144 ||| 0xF0), UInt8.ofNat (c / 4096 % 64 ||| 0x80), UInt8.ofNat (c / 64 % 64 ||| 0x80),
      UInt8.ofNat (c % 64 ||| 0x80)]

/-- `insert_typed_character`, sample/text_box.cpp:374-383. -/
def insertTyped (e : BoxEnv φ) (s : TextBox φ) (c : Nat) : Option (TextBox φ) :=
  match removeHighlighted e s with
  | none => none
  | some s => insertText e s (utf8Encode c) s.cursor.1

/-- `handle_key_backspace`, sample/text_box.cpp:285-301. -/
def backspace (e : BoxEnv φ) (s : TextBox φ) (ctrl : Bool) : Option (TextBox φ) :=
  if s.sel.isSome then removeHighlighted e s
  else if s.cursor.1 > 0 then
    match (if ctrl then prevWord e s false else prevCharacter e s false) with
    | none => none
    | some s' => removeText e s' s'.cursor.1 s.cursor.1
  else some s

/-- `handle_key_delete`, sample/text_box.cpp:303-321. -/
def delete (e : BoxEnv φ) (s : TextBox φ) (ctrl : Bool) : Option (TextBox φ) :=
  if s.sel.isSome then removeHighlighted e s
  else if s.cursor.1 < s.text.length then
    match (if ctrl then nextWord e s false else nextCharacter e s false) with
    | none => none
    | some s' => removeText e { s' with cursor := s.cursor } s.cursor.1 s'.cursor.1
  else some s

/-- `UIContainer::release_focused_object`, sample/ui_container.cpp:347-351, with
`handle_focus_lost`, sample/text_box.cpp:175-179. -/
def blur (e : BoxEnv φ) (s : TextBox φ) : Option (TextBox φ) :=
  if s.focused then recalc e { s with focused := false, sel := none, drag := false } else some s

/-- `UIContainer::focus_object`, sample/ui_container.cpp:335-345, with
`handle_focused`, sample/text_box.cpp:171-173. -/
def focus (e : BoxEnv φ) (s : TextBox φ) : Option (TextBox φ) :=
  if s.focused then some s else recalc e { s with focused := true }

/-- `handle_key_enter`, sample/text_box.cpp:323-331. -/
def enter (e : BoxEnv φ) (s : TextBox φ) : Option (TextBox φ) :=
  if s.multiLine then
    match removeHighlighted e s with
    | none => none
    | some s => insertTyped e s 10
  else blur e s

/-- `clipboard_copy_text`, sample/text_box.cpp:346-363: `substr` throws when the
start is behind the text; the clipboard gets the string up to its first NUL. -/
def copy (s : TextBox φ) : Option (TextBox φ) :=
  match s.sel with
  | none => some s
  | some start =>
    let a := min start.1 s.cursor.1
    let b := max start.1 s.cursor.1
    if start.1 = s.cursor.1 then some s
    else if a ≤ s.text.length then
      some { s with clip := some (((s.text.drop a).take (b - a)).takeWhile (· ≠ 0)) }
    else none

/-- `clipboard_cut_text`, sample/text_box.cpp:337-344. -/
def cut (e : BoxEnv φ) (s : TextBox φ) : Option (TextBox φ) :=
  if !s.editable then some s
  else
    match copy s with
    | none => none
    | some s => removeHighlighted e s

/-- `clipboard_paste_text`, sample/text_box.cpp:365-372: a string made of the
null pointer is undefined. -/
def paste (e : BoxEnv φ) (s : TextBox φ) : Option (TextBox φ) :=
  if !s.editable then some s
  else
    match removeHighlighted e s with
    | none => none
    | some s =>
      match s.clip with
      | none => none
      | some t => insertText e s t s.cursor.1

/-- Two movements, the second one selecting (sample/text_box.cpp:27-38, 137-138). -/
def selectBetween (first second : TextBox φ → Bool → Option (TextBox φ)) (s : TextBox φ) : Option (TextBox φ) :=
  match first s false with
  | none => none
  | some s => second s true

/-- What several clicks select, sample/text_box.cpp:24-42. -/
def clickSelect (e : BoxEnv φ) (s : TextBox φ) (clicks : Nat) : Option (TextBox φ) :=
  match clicks % 4 with
  | 1 => selectBetween (prevWord e) (nextWord e) s
  | 2 => selectBetween (lineStart e) (lineEnd e) s
  | 3 => selectBetween (textStart e) (textEnd e) s
  | _ => some s

/-- The mouse button pressed inside the box, sample/text_box.cpp:19-54 and
`UIContainer::focus_object` behind it; `clicks` is what `text_box_click`
returns. -/
def press (e : BoxEnv φ) (s : TextBox φ) (x y : Rat) (shift : Bool) (clicks : Nat) : Option (TextBox φ) :=
  if s.focused then
    match toMouse e s x y shift with
    | none => none
    | some s =>
      match clickSelect e s clicks with
      | none => none
      | some s => some { s with drag := true }
  else
    match recalc e s with
    | none => none
    | some s =>
      match toMouse e s x y shift with
      | none => none
      | some s => focus e { s with drag := true }

/-- What the user does with a text box. -/
inductive Input where
  | up (shift : Bool)
  | down (shift : Bool)
  | left (shift ctrl : Bool)
  | right (shift ctrl : Bool)
  | home (shift ctrl : Bool)
  | «end» (shift ctrl : Bool)
  | backspace (ctrl : Bool)
  | delete (ctrl : Bool)
  | enter
  | tab
  | cut
  | copy
  | paste
  | selectAll
  | char (c : Nat)
  | press (x y : Rat) (shift : Bool) (clicks : Nat)
  | move (x y : Rat)
  | release
  | focus
  | blur

/-- `handle_key_press`, sample/text_box.cpp:64-152, for a focused box. -/
def key (e : BoxEnv φ) (s : TextBox φ) : Input → Option (TextBox φ)
  | .up shift => prevLine e s shift
  | .down shift => nextLine e s shift
  | .left shift ctrl => if ctrl then prevWord e s shift else prevCharacter e s shift
  | .right shift ctrl => if ctrl then nextWord e s shift else nextCharacter e s shift
  | .home shift ctrl => if ctrl then textStart e s shift else lineStart e s shift
  | .end shift ctrl => if ctrl then textEnd e s shift else lineEnd e s shift
  | .backspace ctrl => TextBox.backspace e s ctrl
  | .delete ctrl => TextBox.delete e s ctrl
  | .enter => TextBox.enter e s
  | .tab => insertTyped e s 9
  | .cut => TextBox.cut e s
  | .copy => TextBox.copy s
  | .paste => TextBox.paste e s
  | .selectAll => selectBetween (textStart e) (textEnd e) s
  | _ => some s

/-- The handlers of the text box: `handle_mouse_button`, `handle_key_press`,
`handle_mouse_move`, `handle_text_input`, `handle_focused`, `handle_focus_lost`,
sample/text_box.cpp:13-179. -/
def handle (e : BoxEnv φ) (s : TextBox φ) : Input → Option (TextBox φ)
  | .press x y shift clicks => TextBox.press e s x y shift clicks
  | .release => some (if s.focused then { s with drag := false } else s)
  | .move x y => if s.focused && s.drag then toMouse e s x y true else some s
  | .char c => if s.focused && s.editable then insertTyped e s c else some s
  | .focus => TextBox.focus e s
  | .blur => TextBox.blur e s
  | i => if s.focused then key e s i else some s

/-- A sequence of inputs. -/
def run (e : BoxEnv φ) (s : TextBox φ) : List Input → Option (TextBox φ)
  | [] => some s
  | i :: is =>
    match handle e s i with
    | none => none
    | some s => run e s is

/-! ### The caret -/

/-- The loop of `update`, sample/text_box.cpp:186-189, which runs at most ten times. -/
def blink : Nat → TextBox φ → TextBox φ
  | 0, s => s
  | n + 1, s => if s.flash < 10 ∧ s.timer ≥ 1 / 2 then blink n { s with timer := s.timer - 1 / 2, flash := s.flash + 1 } else s

/-- `update`, sample/text_box.cpp:181-190 (the box has no children). -/
def update (s : TextBox φ) (dt : Rat) : TextBox φ := blink 10 { s with timer := s.timer + dt }

/-- The caret is drawn, sample/text_box.cpp:197. -/
def caretShown (s : TextBox φ) : Bool := s.focused && (s.flash &&& 1) = 0

end TextBox
end RichText
