import Verif.Model.App
import Verif.Model.BuildText
/-!
The text box of the sample (Verif/Model/TextBox.lean) as a thread runs it: `recalc_text` (sample/text_box.cpp:420-457) changes the
fonts the thread has loaded, so everything that calls it passes on the state of the thread.  The functions are those of
Verif/Model/TextBox.lean with `recalc_text` as a parameter `rec`; `handleT_pure` (Verif/Proof/BoxThread.lean) says that nothing else
is different.
-/
namespace RichText

/-- A call that may change the state of the thread; `none` is undefined behaviour or an exception that is not caught. -/
abbrev Call (σ α : Type _) := σ → Option (σ × α)

namespace Call
variable {σ α β : Type _}

/-- A call that does not touch the thread. -/
def lift (x : Option α) : Call σ α := fun t => x.map fun a => (t, a)

/-- One call after the other. -/
def bind (m : Call σ α) (f : α → Call σ β) : Call σ β := fun t =>
  match m t with
  | none => none
  | some (t, a) => f a t

end Call

namespace TextBox
variable {φ σ : Type _}

/-- `recalc_text`. -/
abbrev Recalc (φ σ : Type _) := TextBox φ → Call σ (TextBox φ)

/-- `set_text`, sample/text_box.cpp:466-469. -/
def setTextT (rec : Recalc φ σ) (s : TextBox φ) (text : Bytes) : Call σ (TextBox φ) := rec { s with text := text }

/-- `remove_text`, sample/text_box.cpp:398-402. -/
def removeTextT (rec : Recalc φ σ) (s : TextBox φ) (a b : Nat) : Call σ (TextBox φ) :=
  if b ≤ s.text.length then setTextT rec s (s.text.take a ++ s.text.drop b) else .lift none

/-- `remove_highlighted_text`, sample/text_box.cpp:404-418. -/
def removeHighlightedT (rec : Recalc φ σ) (s : TextBox φ) : Call σ (TextBox φ) :=
  match s.sel with
  | none => .lift (some s)
  | some start =>
    if start = s.cursor then .lift (some s)
    else if start.1 > s.cursor.1 then removeTextT rec { s with sel := none } s.cursor.1 start.1
    else removeTextT rec { s with cursor := start, sel := none } start.1 s.cursor.1

/-- `insert_text`, sample/text_box.cpp:385-396. -/
def insertTextT (rec : Recalc φ σ) (s : TextBox φ) (ins : Bytes) (start : Nat) : Call σ (TextBox φ) :=
  let s' := { s with cursor := (s.cursor.1 + ins.length, .default) }
  if start < s.text.length then setTextT rec s' (s.text.take start ++ ins ++ s.text.drop start)
  else setTextT rec s' (s.text ++ ins)

/-- `insert_typed_character`, sample/text_box.cpp:374-383. -/
def insertTypedT (rec : Recalc φ σ) (s : TextBox φ) (c : Nat) : Call σ (TextBox φ) :=
  (removeHighlightedT rec s).bind fun s => insertTextT rec s (utf8Encode c) s.cursor.1

/-- `handle_key_backspace`, sample/text_box.cpp:285-301. -/
def backspaceT (e : BoxEnv φ) (rec : Recalc φ σ) (s : TextBox φ) (ctrl : Bool) : Call σ (TextBox φ) :=
  if s.sel.isSome then removeHighlightedT rec s
  else if s.cursor.1 > 0 then
    (Call.lift (if ctrl then prevWord e s false else prevCharacter e s false)).bind fun s' =>
      removeTextT rec s' s'.cursor.1 s.cursor.1
  else .lift (some s)

/-- `handle_key_delete`, sample/text_box.cpp:303-321. -/
def deleteT (e : BoxEnv φ) (rec : Recalc φ σ) (s : TextBox φ) (ctrl : Bool) : Call σ (TextBox φ) :=
  if s.sel.isSome then removeHighlightedT rec s
  else if s.cursor.1 < s.text.length then
    (Call.lift (if ctrl then nextWord e s false else nextCharacter e s false)).bind fun s' =>
      removeTextT rec { s' with cursor := s.cursor } s.cursor.1 s'.cursor.1
  else .lift (some s)

/-- `release_focused_object`, sample/ui_container.cpp:347-351, `handle_focus_lost`, sample/text_box.cpp:175-179. -/
def blurT (rec : Recalc φ σ) (s : TextBox φ) : Call σ (TextBox φ) :=
  if s.focused then rec { s with focused := false, sel := none, drag := false } else .lift (some s)

/-- `focus_object`, sample/ui_container.cpp:335-345, `handle_focused`, sample/text_box.cpp:171-173. -/
def focusT (rec : Recalc φ σ) (s : TextBox φ) : Call σ (TextBox φ) :=
  if s.focused then .lift (some s) else rec { s with focused := true }

/-- `handle_key_enter`, sample/text_box.cpp:323-331. -/
def enterT (rec : Recalc φ σ) (s : TextBox φ) : Call σ (TextBox φ) :=
  if s.multiLine then (removeHighlightedT rec s).bind fun s => insertTypedT rec s 10 else blurT rec s

/-- `clipboard_cut_text`, sample/text_box.cpp:337-344. -/
def cutT (rec : Recalc φ σ) (s : TextBox φ) : Call σ (TextBox φ) :=
  if !s.editable then .lift (some s) else (Call.lift (copy s)).bind fun s => removeHighlightedT rec s

/-- `clipboard_paste_text`, sample/text_box.cpp:365-372. -/
def pasteT (rec : Recalc φ σ) (s : TextBox φ) : Call σ (TextBox φ) :=
  if !s.editable then .lift (some s)
  else (removeHighlightedT rec s).bind fun s => (Call.lift s.clip).bind fun t => insertTextT rec s t s.cursor.1

/-- The mouse button pressed inside the box, sample/text_box.cpp:19-54. -/
def pressT (e : BoxEnv φ) (rec : Recalc φ σ) (s : TextBox φ) (x y : Rat) (shift : Bool) (clicks : Nat) : Call σ (TextBox φ) :=
  if s.focused then
    .lift ((toMouse e s x y shift).bind fun s => (clickSelect e s clicks).map fun s => { s with drag := true })
  else
    (rec s).bind fun s => (Call.lift (toMouse e s x y shift)).bind fun s => focusT rec { s with drag := true }

/-- `handle_key_press`, sample/text_box.cpp:64-152, for a focused box. -/
def keyT (e : BoxEnv φ) (rec : Recalc φ σ) (s : TextBox φ) : Input → Call σ (TextBox φ)
  | .backspace ctrl => backspaceT e rec s ctrl
  | .delete ctrl => deleteT e rec s ctrl
  | .enter => enterT rec s
  | .tab => insertTypedT rec s 9
  | .cut => cutT rec s
  | .paste => pasteT rec s
  | i => .lift (key e s i)

/-- The handlers of the text box, sample/text_box.cpp:13-179. -/
def handleT (e : BoxEnv φ) (rec : Recalc φ σ) (s : TextBox φ) : Input → Call σ (TextBox φ)
  | .press x y shift clicks => pressT e rec s x y shift clicks
  | .release => .lift (some (if s.focused then { s with drag := false } else s))
  | .move x y => if s.focused && s.drag then .lift (toMouse e s x y true) else .lift (some s)
  | .char c => if s.focused && s.editable then insertTypedT rec s c else .lift (some s)
  | .focus => focusT rec s
  | .blur => blurT rec s
  | i => if s.focused then keyT e rec s i else .lift (some s)

/-- A sequence of inputs. -/
def runT (e : BoxEnv φ) (rec : Recalc φ σ) (s : TextBox φ) : List Input → Call σ (TextBox φ)
  | [] => .lift (some s)
  | i :: is => (handleT e rec s i).bind fun s => runT e rec s is

end TextBox

/-- What `recalc_text` depends on (see `App`), with the registry and the libraries of the layout builder. -/
structure ThreadApp (F : Type _) where
  libs : BuildLibs
  parser : Env F
  font : Font
  color : Color F
  stroke : StrokeState F
  breaks : Bytes → BreakEnv
  width : Rat
  height : Rat
  align : XAlignment
  yAlign : YAlignment
  limit : Nat

namespace ThreadApp
variable {F : Type _}

/-- The text box over given paragraphs and a given height of empty text. -/
def app (a : ThreadApp F) (paragraphs : Bytes → FormattingRuns F → List (Paragraph ShapeArgs SingleScriptFont)) (emptyHeight : Rat) :
    App F ShapeArgs SingleScriptFont :=
  ⟨a.parser, a.font, a.color, a.stroke, a.breaks, paragraphs, a.width, a.height, a.align, a.yAlign, emptyHeight, a.limit⟩

/-- What moving the cursor depends on (it never lays text out). -/
def moving (a : ThreadApp F) : BoxEnv SingleScriptFont := (a.app (fun _ _ => []) 0).box

/-- `FontRegistry::get_font_data(m_font)` and `get_ascent() - get_descent()`, sample/text_box.cpp:437-438,
src/font_registry.cpp:236-242. -/
def emptyHeight (a : ThreadApp F) (t : FontThread) : Option (FontThread × Rat) :=
  match a.libs.reg.faceOf a.font.face.getFamily a.font.face.getWeight.toNat a.font.face.getStyle with
  | none => none
  | some face => (a.libs.readMetrics (plainRequest a.font face) t).map fun x => (x.1, x.2.ascent - x.2.descent)

/-- `recalc_text`, sample/text_box.cpp:420-457, in a thread.  (As in `App.box`: where a buffer of the parser is overrun, C12, the
text is shown as it is.) -/
def recalc (a : ThreadApp F) : TextBox.Recalc SingleScriptFont FontThread := fun s t =>
  let r := (a.app (fun _ _ => []) 0).shownAs s.showsRich s.text
  if r.1 = [] then (a.emptyHeight t).map fun x => (x.1, { s with ctrl := r.1, info := ⟨0, 0, x.2, 0⟩ })
  else
    match a.libs.buildTextT s.layout r.1 r.2 a.yAlign a.height t with
    | none => none
    | some (t, L) => (L.cursorPixelPos a.width a.align s.cursor.1 s.cursor.2).map fun info =>
        (t, { s with ctrl := r.1, layout := L, info := info })

/-- A sequence of inputs to a text box. -/
def run (a : ThreadApp F) (s : TextBox SingleScriptFont) (is : List TextBox.Input) (t : FontThread) :
    Option (FontThread × TextBox SingleScriptFont) :=
  TextBox.runT a.moving a.recalc s is t

end ThreadApp

end RichText
