import Verif.Model.LayoutInfo
/-!
Model of `src/cursor_controller.cpp`.

* A cursor is a position and an affinity (`CursorPosition` holds both in one
  word, see C01-C03; positions are below 2^31 - 1).
* ICU's character break iterator and character properties are the fields of
  `BreakEnv`; `none` of `follow` and `precede` is `DONE`.
* `none` of the functions is an access outside the text, or a loop that does not
  end.  `U8_GET` at the end of the text reads the byte behind it: the text must
  have one (every `std::string` has).
-/
namespace RichText

/-- A cursor: position and affinity. -/
abbrev Cursor := Nat × Affinity

/-- The break iterator set to a text and the text itself: its size, the iterator's
`following` and `preceding`, `U8_GET` at an index (`none`: outside), and
`u_isWhitespace`. -/
structure BreakEnv where
  size : Nat
  follow : Nat → Option Nat
  precede : Nat → Option Nat
  char : Nat → Option Int
  space : Int → Bool

/-- `is_line_break`, src/cursor_controller.cpp:136-138, with the constants of
src/cursor_controller.cpp:10-13. -/
def isLineBreak (c : Int) : Bool := c == 0x000A || c == 0x000D || c == 0x2028 || c == 0x2029

namespace BreakEnv

/-- `next_character`, src/cursor_controller.cpp:45-51. -/
def nextCharacter (b : BreakEnv) (cursor : Cursor) : Cursor :=
  match b.follow cursor.1 with
  | some i => (i, .default)
  | none => cursor

/-- `prev_character`, src/cursor_controller.cpp:53-59. -/
def prevCharacter (b : BreakEnv) (cursor : Cursor) : Cursor :=
  match b.precede cursor.1 with
  | some i => (i, .default)
  | none => cursor

/-- The loop of `next_word`, src/cursor_controller.cpp:66-84. -/
def nextWordLoop (b : BreakEnv) : Nat → Cursor → Bool → Option Cursor
  | 0, _, _ => none
  | fuel + 1, cursor, lastSpace =>
    match b.follow cursor.1 with
    | none => some cursor
    | some next =>
      match b.char next with
      | none => none
      | some c =>
        let space := b.space c
        if (!space && lastSpace) || isLineBreak c then some (next, .default)
        else nextWordLoop b fuel (next, .default) space

/-- `next_word`, src/cursor_controller.cpp:61-86.  The fuel is enough for an
iterator that moves forward (C51). -/
def nextWord (b : BreakEnv) (cursor : Cursor) : Option Cursor :=
  match b.char cursor.1 with
  | none => none
  | some c => b.nextWordLoop (b.size + 1) cursor (b.space c)

/-- The loop of `prev_word`, src/cursor_controller.cpp:92-113. -/
def prevWordLoop (b : BreakEnv) : Nat → Cursor → Bool → Option Cursor
  | 0, _, _ => none
  | fuel + 1, cursor, lastSpace =>
    match b.precede cursor.1 with
    | none => some cursor
    | some prev =>
      match b.char prev with
      | none => none
      | some c =>
        let space := b.space c
        if space && !lastSpace then some cursor
        else if isLineBreak c then some (prev, .default)
        else prevWordLoop b fuel (prev, .default) space

/-- `prev_word`, src/cursor_controller.cpp:88-116. -/
def prevWord (b : BreakEnv) (cursor : Cursor) : Option Cursor := b.prevWordLoop (cursor.1 + 1) cursor true

/-- `closest_in_line`, src/cursor_controller.cpp:118-121. -/
def closestInLine {φ : Type _} (b : BreakEnv) (L : Layout φ) (width : Rat) (align : XAlignment) (line : Nat) (x : Rat) :
    Option Cursor :=
  L.findClosest width align b.follow line x

/-- `closest_to_position`, src/cursor_controller.cpp:123-132.  (Without lines the
index wraps round, but is not used.) -/
def closestToPosition {φ : Type _} (b : BreakEnv) (L : Layout φ) (width : Rat) (align : XAlignment) (x y : Rat) : Option Cursor :=
  match L.closestToPositionLine y with
  | none => none
  | some line => L.findClosest width align b.follow line x

end BreakEnv
end RichText
