import Verif.Spec.Utf8
import Verif.Spec.Layout
import Mathlib.Data.List.Forall2
/-!
UTF-16 (The Unicode Standard, D91), and positions of the same character in the UTF-16 and UTF-8 forms of a text.
-/
namespace RichText

/-- The UTF-16 form of a character. -/
def encodeChar16 (c : Char) : List Nat :=
  if c.val.toNat < 0x10000 then [c.val.toNat]
  else [0xD800 + (c.val.toNat - 0x10000) / 0x400, 0xDC00 + (c.val.toNat - 0x10000) % 0x400]

/-- The UTF-16 form of characters. -/
def encode16 (cs : List Char) : List Nat := cs.flatMap encodeChar16

/-- `p` in the UTF-16 form and `q` in the UTF-8 form are in front of the same character, or both at the end. -/
def SamePlace (text : List Char) (p q : Nat) : Prop :=
  ∃ a b, text = a ++ b ∧ p = (encode16 a).length ∧ q = (encode a).length

variable {φ : Type _}

/-- The same glyph: only the index of its character is another one. -/
structure SameGlyph (text : List Char) (g g' : GlyphSpec) : Prop where
  id : g'.id = g.id
  x : g'.x = g.x
  y : g'.y = g.y
  char : SamePlace text g.char g'.char

/-- The same run: only indices of characters are others.  The length of a separator is a `uint8_t`. -/
structure SameRun (text : List Char) (r r' : RunSpec φ) : Prop where
  font : r'.font = r.font
  glyphs : List.Forall₂ (SameGlyph text) r.glyphs r'.glyphs
  endX : r'.endX = r.endX
  endY : r'.endY = r.endY
  charStart : SamePlace text r.charStart r'.charStart
  charEnd : SamePlace text r.charEnd r'.charEnd
  separator : SamePlace text (r.charEnd + r.charEndOffset) (r'.charEnd + r'.charEndOffset)
  byte : r'.charEndOffset < 256
  rtl : r'.rtl = r.rtl

/-- The same line. -/
structure SameLine (text : List Char) (l l' : LineSpec φ) : Prop where
  runs : List.Forall₂ (SameRun text) l.runs l'.runs
  height : l'.height = l.height
  ascent : l'.ascent = l.ascent

end RichText
