import Verif.Spec.TextBox
import Verif.Spec.Utf8
/-!
What it means that a text box keeps characters whole.
-/
namespace RichText
variable {φ : Type _}

/-- The text is valid UTF-8 before and behind the position: it is not inside a
character. -/
structure CharBoundary (t : Bytes) (k : Nat) : Prop where
  inside : k ≤ t.length
  before : ValidUtf8 (t.take k)
  behind : ValidUtf8 (t.drop k)

/-- A layout whose runs and clusters start and end at certain positions. -/
def LaidOutOn (L : Layout φ) (P : Nat → Prop) : Prop :=
  ∃ ls y, Stores L ls [] y ∧ (∀ l ∈ ls, l.runs ≠ []) ∧ L.pos.length < 4294967296 ∧
    ∀ l ∈ ls, ProperLine l ∧ ∀ r ∈ l.runs, P r.charStart ∧ P r.charEnd ∧ ∀ g ∈ r.glyphs, P g.char

/-- The contract of the libraries and the layout builder on characters: graphemes
consist of characters, and so do runs and clusters of glyphs. -/
structure BoxEnv.Whole (e : BoxEnv φ) : Prop where
  limit : e.limit ≤ 2147483647
  breaks : ∀ t, ValidUtf8 t → ∃ B, Breaks (e.breaks t) B ∧ ∀ k, B k → CharBoundary t k
  layout : ∀ t, ValidUtf8 t → t ≠ [] → t.length < e.limit → LaidOutOn (e.layout false t) (CharBoundary t)

namespace TextBox

/-- A box of plain text: text and clipboard are valid UTF-8, cursor and selection
are not inside a character. -/
structure Whole (s : TextBox φ) : Prop where
  plain : s.rich = false
  text : ValidUtf8 s.text
  cursor : CharBoundary s.text s.cursor.1
  sel : ∀ c, s.sel = some c → CharBoundary s.text c.1
  clip : ∀ t, s.clip = some t → ValidUtf8 t

/-- What is typed is a character: a Unicode scalar value. -/
def Input.typesChar : Input → Prop
  | .char c => c.isValidChar
  | _ => True

end TextBox
end RichText
