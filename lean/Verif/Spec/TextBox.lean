import Verif.Model.TextBox
import Verif.Spec.CursorController
import Verif.Props.HitTest
/-!
What the editing of a text is, and the contract of what the text box calls.
-/
namespace RichText
variable {φ : Type _}

/-- A layout of a text of `n` bytes, as the builder makes it. -/
def LaidOut (L : Layout φ) (n : Nat) : Prop :=
  ∃ ls y, Stores L ls [] y ∧ ls ≠ [] ∧ (∀ l ∈ ls, l.runs ≠ []) ∧ L.pos.length < 4294967296 ∧
    ∀ l ∈ ls, ProperLine l ∧ ∀ r ∈ l.runs, r.charEnd ≤ n

/-- The contract of the libraries and the layout builder. -/
structure BoxEnv.Good (e : BoxEnv φ) : Prop where
  limit : 0 < e.limit ∧ e.limit ≤ 2147483647
  size : ∀ t, (e.breaks t).size = t.length
  breaks : ∀ t, ∃ B, Breaks (e.breaks t) B
  spaces : ∀ t c, isLineBreak c = true → (e.breaks t).space c = true
  layout : ∀ t, t ≠ [] → t.length < e.limit → LaidOut (e.layout false t) t.length
  content : ∀ t, (e.content t).length ≤ t.length
  rich : ∀ t, e.content t ≠ [] → t.length < e.limit → LaidOut (e.layout true t) (e.content t).length

namespace TextBox

/-- The text the user sees: the content of a rich text, unless it is being edited. -/
def shown (e : BoxEnv φ) (s : TextBox φ) : Bytes :=
  if s.rich = true ∧ ¬ (s.focused = true ∧ s.editable = true) then e.content s.text else s.text

/-- The box shows its text, with cursor and selection inside it. -/
structure Sound (e : BoxEnv φ) (s : TextBox φ) : Prop where
  mode : s.rich = true → s.editable = true → s.focused = true
  ctrl : s.ctrl = s.shown e
  small : s.text.length < e.limit
  cursor : s.cursor.1 ≤ (s.shown e).length
  sel : ∀ c, s.sel = some c → c.1 ≤ (s.shown e).length
  laid : s.shown e ≠ [] → s.layout = e.layout s.showsRich s.text ∧ s.info.line < s.layout.lines.length

/-- An editable rich text that is not being edited: it shows the content, while cursor
and selection are inside the source. -/
structure Resting (e : BoxEnv φ) (s : TextBox φ) : Prop where
  mode : s.rich = true ∧ s.editable = true ∧ s.focused = false
  small : s.text.length < e.limit
  cursor : s.cursor.1 ≤ s.text.length
  sel : ∀ c, s.sel = some c → c.1 ≤ s.text.length

/-- Inputs that ask the layout. -/
def Input.moves : Input → Bool
  | .up _ | .down _ | .left _ _ | .right _ _ | .home _ _ | .end _ _ | .selectAll | .press _ _ _ _ | .move _ _ => true
  | _ => false

/-- Inputs that edit the text without looking at `editable`. -/
def Input.edits : Input → Bool
  | .backspace _ | .delete _ | .enter | .tab => true
  | _ => false

/-- An upper bound on what an input adds to the text. -/
def growth (s : TextBox φ) : Input → Nat
  | .char _ => 4
  | .enter => 1
  | .tab => 1
  | .paste => (s.clip.getD []).length
  | _ => 0

/-- `s'` is `s` with the selected bytes, or none at the cursor, replaced by `ins`,
nothing selected and the cursor behind the inserted bytes. -/
def Replaced (s s' : TextBox φ) (ins : Bytes) : Prop :=
  ∃ a b, (s.sel = none → a = s.cursor.1 ∧ b = s.cursor.1) ∧
    (∀ c, s.sel = some c → a = min c.1 s.cursor.1 ∧ b = max c.1 s.cursor.1) ∧
    s'.text = s.text.take a ++ ins ++ s.text.drop b ∧ s'.cursor.1 = a + ins.length ∧ s'.sel = none

end TextBox
end RichText
