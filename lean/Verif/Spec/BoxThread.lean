import Verif.Model.BoxThread
import Verif.Spec.App
import Verif.Spec.BuildText
/-!
What the libraries must be like for a text box in a thread.
-/
namespace RichText

namespace TextBox

/-- Inputs after which markup may be shown. -/
def Input.shows : Input → Bool
  | .press _ _ _ _ | .focus | .blur | .enter => true
  | _ => false

end TextBox

namespace ThreadApp
variable {F : Type}

/-- The text box without a thread, for given advances of the blanks of the faces (which a thread fixes when it loads a face). -/
noncomputable def pure (a : ThreadApp F) (starts : Bytes → Nat → Nat → Nat → Prop) (k : Nat) (space : BitVec 16 → Int) :
    App F ShapeArgs SingleScriptFont :=
  a.app (a.libs.libs starts k space).paragraphs
    (((a.libs.libs starts k space).metrics a.font).ascent - ((a.libs.libs starts k space).metrics a.font).descent)

/-- The markup shows a text whose fonts serve (or none). -/
def Served (a : ThreadApp F) (starts : Bytes → Nat → Nat → Nat → Prop) (k : Nat) (text : Bytes) : Prop :=
  let r := (a.app (fun _ _ => []) 0).shownAs true text
  r.1 ≠ [] → a.libs.Serves starts k r.1 r.2

/-- Libraries as the builder needs them (C122), ICU's breaks, sizes, and a font that serves every text. -/
structure Contract (a : ThreadApp F) (starts : Bytes → Nat → Nat → Nat → Prop) (k : Nat) : Prop where
  libs : a.libs.Proper starts a.limit k
  shapes : a.libs.Shapes starts a.limit k
  size : ∀ t, (a.breaks t).size = t.length
  breaks : ∀ t, ∃ B, Breaks (a.breaks t) B
  spaces : ∀ t c, isLineBreak c = true → (a.breaks t).space c = true
  limit : 0 < a.limit ∧ a.limit ≤ 2147483647 ∧ 2 * (k + 1) * a.limit ≤ 4294967296
  font : Spec.ProperFont a.font
  serves : a.libs.FontServes a.font

/-- What is asked of an input, see C52; and if markup may be shown after it, that must be served. -/
def Admitted (a : ThreadApp F) (starts : Bytes → Nat → Nat → Nat → Prop) (k : Nat) (s : TextBox SingleScriptFont) (i : TextBox.Input) : Prop :=
  TextBox.Allowed a.moving s i ∧ (i.shows = true → s.rich = true → a.Served starts k s.text)

end ThreadApp
end RichText
