import Verif.Model.App
import Verif.Spec.Built
import Verif.Spec.Size
import Verif.Spec.TextBox
import Verif.Spec.Markup
/-!
The contracts of the libraries for the text box with its parser and layout builder.
-/
namespace RichText
variable {F β φ : Type _}

/-- Only third-party code and sizes: the font is a font; ICU's breaks; for every text
with formatting for exactly that text the paragraphs SheenBidi, ICU and HarfBuzz lead
through, with at most `k` glyphs per byte; and texts so short that positions are counted
in 32 bits. -/
structure App.Contract (a : App F β φ) (k : Nat) : Prop where
  font : Spec.ProperFont a.font
  size : ∀ t, (a.breaks t).size = t.length
  breaks : ∀ t, ∃ B, Breaks (a.breaks t) B
  spaces : ∀ t c, isLineBreak c = true → (a.breaks t).space c = true
  paragraphs : ∀ t runs, t ≠ [] → t.length < a.limit →
    AllRunsFit runs t.length →
    Paragraphs t.length 0 (a.paragraphs t runs) ∧ Placed (a.paragraphs t runs) ∧ Thin k (a.paragraphs t runs)
  limit : 0 < a.limit ∧ a.limit ≤ 2147483647 ∧ 2 * (k + 1) * a.limit ≤ 4294967296

end RichText
