import Verif.Spec.RefBuilder
import Verif.Spec.Layout
import Verif.Model.Draw
import Verif.Spec.Markup
/-!
Notions for stating what is drawn for a marked-up text.
-/
namespace RichText
open Spec
variable {β φ δ : Type _}

/-- The parts of a paragraph that are shaped at once (none if it has no text). -/
def Paragraph.Parts (p : Paragraph β φ) (qs : List (Sub β φ)) : Prop :=
  if 0 < p.length - p.separator then Subs p.env.toShapeEnv p.calls p.env.line.start qs else qs = []

/-- What HarfBuzz returns for the parts `qs`: for each glyph the font it was shaped with, as seen by `key`,
its number, that of the blank for tabs, and its character in the text. -/
def ShapeEnv.output (e : ShapeEnv β φ) (key : φ → δ) (qs : List (Sub β φ)) : List (δ × Nat × Nat) :=
  qs.flatMap fun q => (e.shape q.font q.args q.first q.stop).map fun g =>
    (key q.font, if e.isTab (q.first + g.cluster) = true then e.spaceGlyph q.font else g.glyph, q.first + g.cluster)

/-- For all paragraphs of a text. -/
def textOutput (key : φ → δ) : List (Paragraph β φ) → List (List (Sub β φ)) → List (δ × Nat × Nat)
  | p :: ps, qs :: qss => p.env.output key qs ++ textOutput key ps qss
  | _, _ => []

/-- Font, as seen by `key`, number and character of each glyph of the runs. -/
def runsGlyphs (key : φ → δ) (rs : List (RunSpec φ)) : List (δ × Nat × Nat) :=
  rs.flatMap fun r => r.glyphs.map fun g => (key r.font, g.id, g.char)

/-- What a call draws: font, as seen by `key`, and number of the glyph, filled with a colour or stroked. -/
def DrawCall.label {κ σ : Type} (key : φ → δ) : DrawCall φ κ σ → Option (δ × Nat × (κ ⊕ σ))
  | .glyph f i _ _ c => some (key f, i, .inl c)
  | .stroke f i _ _ s => some (key f, i, .inr s)
  | _ => none

/-- What is to be drawn for a glyph of a character with this style: its outline, if it can be seen, and the glyph. -/
def drawnFor {F : Type} (st : Style F) (visible : StrokeState F → Bool) (f : δ) (i : Nat) : List (δ × Nat × (Color F ⊕ StrokeState F)) :=
  (if visible st.stroke then [(f, i, .inr st.stroke)] else []) ++ [(f, i, .inl st.color)]

end RichText
