import Verif.Model.RefBuilder
import Verif.Spec.Paragraph
/-!
Notions for comparing the layout builder with the earlier builder of the tests.
-/
namespace RichText
variable {β φ : Type _}

/-- A part of a paragraph that is shaped at once: font, other arguments of shaping, range of
characters in the text. -/
structure Sub (β φ : Type _) where
  font : φ
  args : β
  first : Nat
  stop : Nat

/-- Without the arguments. -/
def Sub.piece (q : Sub β φ) : FontPiece φ := ⟨q.font, q.first, q.stop⟩

/-- As a logical run of the earlier builder, in a paragraph that starts at `s`. -/
def Sub.ref (s : Nat) (q : Sub β φ) : RefPiece β φ := ⟨q.font, q.args, q.stop - s⟩

/-- `qs` is what the layout builder shapes from `off` on: for each call, as long as its limit is
not reached, what the font registry answers. -/
inductive Subs (e : ShapeEnv β φ) : List (Nat × β) → Nat → List (Sub β φ) → Prop
  | nil (off : Nat) : Subs e [] off []
  | next {limit : Nat} {v : β} {calls : List (Nat × β)} {off : Nat} {qs : List (Sub β φ)} :
      limit ≤ off → Subs e calls off qs → Subs e ((limit, v) :: calls) off qs
  | sub {limit : Nat} {v : β} {calls : List (Nat × β)} {off : Nat} {qs : List (Sub β φ)} :
      off < limit → Subs e ((limit, v) :: calls) (e.subFont v off limit).2 qs →
      Subs e ((limit, v) :: calls) off (⟨(e.subFont v off limit).1, v, off, (e.subFont v off limit).2⟩ :: qs)

/-- What the two builders agree for: horizontal text without tabs; fonts are compared exactly;
HarfBuzz does not move up or down between glyphs and returns glyphs for right-to-left text; the
parts shaped have the direction of the bidi runs they lie in (no line ends with white space
of the opposite direction), and neighbours in a bidi run have different fonts. -/
structure Comparable (e : ParaEnv β φ) (qs : List (Sub β φ)) : Prop where
  horizontal : e.vertical = false
  noTabs : ∀ c, e.isTab c = false
  noTabs' : ∀ c, e.line.isTab c = false
  same : ∀ f g, e.same f g = true ↔ f = g
  flat : ∀ f v a b, ∀ g ∈ e.shape f v a b, g.yAdvance = 0
  glyphs : ∀ f v a b, a < b → e.reversed v = true → e.shape f v a b ≠ []
  direction : ∀ s t, e.line.start ≤ s → s < t → t ≤ e.line.start + e.line.length →
    ∀ r ∈ e.bidi s t, ∀ q ∈ qs, q.first < r.offset + r.length → r.offset < q.stop → e.reversed q.args = r.rtl
  fonts : ∀ s t, e.line.start ≤ s → s < t → t ≤ e.line.start + e.line.length →
    ∀ r ∈ e.bidi s t, ∀ q ∈ qs, ∀ q' ∈ qs, q.stop = q'.first → r.offset < q.stop →
      q.stop < r.offset + r.length → q.font ≠ q'.font

/-- The call without the height of the end of a run. -/
def LayoutOp.flatEnd : LayoutOp φ → LayoutOp φ
  | .run font glyphs ex _ s e rtl => .run font glyphs ex 0 s e rtl
  | op => op

/-- No glyph is moved up or down. -/
def ShapeEnv.Level (e : ShapeEnv β φ) : Prop := ∀ f v a b, ∀ g ∈ e.shape f v a b, g.yOffset = 0

/-- The same paragraph for both builders: same boundaries, same libraries, same parts shaped. -/
structure SamePara (p : Paragraph β φ) (p' : RefPara β φ) : Prop where
  length : p'.length = p.length
  separator : p'.separator = p.separator
  font : p'.defaultFont = p.defaultFont
  metrics : p'.defaultMetrics = p.defaultMetrics
  env : 0 < p.length - p.separator → p'.env = p.env ∧ ∃ qs, Subs p.env.toShapeEnv p.calls p.env.line.start qs ∧
    Comparable p.env qs ∧ p'.pieces = qs.map (Sub.ref p.env.line.start)

end RichText
