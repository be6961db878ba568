import Verif.Spec.Paragraph
/-!
Further contracts of the libraries, under which the layout of a text is what the
queries on layouts (C21-C26, C59, C60) ask for.
-/
namespace RichText
variable {β φ : Type _}

/-- The contract of HarfBuzz on clusters: the first character shaped starts a cluster,
and so do the characters `starts`, among which are all places where a line may be broken
and where the direction changes (no ligature spans such a place). -/
structure ParaEnv.Clusters (e : ParaEnv β φ) (starts : Nat → Prop) : Prop where
  glyph : ∀ f v a b c, a ≤ c → c < b → c = a ∨ starts c → ∃ g ∈ e.shape f v a b, a + g.cluster = c
  breaks : ∀ j b : Nat, e.line.preceding j = (b : Int) → starts (e.line.start + b)
  bidi : ∀ s t, e.line.start ≤ s → s < t → t ≤ e.line.start + e.line.length →
    ∀ r ∈ e.bidi s t, r.offset = s ∨ starts r.offset

/-- Glyphs are placed from left to right: in horizontal text no glyph starts before the
one in front of it, offsets included, and tabs have a width above zero. -/
structure ParaEnv.Forward (e : ParaEnv β φ) : Prop where
  horizontal : e.vertical = false
  step : ∀ f v a b, a < b → ∀ (i : Nat) (g h : HbGlyph), (e.shape f v a b)[i]? = some g →
    (e.shape f v a b)[i + 1]? = some h → g.xOffset ≤ e.advance f a g + h.xOffset
  last : ∀ f v a b, a < b → ∀ g, (e.shape f v a b).getLast? = some g → g.xOffset ≤ e.advance f a g
  tabs : (∀ c, e.line.isTab c = false) ∨ (e.line.tabPixels = true ∧ 0 < e.line.tabWidth) ∨ e.TabsScaled

/-- SheenBidi on left-to-right text: the runs of a line are in order and of even level. -/
def ParaEnv.Ltr (e : ParaEnv β φ) : Prop :=
  ∀ s t, e.line.start ≤ s → s < t → t ≤ e.line.start + e.line.length →
    Consecutive t s ((e.bidi s t).map BidiRun.range) ∧ ∀ r ∈ e.bidi s t, r.level % 2 = 0

/-- The further contracts hold for each paragraph with text. -/
def Placed (ps : List (Paragraph β φ)) : Prop :=
  ∀ p ∈ ps, 0 < p.length - p.separator → p.env.Forward ∧ ∃ starts, p.env.Clusters starts

end RichText
