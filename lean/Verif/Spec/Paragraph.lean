import Verif.Spec.VisualRuns
/-!
Notions for stating what laying out paragraphs does.
-/
namespace RichText
variable {β φ : Type _}

/-- `m` holds the largest ascent and the smallest descent of the fonts of the
visual runs `ps`, and at least, at most zero. -/
structure MetricsOf (runs : List (LogicalRun φ)) (metrics : φ → Metrics) (ps : List VisualPiece) (m : Metrics) : Prop where
  zero : m.descent ≤ 0 ∧ 0 ≤ m.ascent
  bound : ∀ p ∈ ps, ∀ r : LogicalRun φ, runs[p.run]? = some r →
    (metrics r.font).ascent ≤ m.ascent ∧ m.descent ≤ (metrics r.font).descent
  ascent : m.ascent = 0 ∨ ∃ p ∈ ps, ∃ r : LogicalRun φ, runs[p.run]? = some r ∧ m.ascent = (metrics r.font).ascent
  descent : m.descent = 0 ∨ ∃ p ∈ ps, ∃ r : LogicalRun φ, runs[p.run]? = some r ∧ m.descent = (metrics r.font).descent

/-- The calls `ops` lay out the line `l` as the visual runs `ps` with the glyphs
`idx`: they append the runs, then the line with the height and ascent of its
fonts. -/
structure LineOps (e : ParaEnv β φ) (b : Shaped φ) (l : BrokenLine) (ps : List VisualPiece) (idx : List (List Nat))
    (ops : List (LayoutOp φ)) : Prop where
  partition : Partition VisualPiece.range l.first l.stop ps
  inside : ∀ p ∈ ps, p.Inside e.line.start b.runs
  ops : ∃ runs m, MetricsOf b.runs e.metrics ps m ∧ ops = runs ++ [.line (m.ascent - m.descent) m.ascent] ∧
    RunOps b l.widths e.vertical [] ps idx runs

/-- The calls for the lines one after the other. -/
def LinesOps (e : ParaEnv β φ) (b : Shaped φ) :
    List BrokenLine → List (List VisualPiece) → List (List (List Nat)) → List (LayoutOp φ) → Prop
  | [], [], [], ops => ops = []
  | l :: ls, p :: ps, i :: is, ops => ∃ o o', ops = o ++ o' ∧ LineOps e b l p i o ∧ LinesOps e b ls ps is o'
  | _, _, _, _ => False

/-- Advance of a glyph of the text shaped from `a`: tabs advance like spaces. -/
def ParaEnv.advance (e : ParaEnv β φ) (f : φ) (a : Nat) (g : HbGlyph) : Int :=
  if e.isTab (g.cluster + a) = true then e.spaceAdvance f else g.xAdvance

/-- Width of the glyph `g` in front of the glyph `next` of the text shaped from `a`, along the line. -/
def ParaEnv.width (e : ParaEnv β φ) (f : φ) (a : Nat) (g : HbGlyph) (next : Option HbGlyph) : Int :=
  if e.vertical then g.yOffset - g.yAdvance - (next.map (·.yOffset)).getD 0
  else e.advance f a g - g.xOffset + (next.map (·.xOffset)).getD 0

/-- Tab stops in multiples of the advance of a blank (the default, and what the text box asks for): the tab width is 1.0
or above, and the glyphs of tabs are wider than zero. -/
def ParaEnv.TabsScaled (e : ParaEnv β φ) : Prop :=
  e.line.tabPixels = false ∧ 64 ≤ e.line.tabWidth ∧
    ∀ f v a b, a < b → ∀ (i : Nat) (g : HbGlyph), (e.shape f v a b)[i]? = some g → e.line.isTab (g.cluster + a) = true →
      0 < e.width f a g (e.shape f v a b)[i + 1]?

/-- The contracts for laying out a paragraph: those of the font registry and
HarfBuzz, of the run iterators, of the break iterator, of the UTF-8 decoder, of
SheenBidi (the bidi runs of a line are a partition of it), and tabs, if there are
any, with a width in pixels other than zero or with tab stops in multiples of the
advance of a blank (C33). -/
structure ParaEnv.OK (e : ParaEnv β φ) (calls : List (Nat × β)) : Prop where
  nonempty : 0 < e.line.length
  contract : e.toShapeEnv.Contract
  calls : CallsTo (e.line.start + e.line.length) calls
  breaks : e.line.BreaksInside
  decodes : e.line.Decodes
  tabs : (∀ c, e.line.isTab c = false) ∨ (e.line.tabPixels = true ∧ e.line.tabWidth ≠ 0) ∨ e.TabsScaled
  bidi : ∀ s t, e.line.start ≤ s → s < t → t ≤ e.line.start + e.line.length →
    Partition BidiRun.range s t (e.bidi s t)

/-- Range of characters of a run with the separator behind it. -/
def RunSpec.range (r : RunSpec φ) : Nat × Nat := (r.charStart, r.charEnd + r.charEndOffset)

/-- Range of characters of a stored run with the separator behind it. -/
def VisualRun.range (r : VisualRun φ) : Nat × Nat := (r.charStart, r.charEnd + r.charEndOffset)

/-- The paragraphs of a text (SheenBidi): they follow each other from `offset` to
`count`; each consists of text and a separator, only the last may lack the
separator; a paragraph with text meets the contracts. -/
def Paragraphs (count : Nat) : Nat → List (Paragraph β φ) → Prop
  | offset, [] => offset = count
  | offset, p :: t => p.separator ≤ p.length ∧ 0 < p.length ∧ (t ≠ [] → 0 < p.separator) ∧
    (0 < p.length - p.separator → p.env.OK p.calls ∧ p.env.line.start = offset ∧
      p.env.line.length = p.length - p.separator) ∧
    Paragraphs count (offset + p.length) t

end RichText
