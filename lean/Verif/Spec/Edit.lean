import Verif.Spec.Built
/-!
Notions for stating what an edit changes in a layout (C135).
-/
namespace RichText
variable {β φ : Type _}

/-- `e'` is what `e` is, with all characters `d` further on in the text: the positions relative to the paragraph stay. -/
structure ParaEnv.Moved (d : Nat) (e e' : ParaEnv β φ) : Prop where
  start : e'.line.start = e.line.start + d
  length : e'.line.length = e.line.length
  area : e'.line.area = e.line.area
  tabWidth : e'.line.tabWidth = e.line.tabWidth
  tabPixels : e'.line.tabPixels = e.line.tabPixels
  isTab : ∀ k, e.line.start ≤ k → e'.line.isTab (k + d) = e.line.isTab k
  next : e'.line.next = e.line.next
  hangs : e'.line.hangs = e.line.hangs
  preceding : e'.line.preceding = e.line.preceding
  subFont : ∀ v o l, e.line.start ≤ o → e'.subFont v (o + d) (l + d) = ((e.subFont v o l).1, (e.subFont v o l).2 + d)
  shape : ∀ f v a b, e.line.start ≤ a → e'.shape f v (a + d) (b + d) = e.shape f v a b
  reversed : e'.reversed = e.reversed
  same : e'.same = e.same
  tabs : ∀ k, e.line.start ≤ k → e'.isTab (k + d) = e.isTab k
  spaceAdvance : e'.spaceAdvance = e.spaceAdvance
  spaceGlyph : e'.spaceGlyph = e.spaceGlyph
  vertical : e'.vertical = e.vertical
  bidi : ∀ s t, e.line.start ≤ s → e'.bidi (s + d) (t + d) = (e.bidi s t).map fun r => { r with offset := r.offset + d }
  metrics : e'.metrics = e.metrics

/-- `p'` is the paragraph `p`, `d` characters further on in the text. -/
structure Paragraph.Moved (d : Nat) (p p' : Paragraph β φ) : Prop where
  length : p'.length = p.length
  separator : p'.separator = p.separator
  font : p'.defaultFont = p.defaultFont
  metrics : p'.defaultMetrics = p.defaultMetrics
  env : 0 < p.length - p.separator → p.env.Moved d p'.env ∧ p'.calls = p.calls.map fun c => (c.1 + d, c.2)

/-- A run, a line with all characters `d` further on. -/
def RunSpec.moved (d : Nat) (r : RunSpec φ) : RunSpec φ :=
  { r with glyphs := r.glyphs.map fun g => { g with char := g.char + d }, charStart := r.charStart + d, charEnd := r.charEnd + d }

def LineSpec.moved (d : Nat) (l : LineSpec φ) : LineSpec φ := { l with runs := l.runs.map (·.moved d) }

/-- Length of paragraphs. -/
def totalLength (ps : List (Paragraph β φ)) : Nat := (ps.map (·.length)).sum

end RichText
