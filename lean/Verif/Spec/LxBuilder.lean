import Mathlib.Data.List.Forall2
import Verif.Spec.Paragraph
import Verif.Model.LxBuilder
/-!
What ICU's LayoutEx promises, and what a layout made of its answers is to hold, without the functions of the builder.
-/
namespace RichText
variable {φ : Type _}

/-- A visual run holds the characters `[x.1, x.2)` of the text: at least one glyph, a position for each and one behind, and the
characters of the first and the last glyph in reading order are the first and the last one of the range. -/
structure LxRun.Covers (chars : List Nat) (off : Nat) (r : LxRun φ) (x : Nat × Nat) : Prop where
  glyphs : r.glyphs ≠ []
  charMap : r.charMap.length = r.glyphs.length
  positions : r.positions.length = r.glyphs.length + 1
  first : ∃ c, (if r.rtl then r.charMap.getLast? else r.charMap.head?) = some c ∧ x.1 = c + off
  last : ∃ c u, (if r.rtl then r.charMap.head? else r.charMap.getLast?) = some c ∧ chars[c + off]? = some u ∧
    x.2 = c + off + (if 0xD800 ≤ u ∧ u ≤ 0xDBFF then 2 else 1)

/-- The lines of a paragraph hold each character of `[off, off + n)` once, none without a run. -/
def LxText (chars : List Nat) (off n : Nat) (lines : List (List (LxRun φ))) : Prop :=
  ∃ rg : List (List (Nat × Nat)),
    List.Forall₂ (fun l r => l ≠ [] ∧ List.Forall₂ (LxRun.Covers chars off) l r) lines rg ∧
    Partition id off (off + n) rg.flatten

/-- LayoutEx answers for each paragraph that is not empty, for each level. -/
def LxAnswers (chars : List Nat) : List (LxPara φ) → Nat → Prop
  | [], _ => True
  | p :: t, off =>
    (0 < p.length - p.separator → ∀ level, LxText chars off (p.length - p.separator) (p.layout level).2) ∧
    LxAnswers chars t (off + p.length)

/-- The greatest of some numbers and 0, less its fraction. -/
def FloorMax (f : φ → Rat) (l : List (LxRun φ)) (a : Int) : Prop :=
  0 ≤ a ∧ (∀ r ∈ l, f r.font < a + 1) ∧ (a = 0 ∨ ∃ r ∈ l, (a : Rat) ≤ f r.font)

/-- A run recorded of a visual run: the glyphs that are not deleted, with their characters and positions, and the position behind
the last one. -/
def LxRun.Recorded (chars : List Nat) (off : Nat) (r : LxRun φ) (q : RunSpec φ) : Prop :=
  q.font = r.font ∧ q.rtl = r.rtl ∧
  q.glyphs = (((r.glyphs.zip (r.positions.zip r.charMap)).filter fun g => g.1 ≠ 0xFFFF).map fun g =>
    (⟨g.1, g.2.2 + off, g.2.1.1, g.2.1.2⟩ : GlyphSpec)) ∧
  r.positions.getLast? = some (q.endX, q.endY) ∧
  r.Covers chars off (q.charStart, q.charEnd)

/-- A line recorded of a line. -/
def LxRecorded (chars : List Nat) (metrics : φ → Metrics) (off : Nat) (l : List (LxRun φ)) (q : LineSpec φ) : Prop :=
  List.Forall₂ (LxRun.Recorded chars off) l q.runs ∧
  ∃ a d : Int, FloorMax (fun f => (metrics f).ascent) l a ∧ FloorMax (fun f => -(metrics f).descent) l d ∧
    q.ascent = a ∧ q.height = a + d

/-- The lines recorded of paragraphs laid out with levels: for an empty one an empty line. -/
def LxStored (chars : List Nat) (metrics : φ → Metrics) : List (LxPara φ) → Nat → (Nat → Nat) → List (LineSpec φ) → Prop
  | [], _, _, ls => ls = []
  | p :: t, off, level, ls =>
    ∃ a b, ls = a ++ b ∧
      (if 0 < p.length - p.separator then List.Forall₂ (LxRecorded chars metrics off) (p.layout (level 0)).2 a
        else ∃ sep, a = [⟨[⟨p.defaultFont, [], 0, 0, off, off, sep, false⟩],
          p.defaultMetrics.ascent - p.defaultMetrics.descent, p.defaultMetrics.ascent⟩]) ∧
      LxStored chars metrics t (off + p.length) (fun i => level (i + 1)) b

/-- The level of a paragraph of which level `base` was asked for (`ubidi_setPara`, `SBAlgorithmCreateParagraph`): 0xFE and 0xFF are
to use the direction of the first strong character, and left-to-right or right-to-left if there is none. -/
def resolveLevel (base : Nat) (strong : Option Bool) : Nat :=
  if base = 0xFE then (strong.getD false).toNat else if base = 0xFF then (strong.getD true).toNat else base

end RichText
