import Verif.Model.ParagraphFonts
import Verif.Spec.FontRegistry
import Verif.Spec.VisualRuns
import Verif.Props.ShapeRequest
/-!
The environment the properties of the builder speak of (`ShapeEnv`), made from the registry and HarfBuzz.
-/
namespace RichText

/-- Clusters below `n`, in the order of the direction. -/
def OrderedClusters (reversed : Bool) (n : Nat) (gs : List HbGlyph) : Prop :=
  (∀ g ∈ gs, g.cluster < n) ∧
  if reversed then gs.Pairwise (fun g h => h.cluster ≤ g.cluster) else gs.Pairwise (fun g h => g.cluster ≤ h.cluster)

instance (reversed : Bool) (n : Nat) (gs : List HbGlyph) : Decidable (OrderedClusters reversed n gs) := by
  unfold OrderedClusters
  cases reversed <;> simp only [Bool.false_eq_true, ↓reduceIte] <;> infer_instance

namespace ParagraphFonts

/-- The file of a face. -/
def file (p : ParagraphFonts) (f : SingleScriptFont) : Option Nat := (p.reg.faces[f.face.handle.toNat]?).bind (·.file)

/-- What HarfBuzz makes of a part of the text with a font at its size. -/
def glyphs (p : ParagraphFonts) (f : SingleScriptFont) (v : ShapeArgs) (first stop : Nat) : List HbGlyph :=
  match p.file f, f.request.effective with
  | some file, some eff =>
    (shapeGlyphs (fun _ => p.hb file eff true) p.text f (first - p.text.start) (stop - first) v.script (v.level % 2 == 1)
      p.vertical).getD []
  | _, _ => []

/-- Shaping as a function of its arguments alone, except for the advance of the blank of each face.  (Arguments that the builder
does not ask for get an answer in range.) -/
def env (p : ParagraphFonts) (space : BitVec 16 → Int) : ShapeEnv ShapeArgs SingleScriptFont where
  subFont v offset limit :=
    match getSubFont p.lib p.reg .init v.font (p.chars offset limit) offset limit v.script v.smallcaps v.subscript v.superscript with
    | some x => x.2
    | none => (⟨{}, 0, 0, .normal, false, false, false, false, false, false⟩, limit)
  shape f v a b := if OrderedClusters (v.level % 2 == 1) (b - a) (p.glyphs f v a b) then p.glyphs f v a b else []
  reversed v := v.level % 2 == 1
  same := SingleScriptFont.same
  isTab := p.isTab
  spaceAdvance f := space f.face.handle
  spaceGlyph f := match p.file f with
    | some file => p.lib.spaceGlyph file
    | none => 0
  vertical := p.vertical

/-- What the registry, the libraries and the calls must be like. -/
structure Proper (p : ParagraphFonts) (calls : List (Nat × ShapeArgs)) : Prop where
  /-- any history of the registry in which no family came with an empty array of faces -/
  ran : ∃ hist, Registry.Ran p.lib hist p.reg ∧ ∀ x ∈ hist, x.1.faces ≠ some []
  fits : p.reg.Fits
  inside : p.text.start + p.text.length ≤ p.text.mem.length
  limits : ∀ c ∈ calls, c.1 ≤ p.text.start + p.text.length
  /-- ICU: the characters make up the text -/
  chars : ∀ a b, a < b → nativeLength (p.chars a b) = b - a ∧ ∀ x ∈ p.chars a b, 0 < x.1
  /-- HarfBuzz: clusters are kept and ordered -/
  hb : ∀ file eff, HbShapes fun _ => p.hb file eff true
  /-- initialised families, weights, sizes and scripts in range -/
  args : ∀ c ∈ calls, p.reg.IsInit c.2.font.face.getFamily ∧ c.2.font.face.getWeight.toNat < 9 ∧ 2 ≤ c.2.font.size.toNat ∧
    c.2.font.size.toNat < 2 ^ 20 ∧ 0 ≤ c.2.script ∧ c.2.script.toNat < p.lib.codeLimit
  /-- the faces for the scripts can be loaded -/
  loads : ∀ c ∈ calls, ∀ base, p.reg.fontForScript c.2.font.face.getFamily c.2.font.face.getWeight.toNat c.2.font.face.getStyle
    c.2.script = some base → ∃ file, p.reg.Loads p.lib base file
  /-- capitals are as long as their small letters, where small caps are made up (see C74) -/
  caps : ∀ c ∈ calls, ∀ t' offset limit out new, getSubFont p.lib p.reg .init c.2.font (p.chars offset limit) offset limit c.2.script
      c.2.smallcaps c.2.subscript c.2.superscript = some (t', out, new) → out.syntheticSmallCaps = true →
    ∃ l, ((p.text.mem.drop offset).take (new - offset)).map UInt8.toNat = lowerText l ∧
      (p.text.upper c.2.script ((p.text.mem.drop offset).take (new - offset))).1.map UInt8.toNat = upperText l ∧
      Records l (p.text.upper c.2.script ((p.text.mem.drop offset).take (new - offset))).2 ∧ (∀ q ∈ l, q.WellFormed) ∧
      SameLength l ∧ (upperText l).length ≤ 2 ^ 31

end ParagraphFonts

end RichText
