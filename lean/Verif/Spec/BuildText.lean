import Verif.Model.BuildText
import Verif.Spec.ParagraphFonts
import Verif.Spec.TextRuns
import Verif.Spec.Built
import Verif.Spec.Size
/-!
The libraries the properties of the builder speak of (`TextLibs`), made from the registry, HarfBuzz, ICU and SheenBidi.
-/
namespace RichText

/-- What HarfBuzz may answer for the characters from `a` to `b`: clusters in the order of the direction, one at least for the first
character and for each of `starts`, at most `k` glyphs per byte, no glyph in front of the one before it, tabs wider than zero, their
advance being `space`. -/
structure FineGlyphs (starts : Nat → Prop) (isTab : Nat → Bool) (space : Int) (k : Nat) (reversed : Bool) (a b : Nat)
    (gs : List HbGlyph) : Prop where
  ordered : OrderedClusters reversed (b - a) gs
  starts : ∀ c, a ≤ c → c < b → c = a ∨ starts c → ∃ g ∈ gs, a + g.cluster = c
  thin : gs.length ≤ k * (b - a)
  step : ∀ (i : Nat) g h, gs[i]? = some g → gs[i + 1]? = some h →
    g.xOffset ≤ (if isTab (g.cluster + a) = true then space else g.xAdvance) + h.xOffset
  last : ∀ g, gs.getLast? = some g → g.xOffset ≤ if isTab (g.cluster + a) = true then space else g.xAdvance
  tabs : ∀ (i : Nat) g, gs[i]? = some g → isTab (g.cluster + a) = true →
    0 < space - g.xOffset + (gs[i + 1]?.map (·.xOffset)).getD 0

/-- One glyph per byte. -/
def byteGlyphs (reversed : Bool) (n : Nat) : List HbGlyph :=
  (List.range n).map fun i => ⟨0, if reversed then n - 1 - i else i, 64, 0, 0, 0⟩

namespace BuildLibs

/-- Ascent and descent of a font, whatever the face was set to before. -/
def metricsOf (b : BuildLibs) (f : SingleScriptFont) : Metrics :=
  match (b.reg.faces[f.face.handle.toNat]?).bind (·.file), f.request.effective with
  | some file, some eff => b.fontMetrics file eff (f.syntheticSubscript || f.syntheticSuperscript)
  | _, _ => ⟨0, 0⟩

open Classical in
/-- Laying out a paragraph as a function of its arguments alone, except for the advance of the blank of each face.  (Where HarfBuzz
answers with something else than it may, here are plain glyphs; see `Serves`.) -/
noncomputable def env (b : BuildLibs) (starts : Bytes → Nat → Nat → Nat → Prop) (k : Nat) (space : BitVec 16 → Int) (text : Bytes)
    (start length : Nat) : ParaEnv ShapeArgs SingleScriptFont where
  toShapeEnv := { (b.para text start length).env space with
    shape := fun f v x y =>
      if FineGlyphs (starts text start length) (b.para text start length).isTab (space f.face.handle) k (v.level % 2 == 1) x y
          ((b.para text start length).glyphs f v x y) then
        (b.para text start length).glyphs f v x y
      else byteGlyphs (v.level % 2 == 1) (y - x) }
  line := b.line text start length
  bidi := b.bidi text start length
  metrics := b.metricsOf

/-- A font for nothing. -/
def noFont : SingleScriptFont := ⟨{}, 0, 0, .normal, false, false, false, false, false, false⟩

/-- The libraries as the properties of the builder (C31, C91, C117) ask for them. -/
noncomputable def libs (b : BuildLibs) (starts : Bytes → Nat → Nat → Nat → Prop) (k : Nat) (space : BitVec 16 → Int) :
    TextLibs SingleScriptFont where
  bounds := b.bounds
  levels := b.levels
  script := b.script
  env := b.env starts k space
  defaultFont f := (b.defaultFont f).getD noFont
  metrics f := b.metricsOf ((b.defaultFont f).getD noFont)

/-- There is a paragraph whose text are the `n` bytes from `s`. -/
def HasText (b : BuildLibs) (t : Bytes) (s n : Nat) : Prop :=
  0 < n ∧ ∃ pre x post, b.bounds t = pre ++ x :: post ∧ s = (pre.map (·.1)).sum ∧ n = x.1 - x.2

/-- What the registry, SheenBidi, ICU and the parameters must be like for texts shorter than `limit`. -/
structure Proper (b : BuildLibs) (starts : Bytes → Nat → Nat → Nat → Prop) (limit k : Nat) : Prop where
  /-- any history of the registry in which no family came with an empty array of faces -/
  ran : ∃ hist, Registry.Ran b.lib hist b.reg ∧ ∀ x ∈ hist, x.1.faces ≠ some []
  fits : b.reg.Fits
  /-- the blank of a font that can be loaded is wider than zero, at any size above zero -/
  blank : ∀ face file, b.reg.Loads b.lib face file → ∀ eff, 0 < eff → 0 < b.lib.advance file eff (b.lib.spaceGlyph file)
  /-- SheenBidi: paragraphs, levels, runs of lines -/
  bounds : ∀ t, t ≠ [] → t.length < limit → Bounds t.length 0 (b.bounds t)
  levels : ∀ t s n, t.length < limit → b.HasText t s n → (b.levels t s n).length = n
  bidi : ∀ t s n, t.length < limit → b.HasText t s n → ∀ x y, s ≤ x → x < y → y ≤ s + n →
    Partition BidiRun.range x y (b.bidi t s n x y) ∧ ∀ r ∈ b.bidi t s n x y, r.offset = x ∨ starts t s n r.offset
  /-- ICU: stepping through the text, characters, places to break -/
  script : ∀ t s n, t.length < limit → b.HasText t s n → (b.script t s n).len = n ∧ (b.script t s n).Forward
  chars : ∀ t x y, x < y → nativeLength (b.chars t x y) = y - x ∧ ∀ c ∈ b.chars t x y, 0 < c.1
  next : ∀ t s n, t.length < limit → b.HasText t s n → ∀ i, i < n → i < b.next t s n i ∧ b.next t s n i ≤ n
  breaks : ∀ t s n, t.length < limit → b.HasText t s n → ∀ i, b.preceding t s n i ≤ n ∧
    ∀ j : Nat, b.preceding t s n i = j → starts t s n (s + j)
  /-- parameters -/
  horizontal : b.vertical = false
  tabs : if b.tabPixels = true then 0 < b.tabWidth else 64 ≤ b.tabWidth
  glyphs : 0 < k

/-- The fonts of a text serve: those of its paragraphs as C120 asks for, with answers of HarfBuzz as they may be, whatever size the
blank was measured at, and the default fonts can be loaded. -/
structure Serves {F : Type _} (b : BuildLibs) (starts : Bytes → Nat → Nat → Nat → Prop) (k : Nat) (text : Bytes)
    (runs : FormattingRuns F) : Prop where
  proper : ∀ q ∈ b.plan text runs, 0 < q.length - q.separator → (b.para text q.start (q.length - q.separator)).Proper q.calls
  fine : ∀ q ∈ b.plan text runs, 0 < q.length - q.separator → ∀ limit v, (limit, v) ∈ q.calls → ∀ i, q.start ≤ i → i < limit →
    ∀ u out new file, getSubFont b.lib b.reg .init v.font (b.chars text i limit) i limit v.script v.smallcaps v.subscript v.superscript =
      some (u, out, new) → b.reg.Loads b.lib out.face file → ∀ eff, 0 < eff →
    FineGlyphs (starts text q.start (q.length - q.separator)) (b.para text q.start (q.length - q.separator)).isTab
      (b.lib.advance file eff (b.lib.spaceGlyph file)) k (v.level % 2 == 1) i new
      ((b.para text q.start (q.length - q.separator)).glyphs out v i new)
  default : ∀ font ∈ runs.font.values, 2 ≤ font.size.toNat ∧ font.size.toNat < 2 ^ 20 ∧
    ∃ face file, b.reg.faceOf font.face.getFamily font.face.getWeight.toNat font.face.getStyle = some face ∧
      b.reg.Loads b.lib face file

/-- A font whose family was registered, of a size and weight in range, with faces that can be loaded for every script of ICU. -/
structure FontServes (b : BuildLibs) (font : Font) : Prop where
  init : b.reg.IsInit font.face.getFamily
  weight : font.face.getWeight.toNat < 9
  size : 2 ≤ font.size.toNat ∧ font.size.toNat < 2 ^ 20
  faces : ∀ script : Nat, script < b.lib.codeLimit → ∀ base, b.reg.fontForScript font.face.getFamily font.face.getWeight.toNat
    font.face.getStyle script = some base → ∃ file, b.reg.Loads b.lib base file
  default : ∃ face file, b.reg.faceOf font.face.getFamily font.face.getWeight.toNat font.face.getStyle = some face ∧
    b.reg.Loads b.lib face file

/-- What holds for all texts: scripts are those of ICU, HarfBuzz keeps clusters and their order, and its answers for a part of a
paragraph, with a font that can be loaded and without small caps, are as they may be. -/
structure Shapes (b : BuildLibs) (starts : Bytes → Nat → Nat → Nat → Prop) (limit k : Nat) : Prop where
  common : 0 < b.lib.codeLimit
  scripts : ∀ t s n c, t.length < limit → b.HasText t s n → (b.script t s n).script c < b.lib.codeLimit
  hb : ∀ file eff, HbShapes fun _ => b.hb file eff true
  fine : ∀ t s n, t.length < limit → b.HasText t s n → ∀ (f : SingleScriptFont) v i new file eff, v.level ∈ b.levels t s n →
    f.syntheticSmallCaps = false → b.reg.Loads b.lib f.face file → f.request.effective = some eff → 0 < eff → s ≤ i → i < new → new ≤ s + n →
    ∀ size, 0 < size → FineGlyphs (starts t s n) (b.para t s n).isTab (b.lib.advance file size (b.lib.spaceGlyph file)) k
      (v.level % 2 == 1) i new ((b.para t s n).glyphs f v i new)

/-- The blanks a thread remembers were measured at sizes above zero. -/
def Blanks (lib : FontLib) (t : FontThread) : Prop :=
  ∀ h o, t.cache.lookup h = some o → ∃ eff, 0 < eff ∧ o.spaceAdvance = lib.advance o.file eff (lib.spaceGlyph o.file)

end BuildLibs

end RichText
