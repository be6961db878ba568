import Verif.Model.TextAtlas
/-!
What packing bitmaps into pages is.
-/
namespace RichText

/-- A bitmap to be put into the atlas. -/
structure Upload where
  w : Nat
  h : Nat
  hasColor : Bool
deriving DecidableEq

/-- Bitmaps uploaded one after the other. -/
def uploadAll (pad : Nat) : List AtlasPage → List Upload → Option (List AtlasPage × List Place)
  | pages, [] => some (pages, [])
  | pages, u :: us =>
    match uploadGlyph pad pages u.w u.h u.hasColor with
    | none => none
    | some (pages, p) =>
      match uploadAll pad pages us with
      | none => none
      | some (pages, ps) => some (pages, p :: ps)

/-- The rectangles, widened to the right and below by `pad`, have no pixel in common. -/
def Place.Apart (pad : Nat) (a b : Place) : Prop :=
  a.x + a.w + pad ≤ b.x ∨ b.x + b.w + pad ≤ a.x ∨ a.y + a.h + pad ≤ b.y ∨ b.y + b.h + pad ≤ a.y

/-- The rectangle is inside the page of 2048 x 2048 pixels. -/
def Place.Inside (p : Place) : Prop := p.x + p.w ≤ 2048 ∧ p.y + p.h ≤ 2048

/-- A request to the atlas. -/
inductive AtlasRequest where
  | glyph (f : SingleScriptFont) (g : Nat)
  | stroke (f : SingleScriptFont) (g thickness joins : Nat)

/-- The atlas answers a request. -/
def Atlas.get (env : RasterEnv) (a : Atlas) : AtlasRequest → Option (Atlas × GlyphAnswer)
  | .glyph f g => a.getGlyph env f g
  | .stroke f g t j => a.getStroke env f g t j

/-- The bitmap asked for. -/
def RasterEnv.raster (env : RasterEnv) : AtlasRequest → Raster
  | .glyph f g => env.glyph f g
  | .stroke f g t j => env.stroke f g t j

/-- The font of a request. -/
def AtlasRequest.font : AtlasRequest → SingleScriptFont
  | .glyph f _ => f
  | .stroke f _ _ _ => f

/-- Atlases after a history of requests. -/
inductive AtlasRun (env : RasterEnv) : Atlas → Prop
  | start : AtlasRun env {}
  | step {a a' : Atlas} {r : AtlasRequest} {ans : GlyphAnswer} : AtlasRun env a → a.get env r = some (a', ans) → AtlasRun env a'

/-- No bitmap is larger than a page. -/
def RasterEnv.Small (env : RasterEnv) : Prop := ∀ r, (env.raster r).width ≤ 2048 ∧ (env.raster r).height ≤ 2048

/-- The answer is right: size, offset and kind of the bitmap, moved to the font's
baseline, with a place of its size inside a page unless the bitmap is empty. -/
def Answered (env : RasterEnv) (r : AtlasRequest) (ans : GlyphAnswer) : Prop :=
  ans.width = (env.raster r).width ∧ ans.height = (env.raster r).height ∧ ans.offsetX = (env.raster r).offsetX ∧
  ans.offsetY = (env.raster r).offsetY + env.baseline r.font ∧ ans.hasColor = (env.raster r).hasColor ∧
  (ans.place = none ↔ (env.raster r).width = 0 ∨ (env.raster r).height = 0) ∧
  ∀ p, ans.place = some p → p.w = (env.raster r).width ∧ p.h = (env.raster r).height ∧ p.Inside

/-- Requests one after the other. -/
inductive AtlasSteps (env : RasterEnv) : Atlas → Atlas → Prop
  | refl (a : Atlas) : AtlasSteps env a a
  | step {a b c : Atlas} {r : AtlasRequest} {ans : GlyphAnswer} : AtlasSteps env a b → b.get env r = some (c, ans) → AtlasSteps env a c

/-- Requests for different images. -/
def AtlasRequest.Distinct : AtlasRequest → AtlasRequest → Prop
  | .glyph f g, .glyph f' g' => f.face.handle ≠ f'.face.handle ∨ f.effectiveSize ≠ f'.effectiveSize ∨ f.weight ≠ f'.weight ∨
      f.style ≠ f'.style ∨ g ≠ g'
  | .stroke f g t j, .stroke f' g' t' j' => f.face.handle ≠ f'.face.handle ∨ f.effectiveSize ≠ f'.effectiveSize ∨ t ≠ t' ∨ j ≠ j' ∨ g ≠ g'
  | _, _ => True

end RichText
