import Verif.Model.TextAtlas
import Verif.Model.Synthetic
/-!
Model of `sample/msdf_text_atlas.cpp`: outlines handed over to msdfgen, the bitmap
made for them, and the maps from glyphs to their places.  Packing is that of
`Model/TextAtlas` with a padding of 2.

* An outline is the list of its contours as `FT_Outline_Decompose` reports them: a
  starting point and segments.
* msdfgen's `Shape` is a list of contours, each a list of edges.
  `Shape::normalize` and `Shape::getBounds` are the parameter `bounds`; the pixels
  are left out.
* `double` and `float` are exact rationals.
* `none` is undefined behaviour.
-/
namespace RichText

/-- A point of an outline. -/
abbrev OutlinePoint := Int × Int

/-- A segment of a contour; it starts where the one before ends. -/
inductive OutlineSegment where
  | line (to : OutlinePoint)
  | conic (control to : OutlinePoint)
  | cubic (control1 control2 to : OutlinePoint)
deriving Repr, DecidableEq

/-- A contour. -/
structure OutlineContour where
  start : OutlinePoint
  segments : List OutlineSegment
deriving Repr, DecidableEq

/-- `msdfgen::EdgeSegment`. -/
inductive MsdfEdge where
  | linear (a b : OutlinePoint)
  | quadratic (a c b : OutlinePoint)
  | cubic (a c₁ c₂ b : OutlinePoint)
deriving Repr, DecidableEq

/-- `OutlineContext`, sample/msdf_text_atlas.cpp:27-31: the position, the contours,
and whether `pContour` is set (it is the last contour then). -/
structure OutlineContext where
  position : OutlinePoint := (0, 0)
  contours : List (List MsdfEdge) := []
  current : Bool := false
deriving Repr, DecidableEq

/-- `ctx.pContour->addEdge`. -/
def OutlineContext.addEdge (c : OutlineContext) (e : MsdfEdge) (to : OutlinePoint) : Option OutlineContext :=
  if c.current then
    (c.contours.getLast?).map fun last => { c with contours := c.contours.dropLast ++ [last ++ [e]], position := to }
  else none

/-- `ctx.pContour->edges.empty()`. -/
def OutlineContext.lastEmpty (c : OutlineContext) : Bool := c.contours.getLast? == some []

/-- `msdf_move_to`, sample/msdf_text_atlas.cpp:319-329. -/
def OutlineContext.moveTo (c : OutlineContext) (to : OutlinePoint) : OutlineContext :=
  if !c.current || c.lastEmpty then { position := to, contours := c.contours ++ [[]], current := true }
  else { c with position := to }

/-- `msdf_line_to`, `msdf_conic_to`, `msdf_cubic_to`,
sample/msdf_text_atlas.cpp:331-357. -/
def OutlineContext.segment (c : OutlineContext) : OutlineSegment → Option OutlineContext
  | .line to => if to ≠ c.position then c.addEdge (.linear c.position to) to else some c
  | .conic ctl to => c.addEdge (.quadratic c.position ctl to) to
  | .cubic c₁ c₂ to => c.addEdge (.cubic c.position c₁ c₂ to) to

/-- The segments of a contour. -/
def OutlineContext.segments : List OutlineSegment → OutlineContext → Option OutlineContext
  | [], c => some c
  | s :: ss, c => (c.segment s).bind (OutlineContext.segments ss)

/-- `FT_Outline_Decompose`. -/
def OutlineContext.decompose : List OutlineContour → OutlineContext → Option OutlineContext
  | [], c => some c
  | k :: ks, c => (OutlineContext.segments k.segments (c.moveTo k.start)).bind (OutlineContext.decompose ks)

/-- The shape made of an outline, sample/msdf_text_atlas.cpp:233-251: an empty
contour at the end is removed. -/
def outlineShape (outline : List OutlineContour) : Option (List (List MsdfEdge)) :=
  (OutlineContext.decompose outline {}).map fun c => if c.lastEmpty then c.contours.dropLast else c.contours

/-- `Shape::Bounds`. -/
structure ShapeBounds where
  l : Rat
  b : Rat
  r : Rat
  t : Rat
deriving Repr, DecidableEq

/-- A double to `int32_t`. -/
def doubleToInt32 (q : Rat) : Option Int :=
  if -2147483648 ≤ truncRat q ∧ truncRat q < 2147483648 then some (truncRat q) else none

/-- Size, offset and projection of the bitmap. -/
structure MsdfFrame where
  width : Int
  height : Int
  offsetX : Rat
  offsetY : Rat
  scale : Rat
  tx : Rat
  ty : Rat
deriving Repr, DecidableEq

/-- sample/msdf_text_atlas.cpp:258-283: the bitmap for the bounds of a shape.  The
sums `+ 1` of `int` do not overflow unless the conversion does nearly. -/
def msdfFrame (bounds : ShapeBounds) (upem : Nat) : Option MsdfFrame :=
  let scale : Rat := 32 / upem
  let range : Rat := 2 * upem / 32
  let l := bounds.l - 1 / 2 * range
  let r := bounds.r + 1 / 2 * range
  let b := bounds.b - 1 / 2 * range
  let t := bounds.t + 1 / 2 * range
  let w := scale * (r - l)
  let h := scale * (t - b)
  (doubleToInt32 (w + 1)).bind fun cw => (doubleToInt32 (h + 1)).bind fun ch =>
    if cw + 1 < 2147483648 ∧ ch + 1 < 2147483648 then
      let width := cw + 1
      let height := ch + 1
      some ⟨width, height, l * scale - 1 / 2 * (width - w), -t * scale - 1 / 2 * (height - h), scale,
        -l + 1 / 2 * (width - w) / scale, -b + 1 / 2 * (height - h) / scale⟩
    else none

/-- The fonts: outlines in font units (`load_glyph_curve`,
`load_glyph_outline_curve`), msdfgen's bounds, `get_upem`, and `x_ppem`, `y_ppem`
of the face after `get_font_data`. -/
structure MsdfEnv where
  glyph : SingleScriptFont → Nat → List OutlineContour
  stroke : SingleScriptFont → Nat → Nat → Nat → List OutlineContour
  bounds : List (List MsdfEdge) → ShapeBounds
  upem : SingleScriptFont → Nat
  ppemX : SingleScriptFont → Nat
  ppemY : SingleScriptFont → Nat

/-- `load_msdf_shape`, sample/msdf_text_atlas.cpp:231-313: an empty bitmap if there
are no edges. -/
def loadMsdf (env : MsdfEnv) (outline : List OutlineContour) (upem : Nat) : Option Raster :=
  (outlineShape outline).bind fun shape =>
    if shape.flatten = [] then some ⟨0, 0, 0, 0, false⟩
    else (msdfFrame (env.bounds shape) upem).map fun f => ⟨f.width.toNat, f.height.toNat, f.offsetX, f.offsetY, false⟩

/-- `handle_rasterization`, sample/msdf_text_atlas.cpp:148-158. -/
def handleMsdf (pages : List AtlasPage) (r : Raster) : Option (List AtlasPage × GlyphInfo) :=
  if r.width > 0 ∧ r.height > 0 then
    (uploadGlyph 2 pages r.width r.height r.hasColor).map fun x => (x.1, ⟨r.width, r.height, r.offsetX, r.offsetY, some x.2⟩)
  else some (pages, ⟨r.width, r.height, r.offsetX, r.offsetY, none⟩)

/-- `MSDFTextAtlas::GlyphKey`, sample/msdf_text_atlas.hpp:46-51, compared field by
field, sample/msdf_text_atlas.cpp:187-189. -/
structure MsdfGlyphKey where
  glyph : Nat
  face : BitVec 16
deriving DecidableEq

/-- `MSDFTextAtlas`, sample/msdf_text_atlas.hpp:71-73.  `StrokeKey` is that of
`TextAtlas`. -/
structure MsdfAtlas where
  pages : List AtlasPage := []
  glyphs : MsdfGlyphKey → Option GlyphInfo := fun _ => none
  strokes : StrokeKey → Option GlyphInfo := fun _ => none

/-- What a request answers: sizes need not be integers. -/
structure MsdfAnswer where
  place : Option Place
  width : Rat
  height : Rat
  offsetX : Rat
  offsetY : Rat
  hasColor : Bool
deriving Repr, DecidableEq

/-- The outputs for an entry of a map, scaled: sample/msdf_text_atlas.cpp:54-62,
72-82; for strokes (94-97, 109-112) the scales are 1. -/
def GlyphInfo.scaled (info : GlyphInfo) (sx sy : Rat) (hasColor : Bool) : MsdfAnswer :=
  ⟨info.place, info.width * sx, info.height * sy, info.offsetX * sx, info.offsetY * sy, hasColor⟩

/-- The answer for an entry found, sample/msdf_text_atlas.cpp:54-64, 94-98.
`&it->second.pPage->image` of a null page is undefined. -/
def cachedMsdf (pages : List AtlasPage) (sx sy : Rat) (info : GlyphInfo) : Option MsdfAnswer :=
  info.place.bind fun pl => (pages[pl.page]?).map fun p => info.scaled sx sy p.hasColor

/-- `get_glyph_info`, sample/msdf_text_atlas.cpp:45-86. -/
def MsdfAtlas.getGlyph (env : MsdfEnv) (a : MsdfAtlas) (f : SingleScriptFont) (g : Nat) : Option (MsdfAtlas × MsdfAnswer) :=
  let key : MsdfGlyphKey := ⟨g, f.face.handle⟩
  let sx : Rat := env.ppemX f / 32
  let sy : Rat := env.ppemY f / 32
  match a.glyphs key with
  | some info => (cachedMsdf a.pages sx sy info).map fun ans => (a, ans)
  | none =>
    (loadMsdf env (env.glyph f g) (env.upem f)).bind fun r => (handleMsdf a.pages r).map fun x =>
      ({ a with pages := x.1, glyphs := fun k => if k = key then some x.2 else a.glyphs k }, x.2.scaled sx sy false)

/-- `get_stroke_info`, sample/msdf_text_atlas.cpp:88-117. -/
def MsdfAtlas.getStroke (env : MsdfEnv) (a : MsdfAtlas) (f : SingleScriptFont) (g thickness joins : Nat) :
    Option (MsdfAtlas × MsdfAnswer) :=
  let key : StrokeKey := ⟨f.size.toNat, g, f.face.handle, thickness, joins⟩
  match a.strokes key with
  | some info => (cachedMsdf a.pages 1 1 info).map fun ans => (a, ans)
  | none =>
    (loadMsdf env (env.stroke f g thickness joins) (env.upem f)).bind fun r => (handleMsdf a.pages r).map fun x =>
      ({ a with pages := x.1, strokes := fun k => if k = key then some x.2 else a.strokes k }, x.2.scaled 1 1 false)

end RichText
