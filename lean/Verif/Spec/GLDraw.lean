import Verif.Model.GLDraw
/-!
What should be drawn, without any state of OpenGL and without remembered values: each rectangle with its own pipeline, image,
colour and the size of the window at its frame.
-/
namespace RichText

/-- A rectangle with what it is to be drawn with. -/
structure Wanted where
  size : Rat × Rat
  pipeline : PipelineIndex
  image : ImageRef
  quad : Quad Vec4

/-- The draw call for it, if images have the given handles. -/
def Wanted.drawn (pipes : PipelineIndex → PipelineObj) (handle : ImageRef → Option Nat) (w : Wanted) : DrawnRect where
  primitive := (pipes w.pipeline).primitive
  vertexCount := (pipes w.pipeline).vertexCount
  vao := (pipes w.pipeline).vao
  program := (pipes w.pipeline).program
  texture := (handle w.image).getD 0
  invScreenSize := some (.vec2 (1 / w.size.1) (1 / w.size.2))
  extents := some (.vec4 (w.quad.x, w.quad.y, w.quad.width, w.quad.height))
  texCoords := some (.vec4 (w.quad.tex.u, w.quad.tex.v, w.quad.tex.uw, w.quad.tex.vh))
  color := some (.vec4 w.quad.color)

/-- Both atlases. -/
abbrev Atlases := Atlas × MsdfAtlas

/-- Rectangles of one image; none if there is no image. -/
def wantedRects (size : Rat × Rat) (pipeline : PipelineIndex) : Option ImageRef → List (Quad Vec4) → List Wanted
  | none, _ => []
  | some r, l => l.map fun q => ⟨size, pipeline, r, q⟩

/-- What the atlas in use answers for a glyph. -/
def wantedGlyph (env : CanvasEnv) (a : Atlases) (f : SingleScriptFont) (g : Nat) : Option (Atlases × GlyphRect) :=
  if env.useMSDF then (a.2.getGlyph env.msdf f g).map fun r => ((a.1, r.1), r.2.rect)
  else (a.1.getGlyph env.raster f g).map fun r => ((r.1, a.2), r.2.rect)

/-- What the atlas in use answers for a stroke. -/
def wantedStroke (env : CanvasEnv) (a : Atlases) (f : SingleScriptFont) (g thickness joins : Nat) :
    Option (Atlases × GlyphRect) :=
  if env.useMSDF then (a.2.getStroke env.msdf f g thickness joins).map fun r => ((a.1, r.1), r.2.rect)
  else (a.1.getStroke env.raster f g thickness joins).map fun r => ((r.1, a.2), r.2.rect)

/-- The rectangles of a step: an untextured rectangle has the white image; a glyph has its image, is drawn in its own colours
if it has some, and is followed by its outline in green if outlines are shown; a stroke has its image. -/
def wantedStep (env : CanvasEnv) (size : Rat × Rat) (a : Atlases) : FrameStep → Option (Atlases × List Wanted)
  | .rect x y w h color pipeline clip =>
    some (a, wantedRects size pipeline (some .default) (emitRect whiteColor x y w h unitTex color clip))
  | .glyph f g x y color clip =>
    (wantedGlyph env a f g).map fun r =>
      (r.1, wantedRects size (if env.useMSDF then .msdf else .rect) r.2.image
          (emitRect whiteColor (x + r.2.offsetX) (y + r.2.offsetY) r.2.width r.2.height r.2.tex
            (if r.2.hasColor then whiteColor else color) clip) ++
        if env.showGlyphOutlines then [⟨size, .outline, .default, ⟨x + r.2.offsetX, y + r.2.offsetY, r.2.width, r.2.height,
          unitTex, (0, 1 / 2, 0, 1)⟩⟩] else [])
  | .stroke f g thickness joins x y color =>
    (wantedStroke env a f g thickness joins).map fun r =>
      (r.1, wantedRects size (if env.useMSDF then .msdf else .rect) r.2.image
        [⟨x + r.2.offsetX, y + r.2.offsetY, r.2.width, r.2.height, r.2.tex, color⟩])

/-- The rectangles of several steps, in order. -/
def wantedSteps (env : CanvasEnv) (size : Rat × Rat) : List FrameStep → Atlases → Option (Atlases × List Wanted)
  | [], a => some (a, [])
  | x :: t, a => (wantedStep env size a x).bind fun r => (wantedSteps env size t r.1).map fun q => (q.1, r.2 ++ q.2)

/-- The rectangles of several frames, in order. -/
def wantedFrames (env : CanvasEnv) : List Frame → Atlases → Option (Atlases × List Wanted)
  | [], a => some (a, [])
  | f :: t, a =>
    (wantedSteps { env with useMSDF := f.useMSDF, showGlyphOutlines := f.showGlyphOutlines } f.size f.steps a).bind fun r =>
      (wantedFrames env t r.1).map fun q => (q.1, r.2 ++ q.2)

end RichText
