import Verif.Model.DrawSelection
import Verif.Model.MsdfAtlas
/-!
Model of how rectangles reach OpenGL: `UIContainer::draw_rect_internal` with its three remembered values
(`sample/ui_container.cpp`), `Pipeline` (`sample/pipeline.cpp`), `Image` (`sample/image.cpp`), and the pages that the atlases
make in the middle of a frame.

* OpenGL is the part of its state that the program sets: the bound vertex array, the program in use, the texture bound to
  unit 0 (the only unit used), and the uniforms, which belong to a program and keep their values.  A draw call records all of
  it.  Setting a uniform while no program is in use has no effect.
* `Image::write` (sample/image.cpp:50-52) names its texture and changes no binding; it is left out.
* `none` is undefined behaviour (a null `m_pipeline`, a null page), or an undefined request to an atlas.
-/
namespace RichText

/-- `PipelineIndex`, sample/pipeline.hpp:30-36, without `COUNT`; `INVALID` is `none` where it can occur. -/
inductive PipelineIndex where
  | rect
  | msdf
  | outline
deriving Repr, DecidableEq

/-- `Pipeline`, sample/pipeline.hpp:24-27. -/
structure PipelineObj where
  vao : Nat
  program : Nat
  primitive : Nat
  vertexCount : Nat
deriving Repr, DecidableEq

/-- An `Image*`: `get_default_texture()`, or the image of a page of `g_textAtlas` or `g_msdfTextAtlas`.  Pages are kept in
`unique_ptr`s that are never given back before the atlas is (sample/text_atlas.hpp:70), so a page is named by its index. -/
inductive ImageRef where
  | default
  | page (msdf : Bool) (index : Nat)
deriving Repr, DecidableEq

/-- Four `float`s. -/
abbrev Vec4 := Rat × Rat × Rat × Rat

/-- What a uniform holds. -/
inductive UniformValue where
  | vec2 (x y : Rat)
  | vec4 (v : Vec4)
deriving DecidableEq, Repr

/-- A draw call with the state it is made in. -/
structure DrawnRect where
  primitive : Nat
  vertexCount : Nat
  vao : Nat
  program : Nat
  texture : Nat
  invScreenSize : Option UniformValue
  extents : Option UniformValue
  texCoords : Option UniformValue
  color : Option UniformValue
deriving DecidableEq, Repr

/-- OpenGL; `nextTexture` is the next name `glGenTextures` gives. -/
structure GLContext where
  vao : Nat := 0
  program : Nat := 0
  texture : Nat := 0
  uniforms : Nat → Nat → Option UniformValue := fun _ _ => none
  nextTexture : Nat := 1
  drawn : List DrawnRect := []

namespace GLContext

/-- `glUniform2fv`, `glUniform4fv`: the program in use. -/
def setUniform (c : GLContext) (location : Nat) (v : UniformValue) : GLContext :=
  if c.program = 0 then c
  else { c with uniforms := fun p l => if p = c.program ∧ l = location then some v else c.uniforms p l }

/-- `Pipeline::bind`, sample/pipeline.cpp:81-84. -/
def bindPipeline (c : GLContext) (p : PipelineObj) : GLContext := { c with vao := p.vao, program := p.program }

/-- `Image::bind`, sample/image.cpp:54-57, with unit 0. -/
def bindTexture (c : GLContext) (handle : Nat) : GLContext := { c with texture := handle }

/-- `Pipeline::draw`, sample/pipeline.cpp:86-88. -/
def draw (c : GLContext) (p : PipelineObj) : GLContext :=
  { c with drawn := c.drawn ++ [⟨p.primitive, p.vertexCount, c.vao, c.program, c.texture, c.uniforms c.program 0,
      c.uniforms c.program 1, c.uniforms c.program 2, c.uniforms c.program 3⟩] }

/-- `Image::Image`, sample/image.cpp:5-19: a new texture, which stays bound. -/
def newImage (c : GLContext) : Nat × GLContext :=
  (c.nextTexture, { c with nextTexture := c.nextTexture + 1, texture := c.nextTexture })

end GLContext

/-- The container's remembered values (sample/ui_container.hpp:61-63), the atlases, the handles of their images, OpenGL. -/
structure Canvas where
  pipelineIndex : Option PipelineIndex
  pipeline : Option PipelineIndex
  image : Option ImageRef
  atlas : Atlas
  msdf : MsdfAtlas
  defaultHandle : Nat
  handles : List Nat
  msdfHandles : List Nat
  gl : GLContext

/-- What does not change while a window is drawn. -/
structure CanvasEnv where
  pipes : PipelineIndex → PipelineObj
  raster : RasterEnv
  msdf : MsdfEnv
  useMSDF : Bool
  showGlyphOutlines : Bool

/-- `m_handle` of an image. -/
def Canvas.handle (s : Canvas) : ImageRef → Option Nat
  | .default => some s.defaultHandle
  | .page false i => s.handles[i]?
  | .page true i => s.msdfHandles[i]?

/-- The uniform for four numbers of a rectangle. -/
def Quad.extents {κ : Type} (q : Quad κ) : Vec4 := (q.x, q.y, q.width, q.height)

/-- Texture coordinates as a uniform. -/
def TexRect.coords (t : TexRect) : Vec4 := (t.u, t.v, t.uw, t.vh)

/-- `UIContainer::draw_rect_internal`, sample/ui_container.cpp:386-411, in a container of size `size`. -/
def Canvas.drawRect (env : CanvasEnv) (size : Rat × Rat) (s : Canvas) (image : Option ImageRef) (pipeline : PipelineIndex)
    (q : Quad Vec4) : Option Canvas :=
  match image with
  | none => some s
  | some r =>
    let s :=
      if s.pipelineIndex ≠ some pipeline then
        { s with pipelineIndex := some pipeline, pipeline := some pipeline,
                 gl := (s.gl.bindPipeline (env.pipes pipeline)).setUniform 0 (.vec2 (1 / size.1) (1 / size.2)) }
      else s
    (if s.image ≠ some r then (s.handle r).map fun h => { s with image := some r, gl := s.gl.bindTexture h } else some s).bind
      fun s => s.pipeline.map fun p =>
        { s with gl := (((s.gl.setUniform 1 (.vec4 q.extents)).setUniform 2 (.vec4 q.tex.coords)).setUniform 3
            (.vec4 q.color)).draw (env.pipes p) }

/-- Several rectangles with the same image, `UIContainer::emit_rect`, sample/ui_container.cpp:16-65. -/
def Canvas.drawRects (env : CanvasEnv) (size : Rat × Rat) (image : Option ImageRef) (pipeline : PipelineIndex) :
    List (Quad Vec4) → Canvas → Option Canvas
  | [], s => some s
  | q :: t, s => (s.drawRect env size image pipeline q).bind (Canvas.drawRects env size image pipeline t)

/-- The images of the pages that an atlas has made: `get_or_create_target_page`, sample/text_atlas.cpp:164-165,
sample/msdf_text_atlas.cpp:167-168. -/
def GLContext.newPages : Nat → List Nat → GLContext → List Nat × GLContext
  | 0, handles, c => (handles, c)
  | n + 1, handles, c => GLContext.newPages n (handles ++ [c.newImage.1]) c.newImage.2

/-- What the callbacks of `draw_text` need of a glyph. -/
structure GlyphRect where
  image : Option ImageRef
  tex : TexRect
  width : Rat
  height : Rat
  offsetX : Rat
  offsetY : Rat
  hasColor : Bool

/-- The texture coordinates of a place, sample/text_atlas.cpp:143-146, sample/msdf_text_atlas.cpp:134-137; zero for a glyph
without a place (`GlyphInfo info{}`). -/
def Place.tex : Option Place → TexRect
  | none => ⟨0, 0, 0, 0⟩
  | some p => ⟨p.x / atlasExtent, p.y / atlasExtent, p.w / atlasExtent, p.h / atlasExtent⟩

/-- The image of a place. -/
def Place.image (msdf : Bool) (p : Option Place) : Option ImageRef := p.map fun p => .page msdf p.page

/-- The answer of `TextAtlas`. -/
def GlyphAnswer.rect (a : GlyphAnswer) : GlyphRect :=
  ⟨Place.image false a.place, Place.tex a.place, a.width, a.height, a.offsetX, a.offsetY, a.hasColor⟩

/-- The answer of `MSDFTextAtlas`. -/
def MsdfAnswer.rect (a : MsdfAnswer) : GlyphRect :=
  ⟨Place.image true a.place, Place.tex a.place, a.width, a.height, a.offsetX, a.offsetY, a.hasColor⟩

/-- A change of `g_textAtlas`, with the images of new pages. -/
def Canvas.setAtlas (s : Canvas) (a : Atlas) : Canvas :=
  let r := s.gl.newPages (a.pages.length - s.atlas.pages.length) s.handles
  { s with atlas := a, handles := r.1, gl := r.2 }

/-- A change of `g_msdfTextAtlas`, with the images of new pages. -/
def Canvas.setMsdf (s : Canvas) (a : MsdfAtlas) : Canvas :=
  let r := s.gl.newPages (a.pages.length - s.msdf.pages.length) s.msdfHandles
  { s with msdf := a, msdfHandles := r.1, gl := r.2 }

/-- `get_glyph_info` of the atlas in use, sample/ui_container.cpp:82-85, 158-161. -/
def Canvas.glyphInfo (env : CanvasEnv) (s : Canvas) (f : SingleScriptFont) (g : Nat) : Option (Canvas × GlyphRect) :=
  if env.useMSDF then (s.msdf.getGlyph env.msdf f g).map fun r => (s.setMsdf r.1, r.2.rect)
  else (s.atlas.getGlyph env.raster f g).map fun r => (s.setAtlas r.1, r.2.rect)

/-- `get_stroke_info` of the atlas in use, sample/ui_container.cpp:180-183. -/
def Canvas.strokeInfo (env : CanvasEnv) (s : Canvas) (f : SingleScriptFont) (g thickness joins : Nat) :
    Option (Canvas × GlyphRect) :=
  if env.useMSDF then (s.msdf.getStroke env.msdf f g thickness joins).map fun r => (s.setMsdf r.1, r.2.rect)
  else (s.atlas.getStroke env.raster f g thickness joins).map fun r => (s.setAtlas r.1, r.2.rect)

/-- `{1.f, 1.f, 1.f, 1.f}`. -/
def whiteColor : Vec4 := (1, 1, 1, 1)

/-- `{0, 0.5f, 0, 1}`, the colour of the debug outlines. -/
def outlineColor : Vec4 := (0, 1 / 2, 0, 1)

/-- The pipeline of glyphs, sample/ui_container.cpp:89, 165, 187. -/
def glyphPipeline (env : CanvasEnv) : PipelineIndex := if env.useMSDF then .msdf else .rect

/-- What is drawn in a frame: an untextured rectangle (sample/ui_container.cpp:67-71) with a pipeline and perhaps a clip, a
glyph (76-95, 151-171) or a stroke (173-188) at a position. -/
inductive FrameStep where
  | rect (x y width height : Rat) (color : Vec4) (pipeline : PipelineIndex) (clip : Option (Rat × Rat))
  | glyph (f : SingleScriptFont) (g : Nat) (x y : Rat) (color : Vec4) (clip : Option (Rat × Rat))
  | stroke (f : SingleScriptFont) (g thickness joins : Nat) (x y : Rat) (color : Vec4)

/-- The rectangles of a glyph: one, or up to three if clipped. -/
def GlyphRect.quads (i : GlyphRect) (x y : Rat) (color : Vec4) (clip : Option (Rat × Rat)) : List (Quad Vec4) :=
  emitRect whiteColor (x + i.offsetX) (y + i.offsetY) i.width i.height i.tex color clip

/-- One step. -/
def Canvas.step (env : CanvasEnv) (size : Rat × Rat) (s : Canvas) : FrameStep → Option Canvas
  | .rect x y w h color pipeline clip =>
    s.drawRects env size (some .default) pipeline (emitRect whiteColor x y w h unitTex color clip)
  | .glyph f g x y color clip =>
    (s.glyphInfo env f g).bind fun r =>
    (r.1.drawRects env size r.2.image (glyphPipeline env)
        (r.2.quads x y (if r.2.hasColor then whiteColor else color) clip)).bind fun s =>
    if env.showGlyphOutlines then s.drawRects env size (some .default) .outline (emitRect whiteColor (x + r.2.offsetX)
      (y + r.2.offsetY) r.2.width r.2.height unitTex outlineColor none)
    else some s
  | .stroke f g thickness joins x y color =>
    (s.strokeInfo env f g thickness joins).bind fun r =>
    r.1.drawRects env size r.2.image (glyphPipeline env) (r.2.quads x y color none)

/-- The steps of a frame. -/
def Canvas.steps (env : CanvasEnv) (size : Rat × Rat) : List FrameStep → Canvas → Option Canvas
  | [], s => some s
  | x :: t, s => (s.step env size x).bind (Canvas.steps env size t)

/-- `UIContainer::render`, sample/ui_container.cpp:240-249: the remembered values are forgotten first.  The settings of
`CVars` and the size change only between frames. -/
def Canvas.render (env : CanvasEnv) (size : Rat × Rat) (l : List FrameStep) (s : Canvas) : Option Canvas :=
  Canvas.steps env size l { s with pipelineIndex := none, pipeline := none, image := none }

/-- A frame with the settings it is drawn with. -/
structure Frame where
  size : Rat × Rat
  useMSDF : Bool
  showGlyphOutlines : Bool
  steps : List FrameStep

/-- `main`, sample/main.cpp:111-120: frame after frame. -/
def Canvas.frames (env : CanvasEnv) : List Frame → Canvas → Option Canvas
  | [], s => some s
  | f :: t, s =>
    (s.render { env with useMSDF := f.useMSDF, showGlyphOutlines := f.showGlyphOutlines } f.size f.steps).bind
      (Canvas.frames env t)

/-- Before the first frame, sample/main.cpp:76-77 with `TextAtlas::TextAtlas`, sample/text_atlas.cpp:18-22, in whatever state
OpenGL is. -/
def Canvas.start (c : GLContext) : Canvas :=
  { pipelineIndex := none, pipeline := none, image := none, atlas := {}, msdf := {}, defaultHandle := c.newImage.1,
    handles := [], msdfHandles := [], gl := c.newImage.2 }

end RichText
