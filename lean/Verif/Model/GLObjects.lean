import Verif.Model.GLDraw
/-!
Model of the life times of OpenGL's objects: `Pipeline` and the compilation of its program (`sample/pipeline.cpp`), `Image`
(`sample/image.cpp`), the atlases as owners of images, and the order of `main` (`sample/main.cpp:73-125`).

* OpenGL by its specification: deleting a shader that is attached to a program, or the program in use, only flags it; it goes
  when it is detached, or no longer in use.  Deleting a program detaches its shaders.
* Names are given by one counter and not given twice; OpenGL counts textures, vertex arrays and programs apart and may give
  names again.  Deleting or using a name that is not an object of the kind is `none` (OpenGL reports an error, or deletes the
  object that has got the name since).
* The texts of shaders and programs are whether they compile and link.
-/
namespace RichText

/-- The objects of a context. -/
structure GLObjects where
  arrays : List Nat := []
  textures : List Nat := []
  shaders : List Nat := []
  programs : List Nat := []
  attached : List (Nat × Nat) := []
  flagged : List Nat := []
  current : Nat := 0
  next : Nat := 1

namespace GLObjects

/-- `glCreateVertexArrays`. -/
def createArray (g : GLObjects) : Nat × GLObjects := (g.next, { g with arrays := g.next :: g.arrays, next := g.next + 1 })

/-- `glDeleteVertexArrays`. -/
def deleteArray (g : GLObjects) (h : Nat) : Option GLObjects :=
  if h ∈ g.arrays then some { g with arrays := g.arrays.filter (· ≠ h) } else none

/-- `glGenTextures` and `glBindTexture`, which makes the object. -/
def createTexture (g : GLObjects) : Nat × GLObjects := (g.next, { g with textures := g.next :: g.textures, next := g.next + 1 })

/-- `glDeleteTextures`. -/
def deleteTexture (g : GLObjects) (h : Nat) : Option GLObjects :=
  if h ∈ g.textures then some { g with textures := g.textures.filter (· ≠ h) } else none

/-- `glCreateShader`. -/
def createShader (g : GLObjects) : Nat × GLObjects := (g.next, { g with shaders := g.next :: g.shaders, next := g.next + 1 })

/-- `glDeleteShader`. -/
def deleteShader (g : GLObjects) (s : Nat) : Option GLObjects :=
  if s ∈ g.shaders ∧ s ∉ g.flagged then
    if g.attached.any (·.2 = s) then some { g with flagged := s :: g.flagged }
    else some { g with shaders := g.shaders.filter (· ≠ s) }
  else none

/-- `glCreateProgram`. -/
def createProgram (g : GLObjects) : Nat × GLObjects := (g.next, { g with programs := g.next :: g.programs, next := g.next + 1 })

/-- `glAttachShader`. -/
def attachShader (g : GLObjects) (p s : Nat) : Option GLObjects :=
  if p ∈ g.programs ∧ s ∈ g.shaders then some { g with attached := (p, s) :: g.attached } else none

/-- A program goes, with the flagged shaders that are attached to no other. -/
def removeProgram (g : GLObjects) (p : Nat) : GLObjects :=
  { g with
    programs := g.programs.filter (· ≠ p)
    attached := g.attached.filter (·.1 ≠ p)
    shaders := g.shaders.filter fun s => s ∉ g.flagged ∨ ∃ a ∈ g.attached, a.1 ≠ p ∧ a.2 = s }

/-- `glDeleteProgram`. -/
def deleteProgram (g : GLObjects) (p : Nat) : Option GLObjects :=
  if p ∈ g.programs ∧ p ∉ g.flagged then
    if g.current = p then some { g with flagged := p :: g.flagged } else some (g.removeProgram p)
  else none

/-- `glUseProgram`: a flagged program that was in use goes. -/
def useProgram (g : GLObjects) (p : Nat) : Option GLObjects :=
  if p = 0 ∨ p ∈ g.programs then
    if g.current ≠ p ∧ g.current ∈ g.flagged then some { g.removeProgram g.current with current := p }
    else some { g with current := p }
  else none

/-- `try_compile_shader`, sample/pipeline.cpp:138-157. -/
def tryCompileShader (ok : Bool) (g : GLObjects) : Option (Nat × GLObjects) :=
  let (s, g) := g.createShader
  if ok then some (s, g) else (g.deleteShader s).map fun g => (0, g)

/-- `try_compile_program`, sample/pipeline.cpp:90-136, with two sources (all pipelines have them): whether the shaders compile
and the program links. -/
def tryCompileProgram (vertexOk fragmentOk linkOk : Bool) (g : GLObjects) : Option (Nat × GLObjects) :=
  (g.tryCompileShader vertexOk).bind fun (v, g) =>
  if v = 0 then some (0, g)
  else
    (g.tryCompileShader fragmentOk).bind fun (f, g) =>
    if f = 0 then (g.deleteShader v).map fun g => (0, g)
    else
      let (p, g) := g.createProgram
      (g.attachShader p v).bind fun g =>
      (g.attachShader p f).bind fun g =>
      (if linkOk then some (p, g) else (g.deleteProgram p).map fun g => (0, g)).bind fun (p, g) =>
      (g.deleteShader v).bind fun g => (g.deleteShader f).map fun g => (p, g)

end GLObjects

/-- `m_vao` and `m_program`, sample/pipeline.hpp:24-25. -/
structure PipeOwner where
  vao : Nat := 0
  program : Nat := 0

/-- `Pipeline::Pipeline`, sample/pipeline.cpp:33-39. -/
def PipeOwner.make (results : Bool × Bool × Bool) (g : GLObjects) : Option (PipeOwner × GLObjects) :=
  let (a, g) := g.createArray
  (g.tryCompileProgram results.1 results.2.1 results.2.2).map fun (p, g) => (⟨a, p⟩, g)

/-- `Pipeline::~Pipeline`, sample/pipeline.cpp:41-49. -/
def PipeOwner.destroy (p : PipeOwner) (g : GLObjects) : Option GLObjects :=
  (if p.vao ≠ 0 then g.deleteArray p.vao else some g).bind fun g =>
  if p.program ≠ 0 then g.deleteProgram p.program else some g

/-- `Pipeline::operator=`, sample/pipeline.cpp:60-67: both objects, afterwards. -/
def PipeOwner.moveAssign (this other : PipeOwner) : PipeOwner × PipeOwner :=
  (⟨other.vao, other.program⟩, ⟨this.vao, this.program⟩)

/-- `m_handle` in `Image::operator=`, sample/image.cpp:37-48: both objects, afterwards. -/
def imageMoveAssign (this other : Nat) : Nat × Nat := (other, this)

/-- `Image::~Image`, sample/image.cpp:21-25. -/
def destroyImage (h : Nat) (g : GLObjects) : Option GLObjects := if h ≠ 0 then g.deleteTexture h else some g

/-- The owners: `g_pipelines` (sample/pipeline.hpp:38), the images of `g_textAtlas` (the default image first) and of
`g_msdfTextAtlas` (sample/text_atlas.hpp:70-76, sample/msdf_text_atlas.hpp:67-71). -/
structure GLOwners where
  pipes : PipelineIndex → PipeOwner := fun _ => {}
  images : List Nat := []
  msdfImages : List Nat := []
  gl : GLObjects := {}

namespace GLOwners

/-- `g_pipelines[i] = …`, from a temporary, which is destroyed. -/
def assignPipe (o : GLOwners) (i : PipelineIndex) (p : PipeOwner) : Option GLOwners :=
  let (this, other) := (o.pipes i).moveAssign p
  (other.destroy o.gl).map fun g => { o with pipes := fun k => if k = i then this else o.pipes k, gl := g }

/-- `g_pipelines[i] = Pipeline(…)`, sample/pipeline.cpp:19-24. -/
def initPipe (o : GLOwners) (i : PipelineIndex) (results : Bool × Bool × Bool) : Option GLOwners :=
  (PipeOwner.make results o.gl).bind fun (p, g) => { o with gl := g }.assignPipe i p

/-- `init_pipelines`, sample/pipeline.cpp:18-25. -/
def initPipelines (results : PipelineIndex → Bool × Bool × Bool) (o : GLOwners) : Option GLOwners :=
  (o.initPipe .rect (results .rect)).bind fun o =>
  (o.initPipe .msdf (results .msdf)).bind fun o => o.initPipe .outline (results .outline)

/-- `deinit_pipelines`, sample/pipeline.cpp:27-31. -/
def deinitPipelines (o : GLOwners) : Option GLOwners :=
  (o.assignPipe .rect {}).bind fun o => (o.assignPipe .msdf {}).bind fun o => o.assignPipe .outline {}

/-- An image assigned to a default one (handle 0): `m_defaultImage = Image(…)`, sample/text_atlas.cpp:21,
`page->image = Image(…)`, sample/text_atlas.cpp:165, sample/msdf_text_atlas.cpp:168. -/
def newImage (o : GLOwners) (msdf : Bool) : Option GLOwners :=
  let (h, g) := o.gl.createTexture
  let (this, other) := imageMoveAssign 0 h
  (destroyImage other g).map fun g =>
    if msdf then { o with msdfImages := o.msdfImages ++ [this], gl := g } else { o with images := o.images ++ [this], gl := g }

/-- What frames do: pipelines are bound (sample/ui_container.cpp:394), pages are made. -/
inductive Step where
  | bind (i : PipelineIndex)
  | page (msdf : Bool)

/-- One of these. -/
def step (o : GLOwners) : Step → Option GLOwners
  | .bind i => (o.gl.useProgram (o.pipes i).program).map fun g => { o with gl := g }
  | .page msdf => o.newImage msdf

/-- All of them. -/
def steps : List Step → GLOwners → Option GLOwners
  | [], o => some o
  | x :: t, o => (o.step x).bind (steps t)

/-- `~TextAtlas`, `~MSDFTextAtlas`: images one after the other. -/
def destroyImages : List Nat → GLObjects → Option GLObjects
  | [], g => some g
  | h :: t, g => (destroyImage h g).bind (destroyImages t)

/-- `delete g_msdfTextAtlas; delete g_textAtlas;`, sample/main.cpp:122-123. -/
def deleteAtlases (o : GLOwners) : Option GLOwners :=
  (destroyImages o.msdfImages o.gl).bind fun g => (destroyImages o.images g).map fun g => { o with images := [], msdfImages := [], gl := g }

/-- `main` from `init_pipelines` to `deinit_pipelines`, sample/main.cpp:74-77, 111-125. -/
def main (results : PipelineIndex → Bool × Bool × Bool) (l : List Step) : Option GLOwners :=
  (initPipelines results {}).bind fun o => (o.newImage false).bind fun o => (steps l o).bind fun o =>
  o.deleteAtlases.bind deinitPipelines

end GLOwners

end RichText
