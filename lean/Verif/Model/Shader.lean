import Verif.Model.GLDraw
import Mathlib.Algebra.Order.Floor.Ring
import Mathlib.Data.Rat.Floor
/-!
Model of the shaders (`sample/rect_shader.hpp`, `sample/msdf_shader.hpp`, `sample/outline_shader.hpp`) and of what OpenGL does
between them: which pixels the two triangles of a rectangle cover, and the texture coordinates there.

* Arithmetic is exact; on a GPU it is that of 32-bit floating point numbers.
* Rasterisation is that of the OpenGL specification: a triangle covers the pixels whose centres are inside; of a centre on an
  edge the specification says only that of two triangles that meet there one covers it.  `tie` stands for that choice: it
  says whether a point on the edge from `a` to `b` belongs to the triangle on the left of it.
* Faces are not culled (`GL_CULL_FACE` is never enabled), nothing is clipped against the near and far planes (depth is 0).
-/
namespace RichText

/-- A point. -/
abbrev Pt := Rat × Rat

/-- Bit `i` of a mask: `(mask & b) != 0`. -/
def maskBit (mask i : Nat) : Rat := if mask &&& (1 <<< i) ≠ 0 then 1 else 0

/-- `baseCoord`, sample/rect_shader.hpp:17-18, sample/msdf_shader.hpp:17-18. -/
def rectBase (v : Nat) : Pt := (maskBit 0x19 (v % 6), maskBit 0xB (v % 6))

/-- `baseCoord`, sample/outline_shader.hpp:16-17. -/
def outlineBase (v : Nat) : Pt := (maskBit 0x6 (v % 4), maskBit 0xC (v % 4))

/-- `fma(baseCoord, e.zw, e.xy)`. -/
def corner (base : Pt) (e : Vec4) : Pt := (base.1 * e.2.2.1 + e.1, base.2 * e.2.2.2 + e.2.1)

/-- From pixels to the coordinates of `gl_Position`, sample/rect_shader.hpp:19-20, sample/msdf_shader.hpp:20-21,
sample/outline_shader.hpp:18-19. -/
def toClip (inv p : Pt) : Pt := (p.1 * inv.1 * 2 + -1, p.2 * inv.2 * -2 + 1)

/-- `gl_Position` of the three vertex shaders. -/
def vertexPos (pipeline : PipelineIndex) (inv : Pt) (e : Vec4) (v : Nat) : Pt :=
  match pipeline with
  | .rect => let c := corner (rectBase v) e; toClip inv ((⌊c.1⌋ : Int), (⌊c.2⌋ : Int))
  | .msdf => toClip inv (corner (rectBase v) e)
  | .outline => let c := corner (outlineBase v) e; toClip inv ((⌊c.1⌋ : Int) + 1 / 2, (⌊c.2⌋ : Int) + 1 / 2)

/-- `v_texCoord`, sample/rect_shader.hpp:21, sample/msdf_shader.hpp:22. -/
def vertexTex (t : Vec4) (v : Nat) : Pt := corner (rectBase v) t

/-- `glViewport(0, 0, width, height)`, sample/main.cpp:173: window coordinates, upwards from the bottom. -/
def toWindow (view p : Pt) : Pt := ((p.1 + 1) / 2 * view.1, (p.2 + 1) / 2 * view.2)

/-- Positive if `p` is on the left of the line from `a` to `b`. -/
def edge (a b p : Pt) : Rat := (b.1 - a.1) * (p.2 - a.2) - (b.2 - a.2) * (p.1 - a.1)

/-- `p` is on the inner side of the edge from `a` to `b` of a triangle on the left of it. -/
def onSide (tie : Pt → Pt → Bool) (a b p : Pt) : Bool := decide (0 < edge a b p) || (decide (edge a b p = 0) && tie a b)

/-- A triangle covers a point; degenerate triangles cover none. -/
def covers (tie : Pt → Pt → Bool) (a b c p : Pt) : Bool :=
  if 0 < edge a b c then onSide tie a b p && onSide tie b c p && onSide tie c a p
  else if edge a b c < 0 then onSide tie a c p && onSide tie c b p && onSide tie b a p
  else false

/-- Linear interpolation between the vertices (`gl_Position.w` is 1). -/
def interpolate (a b c p : Pt) (ta tb tc : Rat) : Rat := (edge b c p * ta + edge c a p * tb + edge a b p * tc) / edge a b c

/-- The fragments of a triangle at a point: none or one, with its texture coordinates. -/
def triangleFragments (tie : Pt → Pt → Bool) (pos tex : Nat → Pt) (i : Nat) (p : Pt) : List Pt :=
  if covers tie (pos i) (pos (i + 1)) (pos (i + 2)) p then
    [(interpolate (pos i) (pos (i + 1)) (pos (i + 2)) p (tex i).1 (tex (i + 1)).1 (tex (i + 2)).1,
      interpolate (pos i) (pos (i + 1)) (pos (i + 2)) p (tex i).2 (tex (i + 1)).2 (tex (i + 2)).2)]
  else []

/-- The centre of a pixel, counted from the left and from the top, in window coordinates. -/
def pixelCentre (view : Pt) (i j : Int) : Pt := (i + 1 / 2, view.2 - (j + 1 / 2))

/-- `glDrawArrays(GL_TRIANGLES, 0, 6)`, sample/pipeline.cpp:20-22, 86-88: the fragments of a rectangle at a pixel, with their
texture coordinates, in a window of size `view` and a container of size `size`. -/
def quadFragments (tie : Pt → Pt → Bool) (pipeline : PipelineIndex) (view size : Pt) (q : Quad Vec4) (i j : Int) : List Pt :=
  let pos := fun v => toWindow view (vertexPos pipeline (1 / size.1, 1 / size.2) q.extents v)
  let tex := vertexTex q.tex.coords
  triangleFragments tie pos tex 0 (pixelCentre view i j) ++ triangleFragments tie pos tex 3 (pixelCentre view i j)

/-- `GL_LINEAR`, sample/image.cpp:16-17: a texture of `extent` texels in both directions, away from its border. -/
def sampleLinear (extent : Nat) (texel : Int → Int → Rat) (uv : Pt) : Rat :=
  let s := uv.1 * extent - 1 / 2
  let t := uv.2 * extent - 1 / 2
  let a := s - ⌊s⌋
  let b := t - ⌊t⌋
  (1 - a) * (1 - b) * texel ⌊s⌋ ⌊t⌋ + a * (1 - b) * texel (⌊s⌋ + 1) ⌊t⌋ + (1 - a) * b * texel ⌊s⌋ (⌊t⌋ + 1) +
    a * b * texel (⌊s⌋ + 1) (⌊t⌋ + 1)

/-- `median`, sample/msdf_shader.hpp:37-39. -/
def shaderMedian (r g b : Rat) : Rat := max (min r g) (min (max r g) b)

/-- `smoothstep`; the specification leaves it undefined if the edges are not in order. -/
def smoothstep (e0 e1 x : Rat) : Option Rat :=
  if e0 < e1 then
    let t := max 0 (min 1 ((x - e0) / (e1 - e0)))
    some (t * t * (3 - 2 * t))
  else none

/-- The opacity of a fragment of the MSDF pipeline, sample/msdf_shader.hpp:42-46; `w` is the length of the derivatives. -/
def msdfOpacity (r g b w : Rat) : Option Rat := smoothstep (1 / 2 - w) (1 / 2 + w) (shaderMedian r g b)

end RichText
