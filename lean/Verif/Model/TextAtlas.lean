import Verif.Model.Font
import Verif.Model.FontSize
/-!
Model of `sample/text_atlas.cpp`: glyph bitmaps packed into texture pages, and the
maps from glyphs to their places.  `sample/msdf_text_atlas.cpp:119-183` packs in
the same way, with a padding of 2: the padding is a parameter.

* The texture images are left out; a write into one is the rectangle written.
* A texture coordinate is a multiple of 1/2048 (exact in `float`), so the
  rectangle in pixels is kept.
* `none` is undefined behaviour.
-/
namespace RichText

/-- `uint32_t` arithmetic wraps round. -/
def wrap32 (n : Nat) : Nat := n % 4294967296

/-- `TEXTURE_EXTENT`, sample/text_atlas.cpp:13, sample/msdf_text_atlas.cpp:22. -/
def atlasExtent : Nat := 2048

/-- `TextAtlas::Page`, sample/text_atlas.hpp:26-32. -/
structure AtlasPage where
  x : Nat
  y : Nat
  lineHeight : Nat
  hasColor : Bool
deriving Repr, DecidableEq

/-- Where a bitmap is: the page and the rectangle written. -/
structure Place where
  page : Nat
  x : Nat
  y : Nat
  w : Nat
  h : Nat
deriving Repr, DecidableEq

/-- `page_can_fit_glyph`, sample/text_atlas.cpp:177-180,
sample/msdf_text_atlas.cpp:180-183. -/
def AtlasPage.fits (p : AtlasPage) (w h : Nat) : Bool :=
  (wrap32 (p.x + w) ≤ atlasExtent && wrap32 (p.y + h) ≤ atlasExtent) ||
    (w ≤ atlasExtent && wrap32 (wrap32 (p.y + p.lineHeight) + h) ≤ atlasExtent)

/-- `get_or_create_target_page`, sample/text_atlas.cpp:157-175,
sample/msdf_text_atlas.cpp:160-178. -/
def targetPage (pages : List AtlasPage) (w h : Nat) (hasColor : Bool) : List AtlasPage × Nat :=
  match pages.findIdx? fun p => p.hasColor == hasColor && p.fits w h with
  | some i => (pages, i)
  | none => (pages ++ [⟨0, 0, 0, hasColor⟩], pages.length)

/-- The line a bitmap goes on, sample/text_atlas.cpp:134-138. -/
def AtlasPage.wrapLine (p : AtlasPage) (padW padH : Nat) : AtlasPage :=
  if wrap32 (p.x + padW) > atlasExtent then
    { p with x := 0, y := wrap32 (p.y + p.lineHeight), lineHeight := padH }
  else p

/-- `upload_glyph`, sample/text_atlas.cpp:129-155, sample/msdf_text_atlas.cpp:119-146. -/
def uploadGlyph (pad : Nat) (pages : List AtlasPage) (w h : Nat) (hasColor : Bool) : Option (List AtlasPage × Place) :=
  let padW := wrap32 (w + pad)
  let padH := wrap32 (h + pad)
  let (pages, i) := targetPage pages padW padH hasColor
  match pages[i]? with
  | none => none
  | some p =>
    let p := p.wrapLine padW padH
    some (pages.set i { p with x := wrap32 (p.x + padW), lineHeight := if p.lineHeight < padH then padH else p.lineHeight },
      ⟨i, p.x, p.y, w, h⟩)

/-- `TextAtlas::GlyphKey`, sample/text_atlas.hpp:42-50, compared field by field,
sample/text_atlas.cpp:184-187. -/
structure GlyphKey where
  size : Nat
  glyph : Nat
  face : BitVec 16
  weight : BitVec 4
  style : FontStyle
deriving DecidableEq

/-- `TextAtlas::StrokeKey`, sample/text_atlas.hpp:56-64, compared field by field,
sample/text_atlas.cpp:204-207. -/
structure StrokeKey where
  size : Nat
  glyph : Nat
  face : BitVec 16
  thickness : Nat
  joins : Nat
deriving DecidableEq

/-- What FreeType renders, `Text::FontRasterizeInfo`, src/font_data.hpp. -/
structure Raster where
  width : Nat
  height : Nat
  offsetX : Rat
  offsetY : Rat
  hasColor : Bool
deriving Repr, DecidableEq

/-- `TextAtlas::GlyphInfo`, sample/text_atlas.hpp:34-40: the place is `none` if the
page is null. -/
structure GlyphInfo where
  width : Nat
  height : Nat
  offsetX : Rat
  offsetY : Rat
  place : Option Place
deriving DecidableEq

/-- What a request for a glyph answers. -/
structure GlyphAnswer where
  place : Option Place
  width : Nat
  height : Nat
  offsetX : Rat
  offsetY : Rat
  hasColor : Bool
deriving DecidableEq

/-- `TextAtlas`, sample/text_atlas.hpp:70-72. -/
structure Atlas where
  pages : List AtlasPage := []
  glyphs : GlyphKey → Option GlyphInfo := fun _ => none
  strokes : StrokeKey → Option GlyphInfo := fun _ => none

/-- FreeType and the font data: glyphs, strokes, and `get_baseline_offset`,
src/font.hpp:92-95. -/
structure RasterEnv where
  glyph : SingleScriptFont → Nat → Raster
  stroke : SingleScriptFont → Nat → Nat → Nat → Raster
  baseline : SingleScriptFont → Rat

/-- `get_effective_size`, src/font.hpp:88-90. -/
def SingleScriptFont.effectiveSize (f : SingleScriptFont) : Option Nat :=
  RichText.effectiveSize f.size.toNat f.syntheticSmallCaps (f.syntheticSubscript || f.syntheticSuperscript)

/-- sample/text_atlas.cpp:26. -/
def glyphKey (f : SingleScriptFont) (g : Nat) : Option GlyphKey :=
  f.effectiveSize.map fun size => ⟨size, g, f.face.handle, f.weight, f.style⟩

/-- sample/text_atlas.cpp:59. -/
def strokeKey (f : SingleScriptFont) (g thickness joins : Nat) : Option StrokeKey :=
  f.effectiveSize.map fun size => ⟨size, g, f.face.handle, thickness, joins⟩

/-- `handle_rasterization`, sample/text_atlas.cpp:94-127; the pixels are left out. -/
def handleRaster (pages : List AtlasPage) (r : Raster) : Option (List AtlasPage × GlyphInfo) :=
  if r.width > 0 ∧ r.height > 0 then
    match uploadGlyph 1 pages r.width r.height r.hasColor with
    | none => none
    | some (pages, pl) => some (pages, ⟨r.width, r.height, r.offsetX, r.offsetY, some pl⟩)
  else some (pages, ⟨r.width, r.height, r.offsetX, r.offsetY, none⟩)

/-- The answer for a glyph found in the map, sample/text_atlas.cpp:28-35 and 61-68.
`&it->second.pPage->image` of a null page is undefined. -/
def cachedAnswer (pages : List AtlasPage) (base : Rat) (info : GlyphInfo) : Option GlyphAnswer :=
  match info.place with
  | none => none
  | some pl => (pages[pl.page]?).map fun p => ⟨some pl, info.width, info.height, info.offsetX, info.offsetY + base, p.hasColor⟩

/-- `get_glyph_info`, sample/text_atlas.cpp:24-55. -/
def Atlas.getGlyph (env : RasterEnv) (a : Atlas) (f : SingleScriptFont) (g : Nat) : Option (Atlas × GlyphAnswer) :=
  match glyphKey f g with
  | none => none
  | some key =>
    match a.glyphs key with
    | some info => (cachedAnswer a.pages (env.baseline f) info).map fun ans => (a, ans)
    | none =>
      let r := env.glyph f g
      match handleRaster a.pages r with
      | none => none
      | some (pages, info) =>
        some ({ a with pages := pages, glyphs := fun k => if k = key then some info else a.glyphs k },
          ⟨info.place, info.width, info.height, info.offsetX, info.offsetY + env.baseline f, r.hasColor⟩)

/-- `get_stroke_info`, sample/text_atlas.cpp:57-88. -/
def Atlas.getStroke (env : RasterEnv) (a : Atlas) (f : SingleScriptFont) (g thickness joins : Nat) :
    Option (Atlas × GlyphAnswer) :=
  match strokeKey f g thickness joins with
  | none => none
  | some key =>
    match a.strokes key with
    | some info => (cachedAnswer a.pages (env.baseline f) info).map fun ans => (a, ans)
    | none =>
      let r := env.stroke f g thickness joins
      match handleRaster a.pages r with
      | none => none
      | some (pages, info) =>
        some ({ a with pages := pages, strokes := fun k => if k = key then some info else a.strokes k },
          ⟨info.place, info.width, info.height, info.offsetX, info.offsetY + env.baseline f, r.hasColor⟩)

end RichText
