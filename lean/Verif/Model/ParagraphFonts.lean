import Verif.Model.ShapeRequest
import Verif.Model.FontRegistry
import Verif.Model.TextRuns
/-!
Shaping a paragraph with the fonts of the registry: the functor of `build_paragraph`
(src/layout_builder.cpp:258-283) with `get_sub_font` and the whole of `shape_logical_run`
(src/layout_builder.cpp:377-490) put together.

* The cache of the thread (C47, C48) goes along: `get_sub_font` and `get_font_data` change it.
* `hb_shape` is a function of the font file, the size the FreeType face is set to, whether the HarfBuzz font has a scale (only
  from the second request for a face on, C79), the buffer and the features: `harfbuzz_font_create` makes the HarfBuzz font from the
  face alone, and its callbacks read the face.
* `hb_shape` reads the font it is given (`font->face`): without one (`FontData{}`, the file cannot be loaded) the result is `none`.
-/
namespace RichText

/-- What shaping a paragraph depends on. -/
structure ParagraphFonts where
  lib : FontLib
  reg : Registry
  text : ShapeText
  /-- the characters between two indices with their widths, as the `UText` of `get_sub_font` gives them -/
  chars : Nat → Nat → List (Nat × Nat)
  /-- `hb_shape` with a font made from a file and set to a size, and whether it has a scale -/
  hb : Nat → Nat → Bool → HbBuffer → List HbFeature → List HbGlyph
  vertical : Bool

/-- The request of `get_font_data(SingleScriptFont)`, src/font_registry.cpp:244-247. -/
def SingleScriptFont.request (f : SingleScriptFont) : FontRequest :=
  ⟨f.face, f.size.toNat, f.weight.zeroExtend 8, f.style, f.syntheticSmallCaps, f.syntheticSubscript, f.syntheticSuperscript⟩

namespace ParagraphFonts

/-- `fullText[i] == '\t'`. -/
def isTab (p : ParagraphFonts) (i : Nat) : Bool := p.text.mem[i]? == some 9

/-- `shape_logical_run`, src/layout_builder.cpp:377-490, for the characters from `first` to `stop` of the whole text. -/
def shapeRun (p : ParagraphFonts) (font : SingleScriptFont) (v : ShapeArgs) (first stop : Nat) (t : FontThread)
    (b : Shaped SingleScriptFont) : Option (FontThread × Shaped SingleScriptFont) :=
  match getFontData p.lib p.reg t font.request with
  | none => none
  -- hb_shape without a font
  | some (_, none) => none
  | some (t', some d) =>
    match t'.cache.lookup d.key with
    | none => none
    | some o =>
      match shapeGlyphs (fun _ => p.hb d.file o.height (t.cache.lookup d.key).isSome) p.text font (first - p.text.start) (stop - first) v.script
          (v.level % 2 == 1) p.vertical with
      | none => none
      | some gs => some (t', b.addShaped gs first (v.level % 2 == 1) p.vertical p.isTab d.spaceAdvance d.spaceGlyph)

/-- The loop in the functor, src/layout_builder.cpp:262-282.  A `get_sub_font` that does not move the offset loops forever: `none`. -/
def loop (p : ParagraphFonts) (v : ShapeArgs) (limit : Nat) (offset : Nat) (t : FontThread) (b : Shaped SingleScriptFont) :
    Option (FontThread × Nat × Shaped SingleScriptFont) :=
  if offset < limit then
    match getSubFont p.lib p.reg t v.font (p.chars offset limit) offset limit v.script v.smallcaps v.subscript v.superscript with
    | none => none
    | some (t, font, new) =>
      if offset < new then
        match p.shapeRun font v offset new t b with
        | none => none
        | some (t, b) => p.loop v limit new t (b.addRun SingleScriptFont.same font new)
      else none
  else some (t, offset, b)
termination_by limit - offset

/-- The functor on all its calls, src/layout_builder.cpp:258-283. -/
def shape (p : ParagraphFonts) : List (Nat × ShapeArgs) → Nat → FontThread → Shaped SingleScriptFont →
    Option (FontThread × Nat × Shaped SingleScriptFont)
  | [], offset, t, b => some (t, offset, b)
  | (limit, v) :: cs, offset, t, b =>
    match p.loop v limit offset t b with
    | none => none
    | some (t, offset, b) => p.shape cs offset t b

/-- The paragraphs of a text one after the other, src/layout_builder.cpp:193-235: end and result of shaping each; the thread goes
along. -/
def shapeAll : List (ParagraphFonts × List (Nat × ShapeArgs)) → FontThread → Option (FontThread × List (Nat × Shaped SingleScriptFont))
  | [], t => some (t, [])
  | (p, calls) :: ps, t =>
    match p.shape calls p.text.start t {} with
    | none => none
    | some (t, x) =>
      match shapeAll ps t with
      | none => none
      | some (t, xs) => some (t, x :: xs)

end ParagraphFonts

end RichText
