import Verif.Model.FontRegistry
/-!
Model of the objects that `FontData` makes with FreeType to draw a glyph or the stroke around it (`src/font_data.hpp`,
`src/font_data.cpp`): which exist, which are given back, and whether those used still exist.

* FreeType is a parameter: which glyphs load (all loaded with `FT_LOAD_NO_BITMAP`, so as outlines), which strokes can be
  made, which can be rendered.  What the functions do to objects and pointers is that of FreeType's documentation and of
  `ftglyph.c`, `ftstroke.c`; memory is never exhausted.
* `none` is undefined behaviour: use of an object that does not exist or has another type, through a pointer that is null
  or was never set.
* The contents of outlines and bitmaps are not modelled here (C67, C81-C83).
-/
namespace RichText

/-- What an object is: `FT_OutlineGlyph`, `FT_BitmapGlyph`, `FT_Stroker`, the points of an `FT_Outline` made by
`FT_Outline_New`, and the memory for an `FT_Outline`. -/
inductive FtKind where
  | outlineGlyph
  | bitmapGlyph
  | stroker
  | points
  | record
deriving Repr, DecidableEq

/-- An object, with its address. -/
structure FtObj where
  id : Nat
  kind : FtKind
deriving Repr, DecidableEq

/-- FreeType: whether `FT_Load_Glyph` succeeds for a glyph of a face, and `FT_Glyph_Stroke` and `FT_Glyph_To_Bitmap` for
its stroke of a thickness. -/
structure StrokeLib where
  loads : Nat → Nat → Bool
  strokes : Nat → Nat → Nat → Bool
  renders : Nat → Nat → Nat → Bool

/-- The glyph slot of a face: how often it was overwritten, and the glyph in it if one is. -/
structure FtSlot where
  stamp : Nat
  glyph : Option Nat
deriving Repr, DecidableEq

/-- The objects that exist, addresses given so far, the slots of the faces. -/
structure FtHeap where
  live : List FtObj
  next : Nat
  slot : Nat → FtSlot

/-- Where the data passed to a functor is: `ftFace->glyph` as it was at a time, or an object. -/
inductive FtData where
  | slot (face stamp : Nat)
  | obj (o : FtObj)
deriving Repr, DecidableEq

namespace FtHeap

/-- A new object. -/
def alloc (s : FtHeap) (k : FtKind) : FtObj × FtHeap := (⟨s.next, k⟩, { s with live := ⟨s.next, k⟩ :: s.live, next := s.next + 1 })

/-- Read or write an object of a kind through a pointer. -/
def touch (s : FtHeap) (p : Option FtObj) (k : FtKind) : Option FtObj :=
  p.bind fun o => if o ∈ s.live ∧ o.kind = k then some o else none

/-- Give an object back. -/
def free (s : FtHeap) (p : Option FtObj) : Option FtHeap :=
  p.bind fun o => if o ∈ s.live then some { s with live := s.live.erase o } else none

/-- `FT_Load_Glyph`: the slot is emptied first. -/
def load (lib : StrokeLib) (s : FtHeap) (face glyph : Nat) : FtHeap :=
  { s with slot := fun f => if f = face then ⟨(s.slot f).stamp + 1, if lib.loads face glyph then some glyph else none⟩ else s.slot f }

/-- `FT_Render_Glyph` on the slot, or another change of what is in it. -/
def rewrite (s : FtHeap) (face : Nat) : FtHeap :=
  { s with slot := fun f => if f = face then ⟨(s.slot f).stamp + 1, (s.slot f).glyph⟩ else s.slot f }

/-- `FT_Get_Glyph`: a copy of the slot; from an empty slot none is made and the pointer is not set. -/
def getGlyph (s : FtHeap) (face : Nat) : Option FtObj × FtHeap :=
  match (s.slot face).glyph with
  | some _ => ((s.alloc .outlineGlyph).1, (s.alloc .outlineGlyph).2)
  | none => (none, s)

/-- `FT_Glyph_Stroke(&glyph, stroker, destroy)`: the pointer is set to the stroke; the glyph it was made of is given back
if `destroy`; if there is no stroke the pointer is set to null unless `destroy`. -/
def strokeGlyph (s : FtHeap) (ok destroy : Bool) (glyph stroker : Option FtObj) : Option (Option FtObj × FtHeap) :=
  (s.touch glyph .outlineGlyph).bind fun g =>
  (s.touch stroker .stroker).bind fun _ =>
  match ok, destroy with
  | true, true => ((s.alloc .outlineGlyph).2.free g).map fun s' => (some (s.alloc .outlineGlyph).1, s')
  | true, false => some (some (s.alloc .outlineGlyph).1, (s.alloc .outlineGlyph).2)
  | false, true => some (some g, s)
  | false, false => some (none, s)

/-- `FT_Glyph_To_Bitmap(&glyph, mode, nullptr, destroy)`: the pointer is set to the bitmap and the outline given back if
`destroy`; nothing changes if it cannot be rendered. -/
def toBitmap (s : FtHeap) (ok destroy : Bool) (glyph : Option FtObj) : Option (Option FtObj × FtHeap) :=
  (s.touch glyph .outlineGlyph).bind fun g =>
  match ok, destroy with
  | true, true => ((s.alloc .bitmapGlyph).2.free g).map fun s' => (some (s.alloc .bitmapGlyph).1, s')
  | true, false => some (some (s.alloc .bitmapGlyph).1, (s.alloc .bitmapGlyph).2)
  | false, _ => some (glyph, s)

/-- Data can be read: the slot was not overwritten since, the object exists. -/
def readable (s : FtHeap) : FtData → Bool
  | .slot f stamp => (s.slot f).stamp == stamp
  | .obj o => decide (o ∈ s.live)

end FtHeap

/-- A functor passed to one of the templates: it gets the data, and may itself use FreeType. -/
abbrev FtUse := FtHeap → FtData → Option FtHeap

/-- The functor of `TextAtlas` (sample/text_atlas.cpp:41-43, 74-76) and of `MSDFTextAtlas`
(sample/msdf_text_atlas.cpp:68-70, 104-106): it reads the data. -/
def readData : FtUse := fun s d => if s.readable d then some s else none

/-- `try_apply_synthetics(ftFace, outline, synthInfo)`, src/font_data.cpp:250-275: may change the outline given and that of
the slot. -/
def applySynthetics (s : FtHeap) (face : Nat) (synthetic : Bool) : FtHeap := if synthetic then s.rewrite face else s

/-- `rasterize_glyph`, src/font_data.hpp:88-91 with `rasterize_glyph_internal`, src/font_data.cpp:102-134: errors are
ignored. -/
def rasterizeGlyph (lib : StrokeLib) (synthetic : Bool) (face glyph : Nat) (f : FtUse) (s : FtHeap) : Option FtHeap :=
  let s := (applySynthetics (s.load lib face glyph) face synthetic).rewrite face
  f s (.slot face (s.slot face).stamp)

/-- `load_glyph_curve`, src/font_data.hpp:107-110 with `load_glyph_curve_internal`, src/font_data.cpp:189-193. -/
def loadCurve (lib : StrokeLib) (synthetic : Bool) (face glyph : Nat) (f : FtUse) (s : FtHeap) : Option FtHeap :=
  let s := applySynthetics (s.load lib face glyph) face synthetic
  f s (.slot face (s.slot face).stamp)

/-- `rasterize_outline_internal`, src/font_data.cpp:136-182: the stroker, the glyph and the state. -/
def strokeBitmap (lib : StrokeLib) (synthetic : Bool) (face glyph thickness : Nat) (s : FtHeap) :
    Option (FtObj × Option FtObj × FtHeap) :=
  let s := s.load lib face glyph
  let g := s.getGlyph face
  -- `glyph->format = …`
  (g.2.touch g.1 .outlineGlyph).bind fun _ =>
  let st := g.2.alloc .stroker
  (st.2.strokeGlyph (lib.strokes face glyph thickness) false g.1 (some st.1)).bind fun r =>
  -- the outline of the glyph
  (r.2.touch r.1 .outlineGlyph).bind fun _ =>
  ((applySynthetics r.2 face synthetic).toBitmap (lib.renders face glyph thickness) true r.1).bind fun b =>
  -- `bmpGlyph->bitmap`
  (b.2.touch b.1 .bitmapGlyph).map fun _ => (st.1, b.1, b.2)

/-- `rasterize_outline_finish`, src/font_data.cpp:184-187. -/
def strokeBitmapFinish (stroker : FtObj) (glyph : Option FtObj) (s : FtHeap) : Option FtHeap :=
  (s.free (some stroker)).bind fun s => s.free glyph

/-- `rasterize_glyph_outline`, src/font_data.hpp:98-105. -/
def rasterizeStroke (lib : StrokeLib) (synthetic : Bool) (face glyph thickness : Nat) (f : FtUse) (s : FtHeap) : Option FtHeap :=
  (strokeBitmap lib synthetic face glyph thickness s).bind fun r =>
  r.2.1.bind fun o =>
  (f r.2.2 (.obj o)).bind fun s => strokeBitmapFinish r.1 r.2.1 s

/-- `load_outline_curve_internal`, src/font_data.cpp:195-241: the outline with its points, the stroker, the glyph and the
state. -/
def strokeOutline (lib : StrokeLib) (synthetic : Bool) (face glyph thickness : Nat) (s : FtHeap) :
    Option ((FtObj × FtObj) × FtObj × Option FtObj × FtHeap) :=
  let s := s.load lib face glyph
  let g := s.getGlyph face
  (g.2.touch g.1 .outlineGlyph).bind fun _ =>
  let st := g.2.alloc .stroker
  (st.2.strokeGlyph (lib.strokes face glyph thickness) false g.1 (some st.1)).bind fun r =>
  let rc := r.2.alloc .record
  -- `glyph->library`
  (rc.2.touch r.1 .outlineGlyph).map fun _ =>
  let ps := rc.2.alloc .points
  ((rc.1, ps.1), st.1, r.1, applySynthetics ps.2 face synthetic)

/-- `outline_curve_finish`, src/font_data.cpp:243-248. -/
def strokeOutlineFinish (outline : FtObj × FtObj) (stroker : FtObj) (glyph : Option FtObj) (s : FtHeap) : Option FtHeap :=
  (s.touch glyph .outlineGlyph).bind fun _ =>
  (s.touch (some outline.1) .record).bind fun _ =>
  (s.free (some outline.2)).bind fun s =>
  (s.free (some stroker)).bind fun s =>
  (s.free glyph).bind fun s =>
  s.free (some outline.1)

/-- `load_glyph_outline_curve`, src/font_data.hpp:112-122. -/
def loadStrokeCurve (lib : StrokeLib) (synthetic : Bool) (face glyph thickness : Nat) (f : FtUse) (s : FtHeap) : Option FtHeap :=
  (strokeOutline lib synthetic face glyph thickness s).bind fun r =>
  (f r.2.2.2 (.obj r.1.2)).bind fun s => strokeOutlineFinish r.1 r.2.1 r.2.2.1 s

/-- A request to `FontData`. -/
inductive DrawRequest where
  | glyph (face glyph : Nat) (synthetic : Bool)
  | curve (face glyph : Nat) (synthetic : Bool)
  | stroke (face glyph thickness : Nat) (synthetic : Bool)
  | strokeCurve (face glyph thickness : Nat) (synthetic : Bool)
deriving Repr, DecidableEq

/-- A request with its functor. -/
def DrawRequest.run (lib : StrokeLib) (f : FtUse) : DrawRequest → FtHeap → Option FtHeap
  | .glyph a g y => rasterizeGlyph lib y a g f
  | .curve a g y => loadCurve lib y a g f
  | .stroke a g t y => rasterizeStroke lib y a g t f
  | .strokeCurve a g t y => loadStrokeCurve lib y a g t f

/-- Several requests of the atlases. -/
def runRequests (lib : StrokeLib) : List DrawRequest → FtHeap → Option FtHeap
  | [], s => some s
  | r :: t, s => (r.run lib readData s).bind (runRequests lib t)

end RichText
