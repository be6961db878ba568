import Verif.Model.FontRegistry
/-!
Model of the part of `src/font_data.cpp` that makes weights and styles a font does
not have out of those it has.

* An outline is a value of any type; FreeType's operations on it are the fields of
  `OutlineLib`.
* Storage: a face has one glyph slot with an outline; strokes are outlines of
  their own.  References to outlines are `Target`.
* Floats are exact rationals; conversions to integers truncate.
* `none` is undefined behaviour (`BOLD_SCALE` indexed out of range).
* Errors of FreeType are not modelled; the code ignores them.
-/
namespace RichText

/-- FreeType for one face: the outline loaded for a glyph at a size, and without
scaling; `FT_Glyph_Stroke` for a thickness (in FreeType's units) and type of
joins; `FT_Outline_EmboldenXY`; `FT_Outline_Translate` to the right;
`FT_Outline_Transform` by a shear (true: to the right); the size of the em in
pixels (26.6) at a size; `FT_FACE_FLAG_FIXED_WIDTH`. -/
structure OutlineLib (α : Type) where
  load : Nat → Nat → α
  loadUnscaled : Nat → α
  stroke : Int → Nat → α → α
  embolden : Int → Int → α → α
  translate : Int → α → α
  shear : Bool → α → α
  emX : Nat → Int
  emY : Nat → Int
  fixedWidth : Bool

/-- `SyntheticFontInfo`, src/font_common.hpp, the part used here. -/
structure SynthInfo where
  srcWeight : Nat
  dstWeight : Nat
  srcStyle : FontStyle
  dstStyle : FontStyle
deriving Repr, DecidableEq

/-- `BOLD_SCALE`, src/font_data.cpp:13-23. -/
def boldScale (weight : Nat) : Option Rat :=
  [(-1 : Rat) / 14, -1 / 18, -1 / 32, 0, 1 / 32, 1 / 18, 1 / 14, 1 / 11, 1 / 9][weight]?

/-- The outlines in memory: that of the face's glyph slot and the one made by the
current call. -/
structure Outlines (α : Type) where
  slot : α
  own : α
deriving Repr, DecidableEq

/-- Which of them a reference means. -/
inductive Target where
  | slot
  | own
deriving Repr, DecidableEq

/-- Read through a reference. -/
def Outlines.get {α : Type} (m : Outlines α) : Target → α
  | .slot => m.slot
  | .own => m.own

/-- Write through a reference. -/
def Outlines.set {α : Type} (m : Outlines α) (o : α) : Target → Outlines α
  | .slot => { m with slot := o }
  | .own => { m with own := o }

/-- A float to an integer: towards zero. -/
def truncRat (q : Rat) : Int := q.num.tdiv q.den

/-- `apply_synthetic_italic`, src/font_data.cpp:278-290. -/
def applyItalic {α : Type} (L : OutlineLib α) (info : SynthInfo) (ref : Target) (m : Outlines α) : Outlines α :=
  m.set (L.shear (info.dstStyle == .italic) (m.get ref)) ref

/-- `apply_synthetic_bold`, src/font_data.cpp:259-276, at a size.  Not `outline`
but the outline of the glyph slot is emboldened. -/
def applyBold {α : Type} (L : OutlineLib α) (size : Nat) (info : SynthInfo) (ref : Target) (m : Outlines α) : Option (Outlines α) :=
  match boldScale info.dstWeight with
  | none => none
  | some s =>
    let extraX : Rat := L.emX size * s
    let extraY : Rat := L.emY size * s * (2 / 5)
    let m := { m with slot := L.embolden (truncRat extraX) (truncRat extraY) m.slot }
    some (if L.fixedWidth then m.set (L.translate (truncRat (extraX / -2)) (m.get ref)) ref else m)

/-- `try_apply_synthetics`, src/font_data.cpp:249-257. -/
def trySynthetics {α : Type} (L : OutlineLib α) (size : Nat) (info : SynthInfo) (ref : Target) (m : Outlines α) :
    Option (Outlines α) :=
  let m := if info.srcStyle ≠ info.dstStyle then applyItalic L info ref m else m
  if info.srcWeight ≠ info.dstWeight then applyBold L size info ref m else some m

/-- The outline drawn by `rasterize_glyph_internal`, src/font_data.cpp:105-108,
and memory afterwards. -/
def renderGlyph {α : Type} (L : OutlineLib α) (size : Nat) (info : SynthInfo) (glyph : Nat) (m : Outlines α) :
    Option (α × Outlines α) :=
  (trySynthetics L size info .slot { m with slot := L.load size glyph }).map fun m => (m.slot, m)

/-- The outline drawn by `rasterize_outline_internal`, src/font_data.cpp:138-168:
a copy of the glyph is stroked, 64 units of FreeType being one pixel. -/
def renderStroke {α : Type} (L : OutlineLib α) (size : Nat) (info : SynthInfo) (glyph thickness joins : Nat) (m : Outlines α) :
    Option (α × Outlines α) :=
  (trySynthetics L size info .own
    ⟨L.load size glyph, L.stroke (thickness * 64 : Nat) joins (L.load size glyph)⟩).map fun m => (m.own, m)

/-- The outline of `load_glyph_curve_internal`, src/font_data.cpp:194-198, in font
units (`FT_LOAD_NO_SCALE`). -/
def curve {α : Type} (L : OutlineLib α) (size : Nat) (info : SynthInfo) (glyph : Nat) (m : Outlines α) : Option (α × Outlines α) :=
  (trySynthetics L size info .slot { m with slot := L.loadUnscaled glyph }).map fun m => (m.slot, m)

/-- The outline of `load_outline_curve_internal`, src/font_data.cpp:200-241. -/
def strokeCurve {α : Type} (L : OutlineLib α) (size : Nat) (info : SynthInfo) (glyph thickness joins : Nat) (m : Outlines α) :
    Option (α × Outlines α) :=
  (trySynthetics L size info .own
    ⟨L.loadUnscaled glyph, L.stroke (thickness * 64 : Nat) joins (L.loadUnscaled glyph)⟩).map fun m => (m.own, m)

end RichText
