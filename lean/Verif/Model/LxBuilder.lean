import Verif.Model.LayoutBuilder
/-!
Model of `test/build_layout_info_lx.cpp`, the builder of the tests that records what `ParagraphLayout` of ICU's LayoutEx returns,
and of the levels the builders ask for.

* `none` is undefined behaviour, as in Model/LayoutBuilder.
* `icu::ParagraphLayout` is a parameter: for a level asked for, the level of the paragraph and its lines.
* Which fonts LayoutEx asks for (`LEMultiScript`) and what it reads of them is not modelled, but for their heights.
-/
namespace RichText
variable {φ : Type _}

/-! ### Levels -/

/-- `baseDefaultLevel`, src/layout_builder.cpp:174-182; bit 0 of the flags is `RIGHT_TO_LEFT`, bit 1 `OVERRIDE_DIRECTIONALITY`
(src/layout_info.hpp:22-35).  `SBLevelDefaultLTR` is 0xFE, `SBLevelDefaultRTL` 0xFF. -/
def mainBase (flags : Nat) : Nat :=
  if flags.testBit 1 then flags &&& 1
  else if flags &&& 1 = 0 then 0xFE else 0xFF

/-- `baseDefaultLevel`, test/build_layout_info_utf8.cpp:100-101. -/
def refBase (flags : Nat) : Nat := if flags &&& 1 = 0 then 0xFE else 0xFF

/-- `paragraphLevel` before the loop, test/build_layout_info_lx.cpp:148-153 and test/build_layout_info_icu.cpp:104-109.
`UBIDI_DEFAULT_LTR` is 0xFE, `UBIDI_DEFAULT_RTL` 0xFF, `UBIDI_LEVEL_OVERRIDE` 0x80. -/
def lxBase (flags : Nat) : Nat := (if flags &&& 1 = 0 then 0xFE else 0xFF) ||| (if flags.testBit 1 then 0x80 else 0)

/-! ### Lines -/

/-- What a `ParagraphLayout::VisualRun` gives: font, direction, glyphs, positions, characters of the glyphs relative to the
paragraph. -/
structure LxRun (φ : Type _) where
  font : φ
  rtl : Bool
  glyphs : List Nat
  positions : List (Rat × Rat)
  charMap : List Nat

/-- The loop over the glyphs, test/build_layout_info_lx.cpp:250-256: deleted ones are left out. -/
def lxGlyphs (off : Nat) : List Nat → List (Rat × Rat) → List Nat → Option (List GlyphSpec)
  | [], _, _ => some []
  | g :: gs, p :: ps, c :: cs =>
    (lxGlyphs off gs ps cs).map fun t => if g ≠ 0xFFFF then ⟨g, c + off, p.1, p.2⟩ :: t else t
  | _ :: _, _, _ => none

/-- `U16_FWD_1_UNSAFE`: over one code unit, over two if the first is a lead surrogate. -/
def lxForward (chars : List Nat) (i : Nat) : Option Nat :=
  (chars[i]?).map fun c => if 0xD800 ≤ c ∧ c < 0xDC00 then i + 2 else i + 1

/-- A visual run, test/build_layout_info_lx.cpp:258-276: the calls, and the characters for `highestRun`, the end being the one
behind the last character.  `pCharMap[glyphCount - 1]` is in front of the array if there are no glyphs. -/
def lxRun (chars : List Nat) (off : Nat) (r : LxRun φ) : Option (LayoutOp φ × VisualPiece) :=
  match lxGlyphs off r.glyphs r.positions r.charMap, r.positions[r.glyphs.length]?, r.charMap[0]?,
      (if r.glyphs.length = 0 then none else r.charMap[r.glyphs.length - 1]?) with
  | some gs, some p, some a, some z =>
    let first := if r.rtl then z else a
    let last := if r.rtl then a else z
    (lxForward chars (last + off)).map fun stop =>
      (.run r.font gs p.1 p.2 (first + off) stop r.rtl, ⟨0, first + off, stop, r.rtl⟩)
  | _, _, _, _ => none

/-- The runs of a line. -/
def lxRuns (chars : List Nat) (off : Nat) : List (LxRun φ) → Option (List (LayoutOp φ) × List VisualPiece)
  | [] => some ([], [])
  | r :: t =>
    match lxRun chars off r, lxRuns chars off t with
    | some x, some y => some (x.1 :: y.1, x.2 :: y.2)
    | _, _ => none

/-- Conversion of a `float` to `int32_t`: the fraction is dropped. -/
def lxTruncate (q : Rat) : Int := q.num.tdiv q.den

/-- `LESingleScript::getAscent`, test/build_layout_info_lx.cpp:75-77. -/
def lxAscent (m : Metrics) : Int := lxTruncate m.ascent

/-- `LESingleScript::getDescent`, test/build_layout_info_lx.cpp:79-81. -/
def lxDescent (m : Metrics) : Int := lxTruncate (-m.descent)

/-- `maxAscent` or `maxDescent` of a line, test/build_layout_info_lx.cpp:229-248. -/
def lxMax (f : φ → Int) : List (LxRun φ) → Int → Int
  | [], m => m
  | r :: t, m => lxMax f t (if f r.font > m then f r.font else m)

/-- `handle_line_icu_lx`, test/build_layout_info_lx.cpp:225-281. -/
def lxLine (chars : List Nat) (metrics : φ → Metrics) (off : Nat) (l : List (LxRun φ)) :
    Option (List (LayoutOp φ) × List VisualPiece) :=
  let a := lxMax (fun f => lxAscent (metrics f)) l 0
  let d := lxMax (fun f => lxDescent (metrics f)) l 0
  (lxRuns chars off l).map fun r => (r.1 ++ [.line ((a + d : Int) : Rat) ((a : Int) : Rat)], r.2)

/-- The lines of a paragraph, test/build_layout_info_lx.cpp:192-195. -/
def lxLines (chars : List Nat) (metrics : φ → Metrics) (off : Nat) :
    List (List (LxRun φ)) → Option (List (LayoutOp φ) × List VisualPiece)
  | [] => some ([], [])
  | l :: t =>
    match lxLine chars metrics off l, lxLines chars metrics off t with
    | some x, some y => some (x.1 ++ y.1, x.2 ++ y.2)
    | _, _ => none

/-! ### The whole text -/

/-- A paragraph: its length with the separator, the length of the separator, what `ParagraphLayout` returns for a level (the level
of the paragraph and its lines), font and metrics for an empty line. -/
structure LxPara (φ : Type _) where
  length : Nat
  separator : Nat
  layout : Nat → Nat × List (List (LxRun φ))
  defaultFont : φ
  defaultMetrics : Metrics

/-- `paragraphLevel` after a paragraph, test/build_layout_info_lx.cpp:163, 186-188. -/
def LxPara.next (p : LxPara φ) (level : Nat) : Nat :=
  if p.length - p.separator > 0 ∧ level = 0xFE then (p.layout level).1 else level

/-- The calls for one paragraph, test/build_layout_info_lx.cpp:160-206: calls, `lastHighestRun`, number of runs after. -/
def lxParagraph (chars : List Nat) (metrics : φ → Metrics) (p : LxPara φ) (off runCount level : Nat) :
    Option (List (LayoutOp φ) × Nat × Nat) :=
  if p.length - p.separator > 0 then
    (lxLines chars metrics off (p.layout level).2).map fun r =>
      (r.1, (highest r.2 runCount (0, -2147483648)).1, runCount + r.2.length)
  else some ([.emptyLine p.defaultFont off (p.defaultMetrics.ascent - p.defaultMetrics.descent) p.defaultMetrics.ascent],
    runCount, runCount + 1)

/-- The loop, test/build_layout_info_lx.cpp:155-219.  Paragraphs and separators are those of `icuScan` (the code that finds them,
155-159 and 208-217, is that of test/build_layout_info_icu.cpp:116-150); the separator of the last one is not set. -/
def lxParagraphs (chars : List Nat) (metrics : φ → Metrics) : List (LxPara φ) → Nat → Nat → Nat → Option (List (LayoutOp φ))
  | [], _, _, _ => some []
  | p :: t, off, runCount, level =>
    match lxParagraph chars metrics p off runCount level with
    | none => none
    | some r =>
      if t.isEmpty then some r.1
      else (lxParagraphs chars metrics t (off + p.length) r.2.2 (p.next level)).map fun rest =>
        r.1 ++ [.setOffset r.2.1 p.separator] ++ rest

/-- `build_layout_info_icu_lx`, test/build_layout_info_lx.cpp:132-223. -/
def lxLayout (L : Layout φ) (chars : List Nat) (metrics : φ → Metrics) (ps : List (LxPara φ)) (flags : Nat)
    (yAlign : YAlignment) (areaHeight : Rat) : Option (Layout φ) :=
  (lxParagraphs chars metrics ps 0 0 (lxBase flags)).bind fun ops =>
  (execLayout L (.clear :: ops)).map fun L' => L'.alignY areaHeight yAlign

end RichText
