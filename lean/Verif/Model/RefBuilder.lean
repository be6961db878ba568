import Verif.Model.LayoutBuilder
/-!
Model of `test/build_layout_info_utf8.cpp`, the earlier builder that the regression test
(test/test_layout_info.cpp:83-105, 121-141) compares `LayoutBuilder` with.

* Same conventions as Model/LayoutBuilder: `none` is undefined behaviour or a loop without
  end; libraries are parameters (`ParaEnv`; its fields for tabs and vertical text are not
  used); positions in 1/64 are integers, additions of `float`s exact.
* The logical runs (font, arguments of shaping, end) are given.  The code computes them from
  the runs of fonts, scripts and levels (lines 151-190); that is not modelled.
* Indices of logical runs are relative to the paragraph, as in the code.
-/
namespace RichText
variable {β φ : Type _}

/-- `LogicalRun`, test/build_layout_info_utf8.cpp:47-54: `rtl` is `level & 1`; the end is
relative to the paragraph. -/
structure RefRun (φ : Type _) extends LogicalRun φ where
  rtl : Bool
deriving Repr, DecidableEq

/-- The vectors of `LayoutBuildState`, test/build_layout_info_utf8.cpp:39-44, and the logical
runs; positions as pairs. -/
structure RefShaped (φ : Type _) where
  glyphs : List Nat := []
  charIdx : List Nat := []
  positions : List (Int × Int) := []
  widths : List Int := []
  runs : List (RefRun φ) := []
deriving Repr, DecidableEq

/-- A logical run to be shaped: font, other arguments, end relative to the paragraph. -/
structure RefPiece (β φ : Type _) where
  font : φ
  args : β
  stop : Nat

/-! ### Shaping -/

/-- The positions of a shaped buffer, one more than glyphs,
test/build_layout_info_utf8.cpp:408-423. -/
def refPositions : Int → Int → List HbGlyph → List (Int × Int)
  | x, y, [] => [(x, y)]
  | x, y, g :: t => (x + g.xOffset, y + g.yOffset) :: refPositions (x + g.xAdvance) (y + g.yAdvance) t

/-- The widths in visual order, test/build_layout_info_utf8.cpp:430-436 and 448-454. -/
def refWidths : List HbGlyph → List Int
  | [] => []
  | [g] => [g.xAdvance - g.xOffset]
  | g :: h :: t => (g.xAdvance + h.xOffset - g.xOffset) :: refWidths (h :: t)

/-- `shape_logical_run` after the call of HarfBuzz, test/build_layout_info_utf8.cpp:405-457,
and the end of the run, line 208.  `off` is `offset`.  The loop for right-to-left text starts
at `glyphCount - 1`, which is out of range for an empty buffer. -/
def RefShaped.add (b : RefShaped φ) (e : ParaEnv β φ) (off : Nat) (q : RefPiece β φ) : Option (RefShaped φ) :=
  let hb := e.shape q.font q.args (e.line.start + off) (e.line.start + q.stop)
  if e.reversed q.args && hb.isEmpty then none
  else some
    { glyphs := b.glyphs ++ revIf (e.reversed q.args) (hb.map (·.glyph))
      charIdx := b.charIdx ++ revIf (e.reversed q.args) (hb.map fun g => g.cluster + off + e.line.start)
      positions := b.positions ++ refPositions 0 0 hb
      widths := b.widths ++ revIf (e.reversed q.args) (refWidths hb)
      runs := b.runs ++ [⟨⟨q.font, q.stop, b.glyphs.length + hb.length⟩, e.reversed q.args⟩] }

/-- All logical runs, test/build_layout_info_utf8.cpp:204-210. -/
def refShape (e : ParaEnv β φ) : List (RefPiece β φ) → Nat → RefShaped φ → Option (RefShaped φ)
  | [], _, b => some b
  | q :: t, off, b => (b.add e off q).bind (refShape e t q.stop)

/-! ### Lines -/

/-- The loop that accumulates widths, test/build_layout_info_utf8.cpp:240-244: glyph index and
`lineWidthSoFar`. -/
def refFit (area : Int) (widths : List Int) (i : Nat) (soFar : Int) : Nat × Int :=
  match h : widths[i]? with
  | none => (i, soFar)
  | some w => if soFar + w ≤ area then refFit area widths (i + 1) (soFar + w) else (i, soFar)
termination_by widths.length - i
decreasing_by
  have := (List.getElem?_eq_some_iff.1 h).1
  omega

/-- The loop over white space, test/build_layout_info_utf8.cpp:463-472. -/
def refSkip (e : LineEnv) (i : Nat) : Option Nat :=
  if i < e.length then
    if e.hangs i then
      if i < e.next i then refSkip e (e.next i) else none
    else some i
  else some i
termination_by e.length - i

/-- `find_previous_line_break`, test/build_layout_info_utf8.cpp:459-479; past the end as in
`findPreviousLineBreak`. -/
def refFindBreak (e : LineEnv) (i : Nat) : Option Int :=
  (refSkip e i).map fun j => e.preceding (if j < e.length then e.next j else j + 1)

/-- One iteration of the line loop, test/build_layout_info_utf8.cpp:232-266: the line end.
Lines 249-266 are the same code as src/layout_builder.cpp:339-356. -/
def refBreak (e : LineEnv) (charIdx : List Nat) (widths : List Int) (lineStart : Nat) : Option Nat :=
  (binarySearch (fun i => (charIdx[i]?).map (fun c => decide (c < lineStart))) 0 charIdx.length).bind fun g =>
  let f := refFit e.area widths g 0
  let i := if f.2 = 0 ∧ f.1 < charIdx.length then f.1 + 1 else f.1
  (refFindBreak e (breakFrom e charIdx i - e.start)).map fun p =>
  (lastBreak e charIdx.length lineStart (forceBreak charIdx lineStart (p + e.start) i)).toNat

/-- The line loop, test/build_layout_info_utf8.cpp:228-270: start and end of each line.  The
fuel is the number of iterations allowed. -/
def refBreaks (e : LineEnv) (charIdx : List Nat) (widths : List Int) : Nat → Nat → Option (List (Nat × Nat))
  | fuel, lineEnd =>
    if lineEnd < e.start + e.length then
      match fuel with
      | 0 => none
      | fuel + 1 =>
        match refBreak e charIdx widths lineEnd with
        | none => none
        | some stop => (refBreaks e charIdx widths fuel stop).map ((lineEnd, stop) :: ·)
    else some []

/-- All lines, test/build_layout_info_utf8.cpp:215-270. -/
def refLines (e : LineEnv) (charIdx : List Nat) (widths : List Int) : Option (List (Nat × Nat)) :=
  if e.area = 0 then some [(e.start, e.start + e.length)] else refBreaks e charIdx widths e.length e.start

/-! ### Visual runs -/

/-- The visual runs of a line, test/build_layout_info_utf8.cpp:492-560.  The loops are those of
src/layout_builder.cpp:502-571 on indices relative to the paragraph; the direction is the one of
the logical run (line 573). -/
def refPieces (b : RefShaped φ) (start : Nat) (bidi : List BidiRun) : Option (List VisualPiece) :=
  (linePieces (b.runs.map (·.toLogicalRun)) (bidi.map fun r => { r with offset := r.offset - start })).map fun ps =>
    ps.map fun p => ⟨p.run, p.first + start, p.last + start, ((b.runs[p.run]?).map (·.rtl)).getD false⟩

/-- First and last glyph of a visual run in logical order,
test/build_layout_info_utf8.cpp:570-571 and 582-590. -/
def refGlyphs (b : RefShaped φ) (p : VisualPiece) : Option (Nat × Nat) :=
  match logicalFirstGlyph (b.runs.map (·.toLogicalRun)) p.run, b.runs[p.run]? with
  | some lf, some r =>
    (binarySearch (fun i => (b.charIdx[i]?).map (fun c => decide (c < p.first))) lf (r.glyphEnd - lf)).bind fun vf =>
    (binarySearch (fun i => (b.charIdx[i]?).map (fun c => decide (c ≤ p.last))) vf (r.glyphEnd - vf)).map fun vl =>
    (vf, vl)
  | _, _ => none

/-- The glyphs `idx` with the positions from `j` on, moved by `x`,
test/build_layout_info_utf8.cpp:595-626. -/
def refEmit (b : RefShaped φ) (x : Int) : List Nat → Nat → Option (List GlyphSpec)
  | [], _ => some []
  | i :: t, j =>
    match b.glyphs[i]?, b.charIdx[i]?, b.positions[j]? with
    | some g, some c, some p =>
      (refEmit b x t (j + 1)).map (⟨g, c, ((p.1 + x : Int) : Rat) / 64, (p.2 : Rat) / 64⟩ :: ·)
    | _, _, _ => none

/-- `append_visual_run`, test/build_layout_info_utf8.cpp:567-636: the call on the layout and
`visualRunLastX` after it.  As many positions are appended as glyphs, and one more. -/
def refRun (b : RefShaped φ) (p : VisualPiece) (x : Int) : Option (LayoutOp φ × Int) :=
  match logicalFirstGlyph (b.runs.map (·.toLogicalRun)) p.run, refGlyphs b p, b.runs[p.run]? with
  | some lf, some (vf, vl), some r =>
    -- `logicalFirstPos / 2`, line 572
    let fp := if p.run = 0 then 0 else lf + p.run
    -- `visualFirstPosIndex`, `visualLastPosIndex`, lines 607-608 and 616-617
    let first := if r.rtl then lf + (r.glyphEnd - vl) else vf
    let last := if r.rtl then r.glyphEnd - (vf - lf) else vl
    match b.positions[fp + (first - lf)]?, b.positions[fp + (last - lf)]? with
    | some p0, some p1 =>
      (refEmit b (x - p0.1) (revIf r.rtl (List.range' vf (vl - vf))) (fp + (first - lf))).map fun gs =>
        (.run r.font gs (((p1.1 + (x - p0.1) : Int) : Rat) / 64) ((p1.2 : Rat) / 64) p.first (p.last + 1) r.rtl,
          x - p0.1 + p1.1)
    | _, _ => none
  | _, _, _ => none

/-- All visual runs of a line. -/
def refRuns (b : RefShaped φ) : List VisualPiece → Int → Option (List (LayoutOp φ))
  | [], _ => some []
  | p :: t, x =>
    match refRun b p x with
    | none => none
    | some r => (refRuns b t r.2).map (r.1 :: ·)

/-- `compute_line_visual_runs`, test/build_layout_info_utf8.cpp:481-565: the calls on the layout
and the visual runs. -/
def refLineOps (e : ParaEnv β φ) (b : RefShaped φ) (l : Nat × Nat) : Option (List (LayoutOp φ) × List VisualPiece) :=
  (refPieces b e.line.start (e.bidi l.1 l.2)).bind fun ps =>
  (refRuns b ps 0).bind fun ops =>
  (maxMetrics (b.runs.map (·.toLogicalRun)) e.metrics ps ⟨0, 0⟩).map fun m =>
  (ops ++ [.line (m.ascent - m.descent) m.ascent], ps)

/-- All lines of a paragraph. -/
def refLinesOps (e : ParaEnv β φ) (b : RefShaped φ) :
    List (Nat × Nat) → Option (List (LayoutOp φ) × List VisualPiece)
  | [] => some ([], [])
  | l :: t =>
    match refLineOps e b l, refLinesOps e b t with
    | some x, some y => some (x.1 ++ y.1, x.2 ++ y.2)
    | _, _ => none

/-- `build_sub_paragraph`, test/build_layout_info_utf8.cpp:147-273, as `buildParagraph`. -/
def refParagraph (e : ParaEnv β φ) (pieces : List (RefPiece β φ)) (runCount : Nat) :
    Option (List (LayoutOp φ) × Nat × Nat) :=
  (refShape e pieces 0 {}).bind fun b =>
  (refLines e.line b.charIdx b.widths).bind fun ls =>
  (refLinesOps e b ls).map fun r => (r.1, (highest r.2 runCount (0, -2147483648)).1, runCount + r.2.length)

/-! ### The whole text -/

/-- A paragraph, cf. `Paragraph`; `env` is for the text laid out, which for the last paragraph
includes the separator (line 113). -/
structure RefPara (β φ : Type _) where
  length : Nat
  separator : Nat
  env : ParaEnv β φ
  pieces : List (RefPiece β φ)
  defaultFont : φ
  defaultMetrics : Metrics

/-- The paragraph loop, test/build_layout_info_utf8.cpp:106-137. -/
def refParagraphs (count : Nat) : List (RefPara β φ) → Nat → Nat → Option (List (LayoutOp φ))
  | [], _, _ => some []
  | p :: t, offset, runCount =>
    match (if p.length - p.separator > 0 then refParagraph p.env p.pieces runCount
      else some ([.emptyLine p.defaultFont offset (p.defaultMetrics.ascent - p.defaultMetrics.descent)
        p.defaultMetrics.ascent], runCount, runCount + 1)) with
    | none => none
    | some r =>
      (refParagraphs count t (offset + p.length) r.2.2).map fun rest =>
        r.1 ++ [.setOffset r.2.1 (if offset + p.length = count then 0 else p.separator)] ++ rest

/-- `build_layout_info_utf8`, test/build_layout_info_utf8.cpp:85-143. -/
def refLayout (L : Layout φ) (ps : List (RefPara β φ)) (count : Nat) (yAlign : YAlignment) (areaHeight : Rat) :
    Option (Layout φ) :=
  (refParagraphs count ps 0 0).bind fun ops =>
  (execLayout L (.clear :: ops)).map fun L' => L'.alignY areaHeight yAlign

end RichText
