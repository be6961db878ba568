import Verif.Model.LayoutBuilder
/-!
The layout builder with the range of its integers: src/layout_builder.cpp counts widths and positions in `int32_t`, for
which Model/LayoutBuilder has unbounded integers.  Each definition here is the one there with the result of every `+`, `-`,
`*`, `%` and narrowing conversion of widths and positions checked: `none` stands for a result out of range, which for all
but the conversion in `mul_fixed` is undefined behaviour.  Not checked: indices of characters and glyphs (`int32_t`,
`uint32_t`; a text has at most 2^31 - 1 bytes) and the conversions of the parameters from `float`
(src/layout_builder.cpp:185-186).
-/
namespace RichText
variable {β φ : Type _}

/-- A result of type `int32_t`. -/
def int32 (x : Int) : Option Int := if -2147483648 ≤ x ∧ x ≤ 2147483647 then some x else none

/-! ### Shaping -/

/-- `m_cursor + *pOffsetSecondary` and `m_cursor += *pAdvanceSecondary`, src/layout_builder.cpp:448-450. -/
def secondaryPositionsC (vertical : Bool) : Int → List HbGlyph → Option (List Int × Int)
  | cursor, [] => some ([], cursor)
  | cursor, g :: t =>
    (int32 (cursor + g.offSecondary vertical)).bind fun p =>
    (int32 (cursor + g.advSecondary vertical)).bind fun c =>
    (secondaryPositionsC vertical c t).map fun r => (p :: r.1, r.2)

/-- The width of a glyph in front of the glyph `next`, src/layout_builder.cpp:468-472 and 483-487. -/
def glyphWidthC (vertical : Bool) (g : HbGlyph) (next : Option HbGlyph) : Option Int :=
  (int32 (g.advPrimary vertical - g.offPrimary vertical)).bind fun a =>
  (match next with
    | none => some a
    | some h => int32 (a + h.offPrimary vertical)).bind fun b =>
  int32 (b * (if vertical then -1 else 1))

/-- The widths, src/layout_builder.cpp:465-489. -/
def glyphWidthsC (vertical : Bool) : List HbGlyph → Option (List Int)
  | [] => some []
  | g :: t => (glyphWidthC vertical g t.head?).bind fun w => (glyphWidthsC vertical t).map (w :: ·)

/-- The part of `shape_logical_run` after the call of HarfBuzz, src/layout_builder.cpp:446-490. -/
def Shaped.addShapedC (b : Shaped φ) (hb : List HbGlyph) (start : Nat) (reversed vertical : Bool)
    (isTab : Nat → Bool) (spaceAdvance : Int) (spaceGlyph : Nat) : Option (Shaped φ) :=
  let hb' := hb.map fun g => replaceTab spaceAdvance spaceGlyph (isTab (g.cluster + start)) g
  (secondaryPositionsC vertical b.cursor hb).bind fun s =>
  (glyphWidthsC vertical hb').map fun ws =>
  { b with
    glyphs := b.glyphs ++ revIf reversed (hb'.map (·.glyph))
    charIdx := b.charIdx ++ revIf reversed (hb'.map (·.cluster + start))
    widths := b.widths ++ revIf reversed ws
    secondary := b.secondary ++ revIf reversed s.1
    cursor := s.2 }

/-- Shape a run and record it, src/layout_builder.cpp:267-281. -/
def Shaped.addSubRunC (b : Shaped φ) (e : ShapeEnv β φ) (v : β) (offset : Nat) (r : φ × Nat) : Option (Shaped φ) :=
  (b.addShapedC (e.shape r.1 v offset r.2) offset (e.reversed v) e.vertical e.isTab
    (e.spaceAdvance r.1) (e.spaceGlyph r.1)).map fun b' => b'.addRun e.same r.1 r.2

/-- The loop in the functor, src/layout_builder.cpp:262-282. -/
def subFontLoopC (e : ShapeEnv β φ) (v : β) (limit : Nat) (offset : Nat) (b : Shaped φ) :
    Option (Nat × Shaped φ) :=
  if offset < limit then
    if offset < (e.subFont v offset limit).2 then
      match b.addSubRunC e v offset (e.subFont v offset limit) with
      | none => none
      | some b' => subFontLoopC e v limit (e.subFont v offset limit).2 b'
    else none
  else some (offset, b)
termination_by limit - offset

/-- The functor on all its calls, src/layout_builder.cpp:258-283. -/
def shapeCallsC (e : ShapeEnv β φ) : List (Nat × β) → Nat → Shaped φ → Option (Nat × Shaped φ)
  | [], offset, b => some (offset, b)
  | (limit, v) :: t, offset, b =>
    match subFontLoopC e v limit offset b with
    | none => none
    | some r => shapeCallsC e t r.1 r.2

/-- The shaped paragraph, src/layout_builder.cpp:253-286. -/
def shapeParagraphC (e : ParaEnv β φ) (calls : List (Nat × β)) : Option (Shaped φ) :=
  (shapeCallsC e.toShapeEnv calls e.line.start {}).map fun r => r.2.finish

/-! ### Tabs and line breaks -/

/-- The distance between tab stops for a tab of width `w`: the product in `mul_fixed` has 64 bits, its conversion to
`int32_t` is checked, src/layout_builder.cpp:95-98, 321-322, 361-362, 642. -/
def tabBaseC (e : LineEnv) (w : Int) : Option Int :=
  if e.tabPixels then some e.tabWidth else int32 (mulFixed w e.tabWidth)

/-- The tab width computation, src/layout_builder.cpp:320-324, 360-364 and 641-644; the remainder of the least number by
-1 is undefined, as is that by zero. -/
def tabStopC (e : LineEnv) (w soFar : Int) : Option Int :=
  (tabBaseC e w).bind fun base =>
  if base = 0 ∨ (base = -1 ∧ soFar = -2147483648) then none else int32 (base - soFar.tmod base)

/-- Width of glyph `i` after a possible tab adjustment, and the widths. -/
def tabAdjustC (e : LineEnv) (charIdx : List Nat) (widths : List Int) (i : Nat) (soFar : Int) :
    Option (Int × List Int) :=
  match widths[i]?, charIdx[i]? with
  | some w, some c =>
    if e.isTab c then (tabStopC e w soFar).map fun w' => (w', widths.set i w') else some (w, widths)
  | _, _ => none

/-- `apply_tab_widths_no_line_break`, src/layout_builder.cpp:633-648. -/
def applyTabsC (e : LineEnv) (charIdx : List Nat) (i : Nat) (soFar : Int) (widths : List Int) : Option (List Int) :=
  if i < charIdx.length then
    match tabAdjustC e charIdx widths i soFar with
    | none => none
    | some r =>
      match int32 (soFar + r.1) with
      | none => none
      | some s => applyTabsC e charIdx (i + 1) s r.2
  else some widths
termination_by charIdx.length - i

/-- The loop that accumulates widths until the line overflows, src/layout_builder.cpp:319-332. -/
def fitLineC (e : LineEnv) (charIdx : List Nat) (i : Nat) (soFar : Int) (widths : List Int) : Option Fit :=
  if i < charIdx.length then
    match tabAdjustC e charIdx widths i soFar with
    | none => none
    | some r =>
      match int32 (soFar + r.1) with
      | none => none
      | some s => if s > e.area then some ⟨i, soFar, r.2⟩ else fitLineC e charIdx (i + 1) s r.2
  else some ⟨i, soFar, widths⟩
termination_by charIdx.length - i

/-- The second tab adjustment, src/layout_builder.cpp:359-367. -/
def adjustTabsC (e : LineEnv) (charIdx : List Nat) : Nat → Nat → Int → List Int → Option (List Int)
  | 0, _, _, widths => some widths
  | n + 1, i, soFar, widths =>
    match tabAdjustC e charIdx widths i soFar with
    | none => none
    | some r =>
      match int32 (soFar + r.1) with
      | none => none
      | some s => adjustTabsC e charIdx n (i + 1) s r.2

/-- One iteration of the line loop, src/layout_builder.cpp:311-367. -/
def breakLineC (e : LineEnv) (charIdx : List Nat) (lineStart : Nat) (widths : List Int) : Option BrokenLine :=
  (binarySearch (fun i => (charIdx[i]?).map (fun c => decide (c < lineStart))) 0 charIdx.length).bind fun g =>
  (fitLineC e charIdx g 0 widths).bind fun f =>
  let i := forceGlyph charIdx.length f
  (findPreviousLineBreak e (breakFrom e charIdx i - e.start)).bind fun p =>
  let r := forceBreak charIdx lineStart (p + e.start) i
  (adjustTabsC e charIdx (r.2 - f.glyph) f.glyph f.soFar f.widths).map fun ws =>
  ⟨lineStart, (lastBreak e charIdx.length lineStart r).toNat, ws⟩

/-- The line loop, src/layout_builder.cpp:310-372. -/
def breakLinesC (e : LineEnv) (charIdx : List Nat) : Nat → Nat → List Int → Option (List BrokenLine)
  | fuel, lineEnd, widths =>
    if lineEnd < e.start + e.length then
      match fuel with
      | 0 => none
      | fuel + 1 =>
        match breakLineC e charIdx lineEnd widths with
        | none => none
        | some l => (breakLinesC e charIdx fuel l.stop l.widths).map (l :: ·)
    else some []

/-- All lines of a paragraph, src/layout_builder.cpp:290-372. -/
def paragraphLinesC (e : LineEnv) (charIdx : List Nat) (widths : List Int) : Option (List BrokenLine) :=
  if e.area = 0 then
    (applyTabsC e charIdx 0 0 widths).map fun ws => [⟨e.start, e.start + e.length, ws⟩]
  else breakLinesC e charIdx e.length e.start widths

/-! ### Visual runs -/

/-- The glyph loops with `visualRunWidth += …`, src/layout_builder.cpp:601-608 and 615-622. -/
def emitGlyphsC (b : Shaped φ) (widths : List Int) (vertical : Bool) : List Nat → Int → Option (List GlyphSpec × Int)
  | [], w => some ([], w)
  | i :: t, w =>
    match b.glyphs[i]?, b.charIdx[i]?, b.secondary[i]?, widths[i]? with
    | some g, some c, some s, some d =>
      (int32 (w + d)).bind fun w' =>
      (emitGlyphsC b widths vertical t w').map fun r =>
        (⟨g, c, (placeAt vertical w s).1, (placeAt vertical w s).2⟩ :: r.1, r.2)
    | _, _, _, _ => none

/-- `append_visual_run`, src/layout_builder.cpp:577-631. -/
def visualRunC (b : Shaped φ) (widths : List Int) (vertical : Bool) (p : VisualPiece) (w : Int) :
    Option (LayoutOp φ × Int) :=
  match pieceGlyphs b p, b.runs[p.run]? with
  | some (vf, vl), some r =>
    match emitGlyphsC b widths vertical (revIf p.rtl (List.range' vf (vl - vf))) w, b.secondary[vl]? with
    | some (gs, w'), some s =>
      some (.run r.font gs (placeAt vertical w' s).1 (placeAt vertical w' s).2 p.first (p.last + 1) p.rtl, w')
    | _, _ => none
  | _, _ => none

/-- All visual runs of a line. -/
def visualRunsC (b : Shaped φ) (widths : List Int) (vertical : Bool) :
    List VisualPiece → Int → Option (List (LayoutOp φ))
  | [], _ => some []
  | p :: t, w =>
    match visualRunC b widths vertical p w with
    | none => none
    | some r => (visualRunsC b widths vertical t r.2).map (r.1 :: ·)

/-- `compute_line_visual_runs`, src/layout_builder.cpp:492-575. -/
def lineOpsC (e : ParaEnv β φ) (b : Shaped φ) (l : BrokenLine) : Option (List (LayoutOp φ) × List VisualPiece) :=
  (linePieces b.runs (e.bidi l.first l.stop)).bind fun ps =>
  (visualRunsC b l.widths e.vertical ps 0).bind fun ops =>
  (maxMetrics b.runs e.metrics ps ⟨0, 0⟩).map fun m =>
  (ops ++ [.line (m.ascent - m.descent) m.ascent], ps)

/-- All lines of a paragraph. -/
def linesOpsC (e : ParaEnv β φ) (b : Shaped φ) : List BrokenLine → Option (List (LayoutOp φ) × List VisualPiece)
  | [] => some ([], [])
  | l :: t =>
    match lineOpsC e b l, linesOpsC e b t with
    | some x, some y => some (x.1 ++ y.1, x.2 ++ y.2)
    | _, _ => none

/-- `build_paragraph`, src/layout_builder.cpp:243-375. -/
def buildParagraphC (e : ParaEnv β φ) (calls : List (Nat × β)) (runCount : Nat) :
    Option (List (LayoutOp φ) × Nat × Nat) :=
  (shapeParagraphC e calls).bind fun b =>
  (paragraphLinesC e.line b.charIdx b.widths).bind fun ls =>
  (linesOpsC e b ls).map fun r => (r.1, (highest r.2 runCount (0, -2147483648)).1, runCount + r.2.length)

/-! ### The whole text -/

/-- The calls for one paragraph, src/layout_builder.cpp:199-217. -/
def paragraphOpsC (p : Paragraph β φ) (offset runCount : Nat) : Option (List (LayoutOp φ) × Nat × Nat) :=
  if p.length - p.separator > 0 then buildParagraphC p.env p.calls runCount
  else some ([.emptyLine p.defaultFont offset (p.defaultMetrics.ascent - p.defaultMetrics.descent)
    p.defaultMetrics.ascent], runCount, runCount + 1)

/-- The paragraph loop, src/layout_builder.cpp:193-234. -/
def paragraphsOpsC (count : Nat) : List (Paragraph β φ) → Nat → Nat → Option (List (LayoutOp φ))
  | [], _, _ => some []
  | p :: t, offset, runCount =>
    match paragraphOpsC p offset runCount with
    | none => none
    | some r =>
      let fin := finalLine p offset count r.2.2
      (paragraphsOpsC count t (offset + p.length) (if fin.isEmpty then r.2.2 else r.2.2 + 1)).map fun rest =>
        r.1 ++ [.setOffset r.2.1 p.separator] ++ fin ++ rest

/-- `build_layout_info`, src/layout_builder.cpp:159-241. -/
def buildLayoutC (L : Layout φ) (ps : List (Paragraph β φ)) (count : Nat) (yAlign : YAlignment) (areaHeight : Rat) :
    Option (Layout φ) :=
  (paragraphsOpsC count ps 0 0).bind fun ops =>
  (execLayout L (.clear :: ops)).map fun L' => L'.alignY areaHeight yAlign

end RichText
