import Verif.Model.BinarySearch
import Verif.Model.Handles
/-!
Model of `src/layout_info.hpp` and `src/layout_info.cpp`.

* `none` is undefined behaviour: an access past the end of a vector.
* `float` is `Rat` (exact), see DESIGN.md.
* Character, glyph and run indices are natural numbers below 2^32; where the
  code subtracts them in `uint32_t` the result is reduced with `u32`.
-/
namespace RichText

/-- Conversion of an integer to `uint32_t`. -/
def u32 (x : Int) : Nat := (x % 4294967296).toNat

/-- `XAlignment`, src/text_alignment.hpp. -/
inductive XAlignment where
  | left
  | right
  | center
deriving Repr, DecidableEq

/-- `YAlignment`, src/text_alignment.hpp. -/
inductive YAlignment where
  | top
  | center
  | bottom
deriving Repr, DecidableEq

/-- numeric value of the alignment. -/
def YAlignment.toNat : YAlignment → Nat
  | .top => 0
  | .center => 1
  | .bottom => 2

/-- `LayoutInfo::VisualRun`, src/layout_info.hpp:171-178; `φ` is the font type
(`SingleScriptFont`). -/
structure VisualRun (φ : Type _) where
  font : φ
  glyphEnd : Nat
  charStart : Nat
  charEnd : Nat
  charEndOffset : Nat := 0
  rtl : Bool := false
deriving Repr, DecidableEq

/-- `LayoutInfo::LineInfo`, src/layout_info.hpp:180-187. -/
structure LineInfo where
  runsEnd : Nat
  width : Rat := 0
  ascent : Rat
  totalDescent : Rat
deriving Repr, DecidableEq

/-- `LayoutInfo`, src/layout_info.hpp:189-194. -/
structure Layout (φ : Type _) where
  runs : List (VisualRun φ) := []
  lines : List LineInfo := []
  glyphs : List Nat := []
  charIdx : List Nat := []
  pos : List Rat := []
  startY : Rat := 0
deriving Repr, DecidableEq

namespace Layout
variable {φ : Type _}

/-! ### Building -/

/-- `clear`, src/layout_info.cpp:20-26 (the text start is kept). -/
def clear (L : Layout φ) : Layout φ := { L with runs := [], lines := [], glyphs := [], charIdx := [], pos := [] }

/-- `append_glyph`, src/layout_info.cpp:32-34. -/
def appendGlyph (L : Layout φ) (g : Nat) : Layout φ := { L with glyphs := L.glyphs ++ [g] }

/-- `append_char_index`, src/layout_info.cpp:36-38. -/
def appendCharIndex (L : Layout φ) (c : Nat) : Layout φ := { L with charIdx := L.charIdx ++ [c] }

/-- `append_glyph_position`, src/layout_info.cpp:40-43. -/
def appendGlyphPosition (L : Layout φ) (x y : Rat) : Layout φ := { L with pos := L.pos ++ [x, y] }

/-- `append_run`, src/layout_info.cpp:45-54. -/
def appendRun (L : Layout φ) (font : φ) (charStart charEnd : Nat) (rtl : Bool) : Layout φ :=
  { L with runs := L.runs ++ [⟨font, L.glyphs.length, charStart, charEnd, 0, rtl⟩] }

/-- `m_lines.empty() ? height : m_lines.back().totalDescent + height`,
src/layout_info.cpp:64 and 84. -/
def nextDescent (L : Layout φ) (height : Rat) : Rat :=
  match L.lines.getLast? with
  | none => height
  | some l => l.totalDescent + height

/-- `append_line`, src/layout_info.cpp:56-66.  Without a run the index of the
last one is `0xFFFFFFFF`: undefined. -/
def appendLine (L : Layout φ) (height ascent : Rat) : Option (Layout φ) :=
  match L.runs.getLast? with
  | none => none
  | some r =>
    match L.pos[2 * (r.glyphEnd + (L.runs.length - 1))]? with
    | none => none
    | some width =>
      some { L with lines := L.lines ++ [⟨L.runs.length, width, ascent, L.nextDescent height⟩] }

/-- `m_visualRuns.empty() ? 0 : m_visualRuns.back().glyphEndIndex`,
src/layout_info.cpp:76. -/
def lastGlyphEnd (L : Layout φ) : Nat :=
  match L.runs.getLast? with
  | none => 0
  | some r => r.glyphEnd

/-- `append_empty_line`, src/layout_info.cpp:68-86. -/
def appendEmptyLine (L : Layout φ) (font : φ) (charIndex : Nat) (height ascent : Rat) : Layout φ :=
  { L with
    pos := L.pos ++ [0, 0]
    runs := L.runs ++ [⟨font, L.lastGlyphEnd, charIndex, charIndex, 0, false⟩]
    lines := L.lines ++ [⟨L.runs.length + 1, 0, ascent, L.nextDescent height⟩] }

/-- `set_run_char_end_offset`, src/layout_info.cpp:88-90. -/
def setRunCharEndOffset (L : Layout φ) (i offset : Nat) : Option (Layout φ) :=
  match L.runs[i]? with
  | none => none
  | some r => some { L with runs := L.runs.set i { r with charEndOffset := offset } }

/-- `set_text_start_y`, src/layout_info.cpp:92-94. -/
def setTextStartY (L : Layout φ) (y : Rat) : Layout φ := { L with startY := y }

/-! ### Simple queries -/

/-- `get_first_run_index`, src/layout_info.cpp:346-348. -/
def firstRunIndex (L : Layout φ) (line : Nat) : Option Nat :=
  if line = 0 then some 0 else (L.lines[line - 1]?).map (·.runsEnd)

/-- `get_first_glyph_index`, src/layout_info.cpp:350-352. -/
def firstGlyphIndex (L : Layout φ) (run : Nat) : Option Nat :=
  if run = 0 then some 0 else (L.runs[run - 1]?).map (·.glyphEnd)

/-- `get_first_position_index`, src/layout_info.cpp:354-356. -/
def firstPositionIndex (L : Layout φ) (run : Nat) : Option Nat :=
  if run = 0 then some 0 else (L.runs[run - 1]?).map fun r => 2 * (r.glyphEnd + run)

/-- `get_run_glyph_count`, src/layout_info.cpp:407-409. -/
def runGlyphCount (L : Layout φ) (run : Nat) : Option Nat :=
  match L.runs[run]?, L.firstGlyphIndex run with
  | some r, some f => some (u32 ((r.glyphEnd : Int) - f))
  | _, _ => none

/-- `get_line_height`, src/layout_info.cpp:366-369. -/
def lineHeight (L : Layout φ) (line : Nat) : Option Rat :=
  if line = 0 then (L.lines[0]?).map (·.totalDescent)
  else
    match L.lines[line]?, L.lines[line - 1]? with
    | some a, some b => some (a.totalDescent - b.totalDescent)
    | _, _ => none

/-- `get_text_width`, src/layout_info.cpp:431-441. -/
def textWidth (L : Layout φ) : Rat :=
  L.lines.foldl (fun w l => if w < l.width then l.width else w) 0

/-- `get_text_height`, src/layout_info.cpp:443-445. -/
def textHeight (L : Layout φ) : Rat :=
  match L.lines.getLast? with
  | none => 0
  | some l => l.totalDescent

/-- The vertical alignment at the end of `build_layout_info`,
src/layout_builder.cpp:234-236. -/
def alignY (L : Layout φ) (areaHeight : Rat) (a : YAlignment) : Layout φ :=
  L.setTextStartY (a.toNat * (areaHeight - L.textHeight) * (1 / 2))

/-- `get_line_x_start`, src/layout_info.cpp:192-205. -/
def lineXStart (L : Layout φ) (line : Nat) (textWidth : Rat) (align : XAlignment) : Option Rat :=
  match L.lines[line]? with
  | none => none
  | some l =>
    match align with
    | .left => some 0
    | .right => some (textWidth - l.width)
    | .center => some (1 / 2 * (textWidth - l.width))

/-- The loop of `for_each_line`, src/layout_info.hpp:205-214: the list of calls
`func(i, lineX, lineY + ascent)` from line `i` on. -/
def forEachLineFrom (L : Layout φ) (textWidth : Rat) (align : XAlignment) (i : Nat) (lineY : Rat) :
    Option (List (Nat × Rat × Rat)) :=
  if i < L.lines.length then
    match L.lineXStart i textWidth align, L.lines[i]?, L.lineHeight i with
    | some x, some l, some h =>
      match forEachLineFrom L textWidth align (i + 1) (lineY + h) with
      | some rest => some ((i, x, lineY + l.ascent) :: rest)
      | none => none
    | _, _, _ => none
  else some []
termination_by L.lines.length - i

/-- `for_each_line`, src/layout_info.hpp:205-214. -/
def forEachLine (L : Layout φ) (textWidth : Rat) (align : XAlignment) :
    Option (List (Nat × Rat × Rat)) :=
  L.forEachLineFrom textWidth align 0 L.startY

/-- The callback of `for_each_run`, src/layout_info.hpp:220-224: the calls of
`func` for runs `runIndex ... runsEnd - 1`. -/
def runCalls (line : Nat) (x y : Rat) (runIndex runsEnd : Nat) : List (Nat × Nat × Rat × Rat) :=
  (List.range' runIndex (runsEnd - runIndex)).map fun r => (line, r, x, y)

/-- `for_each_run`, src/layout_info.hpp:216-225, as a pass over the calls made
by `for_each_line`; `runIndex` is the variable captured by reference. -/
def forEachRunOver (L : Layout φ) : Nat → List (Nat × Rat × Rat) → Option (List (Nat × Nat × Rat × Rat))
  | _, [] => some []
  | runIndex, (i, x, y) :: rest =>
    match L.lines[i]? with
    | none => none
    | some l =>
      match forEachRunOver L (max runIndex l.runsEnd) rest with
      | none => none
      | some calls => some (runCalls i x y runIndex l.runsEnd ++ calls)

/-- `for_each_run`, src/layout_info.hpp:216-225. -/
def forEachRun (L : Layout φ) (textWidth : Rat) (align : XAlignment) :
    Option (List (Nat × Nat × Rat × Rat)) :=
  match L.forEachLine textWidth align with
  | none => none
  | some calls => L.forEachRunOver 0 calls

/-! ### Cursor to run -/

/-- `affinity_prefer_prev_run`, src/layout_info.cpp:527-535. -/
def preferPrevRun (atLineBreak atSoftLineBreak prevRtl nextRtl : Bool) (a : Affinity) : Bool :=
  (atSoftLineBreak && a == .opposite)
    || (!atLineBreak && prevRtl && !nextRtl && a == .default)
    || (!atLineBreak && !prevRtl && nextRtl && a == .opposite)

/-- The loop of `get_run_containing_cursor`, src/layout_info.cpp:116-143, from
run `i` on with `outLineNumber = line`; the result is the run and the line
number.  `cursorPos` is compared as unsigned. -/
def runContainingFrom (L : Layout φ) (cursorPos : Nat) (a : Affinity) (i line : Nat) :
    Option (Nat × Nat) :=
  if i < L.runs.length then
    match L.lines[line]? with
    | none => none
    | some l0 =>
      let line' := if i = l0.runsEnd then line + 1 else line
      match L.lines[line']?, L.runs[i]? with
      | some l, some run =>
        let runBeforeLineBreak := decide (i + 1 < L.runs.length) && decide (i + 1 = l.runsEnd)
        let runAfterLineBreak := decide (i = l.runsEnd)
        let runBeforeSoftBreak := runBeforeLineBreak && run.charEndOffset == 0
        let prev := if i = 0 then none else L.runs[i - 1]?
        let runAfterSoftBreak := runAfterLineBreak && prev.any fun p => p.charEndOffset == 0
        let usePrevRunEnd := prev.any fun p =>
          preferPrevRun runAfterLineBreak runAfterSoftBreak p.rtl run.rtl a
        let useNextRunStart := (L.runs[i + 1]?).any fun n =>
          !preferPrevRun runBeforeLineBreak runBeforeSoftBreak run.rtl n.rtl a
        let ignoreStart := decide (cursorPos = run.charStart) && usePrevRunEnd
        let ignoreEnd := decide (cursorPos = run.charEnd + run.charEndOffset) && useNextRunStart
        if decide (run.charStart ≤ cursorPos) && decide (cursorPos ≤ run.charEnd + run.charEndOffset)
            && !ignoreStart && !ignoreEnd then some (i, line')
        else runContainingFrom L cursorPos a (i + 1) line'
      | _, _ => none
  else some (L.runs.length - 1, line)
termination_by L.runs.length - i

/-- `get_run_containing_cursor`, src/layout_info.cpp:111-144: run and line.
(Without runs the code returns `SIZE_MAX`, here 0.) -/
def runContaining (L : Layout φ) (cursorPos : Nat) (a : Affinity) : Option (Nat × Nat) :=
  L.runContainingFrom cursorPos a 0 0

/-- `get_closest_line_to_height`, src/layout_info.cpp:146-150. -/
def closestLine (L : Layout φ) (y : Rat) : Option Nat :=
  binarySearch (fun i => (L.lines[i]?).map fun l => decide (l.totalDescent < y)) 0 L.lines.length

/-- The line used by `CursorController::closest_to_position`,
src/cursor_controller.cpp:123-131. -/
def closestToPositionLine (L : Layout φ) (y : Rat) : Option Nat :=
  match L.closestLine y with
  | none => none
  | some i => some (if i = L.lines.length then L.lines.length - 1 else i)

/-- The search loop of `get_line_start_position`, src/layout_info.cpp:160-165,
over runs `i, …, stop - 1`; `best` is the lowest run so far. -/
def lowestRun (L : Layout φ) (best i stop : Nat) : Option Nat :=
  if i < stop then
    match L.runs[i]?, L.runs[best]? with
    | some r, some b => lowestRun L (if r.charEnd < b.charEnd then i else best) (i + 1) stop
    | _, _ => none
  else some best
termination_by stop - i

/-- The search loop of `get_line_end_position`, src/layout_info.cpp:179-184. -/
def highestRun (L : Layout φ) (best i stop : Nat) : Option Nat :=
  if i < stop then
    match L.runs[i]?, L.runs[best]? with
    | some r, some b => highestRun L (if b.charEnd < r.charEnd then i else best) (i + 1) stop
    | _, _ => none
  else some best
termination_by stop - i

/-- `get_line_start_position`, src/layout_info.cpp:152-169: a position with
default affinity. -/
def lineStart (L : Layout φ) (line : Nat) : Option (Nat × Affinity) :=
  if L.lines.isEmpty then some (0, .default)
  else
    match L.firstRunIndex line, L.lines[line]? with
    | some f, some l =>
      match L.lowestRun f (f + 1) l.runsEnd with
      | none => none
      | some k => (L.runs[k]?).map fun r => (if r.rtl then r.charEnd else r.charStart, .default)
    | _, _ => none

/-- `get_line_end_position`, src/layout_info.cpp:171-190. -/
def lineEnd (L : Layout φ) (line : Nat) : Option (Nat × Affinity) :=
  if L.lines.isEmpty then some (0, .default)
  else
    match L.firstRunIndex line, L.lines[line]? with
    | some f, some l =>
      match L.highestRun f (f + 1) l.runsEnd with
      | none => none
      | some k => (L.runs[k]?).map fun r =>
          (if r.rtl then r.charStart else r.charEnd,
            if k = l.runsEnd - 1 ∧ r.charEndOffset = 0 then .opposite else .default)
    | _, _ => none

/-! ### Horizontal positions -/

/-- `nextCharIndex` of `get_glyph_offset_ltr`, src/layout_info.cpp:477-478. -/
def ltrNextChar (L : Layout φ) (run : VisualRun φ) (g : Nat) : Option Nat :=
  if g = run.glyphEnd then some run.charEnd else L.charIdx[g]?

/-- `nextCharIndex` of `get_glyph_offset_rtl`, src/layout_info.cpp:506-507. -/
def rtlNextChar (L : Layout φ) (run : VisualRun φ) (firstGlyph g : Nat) : Option Nat :=
  if g = firstGlyph then some run.charEnd else L.charIdx[g - 1]?

/-- `get_glyph_offset_ltr`, src/layout_info.cpp:467-494. -/
def glyphOffsetLtr (L : Layout φ) (runIndex cursor : Nat) : Option Rat := do
  let firstGlyph ← L.firstGlyphIndex runIndex
  let run ← L.runs[runIndex]?
  let firstPos ← L.firstPositionIndex runIndex
  let g ← binarySearch (fun i => (L.charIdx[i]?).map fun c => decide (c < cursor)) firstGlyph
    (u32 ((run.glyphEnd : Int) - firstGlyph))
  let nextChar ← L.ltrNextChar run g
  let clusterDiff := u32 ((nextChar : Int) - cursor)
  let offset ← L.pos[u32 (firstPos + 2 * ((g : Int) - firstGlyph))]?
  if clusterDiff > 0 ∧ g > 0 then
    let prevChar ← L.charIdx[g - 1]?
    let count := u32 ((nextChar : Int) - prevChar)
    let prevOffset ← L.pos[u32 (firstPos + 2 * ((g : Int) - firstGlyph - 1))]?
    let scale : Rat := (u32 ((count : Int) - clusterDiff) : Rat) / (count : Rat)
    some (prevOffset + (offset - prevOffset) * scale)
  else some offset

/-- `get_glyph_offset_rtl`, src/layout_info.cpp:496-523. -/
def glyphOffsetRtl (L : Layout φ) (runIndex cursor : Nat) : Option Rat := do
  let firstGlyph ← L.firstGlyphIndex runIndex
  let run ← L.runs[runIndex]?
  let firstPos ← L.firstPositionIndex runIndex
  let g ← binarySearch (fun i => (L.charIdx[i]?).map fun c => decide (c ≥ cursor)) firstGlyph
    (u32 ((run.glyphEnd : Int) - firstGlyph))
  let nextChar ← L.rtlNextChar run firstGlyph g
  let clusterDiff := u32 ((nextChar : Int) - cursor)
  let offset ← L.pos[u32 (firstPos + 2 * ((g : Int) - firstGlyph))]?
  if clusterDiff > 0 ∧ g < run.glyphEnd then
    let prevChar ← L.charIdx[g]?
    let count := u32 ((nextChar : Int) - prevChar)
    let prevOffset ← L.pos[u32 (firstPos + 2 * ((g : Int) - firstGlyph + 1))]?
    let scale : Rat := (u32 ((count : Int) - clusterDiff) : Rat) / (count : Rat)
    some (prevOffset + (offset - prevOffset) * scale)
  else some offset

/-- `get_glyph_offset_in_run`, src/layout_info.cpp:341-344. -/
def glyphOffset (L : Layout φ) (runIndex cursor : Nat) : Option Rat :=
  match L.runs[runIndex]? with
  | none => none
  | some r => if r.rtl then L.glyphOffsetRtl runIndex cursor else L.glyphOffsetLtr runIndex cursor

/-- `run_contains_char_range`, src/layout_info.cpp:314-318. -/
def runContainsCharRange (L : Layout φ) (runIndex first last : Nat) : Option Bool :=
  (L.runs[runIndex]?).map fun r => decide (r.charStart < last) && decide (first < r.charEnd)

/-- `get_position_range_in_run`, src/layout_info.cpp:320-339. -/
def positionRange (L : Layout φ) (runIndex first last : Nat) : Option (Rat × Rat) :=
  match L.runs[runIndex]? with
  | none => none
  | some r =>
    match L.glyphOffset runIndex (max (min first r.charEnd) r.charStart),
      L.glyphOffset runIndex (max (min last r.charEnd) r.charStart) with
    | some a, some b => if r.rtl then some (b, a) else some (a, b)
    | _, _ => none

/-- `VisualCursorInfo`, src/layout_info.hpp:40-45. -/
structure CursorInfo where
  x : Rat
  y : Rat
  height : Rat
  line : Nat
deriving Repr, DecidableEq

/-- `calc_cursor_pixel_pos`, src/layout_info.cpp:96-109. -/
def cursorPixelPos (L : Layout φ) (textWidth : Rat) (align : XAlignment) (cursorPos : Nat)
    (a : Affinity) : Option CursorInfo :=
  match L.runContaining cursorPos a with
  | none => none
  | some (run, line) =>
    match L.lineXStart line textWidth align, L.glyphOffset run cursorPos, L.lines[line]? with
    | some lineX, some off, some l =>
      if line = 0 then some ⟨lineX + off, L.startY + 0, l.totalDescent - 0, line⟩
      else
        match L.lines[line - 1]? with
        | none => none
        | some p => some ⟨lineX + off, L.startY + p.totalDescent, l.totalDescent - p.totalDescent, line⟩
    | _, _, _ => none

/-! ### Position to cursor -/

/-- `BreakIterator::following` as a function: `none` is `DONE` (-1). -/
abbrev Following := Nat → Option Nat

/-- `DONE` converted to `uint32_t`. -/
def nextChar32 (o : Option Nat) : Nat := o.getD 4294967295

/-- The clicked cluster: logical bounds, visual bounds
(src/layout_info.cpp:245-276). -/
structure Cluster where
  startChar : Nat
  endChar : Nat
  startPos : Rat
  endPos : Rat
deriving Repr, DecidableEq

/-- `clusterEndChar` in a right-to-left run, src/layout_info.cpp:258-259. -/
def rtlClusterEnd (L : Layout φ) (run : VisualRun φ) (first g : Nat) : Option Nat :=
  if g - 1 = first then some run.charEnd else L.charIdx[g - 2]?

/-- `clusterStartChar` in a left-to-right run, src/layout_info.cpp:265-266. -/
def ltrClusterStart (L : Layout φ) (run : VisualRun φ) (first g : Nat) : Option Nat :=
  if g = first then some run.charStart else L.charIdx[g - 1]?

/-- `clusterStartPos` in a left-to-right run, src/layout_info.cpp:269-270. -/
def ltrClusterStartPos (L : Layout φ) (first fp g : Nat) : Option Rat :=
  if g = first then L.pos[fp]? else L.pos[fp + 2 * (g - 1 - first)]?

/-- src/layout_info.cpp:251-272: `g` is the glyph found, `first` the run's first
glyph, `fp` its first position index. -/
def clusterAt (L : Layout φ) (run : VisualRun φ) (first fp g : Nat) : Option Cluster :=
  if run.rtl then
    if g = first then (L.pos[fp]?).map fun p => ⟨run.charEnd, run.charEnd, p, p⟩
    else do
      let sc ← L.charIdx[g - 1]?
      let ec ← L.rtlClusterEnd run first g
      let sp ← L.pos[fp + 2 * (g - first)]?
      let ep ← L.pos[fp + 2 * (g - 1 - first)]?
      some ⟨sc, ec, sp, ep⟩
  else do
    let sc ← L.ltrClusterStart run first g
    let ec ← L.ltrNextChar run g
    let sp ← L.ltrClusterStartPos first fp g
    let ep ← L.pos[fp + 2 * (g - first)]?
    some ⟨sc, ec, sp, ep⟩

/-- `clusterStartPos + float(nextCharIndex - clusterStartChar) / ...`,
src/layout_info.cpp:296-298. -/
def Cluster.posOf (c : Cluster) (next : Nat) : Rat :=
  c.startPos + (u32 ((next : Int) - c.startChar) : Rat) / (u32 ((c.endChar : Int) - c.startChar) : Rat)
    * (c.endPos - c.startPos)

/-- The loop over the grapheme boundaries of a cluster,
src/layout_info.cpp:293-323: the selected character and whether the affinity
rules apply (`true`) or `{clusterStartChar}` is returned (`false`). -/
def pickChar (follow : Following) (c : Cluster) (rtl : Bool) (x : Rat) :
    Nat → Nat → Rat → Option (Nat × Bool)
  | 0, _, _ => none
  | fuel + 1, curr, currPos =>
    let next := nextChar32 (follow curr)
    let nextPos := c.posOf next
    if rtl && decide (nextPos < x) && decide (x ≤ currPos) then
      some (if x - nextPos < currPos - x then next else curr, true)
    else if !rtl && decide (currPos < x) && decide (x ≤ nextPos) then
      some (if nextPos - x < x - currPos then next else curr, true)
    else if next ≥ c.endChar then some (c.startChar, false)
    else pickChar follow c rtl x fuel next nextPos

/-- a cursor with an affinity given as a flag: `make_cursor`,
src/layout_info.cpp:14-16. -/
def mkAffinity (opposite : Bool) : Affinity := if opposite then .opposite else .default

/-- `firstGlyphAffinity`, src/layout_info.cpp:279. -/
def firstGlyphAffinity (L : Layout φ) (k : Nat) (firstRunInLine rtl : Bool) : Option Bool :=
  if !firstRunInLine && !rtl then (L.runs[k - 1]?).map (·.rtl) else some false

/-- `lastGlyphAffinity`, src/layout_info.cpp:280-281. -/
def lastGlyphAffinity (L : Layout φ) (k : Nat) (atSoft lastRunInLine rtl : Bool) : Option Bool :=
  if atSoft then some true
  else if !lastRunInLine && !rtl then (L.runs[k + 1]?).map (·.rtl) else some false

/-- The end of `find_closest_cursor_position` from the determination of the
affinity on, src/layout_info.cpp:274-312, for run `k` of a line with runs
`firstRun, …, lastRun - 1` and cluster `c`.  The fuel of the inner loop is the
length of the cluster, enough for an iterator that moves forward (property
C26). -/
def pickInCluster (L : Layout φ) (follow : Following) (run : VisualRun φ) (k firstRun lastRun : Nat) (c : Cluster)
    (x : Rat) : Option (Nat × Affinity) := do
  let lastRunInLine := decide (k = lastRun - 1)
  let firstAff ← L.firstGlyphAffinity k (decide (k = firstRun)) run.rtl
  let lastAff ← L.lastGlyphAffinity k (lastRunInLine && run.charEndOffset == 0) lastRunInLine run.rtl
  if c.startChar = c.endChar then some (c.startChar, mkAffinity firstAff)
  else
    match pickChar follow c run.rtl x (c.endChar - c.startChar + 1) c.startChar c.startPos with
    | none => none
    | some (ch, true) =>
      if run.rtl then
        some (ch, mkAffinity ((ch == run.charEnd && firstAff) || (ch == run.charStart && lastAff)))
      else
        some (ch, mkAffinity ((ch == run.charStart && firstAff) || (ch == run.charEnd && lastAff)))
    | some (ch, false) => some (ch, .default)

/-- `find_closest_cursor_position`, src/layout_info.cpp:228-312, in run `k`. -/
def findInRun (L : Layout φ) (follow : Following) (k firstRun lastRun : Nat) (x : Rat) :
    Option (Nat × Affinity) := do
  let first ← L.firstGlyphIndex k
  let run ← L.runs[k]?
  let fp ← L.firstPositionIndex k
  let off ← binarySearch (fun i => (L.pos[fp + 2 * i]?).map fun p => decide (p < x)) 0
    (u32 ((run.glyphEnd : Int) - first))
  let c ← L.clusterAt run first fp (first + off)
  L.pickInCluster follow run k firstRun lastRun c x

/-- `find_closest_cursor_position`, src/layout_info.cpp:207-312. -/
def findClosest (L : Layout φ) (textWidth : Rat) (align : XAlignment) (follow : Following)
    (line : Nat) (cursorX : Rat) : Option (Nat × Affinity) :=
  if L.lines.isEmpty then some (0, .default)
  else do
    let lineX ← L.lineXStart line textWidth align
    let x := cursorX - lineX
    let firstRun ← L.firstRunIndex line
    let l ← L.lines[line]?
    let lastRun := l.runsEnd
    let k ← binarySearch (fun i => (L.runs[i]?).bind fun r =>
      (L.pos[2 * (r.glyphEnd + i)]?).map fun p => decide (p < x)) firstRun (u32 ((lastRun : Int) - firstRun))
    if k = lastRun then
      (L.runs[lastRun - 1]?).map fun r => (if r.rtl then r.charStart else r.charEnd, .opposite)
    else L.findInRun follow k firstRun lastRun x

end Layout
end RichText
