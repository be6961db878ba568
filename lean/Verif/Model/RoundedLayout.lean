import Verif.Model.LayoutBuilder
import Verif.Model.Rounding
import Verif.Spec.Layout
/-!
The arithmetic of the layout in `float`: the functions of `Model/LayoutInfo.lean`
and `Model/LayoutBuilder.lean` that compute with `float`, with the result of each
operation rounded by `rnd` (in the properties: `f32Round`).  Operations are
rounded one by one in the order the code has them; no excess precision and no
fused multiply-add (`FLT_EVAL_METHOD` 0, no contraction).  With `rnd = id` these
are the functions of the exact model (`Proof/RoundedLayout.lean`).
-/
namespace RichText
variable {φ : Type _} (rnd : Rat → Rat)

/-! ### Building -/

/-- `scalbnf(n, -6)` of an integer, src/layout_builder.cpp:605, 610, 619, 624: the
integer is converted to `float`, the division by 64 is exact.  `x` is `n / 64`. -/
def scaleR (x : Rat) : Rat := rnd (x * 64) / 64

/-- A glyph with its position as `float`, src/layout_builder.cpp:605-606,
619-620. -/
def GlyphSpec.roundR (g : GlyphSpec) : GlyphSpec := { g with x := scaleR rnd g.x, y := scaleR rnd g.y }

/-- The calls on the layout with their arguments as `float`: positions are
converted (src/layout_builder.cpp:601-626), line heights are differences of
metrics (src/layout_builder.cpp:212, 225, 571), ascents are metrics. -/
def LayoutOp.roundR : LayoutOp φ → LayoutOp φ
  | .run font glyphs ex ey s e rtl => .run font (glyphs.map (·.roundR rnd)) (scaleR rnd ex) (scaleR rnd ey) s e rtl
  | .line h a => .line (rnd h) a
  | .emptyLine font c h a => .emptyLine font c (rnd h) a
  | op => op

namespace Layout

/-- `m_lines.empty() ? height : m_lines.back().totalDescent + height`,
src/layout_info.cpp:64 and 84. -/
def nextDescentR (L : Layout φ) (height : Rat) : Rat :=
  match L.lines.getLast? with
  | none => height
  | some l => rnd (l.totalDescent + height)

/-- `append_line`, src/layout_info.cpp:56-66. -/
def appendLineR (L : Layout φ) (height ascent : Rat) : Option (Layout φ) :=
  match L.runs.getLast? with
  | none => none
  | some r =>
    match L.pos[2 * (r.glyphEnd + (L.runs.length - 1))]? with
    | none => none
    | some width =>
      some { L with lines := L.lines ++ [⟨L.runs.length, width, ascent, L.nextDescentR rnd height⟩] }

/-- `append_empty_line`, src/layout_info.cpp:68-86. -/
def appendEmptyLineR (L : Layout φ) (font : φ) (charIndex : Nat) (height ascent : Rat) : Layout φ :=
  { L with
    pos := L.pos ++ [0, 0]
    runs := L.runs ++ [⟨font, L.lastGlyphEnd, charIndex, charIndex, 0, false⟩]
    lines := L.lines ++ [⟨L.runs.length + 1, 0, ascent, L.nextDescentR rnd height⟩] }

/-- The vertical alignment at the end of `build_layout_info`,
src/layout_builder.cpp:236-238. -/
def alignYR (L : Layout φ) (areaHeight : Rat) (a : YAlignment) : Layout φ :=
  L.setTextStartY (rnd (rnd (a.toNat * rnd (areaHeight - L.textHeight)) * (1 / 2)))

end Layout

/-- Execute one call group in `float`. -/
def LayoutOp.execR (L : Layout φ) : LayoutOp φ → Option (Layout φ)
  | .line h a => L.appendLineR rnd h a
  | .emptyLine font c h a => some (L.appendEmptyLineR rnd font c h a)
  | op => op.exec L

/-- Execute a sequence of calls in `float`. -/
def execLayoutR : Layout φ → List (LayoutOp φ) → Option (Layout φ)
  | L, [] => some L
  | L, op :: ops =>
    match op.execR rnd L with
    | none => none
    | some L => execLayoutR L ops

/-- `build_layout_info`, src/layout_builder.cpp:159-241, in `float`. -/
def buildLayoutR {β : Type _} (L : Layout φ) (ps : List (Paragraph β φ)) (count : Nat) (yAlign : YAlignment)
    (areaHeight : Rat) : Option (Layout φ) :=
  (paragraphsOps count ps 0 0).bind fun ops =>
  (execLayoutR rnd L ((LayoutOp.clear :: ops).map (·.roundR rnd))).map fun L' => L'.alignYR rnd areaHeight yAlign

namespace Layout

/-! ### Queries -/

/-- `get_line_height`, src/layout_info.cpp:366-369. -/
def lineHeightR (L : Layout φ) (line : Nat) : Option Rat :=
  if line = 0 then (L.lines[0]?).map (·.totalDescent)
  else
    match L.lines[line]?, L.lines[line - 1]? with
    | some a, some b => some (rnd (a.totalDescent - b.totalDescent))
    | _, _ => none

/-- `get_line_x_start`, src/layout_info.cpp:192-205. -/
def lineXStartR (L : Layout φ) (line : Nat) (textWidth : Rat) (align : XAlignment) : Option Rat :=
  match L.lines[line]? with
  | none => none
  | some l =>
    match align with
    | .left => some 0
    | .right => some (rnd (textWidth - l.width))
    | .center => some (rnd (1 / 2 * rnd (textWidth - l.width)))

/-- The loop of `for_each_line`, src/layout_info.hpp:205-214. -/
def forEachLineFromR (L : Layout φ) (textWidth : Rat) (align : XAlignment) (i : Nat) (lineY : Rat) :
    Option (List (Nat × Rat × Rat)) :=
  if i < L.lines.length then
    match L.lineXStartR rnd i textWidth align, L.lines[i]?, L.lineHeightR rnd i with
    | some x, some l, some h =>
      match forEachLineFromR L textWidth align (i + 1) (rnd (lineY + h)) with
      | some rest => some ((i, x, rnd (lineY + l.ascent)) :: rest)
      | none => none
    | _, _, _ => none
  else some []
termination_by L.lines.length - i

/-- `for_each_line`, src/layout_info.hpp:205-214. -/
def forEachLineR (L : Layout φ) (textWidth : Rat) (align : XAlignment) : Option (List (Nat × Rat × Rat)) :=
  L.forEachLineFromR rnd textWidth align 0 L.startY

/-- `prevGlyphOffset + (glyphOffset - prevGlyphOffset) * scaleFactor` with
`scaleFactor = float(part) / float(count)`, src/layout_info.cpp:485-490 and
514-519. -/
def interpolateR (prevOffset offset : Rat) (part count : Nat) : Rat :=
  rnd (prevOffset + rnd (rnd (offset - prevOffset) * rnd (rnd part / rnd count)))

/-- `get_glyph_offset_ltr`, src/layout_info.cpp:467-494. -/
def glyphOffsetLtrR (L : Layout φ) (runIndex cursor : Nat) : Option Rat := do
  let firstGlyph ← L.firstGlyphIndex runIndex
  let run ← L.runs[runIndex]?
  let firstPos ← L.firstPositionIndex runIndex
  let g ← binarySearch (fun i => (L.charIdx[i]?).map fun c => decide (c < cursor)) firstGlyph
    (u32 ((run.glyphEnd : Int) - firstGlyph))
  let nextChar ← L.ltrNextChar run g
  let clusterDiff := u32 ((nextChar : Int) - cursor)
  let offset ← L.pos[u32 (firstPos + 2 * ((g : Int) - firstGlyph))]?
  if clusterDiff > 0 ∧ g > 0 then
    let prevChar ← L.charIdx[g - 1]?
    let count := u32 ((nextChar : Int) - prevChar)
    let prevOffset ← L.pos[u32 (firstPos + 2 * ((g : Int) - firstGlyph - 1))]?
    some (interpolateR rnd prevOffset offset (u32 ((count : Int) - clusterDiff)) count)
  else some offset

/-- `get_glyph_offset_rtl`, src/layout_info.cpp:496-523. -/
def glyphOffsetRtlR (L : Layout φ) (runIndex cursor : Nat) : Option Rat := do
  let firstGlyph ← L.firstGlyphIndex runIndex
  let run ← L.runs[runIndex]?
  let firstPos ← L.firstPositionIndex runIndex
  let g ← binarySearch (fun i => (L.charIdx[i]?).map fun c => decide (c ≥ cursor)) firstGlyph
    (u32 ((run.glyphEnd : Int) - firstGlyph))
  let nextChar ← L.rtlNextChar run firstGlyph g
  let clusterDiff := u32 ((nextChar : Int) - cursor)
  let offset ← L.pos[u32 (firstPos + 2 * ((g : Int) - firstGlyph))]?
  if clusterDiff > 0 ∧ g < run.glyphEnd then
    let prevChar ← L.charIdx[g]?
    let count := u32 ((nextChar : Int) - prevChar)
    let prevOffset ← L.pos[u32 (firstPos + 2 * ((g : Int) - firstGlyph + 1))]?
    some (interpolateR rnd prevOffset offset (u32 ((count : Int) - clusterDiff)) count)
  else some offset

/-- `get_glyph_offset_in_run`, src/layout_info.cpp:341-344. -/
def glyphOffsetR (L : Layout φ) (runIndex cursor : Nat) : Option Rat :=
  match L.runs[runIndex]? with
  | none => none
  | some r => if r.rtl then L.glyphOffsetRtlR rnd runIndex cursor else L.glyphOffsetLtrR rnd runIndex cursor

/-- `get_position_range_in_run`, src/layout_info.cpp:320-339. -/
def positionRangeR (L : Layout φ) (runIndex first last : Nat) : Option (Rat × Rat) :=
  match L.runs[runIndex]? with
  | none => none
  | some r =>
    match L.glyphOffsetR rnd runIndex (max (min first r.charEnd) r.charStart),
      L.glyphOffsetR rnd runIndex (max (min last r.charEnd) r.charStart) with
    | some a, some b => if r.rtl then some (b, a) else some (a, b)
    | _, _ => none

/-- `calc_cursor_pixel_pos`, src/layout_info.cpp:96-109. -/
def cursorPixelPosR (L : Layout φ) (textWidth : Rat) (align : XAlignment) (cursorPos : Nat)
    (a : Affinity) : Option CursorInfo :=
  match L.runContaining cursorPos a with
  | none => none
  | some (run, line) =>
    match L.lineXStartR rnd line textWidth align, L.glyphOffsetR rnd run cursorPos, L.lines[line]? with
    | some lineX, some off, some l =>
      if line = 0 then some ⟨rnd (lineX + off), rnd (L.startY + 0), rnd (l.totalDescent - 0), line⟩
      else
        match L.lines[line - 1]? with
        | none => none
        | some p => some ⟨rnd (lineX + off), rnd (L.startY + p.totalDescent),
            rnd (l.totalDescent - p.totalDescent), line⟩
    | _, _, _ => none

/-! ### Position to cursor -/

/-- `clusterStartPos + float(nextCharIndex - clusterStartChar) / ...`,
src/layout_info.cpp:296-298. -/
def Cluster.posOfR (c : Cluster) (next : Nat) : Rat :=
  rnd (c.startPos + rnd (rnd (rnd (u32 ((next : Int) - c.startChar)) / rnd (u32 ((c.endChar : Int) - c.startChar)))
    * rnd (c.endPos - c.startPos)))

/-- The loop over the grapheme boundaries of a cluster,
src/layout_info.cpp:293-323. -/
def pickCharR (follow : Following) (c : Cluster) (rtl : Bool) (x : Rat) :
    Nat → Nat → Rat → Option (Nat × Bool)
  | 0, _, _ => none
  | fuel + 1, curr, currPos =>
    let next := nextChar32 (follow curr)
    let nextPos := c.posOfR rnd next
    if rtl && decide (nextPos < x) && decide (x ≤ currPos) then
      some (if rnd (x - nextPos) < rnd (currPos - x) then next else curr, true)
    else if !rtl && decide (currPos < x) && decide (x ≤ nextPos) then
      some (if rnd (nextPos - x) < rnd (x - currPos) then next else curr, true)
    else if next ≥ c.endChar then some (c.startChar, false)
    else pickCharR follow c rtl x fuel next nextPos

/-- The end of `find_closest_cursor_position`, src/layout_info.cpp:274-312. -/
def pickInClusterR (L : Layout φ) (follow : Following) (run : VisualRun φ) (k firstRun lastRun : Nat) (c : Cluster)
    (x : Rat) : Option (Nat × Affinity) := do
  let lastRunInLine := decide (k = lastRun - 1)
  let firstAff ← L.firstGlyphAffinity k (decide (k = firstRun)) run.rtl
  let lastAff ← L.lastGlyphAffinity k (lastRunInLine && run.charEndOffset == 0) lastRunInLine run.rtl
  if c.startChar = c.endChar then some (c.startChar, mkAffinity firstAff)
  else
    match pickCharR rnd follow c run.rtl x (c.endChar - c.startChar + 1) c.startChar c.startPos with
    | none => none
    | some (ch, true) =>
      if run.rtl then
        some (ch, mkAffinity ((ch == run.charEnd && firstAff) || (ch == run.charStart && lastAff)))
      else
        some (ch, mkAffinity ((ch == run.charStart && firstAff) || (ch == run.charEnd && lastAff)))
    | some (ch, false) => some (ch, .default)

/-- `find_closest_cursor_position`, src/layout_info.cpp:228-312, in run `k`. -/
def findInRunR (L : Layout φ) (follow : Following) (k firstRun lastRun : Nat) (x : Rat) :
    Option (Nat × Affinity) := do
  let first ← L.firstGlyphIndex k
  let run ← L.runs[k]?
  let fp ← L.firstPositionIndex k
  let off ← binarySearch (fun i => (L.pos[fp + 2 * i]?).map fun p => decide (p < x)) 0
    (u32 ((run.glyphEnd : Int) - first))
  let c ← L.clusterAt run first fp (first + off)
  L.pickInClusterR rnd follow run k firstRun lastRun c x

/-- `find_closest_cursor_position`, src/layout_info.cpp:207-312. -/
def findClosestR (L : Layout φ) (textWidth : Rat) (align : XAlignment) (follow : Following)
    (line : Nat) (cursorX : Rat) : Option (Nat × Affinity) :=
  if L.lines.isEmpty then some (0, .default)
  else do
    let lineX ← L.lineXStartR rnd line textWidth align
    let x := rnd (cursorX - lineX)
    let firstRun ← L.firstRunIndex line
    let l ← L.lines[line]?
    let lastRun := l.runsEnd
    let k ← binarySearch (fun i => (L.runs[i]?).bind fun r =>
      (L.pos[2 * (r.glyphEnd + i)]?).map fun p => decide (p < x)) firstRun (u32 ((lastRun : Int) - firstRun))
    if k = lastRun then
      (L.runs[lastRun - 1]?).map fun r => (if r.rtl then r.charStart else r.charEnd, .opposite)
    else L.findInRunR rnd follow k firstRun lastRun x

end Layout
end RichText
