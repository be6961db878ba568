import Verif.Model.ValueRuns
import Verif.Spec.Layout
/-!
Model of `src/layout_builder.cpp` / `src/layout_builder.hpp`.

* `none` is undefined behaviour (an access past the end of a vector, a division
  by zero) or a loop that never ends.
* `int32_t` widths are unbounded integers (no overflow); character, glyph and run
  indices are natural numbers, line ends are integers because
  `BreakIterator::preceding` can return -1.
* Fonts are an abstract type `φ`; HarfBuzz, SheenBidi, ICU and the font registry
  are parameters (`ShapeEnv`, `LineEnv`, `ParaEnv`).
* The calls made on the `LayoutInfo` are a list of `LayoutOp`s, whose execution
  on the vectors is `execLayout`.
* `scalbnf(x, -6)` is the exact quotient by 64.
-/
namespace RichText

/-! ### Iterators over levels and scripts -/

/-- `LevelsIterator`, src/layout_builder.cpp:52-84: the levels from `m_levels` to
`m_end`, the last level and the index. -/
structure LevelsIter where
  rest : List Nat
  last : Nat
  index : Int
deriving Repr, DecidableEq

namespace LevelsIter

/-- The inner loop, src/layout_builder.cpp:59-62 and 72-75:
`while (m_levels != m_end && *m_levels == m_lastLevel) ++m_levels, ++m_index`. -/
def skip : List Nat → Nat → Int → LevelsIter
  | [], l, i => ⟨[], l, i⟩
  | x :: t, l, i => if x = l then skip t l (i + 1) else ⟨x :: t, l, i⟩

/-- Constructor, src/layout_builder.cpp:54-63.  `m_levels[0]` of an empty
paragraph is undefined. -/
def init (levels : List Nat) (paragraphStart : Int) : Option LevelsIter :=
  match levels with
  | [] => none
  | x :: t => some (skip (x :: t) x paragraphStart)

theorem skip_rest_le : ∀ (t : List Nat) (l : Nat) (i : Int), (skip t l i).rest.length ≤ t.length
  | [], _, _ => by simp [skip]
  | x :: t, l, i => by
    unfold skip; split
    · exact Nat.le_trans (skip_rest_le t l (i + 1)) (by simp)
    · simp

/-- `advance_to`, src/layout_builder.cpp:68-77. -/
def advanceTo (it : LevelsIter) (index : Int) : LevelsIter :=
  match it with
  | ⟨[], l, i⟩ => ⟨[], l, i⟩
  | ⟨x :: t, l, i⟩ =>
    if i ≤ index then (skip t x (i + 1)).advanceTo index else ⟨x :: t, l, i⟩
termination_by it.rest.length
decreasing_by
  simp_wf
  have := skip_rest_le t x (i + 1)
  omega

end LevelsIter

/-- `ScriptRunValueIterator`, src/layout_builder.cpp:26-50, over the runs that
`ScriptRunIterator::next` will still produce (limits relative to the paragraph).
At the end `next` returns false and changes nothing. -/
structure ScriptIter (σ : Type _) where
  rest : List (Int × σ)
  limit : Int
  value : σ
  paragraphStart : Int
deriving Repr, DecidableEq

namespace ScriptIter
variable {σ : Type _}

/-- Constructor, src/layout_builder.cpp:28-34; `default` is the value of
`m_value{}` kept when there is no run. -/
def init (runs : List (Int × σ)) (default : σ) (paragraphStart : Int) : ScriptIter σ :=
  match runs with
  | [] => ⟨[], 0, default, paragraphStart⟩
  | (l, s) :: t => ⟨t, l, s, paragraphStart⟩

/-- `get_limit`, src/layout_builder.cpp:36. -/
def getLimit (it : ScriptIter σ) : Int := it.limit + it.paragraphStart

/-- `m_iter.next(start, m_limit, m_value)`, src/layout_builder.cpp:42. -/
def next (it : ScriptIter σ) : ScriptIter σ :=
  match it.rest with
  | [] => it
  | (l, s) :: t => ⟨t, l, s, it.paragraphStart⟩

/-- `advance_to`, src/layout_builder.cpp:39-44.  The limit compared is relative
to the paragraph, the index is not. -/
def advanceTo (it : ScriptIter σ) (index : Int) : ScriptIter σ :=
  if it.limit ≤ index then it.next else it

end ScriptIter

/-- The iterators of the call in src/layout_builder.cpp:260-283: the four run
iterators over the whole text, the scripts and the levels of the paragraph. -/
structure ParaIters (α σ : Type _) where
  runs : List (RunIter α)
  script : ScriptIter σ
  levels : LevelsIter

/-- One call of the functor, src/layout_builder.cpp:260-261: limit, values of
the run iterators, script and level. -/
structure ParaCall (α σ : Type _) where
  limit : Int
  values : List α
  script : σ
  level : Nat
deriving Repr, DecidableEq

/-- How the iteration ended, cf. `IterEnd`. -/
inductive ParaEnd (α σ : Type _) where
  | outOfFuel
  | outOfRange
  | done (its : ParaIters α σ)

/-- `iterate_run_intersections` (src/value_run_utils.hpp:63-71) on the iterators
of a paragraph: the calls made and how it ended. -/
def iteratePara {α σ : Type _} (maxLimit : Int) :
    Nat → Int → ParaIters α σ → List (ParaCall α σ) × ParaEnd α σ
  | fuel, minLimit, its =>
    if minLimit < maxLimit then
      match fuel with
      | 0 => ([], .outOfFuel)
      | fuel + 1 =>
        match minOfLimits (its.runs.map RunIter.getLimit ++ [some its.script.getLimit, some its.levels.index]),
            allSome (its.runs.map RunIter.getValue) with
        | some m, some xs =>
          let call : ParaCall α σ := ⟨m, xs, its.script.value, its.levels.last⟩
          match allSome (its.runs.map fun it => it.advanceTo m) with
          | none => ([call], .outOfRange)
          | some runs' =>
            let o := iteratePara maxLimit fuel m ⟨runs', its.script.advanceTo m, its.levels.advanceTo m⟩
            (call :: o.1, o.2)
        | _, _ => ([], .outOfRange)
    else ([], .done its)

/-! ### Shaping -/

/-- `hb_glyph_info_t` and `hb_glyph_position_t` of one glyph: glyph index,
cluster, advances and offsets. -/
structure HbGlyph where
  glyph : Nat
  cluster : Nat
  xAdvance : Int
  yAdvance : Int
  xOffset : Int
  yOffset : Int
deriving Repr, DecidableEq

namespace HbGlyph

/-- Advance along the line: `pAdvancePrimary`, src/layout_builder.cpp:429-444. -/
def advPrimary (vertical : Bool) (g : HbGlyph) : Int := if vertical then g.yAdvance else g.xAdvance

/-- `pOffsetPrimary`, src/layout_builder.cpp:429-444. -/
def offPrimary (vertical : Bool) (g : HbGlyph) : Int := if vertical then g.yOffset else g.xOffset

/-- `pAdvanceSecondary`, src/layout_builder.cpp:429-444. -/
def advSecondary (vertical : Bool) (g : HbGlyph) : Int := if vertical then g.xAdvance else g.yAdvance

/-- `pOffsetSecondary`, src/layout_builder.cpp:429-444. -/
def offSecondary (vertical : Bool) (g : HbGlyph) : Int := if vertical then g.xOffset else g.yOffset

end HbGlyph

/-- `LayoutBuilder::LogicalRun`, src/layout_builder.hpp. -/
structure LogicalRun (φ : Type _) where
  font : φ
  charEnd : Nat
  glyphEnd : Nat
deriving Repr, DecidableEq

/-- The data members of `LayoutBuilder` filled for one paragraph: `m_glyphs`,
`m_charIndices`, `m_glyphPositions[primaryAxis]` (widths),
`m_glyphPositions[secondaryAxis]`, `m_cursor`, `m_logicalRuns`. The initial value
is `reset`, src/layout_builder.cpp:650-667. -/
structure Shaped (φ : Type _) where
  glyphs : List Nat := []
  charIdx : List Nat := []
  widths : List Int := []
  secondary : List Int := []
  cursor : Int := 0
  runs : List (LogicalRun φ) := []
deriving Repr, DecidableEq

/-- Secondary positions and the cursor after them,
src/layout_builder.cpp:448-461. -/
def secondaryPositions (vertical : Bool) : Int → List HbGlyph → List Int × Int
  | cursor, [] => ([], cursor)
  | cursor, g :: t =>
    let r := secondaryPositions vertical (cursor + g.advSecondary vertical) t
    ((cursor + g.offSecondary vertical) :: r.1, r.2)

/-- The tab replacement of src/layout_builder.cpp:452-455; `tab` says that the
glyph's character is a tab. -/
def replaceTab (spaceAdvance : Int) (spaceGlyph : Nat) (tab : Bool) (g : HbGlyph) : HbGlyph :=
  if tab then { g with xAdvance := spaceAdvance, glyph := spaceGlyph } else g

/-- Widths in visual order, src/layout_builder.cpp:468-472 and 483-487. -/
def glyphWidths (vertical : Bool) : List HbGlyph → List Int
  | [] => []
  | [g] => [(g.advPrimary vertical - g.offPrimary vertical) * (if vertical then -1 else 1)]
  | g :: h :: t =>
    ((g.advPrimary vertical - g.offPrimary vertical + h.offPrimary vertical) * (if vertical then -1 else 1))
      :: glyphWidths vertical (h :: t)

/-- Reverse if asked to. -/
def revIf {α : Type _} (reversed : Bool) (l : List α) : List α := if reversed then l.reverse else l

/-- The part of `shape_logical_run` after the call of HarfBuzz,
src/layout_builder.cpp:446-490.  `hb` is the shaped buffer in visual order,
`start` the index in the full text of the first character shaped (`offset +
paragraphStart`).  The tab test reads `paragraphText[cluster + offset]`, which is
`isTab (cluster + start)`. -/
def Shaped.addShaped {φ : Type _} (b : Shaped φ) (hb : List HbGlyph) (start : Nat) (reversed vertical : Bool)
    (isTab : Nat → Bool) (spaceAdvance : Int) (spaceGlyph : Nat) : Shaped φ :=
  let hb' := hb.map fun g => replaceTab spaceAdvance spaceGlyph (isTab (g.cluster + start)) g
  let s := secondaryPositions vertical b.cursor hb
  { b with
    glyphs := b.glyphs ++ revIf reversed (hb'.map (·.glyph))
    charIdx := b.charIdx ++ revIf reversed (hb'.map (·.cluster + start))
    widths := b.widths ++ revIf reversed (glyphWidths vertical hb')
    secondary := b.secondary ++ revIf reversed s.1
    cursor := s.2 }

/-- The logical run update, src/layout_builder.cpp:270-281; `same` is
`SingleScriptFont::operator==`. -/
def Shaped.addRun {φ : Type _} (same : φ → φ → Bool) (b : Shaped φ) (font : φ) (charEnd : Nat) : Shaped φ :=
  match b.runs.getLast? with
  | none => { b with runs := b.runs ++ [⟨font, charEnd, b.glyphs.length⟩] }
  | some r =>
    if same r.font font then { b with runs := b.runs.dropLast ++ [⟨r.font, charEnd, b.glyphs.length⟩] }
    else { b with runs := b.runs ++ [⟨font, charEnd, b.glyphs.length⟩] }

/-- What shaping depends on.  `β` is what the functor gets besides the limit:
base font, script, level and flags. -/
structure ShapeEnv (β φ : Type _) where
  /-- `FontRegistry::get_sub_font`: font and new offset from base, offset, limit -/
  subFont : β → Nat → Nat → φ × Nat
  /-- HarfBuzz's output for the characters from the first to the second index,
  with clusters relative to the first (for synthetic small caps: after
  `remap_char_indices`, see Model/SmallCaps) -/
  shape : φ → β → Nat → Nat → List HbGlyph
  /-- the level is odd -/
  reversed : β → Bool
  /-- `SingleScriptFont::operator==` -/
  same : φ → φ → Bool
  /-- `fullText[i] == '\t'` -/
  isTab : Nat → Bool
  /-- `FontData::spaceAdvance` -/
  spaceAdvance : φ → Int
  /-- `FontData::spaceGlyphIndex` -/
  spaceGlyph : φ → Nat
  vertical : Bool

section
variable {β φ : Type _}

/-- Shape the run from `offset` to `r.2` with font `r.1` and record it,
src/layout_builder.cpp:267-281. -/
def Shaped.addSubRun (b : Shaped φ) (e : ShapeEnv β φ) (v : β) (offset : Nat) (r : φ × Nat) : Shaped φ :=
  (b.addShaped (e.shape r.1 v offset r.2) offset (e.reversed v) e.vertical e.isTab
    (e.spaceAdvance r.1) (e.spaceGlyph r.1)).addRun e.same r.1 r.2

/-- The loop in the functor, src/layout_builder.cpp:262-282.  A `get_sub_font`
that does not move the offset loops forever: `none`. -/
def subFontLoop (e : ShapeEnv β φ) (v : β) (limit : Nat) (offset : Nat) (b : Shaped φ) :
    Option (Nat × Shaped φ) :=
  if offset < limit then
    if offset < (e.subFont v offset limit).2 then
      subFontLoop e v limit (e.subFont v offset limit).2
        (b.addSubRun e v offset (e.subFont v offset limit))
    else none
  else some (offset, b)
termination_by limit - offset

/-- The functor on all its calls, src/layout_builder.cpp:258-283. -/
def shapeCalls (e : ShapeEnv β φ) : List (Nat × β) → Nat → Shaped φ → Option (Nat × Shaped φ)
  | [], offset, b => some (offset, b)
  | (limit, v) :: t, offset, b =>
    match subFontLoop e v limit offset b with
    | none => none
    | some r => shapeCalls e t r.1 r.2

/-- The final secondary position, src/layout_builder.cpp:285-286. -/
def Shaped.finish (b : Shaped φ) : Shaped φ := { b with secondary := b.secondary ++ [b.cursor] }

/-! ### Tabs and line breaks -/

/-- What line breaking depends on. -/
structure LineEnv where
  /-- `paragraphStart` -/
  start : Nat
  /-- `paragraphLength` -/
  length : Nat
  /-- `textAreaWidth` -/
  area : Int
  /-- `tabWidthFixed` -/
  tabWidth : Int
  /-- `tabWidthFromPixels` -/
  tabPixels : Bool
  /-- `fullText[i] == '\t'` -/
  isTab : Nat → Bool
  /-- index after the code point at an index of the paragraph (`U8_NEXT_OR_FFFD`) -/
  next : Nat → Nat
  /-- the code point at an index of the paragraph is white space or a control
  character -/
  hangs : Nat → Bool
  /-- `BreakIterator::preceding` on the paragraph -/
  preceding : Nat → Int

/-- `mul_fixed`, src/layout_builder.cpp:95-98 (shift right = floor division). -/
def mulFixed (a b : Int) : Int := a * b / 64

/-- The tab width computation of src/layout_builder.cpp:320-324, 360-364 and
641-644 for a tab of width `w` after `soFar`: `none` for a remainder by zero. -/
def tabStop (e : LineEnv) (w soFar : Int) : Option Int :=
  let base := if e.tabPixels then e.tabWidth else mulFixed w e.tabWidth
  if base = 0 then none else some (base - soFar.tmod base)

/-- Width of glyph `i` after a possible tab adjustment, and the widths. -/
def tabAdjust (e : LineEnv) (charIdx : List Nat) (widths : List Int) (i : Nat) (soFar : Int) :
    Option (Int × List Int) :=
  match widths[i]?, charIdx[i]? with
  | some w, some c =>
    if e.isTab c then (tabStop e w soFar).map fun w' => (w', widths.set i w') else some (w, widths)
  | _, _ => none

/-- `apply_tab_widths_no_line_break`, src/layout_builder.cpp:633-648, from glyph
`i` on with `lineWidthSoFar` in `soFar`. -/
def applyTabs (e : LineEnv) (charIdx : List Nat) (i : Nat) (soFar : Int) (widths : List Int) : Option (List Int) :=
  if i < charIdx.length then
    match tabAdjust e charIdx widths i soFar with
    | none => none
    | some r => applyTabs e charIdx (i + 1) (soFar + r.1) r.2
  else some widths
termination_by charIdx.length - i

/-- What the first inner loop leaves. -/
structure Fit where
  glyph : Nat
  soFar : Int
  widths : List Int
deriving Repr, DecidableEq

/-- The loop that accumulates widths until the line overflows,
src/layout_builder.cpp:319-332. -/
def fitLine (e : LineEnv) (charIdx : List Nat) (i : Nat) (soFar : Int) (widths : List Int) : Option Fit :=
  if i < charIdx.length then
    match tabAdjust e charIdx widths i soFar with
    | none => none
    | some r =>
      if soFar + r.1 > e.area then some ⟨i, soFar, r.2⟩
      else fitLine e charIdx (i + 1) (soFar + r.1) r.2
  else some ⟨i, soFar, widths⟩
termination_by charIdx.length - i

/-- `find_previous_line_break`, src/layout_builder.cpp:669-686; the index is
relative to the paragraph.  `U8_FWD_1` after the loop moves past the end of the
paragraph; where exactly is not modelled (one past), since `preceding` is the
last boundary from anywhere past the end.  A decoder that does not advance loops
forever. -/
def findPreviousLineBreak (e : LineEnv) (charIndex : Nat) : Option Int :=
  if charIndex < e.length then
    if charIndex < e.next charIndex then
      if e.hangs charIndex then findPreviousLineBreak e (e.next charIndex)
      else some (e.preceding (e.next charIndex))
    else none
  else some (e.preceding (charIndex + 1))
termination_by e.length - charIndex

/-- The loop that forces a break after the last one,
src/layout_builder.cpp:350-352: line end and glyph index. -/
def forceBreak (charIdx : List Nat) (lineStart : Int) (lineEnd : Int) (i : Nat) : Int × Nat :=
  if lineEnd ≤ lineStart then
    match h : charIdx[i]? with
    | none => (lineEnd, i)
    | some c => forceBreak charIdx lineStart c (i + 1)
  else (lineEnd, i)
termination_by charIdx.length - i
decreasing_by
  have := (List.getElem?_eq_some_iff.1 h).1
  omega

/-- The second tab adjustment, src/layout_builder.cpp:359-367, for `n` glyphs
from `i`. -/
def adjustTabs (e : LineEnv) (charIdx : List Nat) : Nat → Nat → Int → List Int → Option (List Int)
  | 0, _, _, widths => some widths
  | n + 1, i, soFar, widths =>
    match tabAdjust e charIdx widths i soFar with
    | none => none
    | some r => adjustTabs e charIdx n (i + 1) (soFar + r.1) r.2

/-- A line: its characters and the glyph widths when it is emitted. -/
structure BrokenLine where
  first : Nat
  stop : Nat
  widths : List Int
deriving Repr, DecidableEq

/-- `if (lineWidthSoFar == 0 && glyphIndex < m_glyphs.size()) ++glyphIndex`,
src/layout_builder.cpp:339-341. -/
def forceGlyph (n : Nat) (f : Fit) : Nat := if f.soFar = 0 ∧ f.glyph < n then f.glyph + 1 else f.glyph

/-- `charIndex`, src/layout_builder.cpp:343-344. -/
def breakFrom (e : LineEnv) (charIdx : List Nat) (i : Nat) : Nat :=
  match charIdx[i]? with
  | none => e.start + e.length
  | some c => c

/-- `if (lineEnd <= lineStart && glyphIndex == m_glyphs.size())`,
src/layout_builder.cpp:354-356. -/
def lastBreak (e : LineEnv) (n : Nat) (lineStart : Int) (r : Int × Nat) : Int :=
  if r.1 ≤ lineStart ∧ r.2 = n then ((e.start + e.length : Nat) : Int) else r.1

/-- One iteration of the line loop up to `compute_line_visual_runs`,
src/layout_builder.cpp:311-367. -/
def breakLine (e : LineEnv) (charIdx : List Nat) (lineStart : Nat) (widths : List Int) : Option BrokenLine :=
  (binarySearch (fun i => (charIdx[i]?).map (fun c => decide (c < lineStart))) 0 charIdx.length).bind fun g =>
  (fitLine e charIdx g 0 widths).bind fun f =>
  let i := forceGlyph charIdx.length f
  (findPreviousLineBreak e (breakFrom e charIdx i - e.start)).bind fun p =>
  let r := forceBreak charIdx lineStart (p + e.start) i
  (adjustTabs e charIdx (r.2 - f.glyph) f.glyph f.soFar f.widths).map fun ws =>
  ⟨lineStart, (lastBreak e charIdx.length lineStart r).toNat, ws⟩

/-- The line loop, src/layout_builder.cpp:310-372: the lines, in order.  The
fuel is the number of iterations allowed; C28 shows that the paragraph length is
enough. -/
def breakLines (e : LineEnv) (charIdx : List Nat) : Nat → Nat → List Int → Option (List BrokenLine)
  | fuel, lineEnd, widths =>
    if lineEnd < e.start + e.length then
      match fuel with
      | 0 => none
      | fuel + 1 =>
        match breakLine e charIdx lineEnd widths with
        | none => none
        | some l => (breakLines e charIdx fuel l.stop l.widths).map (l :: ·)
    else some []

/-- All lines of a paragraph, src/layout_builder.cpp:290-372: one line if the
width is zero. -/
def paragraphLines (e : LineEnv) (charIdx : List Nat) (widths : List Int) : Option (List BrokenLine) :=
  if e.area = 0 then
    (applyTabs e charIdx 0 0 widths).map fun ws => [⟨e.start, e.start + e.length, ws⟩]
  else breakLines e charIdx e.length e.start widths

/-! ### Visual runs -/

/-- A visual run to append: logical run, first and last character, direction. -/
structure VisualPiece where
  run : Nat
  first : Nat
  last : Nat
  rtl : Bool
deriving Repr, DecidableEq

/-- The left-to-right loop, src/layout_builder.cpp:514-538. -/
def ltrPieces (runs : List (LogicalRun φ)) (runEnd : Nat) (run chr : Nat) : Option (List VisualPiece) :=
  match h : runs[run]? with
  | none => none
  | some r =>
    if runEnd < r.charEnd then some [⟨run, chr, runEnd, false⟩]
    else (ltrPieces runs runEnd (run + 1) r.charEnd).map (⟨run, chr, r.charEnd - 1, false⟩ :: ·)
termination_by runs.length - run
decreasing_by
  have := (List.getElem?_eq_some_iff.1 h).1
  omega

/-- The right-to-left loop, src/layout_builder.cpp:545-570.  For run 0 the start
compared with is 0, so that the loop ends there. -/
def rtlPieces (runs : List (LogicalRun φ)) (runStart : Nat) : Nat → Nat → Option (List VisualPiece)
  | 0, chr =>
    match runs[0]? with
    | none => none
    | some _ => some [⟨0, runStart, chr, true⟩]
  | k + 1, chr =>
    match runs[k + 1]?, runs[k]? with
    | some _, some p =>
      if p.charEnd ≤ runStart then some [⟨k + 1, runStart, chr, true⟩]
      else (rtlPieces runs runStart k (p.charEnd - 1)).map (⟨k + 1, p.charEnd, chr, true⟩ :: ·)
    | _, _ => none

/-- `SBRun`: offset in the text, length, level. -/
structure BidiRun where
  offset : Nat
  length : Nat
  level : Nat
deriving Repr, DecidableEq

/-- One bidi run, src/layout_builder.cpp:502-570. -/
def bidiPieces (runs : List (LogicalRun φ)) (r : BidiRun) : Option (List VisualPiece) :=
  let runEnd := r.offset + r.length - 1
  if r.level % 2 = 0 then
    (binarySearch (fun i => (runs[i]?).map (fun q => decide (q.charEnd ≤ r.offset))) 0 runs.length).bind
      fun run => ltrPieces runs runEnd run r.offset
  else
    (binarySearch (fun i => (runs[i]?).map (fun q => decide (q.charEnd ≤ runEnd))) 0 runs.length).bind
      fun run => rtlPieces runs r.offset run runEnd

/-- All bidi runs of a line in visual order, src/layout_builder.cpp:502-571. -/
def linePieces (runs : List (LogicalRun φ)) : List BidiRun → Option (List VisualPiece)
  | [] => some []
  | r :: t =>
    match bidiPieces runs r, linePieces runs t with
    | some a, some b => some (a ++ b)
    | _, _ => none

/-- First glyph of a logical run, src/layout_builder.cpp:580-586. -/
def logicalFirstGlyph (runs : List (LogicalRun φ)) : Nat → Option Nat
  | 0 => some 0
  | k + 1 => (runs[k]?).map (·.glyphEnd)

/-- Position of a glyph from the positions along and across the line in 1/64,
src/layout_builder.cpp:605-606, 610-612, 619-620, 624-626: x and y. -/
def placeAt (vertical : Bool) (along across : Int) : Rat × Rat :=
  if vertical then ((across : Rat) / 64, (along : Rat) / 64) else ((along : Rat) / 64, (across : Rat) / 64)

/-- The glyph loops, src/layout_builder.cpp:601-608 and 615-622, on the glyph
indices in the order visited: the glyphs and `visualRunWidth` after them. -/
def emitGlyphs (b : Shaped φ) (widths : List Int) (vertical : Bool) : List Nat → Int → Option (List GlyphSpec × Int)
  | [], w => some ([], w)
  | i :: t, w =>
    match b.glyphs[i]?, b.charIdx[i]?, b.secondary[i]?, widths[i]? with
    | some g, some c, some s, some d =>
      (emitGlyphs b widths vertical t (w + d)).map fun r =>
        (⟨g, c, (placeAt vertical w s).1, (placeAt vertical w s).2⟩ :: r.1, r.2)
    | _, _, _, _ => none

/-- Glyph indices of a visual run in logical order: from `visualFirstGlyph` to
`visualLastGlyph`, src/layout_builder.cpp:592-598. -/
def pieceGlyphs (b : Shaped φ) (p : VisualPiece) : Option (Nat × Nat) :=
  match logicalFirstGlyph b.runs p.run, b.runs[p.run]? with
  | some lf, some r =>
    (binarySearch (fun i => (b.charIdx[i]?).map (fun c => decide (c < p.first))) lf (r.glyphEnd - lf)).bind fun vf =>
    (binarySearch (fun i => (b.charIdx[i]?).map (fun c => decide (c ≤ p.last))) vf (r.glyphEnd - vf)).map fun vl =>
    (vf, vl)
  | _, _ => none

/-- `append_visual_run`, src/layout_builder.cpp:577-631: the calls on the layout
and `visualRunWidth` after it. -/
def visualRun (b : Shaped φ) (widths : List Int) (vertical : Bool) (p : VisualPiece) (w : Int) :
    Option (LayoutOp φ × Int) :=
  match pieceGlyphs b p, b.runs[p.run]? with
  | some (vf, vl), some r =>
    match emitGlyphs b widths vertical (revIf p.rtl (List.range' vf (vl - vf))) w, b.secondary[vl]? with
    | some (gs, w'), some s =>
      some (.run r.font gs (placeAt vertical w' s).1 (placeAt vertical w' s).2 p.first (p.last + 1) p.rtl, w')
    | _, _ => none
  | _, _ => none

/-- All visual runs of a line. -/
def visualRuns (b : Shaped φ) (widths : List Int) (vertical : Bool) : List VisualPiece → Int → Option (List (LayoutOp φ))
  | [], _ => some []
  | p :: t, w =>
    match visualRun b widths vertical p w with
    | none => none
    | some r => (visualRuns b widths vertical t r.2).map (r.1 :: ·)

/-- `highestRun` and `highestRunCharEnd`, src/layout_builder.cpp:587-590, after
the visual runs `ps` of which the first has number `count` in the layout. -/
def highest : List VisualPiece → Nat → Nat × Int → Nat × Int
  | [], _, h => h
  | p :: t, count, h => highest t (count + 1) (if (p.last : Int) > h.2 then (count, p.last) else h)

/-- Ascent and descent of a font, `FontData::get_ascent` / `get_descent`. -/
structure Metrics where
  ascent : Rat
  descent : Rat
deriving Repr, DecidableEq

/-- `maxAscent`, `maxDescent`, src/layout_builder.cpp:516-524, 547-555. -/
def maxMetrics (runs : List (LogicalRun φ)) (metrics : φ → Metrics) : List VisualPiece → Metrics → Option Metrics
  | [], m => some m
  | p :: t, m =>
    match runs[p.run]? with
    | none => none
    | some r => maxMetrics runs metrics t
        ⟨if (metrics r.font).ascent > m.ascent then (metrics r.font).ascent else m.ascent,
         if (metrics r.font).descent < m.descent then (metrics r.font).descent else m.descent⟩

/-- What laying out one paragraph depends on. -/
structure ParaEnv (β φ : Type _) extends ShapeEnv β φ where
  line : LineEnv
  /-- `SBLineGetRunsPtr` for the line between two indices -/
  bidi : Nat → Nat → List BidiRun
  metrics : φ → Metrics

/-- `compute_line_visual_runs`, src/layout_builder.cpp:492-575: the calls on the
layout, and the visual runs appended. -/
def lineOps (e : ParaEnv β φ) (b : Shaped φ) (l : BrokenLine) : Option (List (LayoutOp φ) × List VisualPiece) :=
  (linePieces b.runs (e.bidi l.first l.stop)).bind fun ps =>
  (visualRuns b l.widths e.vertical ps 0).bind fun ops =>
  (maxMetrics b.runs e.metrics ps ⟨0, 0⟩).map fun m =>
  (ops ++ [.line (m.ascent - m.descent) m.ascent], ps)

/-- All lines of a paragraph: the calls, and the visual runs appended. -/
def linesOps (e : ParaEnv β φ) (b : Shaped φ) : List BrokenLine → Option (List (LayoutOp φ) × List VisualPiece)
  | [] => some ([], [])
  | l :: t =>
    match lineOps e b l, linesOps e b t with
    | some x, some y => some (x.1 ++ y.1, x.2 ++ y.2)
    | _, _ => none

/-- The shaped paragraph, src/layout_builder.cpp:253-286, from the calls made by
`iterate_run_intersections`. -/
def shapeParagraph (e : ParaEnv β φ) (calls : List (Nat × β)) : Option (Shaped φ) :=
  (shapeCalls e.toShapeEnv calls e.line.start {}).map fun r => r.2.finish

/-- `build_paragraph`, src/layout_builder.cpp:243-375: the calls on the layout and
`highestRun`, the layout having `runCount` runs before.  The line calls are
listed after all line breaks have been found; in the code they are interleaved,
which makes no difference as each line keeps the widths it was emitted with. -/
def buildParagraph (e : ParaEnv β φ) (calls : List (Nat × β)) (runCount : Nat) :
    Option (List (LayoutOp φ) × Nat × Nat) :=
  (shapeParagraph e calls).bind fun b =>
  (paragraphLines e.line b.charIdx b.widths).bind fun ls =>
  (linesOps e b ls).map fun r => (r.1, (highest r.2 runCount (0, -2147483648)).1, runCount + r.2.length)

/-! ### The whole text -/

/-- A paragraph of the text: length including the separator, length of the
separator (`SBAlgorithmGetParagraphBoundary`), what laying it out depends on,
the calls of `iterate_run_intersections`, and the font and metrics of its first
character, used for empty lines. -/
structure Paragraph (β φ : Type _) where
  length : Nat
  separator : Nat
  env : ParaEnv β φ
  calls : List (Nat × β)
  defaultFont : φ
  defaultMetrics : Metrics

/-- The calls for one paragraph without those for its separator,
src/layout_builder.cpp:199-217: calls, `lastHighestRun`, run count after. -/
def paragraphOps (p : Paragraph β φ) (offset runCount : Nat) : Option (List (LayoutOp φ) × Nat × Nat) :=
  if p.length - p.separator > 0 then buildParagraph p.env p.calls runCount
  else some ([.emptyLine p.defaultFont offset (p.defaultMetrics.ascent - p.defaultMetrics.descent)
    p.defaultMetrics.ascent], runCount, runCount + 1)

/-- The empty line after a final separator, src/layout_builder.cpp:222-231. -/
def finalLine (p : Paragraph β φ) (offset count runCount : Nat) : List (LayoutOp φ) :=
  if offset + p.length = count ∧ p.separator > 0 then
    [.emptyLine p.defaultFont (offset + p.length) (p.defaultMetrics.ascent - p.defaultMetrics.descent)
      p.defaultMetrics.ascent, .setOffset runCount 0]
  else []

/-- The paragraph loop, src/layout_builder.cpp:193-234. -/
def paragraphsOps (count : Nat) : List (Paragraph β φ) → Nat → Nat → Option (List (LayoutOp φ))
  | [], _, _ => some []
  | p :: t, offset, runCount =>
    match paragraphOps p offset runCount with
    | none => none
    | some r =>
      let fin := finalLine p offset count r.2.2
      (paragraphsOps count t (offset + p.length) (if fin.isEmpty then r.2.2 else r.2.2 + 1)).map fun rest =>
        r.1 ++ [.setOffset r.2.1 p.separator] ++ fin ++ rest

/-- `build_layout_info`, src/layout_builder.cpp:159-241, on a layout to be
overwritten. -/
def buildLayout (L : Layout φ) (ps : List (Paragraph β φ)) (count : Nat) (yAlign : YAlignment) (areaHeight : Rat) :
    Option (Layout φ) :=
  (paragraphsOps count ps 0 0).bind fun ops =>
  (execLayout L (.clear :: ops)).map fun L' => L'.alignY areaHeight yAlign

end

end RichText
