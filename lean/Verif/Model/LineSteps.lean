import Verif.Model.LayoutBuilder
/-!
How often the loops of `src/layout_builder.cpp:310-372` and 669-686 run when a paragraph is broken into lines.  The definitions follow
those of Model/LayoutBuilder and keep the indices at which the loops begin and end.  (Not counted: the binary search, at most one step for
each doubling of the number of glyphs, and what ICU does in `preceding`.)
-/
namespace RichText

/-- The indices of one iteration of the line loop, src/layout_builder.cpp:310-372: `glyphIndex` after the binary search (315-317), after the
first inner loop (319-332), after 339-341 and after 350-352; and the index of the paragraph at which `find_previous_line_break` begins
(343-346) and the one at which its loop ends (674-680). -/
structure LineSteps where
  first : Nat
  overflow : Nat
  force : Nat
  done : Nat
  search : Nat
  found : Nat
deriving Repr, DecidableEq

/-- Where the loop of `find_previous_line_break` ends, src/layout_builder.cpp:674-680: at a character that does not hang, or at the end. -/
def skipHanging (e : LineEnv) (charIndex : Nat) : Option Nat :=
  if charIndex < e.length then
    if charIndex < e.next charIndex then
      if e.hangs charIndex then skipHanging e (e.next charIndex) else some charIndex
    else none
  else some charIndex
termination_by e.length - charIndex

/-- One iteration of the line loop, src/layout_builder.cpp:311-367, as `breakLine`. -/
def lineSteps (e : LineEnv) (charIdx : List Nat) (lineStart : Nat) (widths : List Int) : Option LineSteps :=
  (binarySearch (fun i => (charIdx[i]?).map (fun c => decide (c < lineStart))) 0 charIdx.length).bind fun g =>
  (fitLine e charIdx g 0 widths).bind fun f =>
  let i := forceGlyph charIdx.length f
  let c := breakFrom e charIdx i - e.start
  (skipHanging e c).bind fun q =>
  (findPreviousLineBreak e c).map fun p =>
  ⟨g, f.glyph, i, (forceBreak charIdx lineStart (p + e.start) i).2, c, q⟩

/-- The line loop, src/layout_builder.cpp:310-372, as `breakLines`. -/
def allSteps (e : LineEnv) (charIdx : List Nat) : Nat → Nat → List Int → Option (List LineSteps)
  | fuel, lineEnd, widths =>
    if lineEnd < e.start + e.length then
      match fuel with
      | 0 => none
      | fuel + 1 =>
        match lineSteps e charIdx lineEnd widths, breakLine e charIdx lineEnd widths with
        | some s, some l => (allSteps e charIdx fuel l.stop l.widths).map (s :: ·)
        | _, _ => none
    else some []

end RichText
