import Verif.Model.RefBuilder
/-!
Model of `test/build_layout_info_icu.cpp`, the builder for UTF-16 text that the tests compare with that of ICU's LayoutEx
(test/test_layout_info.cpp:136-149).

* Conventions of Model/RefBuilder; indices are those of UTF-16 code units.
* Shaping (test/build_layout_info_icu.cpp:313-375) and the loops of `compute_line_visual_runs` (396-477) are the same code
  as test/build_layout_info_utf8.cpp:376-457 and 481-565 but for the library functions called: `refShape`, `refPieces`.
  What `ubidi_getVisualRun` returns is relative to the line; `ParaEnv.bidi` has it with `lineStart` added (line 409).
* The logical runs are given, as in Model/RefBuilder; fonts and metrics of empty lines are given.
-/
namespace RichText
variable {β φ : Type _}

/-! ### Lines -/

/-- `find_previous_line_break`, test/build_layout_info_icu.cpp:377-394: `preceding(charIndex + 1)`, also if the character
takes two code units. -/
def icuFindBreak (e : LineEnv) (i : Nat) : Option Int := (refSkip e i).map fun j => e.preceding (j + 1)

/-- The loop that forces a break, test/build_layout_info_icu.cpp:246-250; the index is not compared with the number of
glyphs. -/
def icuForce (charIdx : List Nat) (lineStart : Int) (lineEnd : Int) (i : Nat) : Option Int :=
  if lineEnd ≤ lineStart then
    match h : charIdx[i]? with
    | none => none
    | some c => icuForce charIdx lineStart c (i + 1)
  else some lineEnd
termination_by charIdx.length - i
decreasing_by
  have := (List.getElem?_eq_some_iff.1 h).1
  omega

/-- One iteration of the line loop, test/build_layout_info_icu.cpp:219-250: the line end. -/
def icuBreak (e : LineEnv) (charIdx : List Nat) (widths : List Int) (lineStart : Nat) : Option Nat :=
  (binarySearch (fun i => (charIdx[i]?).map (fun c => decide (c < lineStart))) 0 charIdx.length).bind fun g =>
  let f := refFit e.area widths g 0
  let i := if f.2 = 0 ∧ f.1 < charIdx.length then f.1 + 1 else f.1
  (icuFindBreak e (breakFrom e charIdx i - e.start)).bind fun p =>
  (icuForce charIdx lineStart (p + e.start) i).map Int.toNat

/-- The line loop, test/build_layout_info_icu.cpp:216-254, as `refBreaks`. -/
def icuBreaks (e : LineEnv) (charIdx : List Nat) (widths : List Int) : Nat → Nat → Option (List (Nat × Nat))
  | fuel, lineEnd =>
    if lineEnd < e.start + e.length then
      match fuel with
      | 0 => none
      | fuel + 1 =>
        match icuBreak e charIdx widths lineEnd with
        | none => none
        | some stop => (icuBreaks e charIdx widths fuel stop).map ((lineEnd, stop) :: ·)
    else some []

/-- All lines, test/build_layout_info_icu.cpp:203-254. -/
def icuLines (e : LineEnv) (charIdx : List Nat) (widths : List Int) : Option (List (Nat × Nat)) :=
  if e.area = 0 then some [(e.start, e.start + e.length)] else icuBreaks e charIdx widths e.length e.start

/-! ### Visual runs -/

/-- `append_visual_run`, test/build_layout_info_icu.cpp:479-546.  The loop over the glyphs of a right-to-left run (507-515)
starts at `visualLastGlyph - 1` and ends after `visualFirstGlyph`; if there are no glyphs it leaves the vector. -/
def icuRun (b : RefShaped φ) (p : VisualPiece) (x : Int) : Option (LayoutOp φ × Int) :=
  match refGlyphs b p, b.runs[p.run]? with
  | some (vf, vl), some r => if r.rtl = true ∧ vl ≤ vf then none else refRun b p x
  | _, _ => none

/-- All visual runs of a line. -/
def icuRuns (b : RefShaped φ) : List VisualPiece → Int → Option (List (LayoutOp φ))
  | [], _ => some []
  | p :: t, x =>
    match icuRun b p x with
    | none => none
    | some r => (icuRuns b t r.2).map (r.1 :: ·)

/-- `compute_line_visual_runs`, test/build_layout_info_icu.cpp:396-477. -/
def icuLineOps (e : ParaEnv β φ) (b : RefShaped φ) (l : Nat × Nat) : Option (List (LayoutOp φ) × List VisualPiece) :=
  (refPieces b e.line.start (e.bidi l.1 l.2)).bind fun ps =>
  (icuRuns b ps 0).bind fun ops =>
  (maxMetrics (b.runs.map (·.toLogicalRun)) e.metrics ps ⟨0, 0⟩).map fun m =>
  (ops ++ [.line (m.ascent - m.descent) m.ascent], ps)

/-- All lines of a paragraph. -/
def icuLinesOps (e : ParaEnv β φ) (b : RefShaped φ) :
    List (Nat × Nat) → Option (List (LayoutOp φ) × List VisualPiece)
  | [] => some ([], [])
  | l :: t =>
    match icuLineOps e b l, icuLinesOps e b t with
    | some x, some y => some (x.1 ++ y.1, x.2 ++ y.2)
    | _, _ => none

/-- `build_sub_paragraph`, test/build_layout_info_icu.cpp:158-257, as `refParagraph`. -/
def icuParagraph (e : ParaEnv β φ) (pieces : List (RefPiece β φ)) (runCount : Nat) :
    Option (List (LayoutOp φ) × Nat × Nat) :=
  (refShape e pieces 0 {}).bind fun b =>
  (icuLines e.line b.charIdx b.widths).bind fun ls =>
  (icuLinesOps e b ls).map fun r => (r.1, (highest r.2 runCount (0, -2147483648)).1, runCount + r.2.length)

/-! ### The whole text -/

/-- The characters that end a paragraph, test/build_layout_info_icu.cpp:60-63 and 120. -/
def icuSeparator (c : Nat) : Bool := c == 0x000A || c == 0x000D || c == 0x2028 || c == 0x2029

/-- The loop over the characters, test/build_layout_info_icu.cpp:116-150, on the rest of the text; `n` is `idx - byteIndex`.
The result are the lengths of the paragraphs with their separators, and of the separators; the one in front of
`U_SENTINEL` has none.  `UTEXT_NEXT32` takes a lead and a trail surrogate together. -/
def icuScan : List Nat → Nat → List (Nat × Nat)
  | [], n => [(n, 0)]
  | c :: t, n =>
    if icuSeparator c then
      if c = 0x000D ∧ t.head? = some 0x000A then (n + 2, 2) :: icuScan t.tail 0
      else (n + 1, 1) :: icuScan t 0
    else if 0xD800 ≤ c ∧ c < 0xDC00 ∧ t.head?.any (fun d => decide (0xDC00 ≤ d ∧ d < 0xE000)) then
      icuScan t.tail (n + 2)
    else icuScan t (n + 1)
termination_by s => s.length
decreasing_by all_goals simp [List.length_tail]; try omega

/-- The calls on the layout in that loop.  The separator of the last paragraph is not set (the loop ends at line 139). -/
def icuParagraphs : List (RefPara β φ) → Nat → Nat → Option (List (LayoutOp φ))
  | [], _, _ => some []
  | p :: t, offset, runCount =>
    match (if p.length - p.separator > 0 then icuParagraph p.env p.pieces runCount
      else some ([.emptyLine p.defaultFont offset (p.defaultMetrics.ascent - p.defaultMetrics.descent)
        p.defaultMetrics.ascent], runCount, runCount + 1)) with
    | none => none
    | some r =>
      if t.isEmpty then some r.1
      else (icuParagraphs t (offset + p.length) r.2.2).map fun rest => r.1 ++ [.setOffset r.2.1 p.separator] ++ rest

/-- `build_layout_info_icu`, test/build_layout_info_icu.cpp:90-154. -/
def icuLayout (L : Layout φ) (ps : List (RefPara β φ)) (yAlign : YAlignment) (areaHeight : Rat) : Option (Layout φ) :=
  (icuParagraphs ps 0 0).bind fun ops =>
  (execLayout L (.clear :: ops)).map fun L' => L'.alignY areaHeight yAlign

end RichText
