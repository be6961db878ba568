import Verif.Model.ParagraphFonts
import Verif.Model.FaceMetrics
/-!
All of `build_layout_info` (src/layout_builder.cpp:159-241) as a thread runs it: the cache of the thread (C47, C48) goes through the
shaping of the paragraphs, the metrics of the lines and the fonts of empty lines.

* `FT_Size_Metrics` are a function of the file and the size that the FreeType face is set to when they are read: a `FontData` shares
  its face with all others for the same handle (`FontDataOwner::get_font_data`, src/font_registry.cpp:116-135).
* `get_ascent` of a `FontData{}` reads `ftFace->size`: `none`.
* The lock operations of the lookups of default fonts are left out (see C119).
-/
namespace RichText

/-- Registry, libraries and parameters. -/
structure BuildLibs where
  lib : FontLib
  reg : Registry
  /-- `FT_Size_Metrics` of a file at a size -/
  sized : Nat → Nat → SizeMetrics
  /-- `hb_shape`, see `ParagraphFonts` -/
  hb : Nat → Nat → Bool → HbBuffer → List HbFeature → List HbGlyph
  /-- `CaseMap::utf8ToUpper`, see `ShapeText` -/
  upper : Int → List UInt8 → List UInt8 × List Edit
  /-- ICU: characters of a text between two indices -/
  chars : Bytes → Nat → Nat → List (Nat × Nat)
  /-- SheenBidi: lengths of paragraphs and separators -/
  bounds : Bytes → List (Nat × Nat)
  /-- SheenBidi: levels of the text of a paragraph from its start and length -/
  levels : Bytes → Nat → Nat → List Nat
  /-- ICU: the text of a paragraph for `ScriptRunIterator` -/
  script : Bytes → Nat → Nat → ScriptText
  /-- see `LineEnv` -/
  next : Bytes → Nat → Nat → Nat → Nat
  hangs : Bytes → Nat → Nat → Nat → Bool
  preceding : Bytes → Nat → Nat → Nat → Int
  /-- SheenBidi: the runs of a line of a paragraph -/
  bidi : Bytes → Nat → Nat → Nat → Nat → List BidiRun
  /-- `fixedTextAreaWidth`, `tabWidthFixed`, `usePixelTabWidth`, `vertical`, src/layout_builder.cpp:184-189 -/
  area : Int
  tabWidth : Int
  tabPixels : Bool
  vertical : Bool

/-- A paragraph: start, length with the separator, length of the separator, and the calls of `iterate_run_intersections`. -/
structure ParaPlan where
  start : Nat
  length : Nat
  separator : Nat
  calls : List (Nat × ShapeArgs)
deriving DecidableEq

namespace BuildLibs

/-- The paragraphs as `iterate_run_intersections` walks over them, see `TextLibs.spans`. -/
def spans (b : BuildLibs) (text : Bytes) : List (Nat × Nat) → Nat → List (Span Int)
  | [], _ => []
  | x :: t, start => ⟨x.1, x.2, b.levels text start (x.1 - x.2),
      ((ScriptRunIter.init.all (b.script text start (x.1 - x.2)) (x.1 - x.2)).getD []).map fun r => ((r.limit : Int), r.script)⟩ ::
      b.spans text t (start + x.1)

/-- The paragraphs with their calls. -/
def plans : List (Nat × Nat) → Nat → List (List (ParaCall RunValue Int)) → List ParaPlan
  | [], _, _ => []
  | x :: t, start, cs => ⟨start, x.1, x.2, (cs.headD []).filterMap ParaCall.args⟩ :: plans t (start + x.1) cs.tail

/-- The paragraphs of a text, src/layout_builder.cpp:193-205, 251-283. -/
def plan {F : Type _} (b : BuildLibs) (text : Bytes) (runs : FormattingRuns F) : List ParaPlan :=
  plans (b.bounds text) 0 (textCalls (text.length + 1) 0 (b.spans text (b.bounds text) 0) 0
    (startIters runs.font (some (runs.flags .smallcaps)) (some (runs.flags .subscript)) (some (runs.flags .superscript))
      text.length)).1

/-- What shaping a paragraph depends on. -/
def para (b : BuildLibs) (text : Bytes) (start length : Nat) : ParagraphFonts where
  lib := b.lib
  reg := b.reg
  text := ⟨text, start, length, b.upper⟩
  chars := b.chars text
  hb := b.hb
  vertical := b.vertical

/-- What breaking a paragraph into lines depends on. -/
def line (b : BuildLibs) (text : Bytes) (start length : Nat) : LineEnv where
  start := start
  length := length
  area := b.area
  tabWidth := b.tabWidth
  tabPixels := b.tabPixels
  isTab := (b.para text start length).isTab
  next := b.next text start length
  hangs := b.hangs text start length
  preceding := b.preceding text start length

/-- `get_ascent`, `get_descent`, src/font_data.cpp:37-45, of a face set to a size. -/
def fontMetrics (b : BuildLibs) (file height : Nat) (subSuper : Bool) : Metrics where
  ascent := f32Round (f32Round (f32Round ((b.sized file height).ascender : Rat) / 64) / (fontScale false subSuper).value)
  descent := f32Round (f32Round (f32Round ((b.sized file height).descender : Rat) / 64) / (fontScale false subSuper).value)

/-- `get_font_data` and then `get_ascent` and `get_descent`, src/layout_builder.cpp:211-212, 224-225, 516-524, 547-555. -/
def readMetrics (b : BuildLibs) (q : FontRequest) (t : FontThread) : Option (FontThread × Metrics) :=
  match getFontData b.lib b.reg t q with
  | none => none
  | some (_, none) => none
  | some (t, some d) =>
    match t.cache.lookup d.key with
    | none => none
    | some o => some (t, b.fontMetrics d.file o.height (d.subscript || d.superscript))

/-- `maxAscent`, `maxDescent`, src/layout_builder.cpp:516-524, 547-555. -/
def maxMetricsT (b : BuildLibs) (runs : List (LogicalRun SingleScriptFont)) :
    List VisualPiece → FontThread → Metrics → Option (FontThread × Metrics)
  | [], t, m => some (t, m)
  | p :: ps, t, m =>
    match runs[p.run]? with
    | none => none
    | some r =>
      match b.readMetrics r.font.request t with
      | none => none
      | some (t, x) => b.maxMetricsT runs ps t
          ⟨if x.ascent > m.ascent then x.ascent else m.ascent, if x.descent < m.descent then x.descent else m.descent⟩

/-- `compute_line_visual_runs`, src/layout_builder.cpp:492-575, see `lineOps`. -/
def lineOpsT (b : BuildLibs) (text : Bytes) (start length : Nat) (s : Shaped SingleScriptFont) (l : BrokenLine) (t : FontThread) :
    Option (FontThread × List (LayoutOp SingleScriptFont) × List VisualPiece) :=
  (linePieces s.runs (b.bidi text start length l.first l.stop)).bind fun ps =>
  (visualRuns s l.widths b.vertical ps 0).bind fun ops =>
  (b.maxMetricsT s.runs ps t ⟨0, 0⟩).map fun x =>
  (x.1, ops ++ [.line (x.2.ascent - x.2.descent) x.2.ascent], ps)

/-- All lines of a paragraph. -/
def linesOpsT (b : BuildLibs) (text : Bytes) (start length : Nat) (s : Shaped SingleScriptFont) :
    List BrokenLine → FontThread → Option (FontThread × List (LayoutOp SingleScriptFont) × List VisualPiece)
  | [], t => some (t, [], [])
  | l :: ls, t =>
    match b.lineOpsT text start length s l t with
    | none => none
    | some x =>
      match b.linesOpsT text start length s ls x.1 with
      | none => none
      | some y => some (y.1, x.2.1 ++ y.2.1, x.2.2 ++ y.2.2)

/-- `build_paragraph`, src/layout_builder.cpp:243-375, see `buildParagraph`: calls on the layout, `highestRun`, run count after. -/
def buildParagraphT (b : BuildLibs) (text : Bytes) (start length : Nat) (calls : List (Nat × ShapeArgs)) (runCount : Nat)
    (t : FontThread) : Option (FontThread × List (LayoutOp SingleScriptFont) × Nat × Nat) :=
  match (b.para text start length).shape calls start t {} with
  | none => none
  | some (t, _, s) =>
    (paragraphLines (b.line text start length) s.finish.charIdx s.finish.widths).bind fun ls =>
    (b.linesOpsT text start length s.finish ls t).map fun r =>
    (r.1, r.2.1, (highest r.2.2 runCount (0, -2147483648)).1, runCount + r.2.2.length)

/-- `get_default_single_script_font`, src/font_registry.cpp:223-234 (release build), see `Prog.defaultFont`. -/
def defaultFont (b : BuildLibs) (font : Font) : Option SingleScriptFont :=
  (b.reg.faceOf font.face.getFamily font.face.getWeight.toNat font.face.getStyle).map fun face =>
    { face := face, size := font.size, weight := font.face.getWeight.truncate 4, style := font.face.getStyle }

/-- The font and metrics of an empty line, src/layout_builder.cpp:209-216, 222-229. -/
def emptyLineT (b : BuildLibs) (font : ValueRuns Font) (start : Nat) (t : FontThread) :
    Option (FontThread × SingleScriptFont × Metrics) :=
  match font.view.getValue start with
  | none => none
  | some f =>
    match b.defaultFont f with
    | none => none
    | some d => (b.readMetrics (plainRequest f d.face) t).map fun x => (x.1, d, x.2)

/-- The calls for one paragraph without those for its separator, src/layout_builder.cpp:199-217. -/
def paragraphOpsT (b : BuildLibs) (text : Bytes) (font : ValueRuns Font) (q : ParaPlan) (runCount : Nat) (t : FontThread) :
    Option (FontThread × List (LayoutOp SingleScriptFont) × Nat × Nat) :=
  if q.length - q.separator > 0 then b.buildParagraphT text q.start (q.length - q.separator) q.calls runCount t
  else (b.emptyLineT font q.start t).map fun x =>
    (x.1, [.emptyLine x.2.1 q.start (x.2.2.ascent - x.2.2.descent) x.2.2.ascent], runCount, runCount + 1)

/-- The empty line after a final separator, src/layout_builder.cpp:222-231. -/
def finalLineT (b : BuildLibs) (font : ValueRuns Font) (q : ParaPlan) (count runCount : Nat) (t : FontThread) :
    Option (FontThread × List (LayoutOp SingleScriptFont)) :=
  if q.start + q.length = count ∧ q.separator > 0 then
    (b.emptyLineT font q.start t).map fun x =>
      (x.1, [.emptyLine x.2.1 (q.start + q.length) (x.2.2.ascent - x.2.2.descent) x.2.2.ascent, .setOffset runCount 0])
  else some (t, [])

/-- The paragraph loop, src/layout_builder.cpp:193-234. -/
def paragraphsOpsT (b : BuildLibs) (text : Bytes) (font : ValueRuns Font) (count : Nat) :
    List ParaPlan → Nat → FontThread → Option (FontThread × List (LayoutOp SingleScriptFont))
  | [], _, t => some (t, [])
  | q :: qs, runCount, t =>
    match b.paragraphOpsT text font q runCount t with
    | none => none
    | some r =>
      match b.finalLineT font q count r.2.2.2 r.1 with
      | none => none
      | some fin =>
        (b.paragraphsOpsT text font count qs (if fin.2.isEmpty then r.2.2.2 else r.2.2.2 + 1) fin.1).map fun rest =>
          (rest.1, r.2.1 ++ [.setOffset r.2.2.1 q.separator] ++ fin.2 ++ rest.2)

/-- `build_layout_info`, src/layout_builder.cpp:159-241, as `recalc_text` calls it (sample/text_box.cpp:440-454), in a thread. -/
def buildTextT {F : Type _} (b : BuildLibs) (L : Layout SingleScriptFont) (text : Bytes) (runs : FormattingRuns F)
    (yAlign : YAlignment) (areaHeight : Rat) (t : FontThread) : Option (FontThread × Layout SingleScriptFont) :=
  (b.paragraphsOpsT text runs.font text.length (b.plan text runs) 0 t).bind fun ops =>
  (execLayout L (.clear :: ops.2)).map fun L' => (ops.1, L'.alignY areaHeight yAlign)

end BuildLibs

end RichText
