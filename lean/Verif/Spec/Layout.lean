import Verif.Model.LayoutInfo
/-!
What a layout is, independently of how it is stored: a list of lines, each a
list of runs in visual order, each run a list of placed glyphs.
`LineSpec.layout` lists which vectors represent it.
-/
namespace RichText

/-- A placed glyph: id, index of its character, position relative to the line. -/
structure GlyphSpec where
  id : Nat
  char : Nat
  x : Rat
  y : Rat
deriving Repr, DecidableEq

/-- A run of glyphs in visual order and the position where it ends. -/
structure RunSpec (φ : Type _) where
  font : φ
  glyphs : List GlyphSpec
  endX : Rat
  endY : Rat
  charStart : Nat
  charEnd : Nat
  charEndOffset : Nat := 0
  rtl : Bool := false
deriving Repr, DecidableEq

/-- A line. -/
structure LineSpec (φ : Type _) where
  runs : List (RunSpec φ)
  height : Rat
  ascent : Rat
deriving Repr, DecidableEq

variable {φ : Type _}

/-- The run of an empty line at character `c`. -/
def RunSpec.empty (font : φ) (c : Nat) : RunSpec φ := ⟨font, [], 0, 0, c, c, 0, false⟩

/-- Number of glyphs in a list of runs. -/
def glyphCount (rs : List (RunSpec φ)) : Nat := (rs.map (·.glyphs.length)).sum

/-- All runs of the lines, in visual order. -/
def allRuns (ls : List (LineSpec φ)) : List (RunSpec φ) := ls.flatMap (·.runs)

/-- Sum of the heights. -/
def totalHeight (ls : List (LineSpec φ)) : Rat := (ls.map (·.height)).sum

/-- Where a line ends: where its last run ends. -/
def LineSpec.width (l : LineSpec φ) : Rat := (l.runs.getLast?.map (·.endX)).getD 0

/-- `L` stores the lines `ls`, then the runs `rs` of a line not yet finished, and
`y` as the start of the text. -/
structure Stores (L : Layout φ) (ls : List (LineSpec φ)) (rs : List (RunSpec φ)) (y : Rat) : Prop where
  /-- the glyphs in order -/
  glyphs : L.glyphs = ((allRuns ls ++ rs).flatMap (·.glyphs)).map (·.id)
  /-- their characters -/
  charIdx : L.charIdx = ((allRuns ls ++ rs).flatMap (·.glyphs)).map (·.char)
  /-- for each run the positions of its glyphs, then the end position -/
  pos : L.pos = (allRuns ls ++ rs).flatMap fun r => r.glyphs.flatMap (fun g => [g.x, g.y]) ++ [r.endX, r.endY]
  /-- number of runs -/
  runCount : L.runs.length = (allRuns ls ++ rs).length
  /-- each run with the number of glyphs up to its end -/
  runs : ∀ i r, (allRuns ls ++ rs)[i]? = some r → L.runs[i]? =
    some (⟨r.font, glyphCount ((allRuns ls ++ rs).take (i + 1)), r.charStart, r.charEnd, r.charEndOffset,
      r.rtl⟩ : VisualRun φ)
  /-- number of lines -/
  lineCount : L.lines.length = ls.length
  /-- each line with the number of runs and the height up to its end -/
  lines : ∀ i l, ls[i]? = some l → L.lines[i]? =
    some (⟨(allRuns (ls.take (i + 1))).length, l.width, l.ascent, totalHeight (ls.take (i + 1))⟩ : LineInfo)
  /-- the start of the text -/
  startY : L.startY = y

/-- The calls that build a layout.  `run` stands for the calls made for the
glyphs of one run: for each glyph `append_glyph`, `append_char_index`,
`append_glyph_position`, then the closing `append_glyph_position` and
`append_run`. -/
inductive LayoutOp (φ : Type _) where
  | run (font : φ) (glyphs : List GlyphSpec) (endX endY : Rat) (charStart charEnd : Nat) (rtl : Bool)
  | line (height ascent : Rat)
  | emptyLine (font : φ) (char : Nat) (height ascent : Rat)
  | setOffset (run offset : Nat)
  | startY (y : Rat)
  | clear
deriving DecidableEq

/-- Execute one call group. -/
def LayoutOp.exec (L : Layout φ) : LayoutOp φ → Option (Layout φ)
  | .run font glyphs ex ey s e rtl =>
    some (((glyphs.foldl (fun L g => ((L.appendGlyph g.id).appendCharIndex g.char).appendGlyphPosition g.x g.y)
      L).appendGlyphPosition ex ey).appendRun font s e rtl)
  | .line h a => L.appendLine h a
  | .emptyLine font c h a => some (L.appendEmptyLine font c h a)
  | .setOffset i o => L.setRunCharEndOffset i o
  | .startY y => some (L.setTextStartY y)
  | .clear => some L.clear

/-- Execute a sequence of calls. -/
def execLayout : Layout φ → List (LayoutOp φ) → Option (Layout φ)
  | L, [] => some L
  | L, op :: ops =>
    match op.exec L with
    | none => none
    | some L => execLayout L ops

/-- A layout under construction: finished lines, runs of the current line, text
start. -/
structure Draft (φ : Type _) where
  lines : List (LineSpec φ) := []
  open_ : List (RunSpec φ) := []
  y : Rat := 0

/-- Change the separator length of run number `i`. -/
def setOffsetAt (o : Nat) : Nat → List (RunSpec φ) → List (RunSpec φ)
  | _, [] => []
  | 0, r :: t => { r with charEndOffset := o } :: t
  | i + 1, r :: t => r :: setOffsetAt o i t

/-- Change the separator length of run number `i` of the lines. -/
def setOffsetLines (o : Nat) : Nat → List (LineSpec φ) → List (LineSpec φ)
  | _, [] => []
  | i, l :: t =>
    if i < l.runs.length then { l with runs := setOffsetAt o i l.runs } :: t
    else l :: setOffsetLines o (i - l.runs.length) t

/-- The meaning of a call; `none`: the call breaks the protocol (a line without
runs, an empty line or a separator for a run in the middle of a line that does
not exist). -/
def Draft.step (d : Draft φ) : LayoutOp φ → Option (Draft φ)
  | .run font glyphs ex ey s e rtl => some { d with open_ := d.open_ ++ [⟨font, glyphs, ex, ey, s, e, 0, rtl⟩] }
  | .line h a => if d.open_.isEmpty then none else some { d with lines := d.lines ++ [⟨d.open_, h, a⟩], open_ := [] }
  | .emptyLine font c h a =>
    if d.open_.isEmpty then some { d with lines := d.lines ++ [⟨[.empty font c], h, a⟩] } else none
  | .setOffset i o =>
    let n := (allRuns d.lines).length
    if i < n then some { d with lines := setOffsetLines o i d.lines }
    else if i < n + d.open_.length then some { d with open_ := setOffsetAt o (i - n) d.open_ }
    else none
  | .startY y => some { d with y := y }
  | .clear => some { d with lines := [], open_ := [] }

/-- The meaning of a sequence of calls. -/
def Draft.steps : Draft φ → List (LayoutOp φ) → Option (Draft φ)
  | d, [] => some d
  | d, op :: ops =>
    match d.step op with
    | none => none
    | some d => d.steps ops

end RichText
