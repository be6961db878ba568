import Verif.Model.Draw
import Verif.Model.UIContainer
/-!
`UIContainer::draw_text` with formatting and selection, sample/ui_container.cpp:99-193: the
rectangles it draws.  What the atlas answers for a glyph is a parameter; the debug outlines
(`CVars::showGlyphOutlines`, `showRunOutlines`, `showGlyphBoundaries`) are off.
-/
namespace RichText

/-- What `get_glyph_info` and `get_stroke_info` answer: size, offset, place in the texture
and whether the image has colours of its own. -/
structure GlyphImage where
  offX : Rat
  offY : Rat
  width : Rat
  height : Rat
  tex : TexRect
  hasColor : Bool := false

/-- What drawing needs to know beside the layout: the atlas, the colour of a stroke, white and
the colour of the selection (`from_rgb(0, 120, 215)`). -/
structure Painter (φ κ σ : Type) where
  glyph : φ → Nat → GlyphImage
  stroke : φ → Nat → σ → GlyphImage
  strokeColor : σ → κ
  white : κ
  blue : κ

/-- The texture coordinates of untextured rectangles, sample/ui_container.cpp:67-71. -/
def unitTex : TexRect := ⟨0, 0, 1, 1⟩

/-- The selection in order, `none` if there is none, sample/ui_container.cpp:102-114. -/
def orderedSelection (start : Option Nat) (cursor : Nat) : Option (Nat × Nat) :=
  start.map fun s => if s > cursor then (cursor, s) else (s, cursor)

section
variable {φ κ σ : Type}

/-- The rectangle behind the selected part of a run, sample/ui_container.cpp:116-125. -/
def highlightRun (L : Layout φ) (blue : κ) (posX posY : Rat) (a b : Nat) (c : Nat × Nat × Rat × Rat) :
    Option (List (Quad κ)) := do
  let t ← L.runContainsCharRange c.2.1 a b
  if t then
    let r ← L.positionRange c.2.1 a b
    let line ← L.lines[c.1]?
    let height ← L.lineHeight c.1
    some [⟨posX + c.2.2.1 + r.1, posY + c.2.2.2 - line.ascent, r.2 - r.1, height, unitTex, blue⟩]
  else some []

/-- One run after the other. -/
def highlightRuns (L : Layout φ) (blue : κ) (posX posY : Rat) (a b : Nat) :
    List (Nat × Nat × Rat × Rat) → Option (List (Quad κ))
  | [] => some []
  | c :: cs =>
    match highlightRun L blue posX posY a b c with
    | none => none
    | some q => (highlightRuns L blue posX posY a b cs).map (q ++ ·)

/-- The first pass, sample/ui_container.cpp:106-126. -/
def highlights (L : Layout φ) (blue : κ) (posX posY W : Rat) (al : XAlignment) : Option (Nat × Nat) → Option (List (Quad κ))
  | none => some []
  | some (a, b) =>
    match L.forEachRun W al with
    | none => none
    | some calls => highlightRuns L blue posX posY a b calls

/-- `pClip` for a run, sample/ui_container.cpp:134-149. -/
def clipOf (L : Layout φ) (posX : Rat) (sel : Option (Nat × Nat)) (run : Nat) : Option (Option (Rat × Rat)) :=
  match sel with
  | none => some none
  | some (a, b) => do
    let t ← L.runContainsCharRange run a b
    if t then
      let r ← L.positionRange run a b
      some (some (r.1 + posX, r.2 + posX))
    else some none

/-- The rectangles of a call other than the one at the start of a run,
sample/ui_container.cpp:150-193. -/
def paintCall (p : Painter φ κ σ) (posX posY : Rat) (clip : Option (Rat × Rat)) : DrawCall φ κ σ → List (Quad κ)
  | .run _ _ => []
  | .glyph font id x y color =>
    let i := p.glyph font id
    emitRect p.white (posX + x + i.offX) (posY + y + i.offY) i.width i.height i.tex (if i.hasColor then p.white else color) clip
  | .stroke font id x y s =>
    let i := p.stroke font id s
    emitRect p.white (posX + x + i.offX) (posY + y + i.offY) i.width i.height i.tex (p.strokeColor s) none
  | .rect _ x y w h color => emitRect p.white (posX + x) (posY + y) w h unitTex color clip

/-- `pClip` after a call: only the call at the start of a run changes it. -/
def nextClip (L : Layout φ) (posX : Rat) (sel : Option (Nat × Nat)) (clip : Option (Rat × Rat)) :
    DrawCall φ κ σ → Option (Option (Rat × Rat))
  | .run _ k => clipOf L posX sel k
  | _ => some clip

/-- The second pass. -/
def paintCalls (L : Layout φ) (p : Painter φ κ σ) (posX posY : Rat) (sel : Option (Nat × Nat)) :
    Option (Rat × Rat) → List (DrawCall φ κ σ) → Option (List (Quad κ))
  | _, [] => some []
  | clip, c :: cs => do
    let clip ← nextClip L posX sel clip c
    let rest ← paintCalls L p posX posY sel clip cs
    some (paintCall p posX posY clip c ++ rest)

/-- `UIContainer::draw_text`, sample/ui_container.cpp:99-193. -/
def paintText [DecidableEq κ] (L : Layout φ) (f : FmtView κ σ) (visible : σ → Bool) (metrics : φ → FontMetrics)
    (p : Painter φ κ σ) (posX posY W : Rat) (al : XAlignment) (start : Option Nat) (cursor : Nat) : Option (List (Quad κ)) := do
  let back ← highlights L p.blue posX posY W al (orderedSelection start cursor)
  let calls ← drawText L f visible metrics W al
  let front ← paintCalls L p posX posY (orderedSelection start cursor) none calls
  some (back ++ front)

/-- The other `UIContainer::draw_text`, sample/ui_container.cpp:73-97. -/
def paintPlain (L : Layout φ) (p : Painter φ κ σ) (posX posY W : Rat) (al : XAlignment) (color : κ) : Option (List (Quad κ)) :=
  (drawPlain L W al).map fun calls => calls.flatMap fun c =>
    let i := p.glyph c.1 c.2.1
    emitRect p.white (posX + c.2.2.1 + i.offX) (posY + c.2.2.2 + i.offY) i.width i.height i.tex
      (if i.hasColor then p.white else color) none

end
end RichText
