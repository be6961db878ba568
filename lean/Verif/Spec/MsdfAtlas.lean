import Verif.Model.MsdfAtlas
import Verif.Spec.TextAtlas
import Mathlib.Data.List.Forall2
/-!
What shapes made of outlines are, and what answers about them are right.
-/
namespace RichText

/-- The edges along segments from a point: lines of no length have none. -/
inductive Traces : OutlinePoint → List OutlineSegment → List MsdfEdge → Prop
  | done {p : OutlinePoint} : Traces p [] []
  | stay {p : OutlinePoint} {ss : List OutlineSegment} {es : List MsdfEdge} : Traces p ss es → Traces p (.line p :: ss) es
  | line {p q : OutlinePoint} {ss : List OutlineSegment} {es : List MsdfEdge} : p ≠ q → Traces q ss es →
      Traces p (.line q :: ss) (.linear p q :: es)
  | conic {p c q : OutlinePoint} {ss : List OutlineSegment} {es : List MsdfEdge} : Traces q ss es →
      Traces p (.conic c q :: ss) (.quadratic p c q :: es)
  | cubic {p c₁ c₂ q : OutlinePoint} {ss : List OutlineSegment} {es : List MsdfEdge} : Traces q ss es →
      Traces p (.cubic c₁ c₂ q :: ss) (.cubic p c₁ c₂ q :: es)

/-- The edges of each contour of an outline. -/
def OutlineEdges (outline : List OutlineContour) (ess : List (List MsdfEdge)) : Prop :=
  List.Forall₂ (fun k es => Traces k.start k.segments es) outline ess

/-- The outline of a request. -/
def MsdfEnv.outline (env : MsdfEnv) : AtlasRequest → List OutlineContour
  | .glyph f g => env.glyph f g
  | .stroke f g t j => env.stroke f g t j

/-- The atlas answers a request. -/
def MsdfAtlas.get (env : MsdfEnv) (a : MsdfAtlas) : AtlasRequest → Option (MsdfAtlas × MsdfAnswer)
  | .glyph f g => a.getGlyph env f g
  | .stroke f g t j => a.getStroke env f g t j

/-- Atlases after a history of requests. -/
inductive MsdfRun (env : MsdfEnv) : MsdfAtlas → Prop
  | start : MsdfRun env {}
  | step {a a' : MsdfAtlas} {r : AtlasRequest} {ans : MsdfAnswer} : MsdfRun env a → a.get env r = some (a', ans) → MsdfRun env a'

/-- All bitmaps can be made and none is larger than a page. -/
def MsdfEnv.Small (env : MsdfEnv) : Prop :=
  ∀ r, ∃ ra, loadMsdf env (env.outline r) (env.upem r.font) = some ra ∧ ra.width ≤ 2048 ∧ ra.height ≤ 2048

/-- The answer is right: size and offset of the bitmap made for the outline, scaled
from 32 pixels per em to the pixels per em of the font and moved to its baseline,
with a place of the size of the bitmap inside a page unless the bitmap is
empty. -/
def MsdfAnswered (env : MsdfEnv) (baseline : SingleScriptFont → Rat) (r : AtlasRequest) (ans : MsdfAnswer) : Prop :=
  ∃ ra, loadMsdf env (env.outline r) (env.upem r.font) = some ra ∧
    ans.width = ra.width * (env.ppemX r.font / 32) ∧ ans.height = ra.height * (env.ppemY r.font / 32) ∧
    ans.offsetX = ra.offsetX * (env.ppemX r.font / 32) ∧
    ans.offsetY = ra.offsetY * (env.ppemY r.font / 32) + baseline r.font ∧ ans.hasColor = false ∧
    (ans.place = none ↔ ra.width = 0 ∨ ra.height = 0) ∧
    ∀ p, ans.place = some p → p.w = ra.width ∧ p.h = ra.height ∧ p.Inside

end RichText
