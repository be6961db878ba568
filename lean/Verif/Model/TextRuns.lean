import Verif.Model.App
import Verif.Model.ScriptRun
/-!
The runs of a whole text: `build_layout_info` (src/layout_builder.cpp:159-241) walks the
paragraphs with four run iterators that go on from one paragraph to the next.
-/
namespace RichText

/-! ### The run iterators -/

/-- What the run iterators of src/layout_builder.cpp:167-170 show: `Font` or `bool`. -/
inductive RunValue where
  | font (f : Font)
  | flag (b : Bool)
deriving Repr, DecidableEq

/-- A view with the values wrapped. -/
def RunView.map {α β : Type _} (f : α → β) (v : RunView α) : RunView β :=
  ⟨v.count, v.limit, fun i => (v.value i).map f⟩

/-- `MaybeDefaultRunsIterator(pRuns, false, count)`, src/layout_builder.cpp:168-170. -/
def flagIter (runs : Option (ValueRuns Bool)) (count : Nat) : RunIter RunValue :=
  match runs with
  | none => .fixed count (.flag false)
  | some r => .runs (r.view.map .flag) 0

/-- src/layout_builder.cpp:167-170: the iterators over fonts, small capitals, subscripts and
superscripts. -/
def startIters (font : ValueRuns Font) (smallcaps subscript superscript : Option (ValueRuns Bool)) (count : Nat) :
    List (RunIter RunValue) :=
  [.runs (font.view.map .font) 0, flagIter smallcaps count, flagIter subscript count, flagIter superscript count]

/-! ### The paragraphs -/

/-- A paragraph: length with the separator, length of the separator
(`SBAlgorithmGetParagraphBoundary`), levels of its text (`SBParagraphGetLevelsPtr`) and
script runs of its text, limits relative to the paragraph. -/
structure Span (σ : Type _) where
  length : Nat
  separator : Nat
  levels : List Nat
  scripts : List (Int × σ)

/-- How the walk over the paragraphs ended, cf. `ParaEnd`. -/
inductive TextEnd (α : Type _) where
  | outOfFuel
  | outOfRange
  | done (its : List (RunIter α))

/-- The loop of src/layout_builder.cpp:193-235 as far as the runs are concerned: for each
paragraph that is reached the calls of `iterate_run_intersections` (none if it has no text).
`fuel` bounds the calls for one paragraph. -/
def textCalls {α σ : Type _} (fuel : Nat) (default : σ) :
    List (Span σ) → Nat → List (RunIter α) → List (List (ParaCall α σ)) × TextEnd α
  | [], _, its => ([], .done its)
  | p :: t, start, its =>
    if p.length - p.separator > 0 then
      match LevelsIter.init p.levels start with
      | none => ([], .outOfRange)
      | some lv =>
        match iteratePara ((start + (p.length - p.separator) : Nat) : Int) fuel start
            ⟨its, ScriptIter.init p.scripts default start, lv⟩ with
        | (calls, .done its') =>
          (calls :: (textCalls fuel default t (start + p.length) its'.runs).1,
            (textCalls fuel default t (start + p.length) its'.runs).2)
        | (calls, .outOfRange) => ([calls], .outOfRange)
        | (calls, .outOfFuel) => ([calls], .outOfFuel)
    else
      ([] :: (textCalls fuel default t (start + p.length) its).1, (textCalls fuel default t (start + p.length) its).2)

/-- The arguments of the functor besides the limit, src/layout_builder.cpp:260-261. -/
structure ShapeArgs where
  font : Font
  script : Int
  level : Nat
  smallcaps : Bool
  subscript : Bool
  superscript : Bool
deriving Repr, DecidableEq

/-- The arguments of a call. -/
def ParaCall.args (c : ParaCall RunValue Int) : Option (Nat × ShapeArgs) :=
  match c.values with
  | [.font f, .flag a, .flag b, .flag d] => some (c.limit.toNat, ⟨f, c.script, c.level, a, b, d⟩)
  | _ => none

/-! ### The text with its libraries -/

/-- What `build_layout_info` asks of its libraries for a text: paragraph boundaries and levels
(SheenBidi), UTF-8 and scripts (ICU), for the paragraph text of a length at an offset the
rest of what laying it out depends on, and default font and metrics of a font. -/
structure TextLibs (φ : Type _) where
  bounds : Bytes → List (Nat × Nat)
  levels : Bytes → Nat → Nat → List Nat
  script : Bytes → Nat → Nat → ScriptText
  env : Bytes → Nat → Nat → ParaEnv ShapeArgs φ
  defaultFont : Font → φ
  metrics : Font → Metrics

namespace TextLibs
variable {φ : Type _}

/-- `ScriptRunIterator` over the text of a paragraph: limits and scripts,
src/layout_builder.cpp:28-44. -/
def scripts (l : TextLibs φ) (text : Bytes) (start length : Nat) : List (Int × Int) :=
  ((ScriptRunIter.init.all (l.script text start length) length).getD []).map fun r => ((r.limit : Int), r.script)

/-- The paragraphs of a text. -/
def spans (l : TextLibs φ) (text : Bytes) : List (Nat × Nat) → Nat → List (Span Int)
  | [], _ => []
  | b :: t, start => ⟨b.1, b.2, l.levels text start (b.1 - b.2), l.scripts text start (b.1 - b.2)⟩ ::
      l.spans text t (start + b.1)

/-- The paragraphs as `paragraphOps` and `finalLine` take them: what
src/layout_builder.cpp:193-235 does with each. -/
def layOut (l : TextLibs φ) (text : Bytes) (font : ValueRuns Font) :
    List (Nat × Nat) → Nat → List (List (ParaCall RunValue Int)) → List (Paragraph ShapeArgs φ)
  | [], _, _ => []
  | b :: t, start, cs =>
    let f := (font.view.getValue start).getD ⟨FontFace.make 0 0 .normal, 0⟩
    ⟨b.1, b.2, l.env text start (b.1 - b.2), (cs.headD []).filterMap ParaCall.args, l.defaultFont f, l.metrics f⟩ ::
      l.layOut text font t (start + b.1) cs.tail

/-- All of `build_layout_info` up to the calls on the layout: paragraphs, runs and fonts, as
`recalc_text` calls it (sample/text_box.cpp:440-454).  The bound on the calls for a paragraph
is never reached (C90).  The calls made before a read out of range (C05) count. -/
def paragraphs {F : Type _} (l : TextLibs φ) (text : Bytes) (runs : FormattingRuns F) : List (Paragraph ShapeArgs φ) :=
  l.layOut text runs.font (l.bounds text) 0
    (textCalls (text.length + 1) 0 (l.spans text (l.bounds text) 0) 0
      (startIters runs.font (some (runs.flags .smallcaps)) (some (runs.flags .subscript)) (some (runs.flags .superscript))
        text.length)).1

end TextLibs
end RichText
