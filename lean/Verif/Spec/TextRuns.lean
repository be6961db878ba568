import Verif.Model.TextRuns
import Verif.Spec.Runs
import Verif.Spec.RunIter
import Verif.Spec.App
import Verif.Spec.ScriptRun
/-!
Notions for stating what the walk over the runs of a text does.
-/
namespace RichText
open Spec

/-- The paragraphs follow each other from `offset` to `count`, none is empty.  Those with text
have a level for each byte of it (SheenBidi), and script runs that ascend to its end (C36). -/
def Spans {σ : Type _} (count : Nat) : Nat → List (Span σ) → Prop
  | offset, [] => offset = count
  | offset, p :: t => p.separator ≤ p.length ∧ 0 < p.length ∧
    (p.separator < p.length → p.levels.length = p.length - p.separator ∧
      p.scripts.Pairwise (fun a b => a.1 < b.1) ∧ (∀ s ∈ p.scripts, 0 < s.1) ∧
      endOf p.scripts = some ((p.length - p.separator : Nat) : Int)) ∧
    Spans count (offset + p.length) t

/-- Where a paragraph starts that comes behind the paragraphs `pre`. -/
def offsetAfter {σ : Type _} (pre : List (Span σ)) : Nat := (pre.map (·.length)).sum

/-! ### The libraries -/

/-- The paragraphs of a text (SheenBidi) follow each other from `offset` to `count`; none is
empty; only the last may lack a separator. -/
def Bounds (count : Nat) : Nat → List (Nat × Nat) → Prop
  | offset, [] => offset = count
  | offset, b :: t => b.2 ≤ b.1 ∧ 0 < b.1 ∧ (t ≠ [] → 0 < b.2) ∧ Bounds count (offset + b.1) t

/-- There is a paragraph whose text are the `n` bytes from `s`. -/
def TextLibs.HasText {φ : Type _} (l : TextLibs φ) (t : Bytes) (s n : Nat) : Prop :=
  0 < n ∧ ∃ pre b post, l.bounds t = pre ++ b :: post ∧ s = (pre.map (·.1)).sum ∧ n = b.1 - b.2

/-- The contracts of the libraries for texts shorter than `limit`: paragraphs and levels
(SheenBidi), stepping through UTF-8 (ICU), and what laying out the text of a paragraph depends
on (font registry, HarfBuzz, break iterator; `k` glyphs per byte), whatever the calls that
shape it. -/
structure TextLibs.Contract {φ : Type _} (l : TextLibs φ) (limit k : Nat) : Prop where
  bounds : ∀ t, t ≠ [] → t.length < limit → Bounds t.length 0 (l.bounds t)
  levels : ∀ t s n, t.length < limit → l.HasText t s n → (l.levels t s n).length = n
  script : ∀ t s n, t.length < limit → l.HasText t s n → (l.script t s n).len = n ∧ (l.script t s n).Forward
  env : ∀ t s n, t.length < limit → l.HasText t s n →
    (l.env t s n).line.start = s ∧ (l.env t s n).line.length = n ∧
      (∀ calls, CallsTo (s + n) calls → (l.env t s n).OK calls) ∧
      (l.env t s n).Forward ∧ (∃ starts, (l.env t s n).Clusters starts) ∧ (l.env t s n).Thin k

end RichText
