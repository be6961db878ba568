import Verif.Model.RefRuns
import Verif.Spec.Markup
import Verif.Spec.Runs
import Verif.Spec.ScriptRun
/-!
Notions for the runs of the earlier builder of the tests (Model/RefRuns.lean).
-/
namespace RichText
open Spec
variable {α φ : Type _}

/-- A run ends at `l`. -/
def EndsAt (runs : List (Int × α)) (l : Int) : Prop := ∃ q ∈ runs, q.1 = l

/-- `levels[k]` differs from the level before. -/
def Change (levels : List Nat) (n k : Nat) : Prop := 0 < k ∧ k < n ∧ levels[k]? ≠ levels[k - 1]?

/-- The runs of a flag: none are `false` up to the end. -/
def flagList (runs : Option (ValueRuns Bool)) (total : Nat) : List (Int × Bool) :=
  match runs with
  | none => [((total : Int), false)]
  | some r => r.limits.zip r.values

/-- The arguments of `get_sub_font`. -/
structure SubKey where
  font : Font
  script : Int
  smallcaps : Bool
  subscript : Bool
  superscript : Bool
deriving DecidableEq, Repr

/-- `get_sub_font` with its arguments. -/
def askFor (get : SubFontFn φ) (k : SubKey) : Nat → Nat → φ × Nat := get k.font k.script k.smallcaps k.subscript k.superscript

/-- The key of the font registry in the arguments of the functor. -/
def ShapeArgs.key (a : ShapeArgs) : SubKey := ⟨a.font, a.script, a.smallcaps, a.subscript, a.superscript⟩

/-- What the answer of the font registry has to do with a boundary inside the text asked about: it is the
answer for the text up to the boundary, or goes on behind it. -/
def CutAt (get : Nat → Nat → φ × Nat) (m : Nat) : Prop :=
  ∀ a l, a < m → m < l →
    ((get a l).2 ≤ m → get a m = get a l) ∧ (m < (get a l).2 → get a m = ((get a l).1, m) ∧ get m l = get a l)

/-- A text of `total` bytes with its runs, and a paragraph of it with its levels and scripts. -/
structure RefIn (total start n : Nat) (fonts : ValueRuns Font) (smallcaps subscript superscript : Option (ValueRuns Bool))
    (levels : List Nat) (t : ScriptText) : Prop where
  pos : 0 < n
  inside : start + n ≤ total
  fonts : RunsFit fonts total
  smallcaps : ∀ r, smallcaps = some r → RunsFit r total
  subscript : ∀ r, subscript = some r → RunsFit r total
  superscript : ∀ r, superscript = some r → RunsFit r total
  levels : n ≤ levels.length
  forward : t.Forward
  length : t.len = n

/-- The runs give the byte `i` of the paragraph these arguments; `scripts` are the runs of scripts of the paragraph. -/
structure KeyAt (total start : Nat) (fonts : ValueRuns Font) (smallcaps subscript superscript : Option (ValueRuns Bool))
    (scripts : List (Int × Int)) (i : Nat) (k : SubKey) : Prop where
  font : valueAt (fonts.limits.zip fonts.values) ((start + i : Nat) : Int) = some k.font
  script : valueAt scripts (i : Int) = some k.script
  smallcaps : valueAt (flagList smallcaps total) ((start + i : Nat) : Int) = some k.smallcaps
  subscript : valueAt (flagList subscript total) ((start + i : Nat) : Int) = some k.subscript
  superscript : valueAt (flagList superscript total) ((start + i : Nat) : Int) = some k.superscript

/-- One of the runs asked about ends at `l`, or the paragraph does. -/
def KeyEnds (total start n : Nat) (fonts : ValueRuns Font) (smallcaps subscript superscript : Option (ValueRuns Bool))
    (scripts : List (Int × Int)) (l : Nat) : Prop :=
  EndsAt (fonts.limits.zip fonts.values) ((start + l : Nat) : Int) ∨ EndsAt (flagList smallcaps total) ((start + l : Nat) : Int) ∨
    EndsAt (flagList subscript total) ((start + l : Nat) : Int) ∨ EndsAt (flagList superscript total) ((start + l : Nat) : Int) ∨
    EndsAt scripts (l : Int) ∨ l = n

/-- `get_sub_font` is asked about the text from `a` to `l` with the arguments `k`: all bytes have them, and `l` is where the
first run ends behind `a`. -/
structure Asked (total start n : Nat) (fonts : ValueRuns Font) (smallcaps subscript superscript : Option (ValueRuns Bool))
    (scripts : List (Int × Int)) (k : SubKey) (a l : Nat) : Prop where
  less : a < l
  inside : l ≤ n
  all : ∀ i, a ≤ i → i < l → KeyAt total start fonts smallcaps subscript superscript scripts i k
  ends : KeyEnds total start n fonts smallcaps subscript superscript scripts l
  first : ∀ m, a < m → m < l → ¬ KeyEnds total start n fonts smallcaps subscript superscript scripts m

/-- The answers of `get_sub_font` for the text from `a` to `n`, with their ends: where an answer ends, the next text is asked
about. -/
inductive Answers (get : SubFontFn φ) (asked : SubKey → Nat → Nat → Prop) (n : Nat) : Nat → List (φ × Nat) → Prop
  | done : Answers get asked n n []
  | step {k : SubKey} {a l : Nat} {rest : List (φ × Nat)} : asked k a l → Answers get asked n (askFor get k a l).2 rest →
      Answers get asked n a (askFor get k a l :: rest)

end RichText
