import Verif.Model.LayoutBuilder
/-!
Notions for stating what line breaking does: consecutive ranges, sums of widths,
tab stops, the contracts of the break iterator and of the UTF-8 decoder.
-/
namespace RichText

/-- The ranges follow each other without gap from `s` to `e`, none is empty. -/
def Consecutive (e : Nat) : Nat → List (Nat × Nat) → Prop
  | s, [] => s = e
  | s, (a, b) :: t => a = s ∧ a < b ∧ Consecutive e b t

/-- Sum of the widths of the glyphs from `i` up to `k`. -/
def sumRange (ws : List Int) (i k : Nat) : Int := ((ws.drop i).take (k - i)).sum

/-- `stop` is the first multiple of `base` after `x`. -/
def IsNextStop (base x stop : Int) : Prop := base ∣ stop ∧ x < stop ∧ stop ≤ x + base

/-- Character ranges of the lines. -/
def lineRanges (ls : List BrokenLine) : List (Nat × Nat) := ls.map fun l => (l.first, l.stop)

/-- The decoder moves forward and stays in the paragraph. -/
def LineEnv.Decodes (e : LineEnv) : Prop := ∀ i, i < e.length → i < e.next i ∧ e.next i ≤ e.length

/-- The break iterator returns at most the length of the text. -/
def LineEnv.BreaksInside (e : LineEnv) : Prop := ∀ i, e.preceding i ≤ e.length

/-- The characters of the glyphs are characters of the paragraph. -/
def LineEnv.Inside (e : LineEnv) (charIdx : List Nat) : Prop :=
  ∀ c ∈ charIdx, e.start ≤ c ∧ c < e.start + e.length

/-- `isStart` are the indices of the paragraph where a code point starts: the
decoder goes from each to the next. -/
structure LineEnv.Codepoints (e : LineEnv) (isStart : Nat → Prop) : Prop where
  next : ∀ i, isStart i → i < e.length → i < e.next i ∧ e.next i ≤ e.length ∧
    (e.next i < e.length → isStart (e.next i))
  gap : ∀ i j, isStart i → i < e.length → isStart j → i < j → e.next i ≤ j

/-- `isBreak` are the break opportunities of the paragraph, among them its end;
`preceding` returns the last one before an index, or -1. -/
structure LineEnv.Breaks (e : LineEnv) (isBreak : Nat → Prop) : Prop where
  inside : ∀ i, isBreak i → i ≤ e.length
  last : isBreak e.length
  preceding : ∀ i, (e.preceding i = -1 ∧ ∀ b, isBreak b → i ≤ b) ∨
    ∃ b : Nat, e.preceding i = b ∧ isBreak b ∧ b < i ∧ ∀ b', isBreak b' → b' < i → b' ≤ b

end RichText
