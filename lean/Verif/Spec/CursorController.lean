import Verif.Model.CursorController
/-!
What cursor movement by characters and words is.
-/
namespace RichText

/-- `b` is a break iterator with boundaries `B`, among them both ends of the text,
and a text that can be read at all its positions. -/
structure Breaks (b : BreakEnv) (B : Nat → Prop) : Prop where
  first : B 0
  last : B b.size
  inside : ∀ k, B k → k ≤ b.size
  follow_next : ∀ k n, b.follow k = some n → k < n ∧ B n ∧ ∀ m, B m → k < m → n ≤ m
  follow_done : ∀ k m, b.follow k = none → k < m → ¬ B m
  precede_prev : ∀ k n, b.precede k = some n → n < k ∧ B n ∧ ∀ m, B m → m < k → m ≤ n
  precede_done : ∀ k m, b.precede k = none → m < k → ¬ B m
  char : ∀ k, k ≤ b.size → b.char k ≠ none

/-- The character at a position is white space. -/
def SpaceAt (b : BreakEnv) (k : Nat) : Prop := ∃ c, b.char k = some c ∧ b.space c = true

/-- The character at a position is LF, CR, a line or a paragraph separator. -/
def LineBreakAt (b : BreakEnv) (k : Nat) : Prop := ∃ c, b.char k = some c ∧ (c = 10 ∨ c = 13 ∨ c = 0x2028 ∨ c = 0x2029)

/-- `q` is the least element of `B` above `p`. -/
def NextIn (B : Nat → Prop) (p q : Nat) : Prop := B q ∧ p < q ∧ ∀ m, B m → p < m → q ≤ m

/-- A stop of `next_word` behind `p`: a boundary with a line break, or one that is
not white space while the grapheme before it is (for the first one: the cursor's). -/
def WordStop (b : BreakEnv) (B : Nat → Prop) (p q : Nat) : Prop :=
  B q ∧ p < q ∧ (LineBreakAt b q ∨ (¬ SpaceAt b q ∧ ∃ r, (r = p ∨ B r ∧ p < r) ∧ NextIn B r q ∧ SpaceAt b r))

/-- A stop of `prev_word` before `p`: a boundary with a line break, or one that is
not white space and has white space or the start of the text before it. -/
def WordStart (b : BreakEnv) (B : Nat → Prop) (p q : Nat) : Prop :=
  B q ∧ q < p ∧ (LineBreakAt b q ∨ (¬ SpaceAt b q ∧ (q = 0 ∨ ∃ r, B r ∧ NextIn B r q ∧ SpaceAt b r)))

end RichText
