import Verif.Model.ScriptRun
/-!
Notions for stating what script runs are: the bracket pairs, character positions,
consecutive runs, matching brackets.
-/
namespace RichText

/-- The pairs of opening and closing characters. -/
def bracketPairs : List (Char × Char) :=
  [('(', ')'), ('<', '>'), ('[', ']'), ('{', '}'), ('«', '»'), ('‘', '’'), ('“', '”'), ('‹', '›'), ('〈', '〉'), ('《', '》'),
   ('「', '」'), ('『', '』'), ('【', '】'), ('〔', '〕'), ('〖', '〗'), ('〘', '〙'), ('〚', '〛')]

/-- `ch` is the opening character of pair `k`. -/
def Opens (ch : Int) (k : Nat) : Prop := ∃ p, bracketPairs[k]? = some p ∧ ch = (p.1.toNat : Int)

/-- `ch` is the closing character of pair `k`. -/
def Closes (ch : Int) (k : Nat) : Prop := ∃ p, bracketPairs[k]? = some p ∧ ch = (p.2.toNat : Int)

namespace ScriptText

/-- ICU's `U8_FWD_1` moves forward and stops at the end of the text. -/
def Forward (t : ScriptText) : Prop := ∀ i, i < t.len → i < t.fwd i ∧ t.fwd i ≤ t.len

/-- Positions of characters: reached from 0 by `U8_FWD_1`. -/
inductive Position (t : ScriptText) : Nat → Prop
  | zero : Position t 0
  | fwd {i : Nat} : Position t i → i < t.len → Position t (t.fwd i)

/-- Every position holds a code point (the text is well-formed UTF-8). -/
def WellFormed (t : ScriptText) : Prop := ∀ i, t.Position i → i < t.len → 0 ≤ t.cp i ∧ t.cp i ≤ 0x10ffff

/-- The open brackets before a position, latest first, as pairs of pair number
and position.  A closing bracket closes the latest open one of its pair and
forgets those opened after it; if there is none it forgets all.  Only the 32
latest are kept. -/
inductive Opened (t : ScriptText) : Nat → List (Nat × Nat) → Prop
  | zero : Opened t 0 []
  | opening {i k : Nat} {o : List (Nat × Nat)} : Opened t i o → i < t.len → Opens (t.cp i) k →
      Opened t (t.fwd i) (((k, i) :: o).take 32)
  | closing {i k : Nat} {o : List (Nat × Nat)} : Opened t i o → i < t.len → Closes (t.cp i) k →
      Opened t (t.fwd i) (o.dropWhile fun x => x.1 != k).tail
  | other {i : Nat} {o : List (Nat × Nat)} : Opened t i o → i < t.len → (∀ k, ¬ Opens (t.cp i) k ∧ ¬ Closes (t.cp i) k) →
      Opened t (t.fwd i) o

/-- The bracket at `p` closes the one at `q`. -/
def Matches (t : ScriptText) (q p : Nat) : Prop :=
  ∃ o k, t.Opened p o ∧ p < t.len ∧ Closes (t.cp p) k ∧ (o.dropWhile fun x => x.1 != k).head? = some (k, q)

end ScriptText

/-- The runs follow each other from `s` to `e`, none is empty. -/
def ScriptRuns (e : Nat) : Nat → List ScriptRun → Prop
  | s, [] => s = e
  | s, r :: t => r.start = s ∧ s < r.limit ∧ ScriptRuns e r.limit t

end RichText
