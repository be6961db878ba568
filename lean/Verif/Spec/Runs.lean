/-!
Specification of run lists, independent of how they are stored.

A run list is a list of `(limit, value)` pairs in the order in which they were
added; a run covers the indices from the previous limit up to its own.
-/
namespace RichText.Spec

/-- The value of index `i`: the value of the first run whose limit lies beyond
`i` (`none` if there is no such run). -/
def valueAt {α : Type _} (runs : List (Int × α)) (i : Int) : Option α :=
  (runs.find? fun r => decide (i < r.1)).map (·.2)

/-- Limits never decrease. -/
def SortedLimits {α : Type _} (runs : List (Int × α)) : Prop :=
  runs.Pairwise fun a b => a.1 ≤ b.1

/-- The last limit. -/
def endOf {α : Type _} (runs : List (Int × α)) : Option Int :=
  runs.getLast?.map (·.1)

/-- A text with nested styled regions: nothing, `n` units of text, or a region
that gives its content the value `x`, each followed by more. -/
inductive Doc (α : Type _) where
  | done
  | text (n : Nat) (rest : Doc α)
  | region (x : α) (inner rest : Doc α)

/-- The value of every unit of text: that of the innermost region around it,
`outer` if there is none. -/
def Doc.values {α : Type _} (outer : α) : Doc α → List α
  | .done => []
  | .text n rest => List.replicate n outer ++ rest.values outer
  | .region x inner rest => inner.values x ++ rest.values outer

end RichText.Spec
