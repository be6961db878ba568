import Verif.Model.ValueRuns
/-!
What a run iterator walks over: a list of runs filled by `add`, or (for
`MaybeDefaultRunsIterator` without runs) one constant up to a limit.
-/
namespace RichText

variable {α : Type _}

/-- Source of an iterator. -/
inductive Src (α : Type _) where
  | list (runs : List (Int × α))
  | const (limit : Int) (x : α)

/-- The runs of a source. -/
def Src.runs : Src α → List (Int × α)
  | .list r => r
  | .const l x => [(l, x)]

/-- A source together with the number of the run the iterator stands on. -/
abbrev SState (α : Type _) := List (Src α × Nat)

/-- The iterator over a source standing on run `i`. -/
def Src.iter : Src α × Nat → RunIter α
  | (.list r, i) => .runs (ValueRuns.ofAdds r).view i
  | (.const l x, _) => .fixed l x

/-- The run it stands on. -/
def Src.idx : Src α × Nat → Nat
  | (.list _, i) => i
  | (.const _ _, _) => 0

end RichText
