import Verif.Model.BinarySearch
/-!
Model of `src/value_runs.hpp`, `src/value_runs_iterator.hpp`,
`src/value_run_utils.hpp` and `src/value_run_builder.hpp`.

`none` is undefined behaviour (an access past the end of a vector, `back()` of
an empty vector).  Limits are `Int` (no `int32_t` wrap-around) except in the
packed boolean specialisation, which works on 32-bit words as in the code.
-/
namespace RichText

/-- What the CRTP mixin sees of a run container: `get_run_count`,
`get_run_limit`, `get_run_value` (src/value_runs.hpp:15-25). -/
structure RunView (α : Type _) where
  count : Nat
  limit : Nat → Option Int
  value : Nat → Option α

namespace RunView
variable {α : Type _} (v : RunView α)

/-- First loop of `for_each_run_in_range`, src/value_runs.hpp:29-33. -/
def skipRuns (offset : Int) (i : Nat) : Option Nat :=
  if i < v.count then
    match v.limit i with
    | none => none
    | some l => if l ≤ offset then skipRuns offset (i + 1) else some i
  else some i
termination_by v.count - i

/-- Second loop of `for_each_run_in_range`, src/value_runs.hpp:35-45.  The
result is the list of calls `func(limit, value)`. -/
def emitRuns (offset length : Int) (i : Nat) : Option (List (Int × α)) :=
  if i < v.count then
    match v.limit i, v.value i with
    | some l, some x =>
      if l - offset < length then
        match emitRuns offset length (i + 1) with
        | some rest => some ((l - offset, x) :: rest)
        | none => none
      else some [(length, x)]
    | _, _ => none
  else some []
termination_by v.count - i

/-- `for_each_run_in_range`, src/value_runs.hpp:27-46. -/
def forEachRunInRange (offset length : Int) : Option (List (Int × α)) :=
  match v.skipRuns offset 0 with
  | none => none
  | some i => v.emitRuns offset length i

/-- `get_run_containing_index`, src/value_runs.hpp:53-71.  The loop there is
textually the loop of `binary_search`. -/
def getRunContainingIndex (index : Int) : Option Nat :=
  binarySearch (fun i => (v.limit i).map fun l => decide (l ≤ index)) 0 v.count

/-- `get_value`, src/value_runs.hpp:73-75. -/
def getValue (index : Int) : Option α :=
  match v.getRunContainingIndex index with
  | none => none
  | some i => v.value i

end RunView

/-- `ValueRuns<T>` for `T` other than `bool`, src/value_runs.hpp:80-134. -/
structure ValueRuns (α : Type _) where
  values : List α := []
  limits : List Int := []
deriving Repr, DecidableEq

namespace ValueRuns
variable {α : Type _}

/-- `ValueRuns(value, limit)`, src/value_runs.hpp:87-90. -/
def single (value : α) (limit : Int) : ValueRuns α := ⟨[value], [limit]⟩

/-- `add`, src/value_runs.hpp:103-107. -/
def add (r : ValueRuns α) (limit : Int) (x : α) : ValueRuns α :=
  ⟨r.values ++ [x], r.limits ++ [limit]⟩

/-- `get_run_value` / `get_run_limit` / `get_run_count`,
src/value_runs.hpp:109-127. -/
def view (r : ValueRuns α) : RunView α where
  count := r.limits.length
  limit i := r.limits[i]?
  value i := r.values[i]?

/-- `get_limit`, src/value_runs.hpp:128-130 (`back()`). -/
def getLimit (r : ValueRuns α) : Option Int := r.limits.getLast?

/-- `empty`, src/value_runs.hpp:120-122. -/
def empty (r : ValueRuns α) : Bool := r.values.isEmpty

/-- The container after a sequence of `add` calls on an empty one. -/
def ofAdds (adds : List (Int × α)) : ValueRuns α :=
  adds.foldl (fun r p => r.add p.1 p.2) {}

/-- `get_runs_subset`, src/value_runs.hpp:47-51. -/
def getRunsSubset (r : ValueRuns α) (offset length : Int) (out : ValueRuns α) :
    Option (ValueRuns α) :=
  (r.view.forEachRunInRange offset length).map fun calls =>
    calls.foldl (fun o p => o.add p.1 p.2) out

end ValueRuns

/-- `ValueRuns<bool>`, src/value_runs.hpp:136-189: one `uint32_t` per run. -/
structure BoolRuns where
  words : List (BitVec 32) := []
deriving Repr, DecidableEq

namespace BoolRuns

/-- `MASK_VALUE`, src/value_runs.hpp:139. -/
def maskValue : BitVec 32 := ~~~(1#32 <<< 31)

/-- `encode`, src/value_runs.hpp:186-188. -/
def encode (value : Bool) (limit : Int) : BitVec 32 :=
  ((BitVec.ofBool value).zeroExtend 32 <<< 31) ||| BitVec.ofInt 32 limit

/-- `add`, src/value_runs.hpp:157-159. -/
def add (r : BoolRuns) (limit : Int) (value : Bool) : BoolRuns :=
  ⟨r.words ++ [encode value limit]⟩

/-- the limit stored in a word, src/value_runs.hpp:165-167. -/
def wordLimit (w : BitVec 32) : Int := (w &&& maskValue).toInt

/-- the value stored in a word, src/value_runs.hpp:161-163. -/
def wordValue (w : BitVec 32) : Bool := (w >>> 31) != 0#32

/-- `get_run_value` / `get_run_limit` / `get_run_count`,
src/value_runs.hpp:161-179. -/
def view (r : BoolRuns) : RunView Bool where
  count := r.words.length
  limit i := (r.words[i]?).map wordLimit
  value i := (r.words[i]?).map wordValue

/-- `get_limit`, src/value_runs.hpp:180-182. -/
def getLimit (r : BoolRuns) : Option Int := r.words.getLast?.map wordLimit

/-- The container after a sequence of `add` calls on an empty one. -/
def ofAdds (adds : List (Int × Bool)) : BoolRuns :=
  adds.foldl (fun r p => r.add p.1 p.2) {}

end BoolRuns

/-! ### `iterate_run_intersections` over containers -/

/-- `find_next_min_limit`, src/value_run_utils.hpp:16-24: the least
`get_run_limit(indices[j])`.  (The C++ containers may have different value
types; here all have type `α`, which may be a sum type.) -/
def findNextMinLimit {α : Type _} : List (RunView α × Nat) → Option Int
  | [] => none
  | [(r, i)] => r.limit i
  | (r, i) :: rest =>
    match r.limit i, findNextMinLimit rest with
    | some a, some b => some (min a b)
    | _, _ => none

/-- `advance_intersect_indices`, src/value_run_utils.hpp:26-33. -/
def advanceIntersectIndices {α : Type _} (minLimit : Int) :
    List (RunView α × Nat) → Option (List (RunView α × Nat))
  | [] => some []
  | (r, i) :: rest =>
    match r.limit i, advanceIntersectIndices minLimit rest with
    | some l, some rest' => some ((r, if l ≤ minLimit then i + 1 else i) :: rest')
    | _, _ => none

/-- the values handed to the functor, src/value_run_utils.hpp:35-44. -/
def intersectValues {α : Type _} : List (RunView α × Nat) → Option (List α)
  | [] => some []
  | (r, i) :: rest =>
    match r.value i, intersectValues rest with
    | some x, some xs => some (x :: xs)
    | _, _ => none

/-- The `while (minLimit < maxLimit)` loop, src/value_run_utils.hpp:56-60; the
result is the list of functor calls.  `fuel` bounds the number of iterations;
running out of it is reported as `none`, so a `some` result also says that the
loop ends. -/
def intersectLoop {α : Type _} (maxLimit : Int) :
    Nat → Int → List (RunView α × Nat) → Option (List (Int × List α))
  | fuel, minLimit, st =>
    if minLimit < maxLimit then
      match fuel with
      | 0 => none
      | fuel + 1 =>
        match findNextMinLimit st with
        | none => none
        | some m =>
          match intersectValues st, advanceIntersectIndices m st with
          | some xs, some st' =>
            match intersectLoop maxLimit fuel m st' with
            | some rest => some ((m, xs) :: rest)
            | none => none
          | _, _ => none
    else some []

/-- `std::max({runs.get_limit()...})`, src/value_run_utils.hpp:53. -/
def maxOfLimits : List (Option Int) → Option Int
  | [] => none
  | [a] => a
  | a :: rest =>
    match a, maxOfLimits rest with
    | some x, some y => some (max x y)
    | _, _ => none

/-- `iterate_run_intersections(func, runs...)`, src/value_run_utils.hpp:48-61.
At most one iteration per stored run is needed, which is the fuel given. -/
def iterateRunIntersections {α : Type _} (runs : List (ValueRuns α)) :
    Option (List (Int × List α)) :=
  match maxOfLimits (runs.map ValueRuns.getLimit) with
  | none => none
  | some maxLimit =>
    intersectLoop maxLimit ((runs.map fun r => r.limits.length).sum + 1) 0
      (runs.map fun r => (r.view, 0))

/-! ### Run iterators -/

/-- `ValueRunsIterator<T>` (src/value_runs_iterator.hpp:19-31) and
`MaybeDefaultRunsIterator<T>` (33-50).  The latter with a null pointer is
`fixed`, otherwise it is a run iterator like the former. -/
inductive RunIter (α : Type _) where
  | runs (v : RunView α) (runIndex : Nat)
  | fixed (limit : Int) (value : α)

namespace RunIter
variable {α : Type _}

/-- `get_value`, src/value_runs_iterator.hpp:54-56, 73-75. -/
def getValue : RunIter α → Option α
  | runs v i => v.value i
  | fixed _ x => some x

/-- `get_limit`, src/value_runs_iterator.hpp:58-61, 77-80. -/
def getLimit : RunIter α → Option Int
  | runs v i => v.limit i
  | fixed l _ => some l

/-- The loop of `advance_to`, src/value_runs_iterator.hpp:63-68, 82-88:
`while (get_run_limit(m_runIndex) <= index) ++m_runIndex`.  There is no bound
check; reading the limit of a run that does not exist is `none`. -/
def advanceRuns (v : RunView α) (index : Int) (i : Nat) : Option Nat :=
  if i < v.count then
    match v.limit i with
    | none => none
    | some l => if l ≤ index then advanceRuns v index (i + 1) else some i
  else none
termination_by v.count - i

/-- `advance_to`. -/
def advanceTo (it : RunIter α) (index : Int) : Option (RunIter α) :=
  match it with
  | runs v i => (advanceRuns v index i).map (runs v)
  | fixed l x => some (fixed l x)

end RunIter

/-- How the iterator overload ended: more iterations than allowed for, a read
of a run that does not exist, or normally with the iterators' final state. -/
inductive IterEnd (α : Type _) where
  | outOfFuel
  | outOfRange
  | done (its : List (RunIter α))

/-- Result of the iterator overload: the functor calls made and how it ended. -/
structure IterOutcome (α : Type _) where
  calls : List (Int × List α)
  final : IterEnd α

/-- `std::min({iterators.get_limit()...})`, src/value_run_utils.hpp:67. -/
def minOfLimits : List (Option Int) → Option Int
  | [] => none
  | [a] => a
  | a :: rest =>
    match a, minOfLimits rest with
    | some x, some y => some (min x y)
    | _, _ => none

/-- all results, or undefined. -/
def allSome {β : Type _} : List (Option β) → Option (List β)
  | [] => some []
  | some x :: rest => (allSome rest).map (x :: ·)
  | none :: _ => none

/-- `iterate_run_intersections(minLimit, maxLimit, func, iterators...)`,
src/value_run_utils.hpp:63-71. -/
def iterateIterators {α : Type _} (maxLimit : Int) :
    Nat → Int → List (RunIter α) → IterOutcome α
  | fuel, minLimit, its =>
    if minLimit < maxLimit then
      match fuel with
      | 0 => ⟨[], .outOfFuel⟩
      | fuel + 1 =>
        match minOfLimits (its.map RunIter.getLimit), allSome (its.map RunIter.getValue) with
        | some m, some xs =>
          match allSome (its.map fun it => it.advanceTo m) with
          | none => ⟨[(m, xs)], .outOfRange⟩
          | some its' =>
            let o := iterateIterators maxLimit fuel m its'
            ⟨(m, xs) :: o.calls, o.final⟩
        | _, _ => ⟨[], .outOfRange⟩
    else ⟨[], .done its⟩

/-! ### `ValueRunBuilder` -/

/-- `ValueRunBuilder<T>`, src/value_run_builder.hpp:8-42.  The stack is stored
with its top (`back()`) first. -/
structure RunBuilder (α : Type _) where
  runs : ValueRuns α := {}
  stack : List α
deriving Repr, DecidableEq

namespace RunBuilder
variable {α : Type _}

/-- constructor, src/value_run_builder.hpp:11-13. -/
def init (base : α) : RunBuilder α := ⟨{}, [base]⟩

/-- `push`, src/value_run_builder.hpp:15-19. -/
def push (b : RunBuilder α) (limit : Int) (x : α) : Option (RunBuilder α) :=
  match b.stack with
  | [] => none
  | top :: rest => some ⟨b.runs.add limit top, x :: top :: rest⟩

/-- `pop`, src/value_run_builder.hpp:21-27. -/
def pop (b : RunBuilder α) (limit : Int) : Option (RunBuilder α) :=
  match b.stack with
  | [] => none
  | top :: rest =>
    match b.runs.getLimit with
    | none => some ⟨b.runs.add limit top, rest⟩
    | some l =>
      if l < limit then some ⟨b.runs.add limit top, rest⟩ else some ⟨b.runs, rest⟩

/-- `get_current_value`, src/value_run_builder.hpp:36-38. -/
def current (b : RunBuilder α) : Option α := b.stack.head?

/-- `get_base_value`, src/value_run_builder.hpp:32-34. -/
def base (b : RunBuilder α) : Option α := b.stack.getLast?

end RunBuilder

end RichText
