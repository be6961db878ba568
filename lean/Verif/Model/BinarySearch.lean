/-!
Model of `src/binary_search.hpp`.

`cond i = none` stands for "evaluating the condition at `i` is undefined
behaviour" (for instance because it reads past the end of a vector); the whole
search is then undefined.
-/
namespace RichText

/-- `binary_search`, src/binary_search.hpp:6-22.  The loop variables `first`
and `count` are the arguments of the recursion. -/
def binarySearch (cond : Nat → Option Bool) (first count : Nat) : Option Nat :=
  if count = 0 then some first
  else
    match cond (first + count / 2) with
    | none => none
    | some true => binarySearch cond (first + count / 2 + 1) (count - (count / 2 + 1))
    | some false => binarySearch cond first (count / 2)
termination_by count
decreasing_by all_goals omega

end RichText
