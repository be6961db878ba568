/-!
The tree of UI objects, `sample/ui_object.cpp` and `sample/ui_object.hpp`.

Objects are numbers.  `m_firstChild` and `m_nextChild` are `shared_ptr`s and keep
their target alive, `m_parent`, `m_prevChild` and `m_lastChild` are `weak_ptr`s;
`held` are the objects that somebody outside the tree has a `shared_ptr` to.  An
object that nothing keeps alive is destroyed at once.  `Option.none` as the result of a
function is undefined behaviour: the use of a destroyed object.

Coordinates are of any type with an addition, so what is proved holds for `float`.
The functions that walk the tree get a bound on the number of steps; `none` is also
the outcome of a walk that takes more.
-/
namespace RichText

/-- `UIObject`, sample/ui_object.hpp:84-104, without name, size and focus. -/
structure UiObj (α : Type) where
  pos : α × α
  abs : α × α
  parent : Option Nat := none
  first : Option Nat := none
  next : Option Nat := none
  prev : Option Nat := none
  last : Option Nat := none
  visible : Bool := true
  deriving DecidableEq, Repr

/-- All objects.  `log` is not part of the program: it records which objects were
recalculated. -/
structure Ui (α : Type) where
  obj : Nat → UiObj α
  alive : List Nat := []
  held : Nat → Bool := fun _ => false
  count : Nat := 0
  log : List Nat := []

namespace Ui
variable {α : Type}

/-- Change an object. -/
def modify (u : Ui α) (i : Nat) (f : UiObj α → UiObj α) : Ui α :=
  { u with obj := fun j => if j = i then f (u.obj j) else u.obj j }

/-- `weak_ptr::lock`. -/
def lock (u : Ui α) (w : Option Nat) : Option Nat := w.filter (· ∈ u.alive)

/-- Whether a `shared_ptr` to the object exists. -/
def owned (u : Ui α) (i : Nat) : Bool :=
  u.held i || u.alive.any fun p => (u.obj p).first = some i || (u.obj p).next = some i

/-- Destroy what nothing keeps alive, one object after the other; `pins` are the
objects that local variables keep alive. -/
def sweep (pins : List Nat) : Nat → Ui α → Ui α
  | 0, u => u
  | n + 1, u =>
    match u.alive.find? fun i => !u.owned i && !pins.contains i with
    | none => u
    | some i => sweep pins n { u with alive := u.alive.erase i }

/-- The state after a `shared_ptr` was overwritten. -/
def collect (pins : List Nat) (u : Ui α) : Ui α := u.sweep pins u.alive.length

/-- A new object, to which the caller has a `shared_ptr`. -/
def create (u : Ui α) (pos : α × α) : Ui α :=
  { u with
    obj := fun j => if j = u.count then { pos := pos, abs := pos } else u.obj j
    alive := u.alive ++ [u.count]
    held := fun j => if j = u.count then true else u.held j
    count := u.count + 1 }

/-- The caller gives up its `shared_ptr`. -/
def drop (u : Ui α) (i : Nat) : Ui α := collect [] { u with held := fun j => if j = i then false else u.held j }

/-- `for_each_child`, sample/ui_object.hpp:106-119: the objects visited from a pointer
on. -/
def walk (u : Ui α) : Nat → Option Nat → Option (List Nat)
  | 0, _ => none
  | _ + 1, none => some []
  | n + 1, some c => (u.walk n (u.obj c).next).map (c :: ·)

/-- `for_each_child_reverse`, sample/ui_object.hpp:126-139. -/
def walkBack (u : Ui α) : Nat → Option Nat → Option (List Nat)
  | 0, _ => none
  | n + 1, w =>
    match u.lock w with
    | none => some []
    | some c => (u.walkBack n (u.obj c).prev).map (c :: ·)

/-- What `for_each_child` visits. -/
def children (u : Ui α) (n p : Nat) : Option (List Nat) := u.walk n (u.obj p).first

/-- What `for_each_child_reverse` visits. -/
def childrenBack (u : Ui α) (n p : Nat) : Option (List Nat) := u.walkBack n (u.obj p).last

/-- `for_each_descendant`, sample/ui_object.hpp:141-150, from a sibling on, with a function
that always continues. -/
def eachDescendant (f : Ui α → Nat → Option (Ui α)) : Nat → Ui α → Option Nat → Option (Ui α)
  | 0, _, _ => none
  | _ + 1, u, none => some u
  | n + 1, u, some c =>
    (f u c).bind fun u => (eachDescendant f n u (u.obj c).first).bind fun u => eachDescendant f n u (u.obj c).next

/-- The absolute position of an object, from that of its parent,
sample/ui_object.cpp:176-183. -/
def place [Add α] (u : Ui α) (i : Nat) : α × α :=
  match u.lock (u.obj i).parent with
  | some p => ((u.obj p).abs.1 + (u.obj i).pos.1, (u.obj p).abs.2 + (u.obj i).pos.2)
  | none => (u.obj i).pos

/-- `recalc_absolute_dimensions`, sample/ui_object.cpp:175-189. -/
def recalc [Add α] : Nat → Ui α → Nat → Option (Ui α)
  | 0, _, _ => none
  | n + 1, u, i =>
    let u := { u.modify i (fun o => { o with abs := u.place i }) with log := u.log ++ [i] }
    eachDescendant (recalc n) (n + 1) u (u.obj i).first

/-- The old parent's list without the object, sample/ui_object.cpp:46-58. -/
def unlink (u : Ui α) (i : Nat) (old : Option Nat) : Ui α :=
  match old with
  | none => u
  | some p =>
    let next := (u.obj i).next
    let u :=
      if (u.obj p).first = some i then (u.modify p fun o => { o with first := next }).collect [p]
      else
        match u.lock (u.obj i).prev with
        | some q => ((u.modify q fun o => { o with next := next }).collect [p, q]).collect [p]
        | none => u
    if u.lock (u.obj p).last = some i then u.modify p fun o => { o with last := (u.obj i).next } else u

/-- The object at the end of the new parent's list, sample/ui_object.cpp:61-72; `pins` is
the old parent. -/
def link (u : Ui α) (pins : List Nat) (i : Nat) (new : Option Nat) : Ui α :=
  match new with
  | none => u
  | some q =>
    let u := u.modify i fun o => { o with prev := (u.obj q).last }
    let u :=
      match u.lock (u.obj q).last with
      | some l => (u.modify l fun o => { o with next := some i }).collect (l :: pins)
      | none => (u.modify q fun o => { o with first := some i }).collect pins
    u.modify q fun o => { o with last := some i }

/-- `set_parent`, sample/ui_object.cpp:37-75.  The object, its new parent and everything
used afterwards must exist. -/
def setParent [Add α] (n : Nat) (u : Ui α) (i : Nat) (new : Option Nat) : Option (Ui α) :=
  if i ∉ u.alive ∨ (∃ q, new = some q ∧ q ∉ u.alive) then none
  else
    let old := u.lock (u.obj i).parent
    if new = old ∨ new = some i then some u
    else
      let u := (u.modify i fun o => { o with parent := new }).unlink i old
      if i ∉ u.alive ∨ (∃ q, new = some q ∧ q ∉ u.alive) then none
      else ((u.link old.toList i new).recalc n i).map (collect [])

/-- `set_position`, sample/ui_object.cpp:77-81. -/
def setPosition [Add α] (n : Nat) (u : Ui α) (i : Nat) (pos : α × α) : Option (Ui α) :=
  if i ∉ u.alive then none else (u.modify i fun o => { o with pos := pos }).recalc n i

/-- `set_visible`, sample/ui_object.cpp:93-95. -/
def setVisible (u : Ui α) (i : Nat) (v : Bool) : Option (Ui α) :=
  if i ∉ u.alive then none else some (u.modify i fun o => { o with visible := v })

end Ui

end RichText
