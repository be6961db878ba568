import Verif.Model.UIObject
/-!
What the tree of UI objects should be: the list of all attachments (child, parent), in
the order in which they were made.
-/
namespace RichText

/-- Attachments, the oldest first. -/
abbrev Attached := List (Nat × Nat)

namespace Attached

/-- The children of an object, in the order they were attached. -/
def kids (t : Attached) (p : Nat) : List Nat := (t.filter (·.2 = p)).map (·.1)

/-- The parent of an object. -/
def parent (t : Attached) (i : Nat) : Option Nat := (t.find? (·.1 = i)).map (·.2)

/-- The object is detached and, if there is a new parent, attached to it. -/
def move (t : Attached) (i : Nat) (new : Option Nat) : Attached := t.filter (·.1 ≠ i) ++ (new.map (i, ·)).toList

/-- The parent of the parent … of an object. -/
def ancestor (t : Attached) : Nat → Nat → Option Nat
  | 0, e => some e
  | k + 1, e => (t.ancestor k e).bind t.parent

end Attached

variable {α : Type} [Add α]

/-- The states reached by histories of calls that are *clean*: an object is moved only if it
has no parent or is the only child of it, not below itself, and somebody holds it; an
object is given up only when it has a parent. -/
inductive Ui.Clean : Ui α → Attached → Prop
  | start (obj : Nat → UiObj α) : Clean { obj := obj } []
  | create {u t} (pos : α × α) : Clean u t → Clean (u.create pos) t
  | drop {u t} {i p : Nat} : Clean u t → i ∈ u.alive → t.parent i = some p → Clean (u.drop i) t
  | show {u t} {i : Nat} {v : Bool} {u'} : Clean u t → u.setVisible i v = some u' → Clean u' t
  | position {u t} {n i : Nat} {pos : α × α} {u'} : Clean u t → u.setPosition n i pos = some u' → Clean u' t
  | same {u t} {n i : Nat} {new : Option Nat} {u'} : Clean u t → new = t.parent i ∨ new = some i →
      u.setParent n i new = some u' → Clean u' t
  | move {u t} {n i : Nat} {new : Option Nat} {u'} : Clean u t → new ≠ t.parent i → (∀ q k, new = some q → t.ancestor k q ≠ some i) →
      (∀ p, t.parent i = some p → t.kids p = [i]) → u.held i = true → u.setParent n i new = some u' → Clean u' (t.move i new)

end RichText
