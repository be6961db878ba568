import Mathlib.Data.List.Basic
/-!
Life time of library objects and of text that is only referred to: `CursorController`
(src/cursor_controller.cpp:17-43), `LayoutBuilder` (src/layout_builder.cpp:100-134, 650-665), the objects
made while a layout is built (src/layout_builder.cpp:159-241, 258-390, 490-575;
src/font_registry.cpp:389-403), and the text of the cursor controller of a text box
(sample/text_box.cpp:420-469).

`none` is undefined behaviour: an object is used or freed when it does not exist, a null pointer is
dereferenced, a variable without value is read, text is read that has been freed.
-/
namespace RichText.Life

/-! ### Objects with owning pointers -/

/-- A pointer member; `obj (j, k)` is what the `j`-th constructor call made for member `k`. -/
inductive Ptr
  | garbage
  | null
  | obj (id : Nat × Nat)
deriving DecidableEq, Repr

/-- A class with owning pointers: how many; whether they have a default member initialiser `{}`;
whether it has an integer member without one that moving swaps. -/
structure Cls where
  ptrs : Nat
  init : Bool
  int : Bool

/-- `CursorController`, src/cursor_controller.hpp:48: `m_iter` has no initialiser. -/
def controller : Cls := ⟨1, false, false⟩

/-- `LayoutBuilder`, src/layout_builder.hpp:55-56, without `m_cursor`. -/
def builderPtrs : Cls := ⟨2, true, false⟩

/-- `LayoutBuilder` with `m_cursor`, src/layout_builder.hpp:64. -/
def builder : Cls := ⟨2, true, true⟩

/-- An object; `set` says that the integer has a value. -/
structure Obj where
  ptr : Nat → Ptr
  set : Bool

/-- Members before the body of a constructor. -/
def Cls.fresh (c : Cls) : Obj := ⟨fun _ => if c.init then .null else .garbage, false⟩

/-- The objects of one class by name, the number of constructor calls that made library objects, the
library objects made and those freed, latest first. -/
structure Pool where
  objs : Nat → Option Obj := fun _ => none
  calls : Nat := 0
  made : List (Nat × Nat) := []
  freed : List (Nat × Nat) := []

inductive PoolOp
  /-- Default constructor; `ok k`: the library makes the object of member `k`. -/
  | make (o : Nat) (ok : Nat → Bool)
  /-- `o(std::move(p))` -/
  | moveConstruct (o p : Nat)
  /-- `o = std::move(p)` -/
  | moveAssign (o p : Nat)
  /-- `set_text`, the movements of the cursor; `build_layout_info`. -/
  | use (o : Nat)
  | destroy (o : Nat)

/-- The object of member `k` if it was made. -/
def makePtr (call : Nat) (ok : Nat → Bool) (k : Nat) : Ptr := if ok k then .obj (call, k) else .null

/-- src/cursor_controller.cpp:17-20, src/layout_builder.cpp:100-105. -/
def Pool.make (c : Cls) (s : Pool) (o : Nat) (ok : Nat → Bool) : Pool :=
  { s with
    objs := fun x => if x = o then some ⟨makePtr s.calls ok, false⟩ else s.objs x
    calls := s.calls + 1
    made := ((List.range c.ptrs).filter ok).map (fun k => (s.calls, k)) ++ s.made }

/-- No member of the object is read without value by `std::swap`. -/
def Cls.readable (c : Cls) (a : Obj) : Bool :=
  (List.range c.ptrs).all (fun k => a.ptr k != .garbage) && (!c.int || a.set)

/-- `operator=`: the pointers (and the integer) are swapped, src/cursor_controller.cpp:32-35,
src/layout_builder.cpp:121-134. -/
def Pool.swap (c : Cls) (s : Pool) (o p : Nat) : Option Pool :=
  match s.objs o, s.objs p with
  | some a, some b =>
    if c.readable a && c.readable b then
      some { s with objs := fun x => if x = o then some b else if x = p then some a else s.objs x }
    else none
  | _, _ => none

/-- One destructor statement `if (p) { delete p; }`. -/
def freePtr (s : Pool) : Ptr → Option Pool
  | .garbage => none
  | .null => some s
  | .obj i => if i ∈ s.made ∧ i ∉ s.freed then some { s with freed := i :: s.freed } else none

/-- The destructor for the first `n` pointers, src/cursor_controller.cpp:22-26,
src/layout_builder.cpp:107-115. -/
def freePtrs (a : Obj) : Nat → Pool → Option Pool
  | 0, s => some s
  | n + 1, s => (freePtrs a n s).bind fun s => freePtr s (a.ptr n)

/-- A pointer is dereferenced. -/
def Pool.deref (s : Pool) : Ptr → Bool
  | .obj i => decide (i ∈ s.made ∧ i ∉ s.freed)
  | _ => false

/-- One operation.  Objects that do not exist are undefined behaviour of the caller, which
`Named` excludes. -/
def Pool.step (c : Cls) (s : Pool) : PoolOp → Option Pool
  | .make o ok => some (s.make c o ok)
  -- src/cursor_controller.cpp:28-30, src/layout_builder.cpp:117-119
  | .moveConstruct o p => { s with objs := fun x => if x = o then some c.fresh else s.objs x }.swap c o p
  | .moveAssign o p => s.swap c o p
  | .use o =>
    match s.objs o with
    | some a =>
      if (List.range c.ptrs).all (fun k => s.deref (a.ptr k)) then
        some { s with objs := fun x => if x = o then some { a with set := true } else s.objs x }
      else none
    | none => none
  | .destroy o =>
    match s.objs o with
    | some a => (freePtrs a c.ptrs s).map fun s => { s with objs := fun x => if x = o then none else s.objs x }
    | none => none

/-- A history. -/
def Pool.run (c : Cls) : Pool → List PoolOp → Option Pool
  | s, [] => some s
  | s, op :: t => (s.step c op).bind fun s => s.run c t

/-! ### Objects made while a layout is built -/

/-- Kinds of objects of SheenBidi. -/
inductive Kind
  | algorithm
  | paragraph
  | line
deriving DecidableEq, Repr

/-- Calls on libraries that make, need or free objects. -/
inductive LibCall
  | create (k : Kind)
  | use (k : Kind)
  | release (k : Kind)
  /-- `utext_openUTF8` on a variable of the function -/
  | openText
  /-- `utext_close` -/
  | closeText
  /-- `setText` of the line break iterator: a clone of the text that was opened last -/
  | setText
  /-- the iterator is asked -/
  | breaks
deriving DecidableEq, Repr

/-- What a paragraph needs: whether there is text in front of the separator, how often the font registry is
asked for a font, how many lines there are. -/
structure ParaCalls where
  text : Bool
  subFonts : Nat
  lines : Nat
deriving DecidableEq, Repr

/-- `compute_line_visual_runs`, src/layout_builder.cpp:495-497 and 574. -/
def lineCalls : List LibCall :=
  [.create .line, .use .line, .use .line, .release .line]

/-- `get_sub_font`, src/font_registry.cpp:389-395: the text is not closed. -/
def subFontCalls : List LibCall := [.openText]

/-- `build_paragraph`, src/layout_builder.cpp:258-390.  With a width there is a line break iterator, which is
asked in each line; the text it is given is not closed. -/
def buildCalls (wraps : Bool) (p : ParaCalls) : List LibCall :=
  [LibCall.use .paragraph] ++ (List.replicate p.subFonts subFontCalls).flatten ++
    if wraps then [.openText, .setText] ++
      (List.replicate p.lines ([LibCall.breaks, .use .paragraph] ++ lineCalls)).flatten
    else [LibCall.use .paragraph] ++ lineCalls

/-- One round of the loop over paragraphs, src/layout_builder.cpp:192-235. -/
def paraCalls (wraps : Bool) (p : ParaCalls) : List LibCall :=
  LibCall.use .algorithm :: if p.text then
    [.use .algorithm, .create .paragraph] ++ buildCalls wraps p ++ [.release .paragraph] else []

/-- `build_layout_info`, src/layout_builder.cpp:159-241. -/
def layoutCalls (wraps : Bool) (ps : List ParaCalls) : List LibCall :=
  [LibCall.create .algorithm] ++ (ps.map (paraCalls wraps)).flatten ++ [.release .algorithm]

/-- Objects that exist, texts that are open, texts opened so far; whether the iterator has a text. -/
structure Libs where
  algorithms : Nat := 0
  paragraphs : Nat := 0
  lines : Nat := 0
  texts : Nat := 0
  iterator : Bool := false
deriving DecidableEq, Repr

def Libs.count (s : Libs) : Kind → Nat
  | .algorithm => s.algorithms
  | .paragraph => s.paragraphs
  | .line => s.lines

def Libs.set (s : Libs) (k : Kind) (n : Nat) : Libs :=
  match k with
  | .algorithm => { s with algorithms := n }
  | .paragraph => { s with paragraphs := n }
  | .line => { s with lines := n }

/-- The effect of a call; an algorithm is needed to make a paragraph, a paragraph to make a line.  At most one
object of each kind exists in this code, so that counting them tells whether the one used exists. -/
def Libs.step (s : Libs) : LibCall → Option Libs
  | .create .algorithm => some (s.set .algorithm (s.algorithms + 1))
  | .create .paragraph => if s.algorithms = 0 then none else some (s.set .paragraph (s.paragraphs + 1))
  | .create .line => if s.paragraphs = 0 then none else some (s.set .line (s.lines + 1))
  | .use k => if s.count k = 0 then none else some s
  | .release k => if s.count k = 0 then none else some (s.set k (s.count k - 1))
  | .openText => some { s with texts := s.texts + 1 }
  | .closeText => if s.texts = 0 then none else some { s with texts := s.texts - 1 }
  | .setText => if s.texts = 0 then none else some { s with iterator := true }
  | .breaks => if s.iterator then some s else none

def Libs.run : Libs → List LibCall → Option Libs
  | s, [] => some s
  | s, c :: t => (s.step c).bind fun s => s.run t

/-! ### Text of a cursor controller -/

/-- A text box as far as it concerns memory: how often `m_text` and `m_contentText` were assigned, whether
the font is valid, and what the controller refers to: `m_text` (`false`) or `m_contentText` (`true`),
as it was after how many assignments. -/
structure BoxText where
  text : Nat := 0
  content : Nat := 0
  font : Bool := false
  view : Option (Bool × Nat) := none
deriving DecidableEq, Repr

/-- `rich` is what `should_focused_use_rich_text` or `m_richText` says at that time. -/
inductive BoxCall
  | setText (rich : Bool)
  | setFont (valid rich : Bool)
  /-- any other call of `recalc_text` -/
  | recalc (rich : Bool)
  /-- the controller is asked for a position -/
  | move
deriving DecidableEq, Repr

/-- `recalc_text`, sample/text_box.cpp:420-435: both functions of the parser assign `m_contentText`
(src/formatting.cpp:111, 155). -/
def BoxText.recalc (s : BoxText) (rich : Bool) : BoxText :=
  if s.font then
    { s with content := s.content + 1, view := some (rich, if rich then s.content + 1 else s.text) }
  else s

/-- sample/text_box.cpp:461-469; a position is found in the text referred to, which must still
exist. -/
def BoxText.step (s : BoxText) : BoxCall → Option BoxText
  | .setText rich => some ({ s with text := s.text + 1 }.recalc rich)
  | .setFont valid rich => some ({ s with font := valid }.recalc rich)
  | .recalc rich => some (s.recalc rich)
  | .move =>
    match s.view with
    | none => none
    | some (rich, n) => if n = (if rich then s.content else s.text) then some s else none

def BoxText.run : BoxText → List BoxCall → Option BoxText
  | s, [] => some s
  | s, c :: t => (s.step c).bind fun s => s.run t

end RichText.Life
