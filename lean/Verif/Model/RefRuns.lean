import Verif.Model.TextRuns
import Verif.Model.RefBuilder
/-!
How the earlier builder of the tests finds the runs of a paragraph that it shapes,
test/build_layout_info_utf8.cpp:112-320.  What it does with them is in Model/RefBuilder.
Positions are relative to the paragraph.
-/
namespace RichText
variable {φ : Type _}

/-- The values of the run lists that are intersected, with one type for all. -/
inductive RefValue (φ : Type _) where
  | font (f : Font)
  | flag (b : Bool)
  | script (s : Int)
  | sub (f : φ)
  | level (n : Nat)
  | locale
deriving Repr, DecidableEq

/-- The runs with their values wrapped. -/
def ValueRuns.wrap {α β : Type _} (f : α → β) (r : ValueRuns α) : ValueRuns β := ⟨r.values.map f, r.limits⟩

/-- The loop of `compute_levels`, test/build_layout_info_utf8.cpp:281-286. -/
def levelLoop (levels : List Nat) (n : Nat) (i last : Nat) (r : ValueRuns Nat) : Option (ValueRuns Nat) :=
  if i < n then
    match levels[i]? with
    | none => none
    | some l => if l ≠ last then levelLoop levels n (i + 1) l (r.add i last) else levelLoop levels n (i + 1) last r
  else some (r.add n last)
termination_by n - i

/-- `compute_levels`, test/build_layout_info_utf8.cpp:275-291; the first level is read before the loop. -/
def computeLevels (levels : List Nat) (n : Nat) : Option (ValueRuns Nat) :=
  match levels[0]? with
  | none => none
  | some l => levelLoop levels n 1 l {}

/-- `compute_scripts`, test/build_layout_info_utf8.cpp:293-305.  Not more than one run per byte. -/
def computeScripts (t : ScriptText) (n : Nat) : Option (ValueRuns Int) :=
  (ScriptRunIter.init.all t n).map fun rs => ValueRuns.ofAdds (rs.map fun r => ((r.limit : Int), r.script))

/-- The runs of a flag in the paragraph, test/build_layout_info_utf8.cpp:155-172: false up to the limit of the
fonts, or a part of the runs given. -/
def flagSubset (runs : Option (ValueRuns Bool)) (start n : Nat) (fonts : ValueRuns Font) : Option (ValueRuns Bool) :=
  match runs with
  | none => fonts.getLimit.map (ValueRuns.single false)
  | some r => r.getRunsSubset start n {}

/-- `FontRegistry::get_sub_font` for a text: font, script, small capitals, subscript, superscript, offset, limit; the
font and the new offset. -/
abbrev SubFontFn (φ : Type _) := Font → Int → Bool → Bool → Bool → Nat → Nat → φ × Nat

/-- The loop in the functor of `compute_sub_fonts`, test/build_layout_info_utf8.cpp:315-319: offset and runs.
A `get_sub_font` that does not move the offset loops forever: `none`. -/
def refSubLoop (get : Nat → Nat → φ × Nat) (limit : Nat) (offset : Nat) (r : ValueRuns φ) : Option (Nat × ValueRuns φ) :=
  if offset < limit then
    if offset < (get offset limit).2 then
      refSubLoop get limit (get offset limit).2 (r.add (get offset limit).2 (get offset limit).1)
    else none
  else some (offset, r)
termination_by limit - offset

/-- The functor on all its calls, test/build_layout_info_utf8.cpp:313-320.  Values of other types cannot occur. -/
def refSubCalls (get : SubFontFn φ) : List (Int × List (RefValue φ)) → Nat → ValueRuns φ → Option (ValueRuns φ)
  | [], _, r => some r
  | (limit, [.font f, .script s, .flag a, .flag b, .flag c]) :: t, offset, r =>
    match refSubLoop (get f s a b c) limit.toNat offset r with
    | none => none
    | some (o, r) => refSubCalls get t o r
  | _ :: _, _, _ => none

/-- `compute_sub_fonts`, test/build_layout_info_utf8.cpp:307-323. -/
def computeSubFonts (get : SubFontFn φ) (fonts : ValueRuns Font) (scripts : ValueRuns Int)
    (smallcaps subscript superscript : ValueRuns Bool) : Option (ValueRuns φ) :=
  match iterateRunIntersections [fonts.wrap .font, scripts.wrap .script, smallcaps.wrap .flag, subscript.wrap .flag,
      superscript.wrap .flag] with
  | none => none
  | some calls => refSubCalls get calls 0 {}

/-- A logical run, test/build_layout_info_utf8.cpp:47-54 without the locale, which is the default one. -/
structure RefLogical (φ : Type _) where
  font : φ
  level : Nat
  script : Int
  stop : Nat
deriving Repr, DecidableEq

/-- The functor of `build_sub_paragraph`, test/build_layout_info_utf8.cpp:182-190. -/
def refLogicalOf : Int × List (RefValue φ) → Option (RefLogical φ)
  | (limit, [.sub f, .level l, .script s, .locale]) => some ⟨f, l, s, limit.toNat⟩
  | _ => none

/-- The logical runs of the `n` bytes of text from `start` on, test/build_layout_info_utf8.cpp:114-116 and 151-190:
`fonts` and the flags are the runs of the whole text, `levels` and `t` those of the paragraph. -/
def refLogicalRuns (get : SubFontFn φ) (levels : List Nat) (t : ScriptText) (start n : Nat) (fonts : ValueRuns Font)
    (smallcaps subscript superscript : Option (ValueRuns Bool)) : Option (List (RefLogical φ)) := do
  let fonts ← fonts.getRunsSubset start n {}
  let levelRuns ← computeLevels levels n
  let scriptRuns ← computeScripts t n
  let sc ← flagSubset smallcaps start n fonts
  let sub ← flagSubset subscript start n fonts
  let sup ← flagSubset superscript start n fonts
  let subFonts ← computeSubFonts get fonts scriptRuns sc sub sup
  let calls ← iterateRunIntersections [subFonts.wrap .sub, levelRuns.wrap .level, scriptRuns.wrap .script,
    (ValueRuns.single .locale n)]
  calls.mapM refLogicalOf

/-! ### The whole text -/

/-- A logical run as it is shaped: of the arguments of Model/RefBuilder only script and level are there to be used (the flags are in
the font), test/build_layout_info_utf8.cpp:204-207. -/
def RefLogical.piece (r : RefLogical φ) : RefPiece ShapeArgs φ :=
  ⟨r.font, ⟨⟨FontFace.make 0 0 .normal, 0⟩, r.script, r.level, false, false, false⟩, r.stop⟩

/-- The paragraphs of the loop of `build_layout_info_utf8`, test/build_layout_info_utf8.cpp:106-132, with the runs of formatting;
`get start n` is `get_sub_font` on the `n` bytes of text from `start` on.  The text of the last paragraph includes its
separator. -/
def refTextParas (l : TextLibs φ) (get : Nat → Nat → SubFontFn φ) (text : Bytes) (fonts : ValueRuns Font)
    (smallcaps subscript superscript : Option (ValueRuns Bool)) : List (Nat × Nat) → Nat → Option (List (RefPara ShapeArgs φ))
  | [], _ => some []
  | b :: t, start =>
    let n := b.1 - (if start + b.1 = text.length then 0 else b.2)
    let f := (fonts.view.getValue (if start = text.length then text.length - 1 else start)).getD ⟨FontFace.make 0 0 .normal, 0⟩
    match (if b.1 - b.2 > 0 then
        refLogicalRuns (get start n) (l.levels text start n) (l.script text start n) start n fonts smallcaps subscript superscript
      else some []) with
    | none => none
    | some runs => (refTextParas l get text fonts smallcaps subscript superscript t (start + b.1)).map fun rest =>
        ⟨b.1, b.2, l.env text start n, runs.map RefLogical.piece, l.defaultFont f, l.metrics f⟩ :: rest

end RichText
