import Verif.Model.DebugDraw
import Verif.Props.Draw
import Verif.Props.HitTest
import Verif.Props.DrawSelection
import Verif.Props.ServesFonts
/-!
C127: the outlines of runs and the marks at glyphs lie where the runs and glyphs are.
-/
namespace RichText
open Spec
variable {φ : Type}

theorem overRuns_append {β : Type} (f : Nat × Nat × Rat × Rat → Option (List β)) {as bs : List (Nat × Nat × Rat × Rat)}
    {a b : List β} (ha : overRuns f as = some a) (hb : overRuns f bs = some b) : overRuns f (as ++ bs) = some (a ++ b) := by
  induction as generalizing a with
  | nil => cases ha; exact hb
  | cons c cs ih =>
    rw [List.cons_append]
    unfold overRuns at ha ⊢
    cases hc : f c with
    | none => rw [hc] at ha; cases ha
    | some q =>
      rw [hc] at ha
      simp only at ha ⊢
      cases hcs : overRuns f cs with
      | none => rw [hcs] at ha; cases ha
      | some t =>
        rw [hcs] at ha
        cases ha
        rw [ih hcs]
        simp

theorem overRuns_runCalls {β : Type} (f : Nat × Nat × Rat × Rat → Option (List β)) (m : Nat) (x y : Rat) (g : RunSpec φ → List β) :
    ∀ (rs : List (RunSpec φ)) (a : Nat), (∀ j r, rs[j]? = some r → f (m, a + j, x, y) = some (g r)) →
      overRuns f (Layout.runCalls m x y a (a + rs.length)) = some (rs.flatMap g) := by
  intro rs
  induction rs with
  | nil => intro a _; simp [Layout.runCalls, overRuns]
  | cons r t ih =>
    intro a h
    have h0 := h 0 r rfl
    have := ih (a + 1) (by
      intro j s hs
      have := h (j + 1) s (by simpa using hs)
      rwa [show a + (j + 1) = a + 1 + j by omega] at this)
    unfold Layout.runCalls at this ⊢
    rw [show a + (r :: t).length - a = (t.length) + 1 by simp, List.range'_succ, List.map_cons]
    rw [show a + 1 + t.length - (a + 1) = t.length by omega] at this
    unfold overRuns
    rw [Nat.add_zero] at h0
    simp only [h0, this, Option.map_some, List.flatMap_cons]

/-- A pass over the runs of a layout, line by line. -/
theorem overRuns_lines {β : Type} {L : Layout φ} {ls : List (LineSpec φ)} {y : Rat} (h : Stores L ls [] y) (W : Rat)
    (al : XAlignment) (f : Nat × Nat × Rat × Rat → Option (List β)) (g : Nat → LineSpec φ → RunSpec φ → List β)
    (hf : ∀ (m : Nat) l (j : Nat) r, ls[m]? = some l → l.runs[j]? = some r →
      f (m, (allRuns (ls.take m)).length + j, alignedX W l.width al, y + ((ls.take m).map (·.height)).sum + l.ascent) =
        some (g m l r)) :
    (L.forEachRun W al).bind (overRuns f) = some (ls.mapIdx fun m l => l.runs.flatMap (g m l)).flatten := by
  obtain ⟨lc, h1, h2, h3⟩ := C20_for_each_line h W al
  have key : ∀ (n i : Nat), ls.length - i = n → i ≤ ls.length →
      ∃ calls, L.forEachRunOver (allRuns (ls.take i)).length (lc.drop i) = some calls ∧
        overRuns f calls = some ((ls.drop i).mapIdx fun m l => l.runs.flatMap (g (i + m) l)).flatten := by
    intro n
    induction n with
    | zero =>
      intro i hi hle
      have : i = ls.length := by omega
      subst this
      refine ⟨[], ?_, ?_⟩
      · rw [← h2, List.drop_length]; rfl
      · simp [overRuns]
    | succ n ih =>
      intro i hi hle
      have hlt : i < ls.length := by omega
      have hl := List.getElem?_eq_getElem hlt
      have hd : ls.drop i = ls[i] :: ls.drop (i + 1) := List.drop_eq_getElem_cons hlt
      generalize ls[i] = l at hl hd
      have hc := h3 i l hl
      have hltc : i < lc.length := by omega
      rw [List.drop_eq_getElem_cons hltc]
      rw [List.getElem?_eq_getElem hltc] at hc
      rw [Option.some.inj hc]
      obtain ⟨calls, e1, e2⟩ := ih (i + 1) (by omega) (by omega)
      have hlen2 : (allRuns (ls.take (i + 1))).length = (allRuns (ls.take i)).length + l.runs.length := by
        rw [allRuns_take_succ hl, List.length_append]
      have hmax : max (allRuns (ls.take i)).length (allRuns (ls.take (i + 1))).length = (allRuns (ls.take (i + 1))).length := by
        rw [hlen2]; omega
      refine ⟨Layout.runCalls i (alignedX W l.width al) (y + ((ls.take i).map (·.height)).sum + l.ascent)
        (allRuns (ls.take i)).length (allRuns (ls.take (i + 1))).length ++ calls, ?_, ?_⟩
      · simp only [Layout.forEachRunOver]
        rw [h.lines i l hl]
        simp only [hmax, e1]
      · rw [hd, List.mapIdx_cons, List.flatten_cons]
        refine overRuns_append f ?_ ?_
        · rw [hlen2]
          exact overRuns_runCalls f i _ _ _ l.runs _ fun j r hr => hf i l j r hl hr
        · rw [e2]
          congr 3
          funext m
          rw [show i + 1 + m = i + (m + 1) by omega]
  obtain ⟨calls, e1, e2⟩ := key _ 0 rfl (Nat.zero_le _)
  unfold Layout.forEachRun
  rw [h1]
  simp only [List.take_zero, List.drop_zero, Nat.zero_add] at e1 e2
  have e1' : L.forEachRunOver 0 lc = some calls := by simpa [allRuns] using e1
  simp only [e1', Option.bind_some, e2]

/-! ## C127 -/

/-- The left edge of a run: its first glyph, or its end if it has none. -/
def RunSpec.left (r : RunSpec φ) : Rat :=
  match r.glyphs with
  | [] => r.endX
  | g :: _ => g.x

theorem RunSpec.left_eq (r : RunSpec φ) : r.xAt 0 = r.left := by
  unfold RunSpec.xAt RunSpec.xs RunSpec.left
  cases r.glyphs <;> simp

/-- Top of line `m` of a text that starts at `y`. -/
def lineTop (y : Rat) (ls : List (LineSpec φ)) (m : Nat) : Rat := y + ((ls.take m).map (·.height)).sum

theorem allRuns_at {ls : List (LineSpec φ)} {m j : Nat} {l : LineSpec φ} {r : RunSpec φ} (hl : ls[m]? = some l)
    (hr : l.runs[j]? = some r) : (allRuns ls)[(allRuns (ls.take m)).length + j]? = some r := by
  have hm := getElem?_lt hl
  have hj := getElem?_lt hr
  have : allRuns ls = allRuns (ls.take (m + 1)) ++ allRuns (ls.drop (m + 1)) := by
    rw [← allRuns_append, List.take_append_drop]
  rw [this, allRuns_take_succ hl, List.append_assoc, List.getElem?_append_right (by omega), Nat.add_sub_cancel_left,
    List.getElem?_append_left hj, hr]

theorem runGlyphCount_eq {L : Layout φ} {ls : List (LineSpec φ)} {y : Rat} (h : Stores L ls [] y) {k : Nat} {r : RunSpec φ}
    (hk : (allRuns ls)[k]? = some r) (hn : r.glyphs.length < 2 ^ 31) : L.runGlyphCount k = some r.glyphs.length := by
  obtain ⟨f, e1, _, e3, _⟩ := h.read (k := k) (r := r) (by rw [List.append_nil]; exact hk)
  unfold Layout.runGlyphCount
  simp only [e1, e3]
  unfold u32
  congr 1
  omega

theorem boundaryMarks_eq {L : Layout φ} {r : RunSpec φ} {positions : Nat}
    (hp : ∀ j, j ≤ r.glyphs.length → L.pos[positions + 2 * j]? = some (r.xAt j)) (x y height : Rat) (i : Nat) :
    boundaryMarks L x y height positions r.glyphs.length i =
      some ((r.xs.drop i).map fun p => .rect (x + p) y (1 / 2) height (0, 1 / 2, 0, 1) .outline none) := by
  have hlen : r.xs.length = r.glyphs.length + 1 := by simp [RunSpec.xs]
  induction hn : r.glyphs.length + 1 - i generalizing i with
  | zero =>
    unfold boundaryMarks
    rw [if_neg (by omega), List.drop_eq_nil_of_le (by omega)]
    rfl
  | succ n ih =>
    unfold boundaryMarks
    have hlt : i < r.xs.length := by omega
    rw [if_pos (by omega), hp i (by omega), List.drop_eq_getElem_cons hlt]
    simp only [ih (i + 1) (by omega), Option.map_some, List.map_cons]
    have : r.xAt i = r.xs[i] := by unfold RunSpec.xAt; rw [List.getElem?_eq_getElem hlt]; rfl
    rw [this]
    rfl

/-- C127, outlines of runs: for a layout that stores the lines `ls` from `y` on, there is one outline per run, line by line;
it goes from the first glyph of the run to the end of the run and from the top of the line to its bottom. -/
theorem C127_runs {L : Layout φ} {ls : List (LineSpec φ)} {y : Rat} (h : Stores L ls [] y)
    (hn : ∀ l ∈ ls, ∀ r ∈ l.runs, r.glyphs.length < 2 ^ 31) (posX posY W : Rat) (al : XAlignment) :
    debugSteps L ⟨true, false⟩ posX posY W al = some (ls.mapIdx fun m l => l.runs.map fun r =>
      FrameStep.rect (posX + alignedX W l.width al + r.left) (posY + lineTop y ls m) (r.endX - r.left) l.height
        (0, 1 / 2, 0, 1) .outline none).flatten := by
  have := overRuns_lines h W al (runOutline L posX posY) (fun m l r => [FrameStep.rect (posX + alignedX W l.width al + r.left)
    (posY + lineTop y ls m) (r.endX - r.left) l.height (0, 1 / 2, 0, 1) .outline none]) (by
      intro m l j r hl hr
      have hk := allRuns_at hl hr
      have hc := runGlyphCount_eq h hk (hn l (List.mem_of_getElem? hl) r (List.mem_of_getElem? hr))
      obtain ⟨f, _, e2, _, _, e5, _⟩ := h.read (by rw [List.append_nil]; exact hk)
      unfold runOutline
      have e50 := e5 0 (Nat.zero_le _)
      rw [Nat.mul_zero, Nat.add_zero] at e50
      simp only [e2, Option.bind_eq_bind, Option.bind_some, e50, hc, e5 _ (Nat.le_refl _), h.lines m l hl,
        C20_line_height h m l hl, RunSpec.left_eq, xAt_end, outlineColor, lineTop]
      rw [show posY + (y + ((ls.take m).map (·.height)).sum + l.ascent) - l.ascent =
        posY + (y + ((ls.take m).map (·.height)).sum) by ring])
  unfold debugSteps
  simp only [if_pos, this, Option.bind_eq_bind, Option.bind_some, Bool.false_eq_true, if_false, List.append_nil]
  simp only [← List.map_eq_flatMap]

/-- C127, marks at glyphs: half a pixel wide, as high as the line, one at each glyph of a run and one at its end. -/
theorem C127_glyphs {L : Layout φ} {ls : List (LineSpec φ)} {y : Rat} (h : Stores L ls [] y)
    (hn : ∀ l ∈ ls, ∀ r ∈ l.runs, r.glyphs.length < 2 ^ 31) (posX posY W : Rat) (al : XAlignment) :
    debugSteps L ⟨false, true⟩ posX posY W al = some (ls.mapIdx fun m l => l.runs.flatMap fun r =>
      (r.glyphs.map (·.x) ++ [r.endX]).map fun x => FrameStep.rect (posX + alignedX W l.width al + x) (posY + lineTop y ls m)
        (1 / 2) l.height (0, 1 / 2, 0, 1) .outline none).flatten := by
  have := overRuns_lines h W al (runMarks L posX posY) (fun m l r => (r.glyphs.map (·.x) ++ [r.endX]).map fun x =>
    FrameStep.rect (posX + alignedX W l.width al + x) (posY + lineTop y ls m) (1 / 2) l.height (0, 1 / 2, 0, 1) .outline none) (by
      intro m l j r hl hr
      have hk := allRuns_at hl hr
      have hc := runGlyphCount_eq h hk (hn l (List.mem_of_getElem? hl) r (List.mem_of_getElem? hr))
      obtain ⟨f, _, e2, _, _, e5, _⟩ := h.read (by rw [List.append_nil]; exact hk)
      unfold runMarks
      simp only [e2, Option.bind_eq_bind, Option.bind_some, hc, h.lines m l hl, C20_line_height h m l hl]
      rw [boundaryMarks_eq e5, show posY + (y + ((ls.take m).map (·.height)).sum + l.ascent) - l.ascent =
        posY + lineTop y ls m by unfold lineTop; ring]
      rfl)
  unfold debugSteps
  simp only [if_pos, this, Option.bind_eq_bind, Option.bind_some, Bool.false_eq_true, if_false, List.nil_append]

/-- C127: both settings together draw the outlines, then the marks; neither draws nothing. -/
theorem C127_both {L : Layout φ} (posX posY W : Rat) (al : XAlignment) :
    debugSteps L ⟨false, false⟩ posX posY W al = some [] ∧
    debugSteps L ⟨true, true⟩ posX posY W al = (debugSteps L ⟨true, false⟩ posX posY W al).bind fun a =>
      (debugSteps L ⟨false, true⟩ posX posY W al).map (a ++ ·) := by
  refine ⟨rfl, ?_⟩
  unfold debugSteps
  simp only [if_pos, Bool.false_eq_true, if_false, Option.bind_eq_bind, Option.bind_some, List.append_nil, List.nil_append]
  cases (L.forEachRun W al).bind (overRuns (runOutline L posX posY)) <;>
    cases (L.forEachRun W al).bind (overRuns (runMarks L posX posY)) <;> rfl

/-- C127: in a line as the layout builder makes it, the outline of a run ends where that of the next begins, and the last ends
where the line ends. -/
theorem C127_tile {l : LineSpec φ} (h : ProperLine l) (X : Rat) :
    (∀ (i : Nat) r s, l.runs[i]? = some r → l.runs[i + 1]? = some s → (X + r.left) + (r.endX - r.left) = X + s.left) ∧
    (∀ r, l.runs.getLast? = some r → (X + r.left) + (r.endX - r.left) = X + l.width) ∧
    (∀ r ∈ l.runs, 0 ≤ r.endX - r.left) := by
  refine ⟨?_, ?_, ?_⟩
  · intro i r s hr hs
    have := h.abut i r s hr hs
    rw [← RunSpec.left_eq s]
    unfold RunSpec.xAt
    rw [this, Option.getD_some]
    ring
  · intro r hr
    unfold LineSpec.width
    rw [hr, Option.map_some, Option.getD_some]
    ring
  · intro r hr
    have := h.first_le_end hr
    rw [RunSpec.left_eq] at this
    linarith

/-- Two lines; the second begins with a run without glyphs.  The hypotheses of the theorems are met. -/
def debugOps : List (LayoutOp Nat) :=
  [.run (0 : Nat) [⟨7, 0, 0, 0⟩, ⟨8, 1, 5, 1⟩] 9 0 0 2 false, .line 10 8, .run 1 [] 0 0 2 2 false,
    .run 2 [⟨9, 2, 0, 3⟩] 4 0 2 3 true, .line 12 9]

/-- The places and sizes. -/
def FrameStep.box : FrameStep → Rat × Rat × Rat × Rat
  | .rect x y w h .. => (x, y, w, h)
  | _ => (0, 0, 0, 0)

example : (execLayout {} debugOps).bind (fun L => (debugSteps L ⟨true, true⟩ 100 200 20 .right).map (·.map FrameStep.box)) =
    some [(111, 200, 9, 10), (116, 210, 0, 12), (116, 210, 4, 12), (111, 200, 1 / 2, 10), (116, 200, 1 / 2, 10),
      (120, 200, 1 / 2, 10), (116, 210, 1 / 2, 12), (116, 210, 1 / 2, 12), (120, 210, 1 / 2, 12)] := by decide +kernel

example : ∃ d, Draft.steps {} debugOps = some d ∧ d.open_ = [] ∧ ∀ l ∈ d.lines, ∀ r ∈ l.runs, r.glyphs.length < 2 ^ 31 := by
  refine ⟨_, rfl, rfl, ?_⟩
  decide

/-! ### Text drawn at once -/

/-- Iterators over one run each up to `n`, with or without a pointer. -/
structure OneRun {α : Type _} (n : Int) (a b : List (RunIter α)) : Prop where
  limits : a.map RunIter.getLimit = b.map RunIter.getLimit
  values : a.map RunIter.getValue = b.map RunIter.getValue
  stay : ∀ m, m < n → allSome (a.map fun it => it.advanceTo m) = some a ∧ allSome (b.map fun it => it.advanceTo m) = some b
  leave : ∀ m, n ≤ m → allSome (a.map fun it => it.advanceTo m) = none ∧ allSome (b.map fun it => it.advanceTo m) = none

theorem OneRun.iterate {α σ : Type _} {n : Int} {a b : List (RunIter α)} (h : OneRun n a b) (maxLimit : Int) : ∀ (fuel : Nat)
    (minLimit : Int) (script : ScriptIter σ) (levels : LevelsIter),
    (iteratePara maxLimit fuel minLimit ⟨a, script, levels⟩).1 = (iteratePara maxLimit fuel minLimit ⟨b, script, levels⟩).1 ∧
    (((iteratePara maxLimit fuel minLimit ⟨a, script, levels⟩).2 = .outOfRange ∧
        (iteratePara maxLimit fuel minLimit ⟨b, script, levels⟩).2 = .outOfRange) ∨
      ((iteratePara maxLimit fuel minLimit ⟨a, script, levels⟩).2 = .outOfFuel ∧
        (iteratePara maxLimit fuel minLimit ⟨b, script, levels⟩).2 = .outOfFuel) ∨
      ∃ s l, (iteratePara maxLimit fuel minLimit ⟨a, script, levels⟩).2 = .done ⟨a, s, l⟩ ∧
        (iteratePara maxLimit fuel minLimit ⟨b, script, levels⟩).2 = .done ⟨b, s, l⟩) := by
  intro fuel
  induction fuel with
  | zero =>
    intro minLimit script levels
    unfold iteratePara
    by_cases hm : minLimit < maxLimit
    · simp only [if_pos hm]
      exact ⟨trivial, .inr (.inl ⟨trivial, trivial⟩)⟩
    · simp only [if_neg hm]
      exact ⟨trivial, .inr (.inr ⟨script, levels, rfl, rfl⟩)⟩
  | succ fuel ih =>
    intro minLimit script levels
    unfold iteratePara
    by_cases hm : minLimit < maxLimit
    · simp only [if_pos hm, h.limits, h.values]
      cases minOfLimits (b.map RunIter.getLimit ++ [some script.getLimit, some (levels.index : Int)]) with
      | none => exact ⟨rfl, .inl ⟨rfl, rfl⟩⟩
      | some m =>
        cases allSome (b.map RunIter.getValue) with
        | none => exact ⟨rfl, .inl ⟨rfl, rfl⟩⟩
        | some xs =>
          simp only
          rcases lt_or_ge m n with hmn | hmn
          · obtain ⟨e1, e2⟩ := h.stay m hmn
            simp only [e1, e2]
            obtain ⟨i1, i2⟩ := ih m (script.advanceTo m) (levels.advanceTo m)
            rw [i1]
            exact ⟨rfl, i2⟩
          · obtain ⟨e1, e2⟩ := h.leave m hmn
            simp only [e1, e2]
            exact ⟨trivial, .inl ⟨trivial, trivial⟩⟩
    · simp only [if_neg hm]
      exact ⟨trivial, .inr (.inr ⟨script, levels, rfl, rfl⟩)⟩

theorem OneRun.textCalls {α σ : Type _} {n : Int} {a b : List (RunIter α)} (h : OneRun n a b) (fuel : Nat) (d : σ) :
    ∀ (ps : List (Span σ)) (start : Nat), (textCalls fuel d ps start a).1 = (textCalls fuel d ps start b).1 := by
  intro ps
  induction ps with
  | nil => intro start; rfl
  | cons p t ih =>
    intro start
    unfold RichText.textCalls
    by_cases hp : p.length - p.separator > 0
    · simp only [if_pos hp]
      cases LevelsIter.init p.levels start with
      | none => rfl
      | some lv =>
        simp only
        obtain ⟨h1, h2⟩ := h.iterate ((start + (p.length - p.separator) : Nat) : Int) fuel start (ScriptIter.init p.scripts d start) lv
        generalize iteratePara ((start + (p.length - p.separator) : Nat) : Int) fuel start
          ⟨a, ScriptIter.init p.scripts d start, lv⟩ = x at h1 h2 ⊢
        generalize iteratePara ((start + (p.length - p.separator) : Nat) : Int) fuel start
          ⟨b, ScriptIter.init p.scripts d start, lv⟩ = y at h1 h2 ⊢
        obtain ⟨x1, x2⟩ := x
        obtain ⟨y1, y2⟩ := y
        simp only at h1 h2
        subst h1
        rcases h2 with ⟨e1, e2⟩ | ⟨e1, e2⟩ | ⟨s, l, e1, e2⟩ <;> subst e1 e2
        · rfl
        · rfl
        · simp only [ih]
    · simp only [if_neg hp, ih]

/-- The null pointers of the parameters stand for runs without small capitals, subscripts and superscripts. -/
theorem startIters_oneRun (font : Font) (n : Nat) :
    OneRun n (startIters (.single font n) none none none n)
      (startIters (.single font n) (some (.single false n)) (some (.single false n)) (some (.single false n)) n) := by
  have adv : ∀ {α : Type} (x : α) (f : α → RunValue) (m : Int),
      RunIter.advanceTo (.runs ((ValueRuns.single x (n : Int)).view.map f) 0) m =
        if m < n then some (.runs ((ValueRuns.single x (n : Int)).view.map f) 0) else none := by
    intro α x f m
    unfold RunIter.advanceTo RunIter.advanceRuns
    simp only [ValueRuns.single, ValueRuns.view, RunView.map, List.length_singleton, Nat.lt_add_one, if_true,
      List.getElem?_cons_zero]
    by_cases hm : m < n
    · rw [if_neg (by omega), if_pos hm]; rfl
    · rw [if_pos (by omega), if_neg hm]
      unfold RunIter.advanceRuns
      rfl
  refine ⟨rfl, rfl, ?_, ?_⟩
  · intro m hm
    constructor <;> simp only [startIters, flagIter, List.map_cons, List.map_nil, adv, if_pos hm] <;>
      simp only [RunIter.advanceTo, allSome, Option.map_some]
  · intro m hm
    have hm' : ¬ m < n := by omega
    constructor <;> simp only [startIters, flagIter, List.map_cons, List.map_nil, adv, if_neg hm', allSome]

namespace BuildLibs

theorem planPlain_eq {F : Type} (b : BuildLibs) (text : Bytes) (font : Font) (color : Color F) (stroke : StrokeState F) :
    b.planPlain text font = b.plan text (makeDefaultRuns text font color stroke).2 := by
  unfold planPlain plan
  rw [(startIters_oneRun font text.length).textCalls]
  rfl

/-- C127, text drawn at once (partial: for texts and fonts as in C122).  Drawing a text with `draw_text_immediate` is defined
in any thread, whatever it did with fonts before, and leaves the thread as the layout builder does.  What HarfBuzz returned
for the text is drawn, each glyph exactly once, in a font that compares equal to the one it was shaped with, and nothing else. -/
theorem C127_immediate_partial {κ σ : Type} (b : BuildLibs) (starts : Bytes → Nat → Nat → Nat → Prop) (limit k : Nat)
    (hb : b.Proper starts limit k) (hsh : b.Shapes starts limit k) (text : Bytes) (hne : text ≠ []) (hlt : text.length < limit)
    (font : Font) (hfont : b.FontServes font) (p : Painter SingleScriptFont κ σ) (color : κ) (x y width height : Rat)
    (xAlign : XAlignment) (yAlign : YAlignment) (t : FontThread) (ht : FontRun b.lib b.reg t) (hbl : Blanks b.lib t)
    {δ : Type} (key : SingleScriptFont → δ) (hkey : ∀ f g, SingleScriptFont.same f g = true → key f = key g) :
    ∃ t' L' space out qss, b.buildPlainT text font yAlign height t = some (t', L') ∧ FontRun b.lib b.reg t' ∧ Blanks b.lib t' ∧
      drawPlain L' width xAlign = some out ∧
      b.drawImmediate p font color text x y width height xAlign yAlign t = some (t', out.map fun c =>
        ⟨x + c.2.2.1 + (p.glyph c.1 c.2.1).offX, y + c.2.2.2 + (p.glyph c.1 c.2.1).offY, (p.glyph c.1 c.2.1).width,
          (p.glyph c.1 c.2.1).height, (p.glyph c.1 c.2.1).tex, if (p.glyph c.1 c.2.1).hasColor then p.white else color⟩) ∧
      (b.libs starts k space).Contract limit k ∧
      List.Forall₂ Paragraph.Parts ((b.libs starts k space).paragraphs text (makeDefaultRuns text font toyColor toyStroke).2) qss ∧
      (out.map fun c => (key c.1, c.2.1)).Perm
        ((textOutput key ((b.libs starts k space).paragraphs text (makeDefaultRuns text font toyColor toyStroke).2) qss).map
          fun g => (g.1, g.2.1)) := by
  have hfit : AllRunsFit (makeDefaultRuns text font toyColor toyStroke).2 text.length :=
    ⟨runsFit_single _ _, runsFit_single _ _, runsFit_single _ _, fun _ => runsFit_single _ _⟩
  have hs := C122_fonts b starts limit k hb hsh text hne hlt (makeDefaultRuns text font toyColor toyStroke).2 hfit
    (fun f hf => by rw [List.mem_singleton.1 hf]; exact hfont) (fun x hx => List.mem_singleton.1 hx)
  obtain ⟨t', L', space, g1, g2, g3, _, g4, g5, _⟩ := C122_text_partial b starts limit k hb text hne hlt _ hfit hs {} yAlign height t
    ht hbl
  have h1 : b.buildPlainT text font yAlign height t = some (t', L') := by
    unfold buildPlainT
    rw [planPlain_eq b text font toyColor toyStroke]
    exact g1
  obtain ⟨hP, _, _⟩ := C91_paragraphs _ limit k g4 text hne hlt (makeDefaultRuns text font toyColor toyStroke).2 hfit
  obtain ⟨L'', ls, rs, b1, b2, _, _, b5⟩ := build_glyphs ({} : Layout SingleScriptFont) _ _ hP yAlign height
  rw [g5] at b1
  cases b1
  obtain ⟨qss, q1, q2, _⟩ := b5 key (by
    intro p hp
    obtain ⟨pre, q, post, -, -, -, e, -⟩ := TextLibs.layOut_mem _ _ _ hp
    rw [e]
    exact hkey)
  refine ⟨t', L', space, _, qss, h1, g2, g3, C16_plain b2 width xAlign, ?_, g4, q1, ?_⟩
  · unfold drawImmediate
    rw [h1, Option.bind_some, C98_plain b2]
    simp only [Option.map_some, List.map_flatMap, List.map_map, Function.comp_def]
  · have := q2.map (fun g : δ × Nat × Nat => (g.1, g.2.1))
    refine (List.Perm.of_eq ?_).trans this
    rw [← placedRuns_runs width xAlign ls L'.startY]
    simp [runsGlyphs, List.map_flatMap, List.flatMap_map, Function.comp_def]

/-- C127: an empty text draws nothing and leaves the thread as it is. -/
theorem C127_empty {κ σ : Type} (b : BuildLibs) (h : b.bounds [] = []) (p : Painter SingleScriptFont κ σ) (font : Font) (color : κ)
    (x y width height : Rat) (xAlign : XAlignment) (yAlign : YAlignment) (t : FontThread) :
    b.drawImmediate p font color [] x y width height xAlign yAlign t = some (t, []) := by
  unfold drawImmediate buildPlainT planPlain
  rw [h]
  simp only [plans, paragraphsOpsT, Option.bind_some]
  have e : execLayout ({} : Layout SingleScriptFont) [.clear] = some {} := rfl
  rw [e, Option.map_some, Option.bind_some]
  have hst : Stores (({} : Layout SingleScriptFont).alignY height yAlign) [] [] (({} : Layout SingleScriptFont).alignY height yAlign).startY := by
    refine ⟨rfl, rfl, rfl, rfl, ?_, rfl, ?_, rfl⟩ <;> intro i r hr <;> simp [allRuns] at hr
  simp only
  rw [C98_plain hst]
  rfl

/-- The hypotheses are met by every text in the font at sizes in range, in a thread that did nothing yet. -/
example (px : Bool) (text : Bytes) (hne : text ≠ []) (limit : Nat) (hlt : text.length < limit) (size : BitVec 32)
    (hs : 2 ≤ size.toNat ∧ size.toNat < 2 ^ 20) (p : Painter SingleScriptFont Nat Nat) : ∃ t' quads,
    (demoBuild px).drawImmediate p { demoFont with size := size } 0 text 1 2 100 20 .center .center .init = some (t', quads) := by
  obtain ⟨t', _, _, out, _, _, _, _, _, h, _⟩ := C127_immediate_partial (demoBuild px) (fun _ _ _ _ => True) limit 1
    (demoBuild_proper px _) (demoBuild_shapes px _) text hne hlt { demoFont with size := size } (demoFont_serves px size hs) p 0 1 2 100 20
    .center .center .init (.start demoRegistry_steps) (blanks_init _) (fun _ => ()) (fun _ _ _ => rfl)
  exact ⟨t', _, h⟩

end BuildLibs
end RichText
