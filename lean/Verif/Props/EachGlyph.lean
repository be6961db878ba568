import Verif.Model.EachGlyph
import Verif.Props.Draw
/-!
C124: `for_each_glyph` hands out every glyph of the layout once.
-/
namespace RichText
open Spec
variable {φ : Type}

theorem glyphCalls_eq {L : Layout φ} {ls : List (LineSpec φ)} {rs : List (RunSpec φ)} {y : Rat}
    (h : Stores L ls rs y) {k : Nat} {r : RunSpec φ} (hk : (allRuns ls ++ rs)[k]? = some r)
    (font : φ) (lineX lineY : Rat) (j : Nat) (hj : j ≤ r.glyphs.length) :
    L.glyphCalls font lineX lineY (glyphCount ((allRuns ls ++ rs).take k) + r.glyphs.length)
      (glyphCount ((allRuns ls ++ rs).take k) + j) (2 * (glyphCount ((allRuns ls ++ rs).take k) + k) + 2 * j) =
    some ((r.glyphs.drop j).map fun g => ⟨g.id, g.char, g.x, g.y, font, lineX, lineY⟩) := by
  induction hn : r.glyphs.length - j generalizing j with
  | zero =>
    have : j = r.glyphs.length := by omega
    subst this
    unfold Layout.glyphCalls
    simp
  | succ n ih =>
    have hlt : j < r.glyphs.length := by omega
    have hg := List.getElem?_eq_getElem hlt
    obtain ⟨e1, e2, e3, e4⟩ := h.readAll hk hg
    unfold Layout.glyphCalls
    have := ih (j + 1) (by omega) (by omega)
    rw [if_pos (by omega), e1, e2, e3, e4, List.drop_eq_getElem_cons hlt]
    rw [show glyphCount ((allRuns ls ++ rs).take k) + j + 1 = glyphCount ((allRuns ls ++ rs).take k) + (j + 1) by omega,
      show 2 * (glyphCount ((allRuns ls ++ rs).take k) + k) + 2 * j + 2 =
        2 * (glyphCount ((allRuns ls ++ rs).take k) + k) + 2 * (j + 1) by omega]
    simp only [this, List.map_cons, Option.map_some]

theorem forEachGlyphOver_eq {L : Layout φ} {ls : List (LineSpec φ)} {y : Rat} (h : Stores L ls [] y)
    (placed : List (Rat × Rat × RunSpec φ)) : ∀ (calls : List (Nat × Nat × Rat × Rat)) (k : Nat),
    (∀ j c, calls[j]? = some c → c.2.1 = k + j) →
    (∀ (j : Nat) p, placed[j]? = some p → (allRuns ls)[k + j]? = some p.2.2) →
    calls.map (fun c => (c.2.2.1, c.2.2.2)) = placed.map (fun p => (p.1, p.2.1)) →
    L.forEachGlyphOver (glyphCount ((allRuns ls).take k)) (2 * (glyphCount ((allRuns ls).take k) + k)) calls =
      some (placed.flatMap fun p => p.2.2.glyphs.map fun g => ⟨g.id, g.char, g.x, g.y, p.2.2.font, p.1, p.2.1⟩) := by
  induction placed with
  | nil =>
    intro calls k _ _ he
    have : calls = [] := by simpa using he
    subst this
    rfl
  | cons p t ih =>
    intro calls k hidx hr he
    cases calls with
    | nil => simp at he
    | cons c cs =>
      simp only [List.map_cons, List.cons.injEq, Prod.mk.injEq] at he
      obtain ⟨⟨hx, hy⟩, he⟩ := he
      have hk : c.2.1 = k := by simpa using hidx 0 c (by simp)
      have hrk : (allRuns ls)[k]? = some p.2.2 := by simpa using hr 0 p rfl
      have hkk : (allRuns ls ++ ([] : List (RunSpec φ)))[k]? = some p.2.2 := by rw [List.append_nil]; exact hrk
      have hsucc : glyphCount ((allRuns ls).take (k + 1)) = glyphCount ((allRuns ls).take k) + p.2.2.glyphs.length :=
        glyphCount_take_succ hrk
      obtain ⟨f, e1, e2, e3, e4, e5, e6⟩ := h.read hkk
      have hf : f = glyphCount ((allRuns ls).take k) := by
        have := h.firstGlyph hkk
        rw [e1, List.append_nil] at this
        exact Option.some.inj this
      subst hf
      have hg := glyphCalls_eq h hkk p.2.2.font c.2.2.1 c.2.2.2 0 (Nat.zero_le _)
      simp only [List.append_nil, Nat.add_zero, Nat.mul_zero, List.drop_zero] at hg
      have := ih cs (k + 1) (by
        intro j c' hc'
        have := hidx (j + 1) c' (by simpa using hc')
        omega) (by
        intro j q hq
        rw [show k + 1 + j = k + (j + 1) by omega]
        exact hr (j + 1) q (by simpa using hq)) he
      obtain ⟨c1, c2, c3, c4⟩ := c
      simp only at hk hx hy hg
      subst hk hx hy
      simp only [Layout.forEachGlyphOver, e3, hg]
      rw [show max (glyphCount ((allRuns ls).take c2)) (glyphCount ((allRuns ls).take c2) + p.2.2.glyphs.length) =
          glyphCount ((allRuns ls).take (c2 + 1)) by rw [hsucc]; omega,
        show 2 * (glyphCount ((allRuns ls).take c2) + c2) + 2 * (glyphCount ((allRuns ls).take c2) + p.2.2.glyphs.length
            - glyphCount ((allRuns ls).take c2)) + 2 = 2 * (glyphCount ((allRuns ls).take (c2 + 1)) + (c2 + 1)) by
          rw [hsucc]; omega, this]
      simp only [List.flatMap_cons, Option.map_some]

/-! ## C124 -/

/-- The calls of `for_each_glyph`, line by line: for line `l` the glyphs of its runs in order, each with its character, its
position in the line, the font of its run, and the start and base line of `l`. -/
def glyphCallsOf (W : Rat) (al : XAlignment) (y : Rat) (ls : List (LineSpec φ)) (m : Nat) (l : LineSpec φ) :
    List (Layout.GlyphCall φ) :=
  l.runs.flatMap fun r => r.glyphs.map fun g =>
    ⟨g.id, g.char, g.x, g.y, r.font, alignedX W l.width al, y + ((ls.take m).map (·.height)).sum + l.ascent⟩

theorem placed_flatMap (W : Rat) (al : XAlignment) (ls : List (LineSpec φ)) : ∀ (pre : List (LineSpec φ)) (y : Rat),
    ((placedRuns W al (y + (pre.map (·.height)).sum) ls).flatMap fun p => p.2.2.glyphs.map fun g =>
      (⟨g.id, g.char, g.x, g.y, p.2.2.font, p.1, p.2.1⟩ : Layout.GlyphCall φ)) =
    (ls.mapIdx fun m l => glyphCallsOf W al y (pre ++ ls) (pre.length + m) l).flatten := by
  induction ls with
  | nil => intro pre y; rfl
  | cons l t ih =>
    intro pre y
    have := ih (pre ++ [l]) y
    simp only [List.map_append, List.map_cons, List.map_nil, List.sum_append, List.sum_cons, List.sum_nil, add_zero,
      List.append_assoc, List.cons_append, List.nil_append, List.length_append, List.length_cons, List.length_nil] at this
    rw [List.mapIdx_cons, List.flatten_cons]
    simp only [placedRuns, List.flatMap_append, List.flatMap_map]
    rw [show y + (pre.map (·.height)).sum + l.height = y + ((pre.map (·.height)).sum + l.height) by ring, this]
    congr 1
    · simp [glyphCallsOf]
    · congr 1
      refine List.mapIdx_eq_mapIdx_iff.2 fun i hi => ?_
      rw [show pre.length + (0 + 1) + i = pre.length + (i + 1) by omega]

/-- C124.  For a layout that stores the lines `ls` with the text start `y`, whatever width and alignment: `for_each_glyph`
is defined and calls the functor for the glyphs of line 0, then of line 1, and so on, each glyph once, with its own values. -/
theorem C124_each_glyph {L : Layout φ} {ls : List (LineSpec φ)} {y : Rat} (h : Stores L ls [] y) (W : Rat) (al : XAlignment) :
    L.forEachGlyph W al = some (ls.mapIdx (glyphCallsOf W al y ls)).flatten := by
  obtain ⟨calls, e1, e2, e3⟩ := forEachRun_eq h W al
  unfold Layout.forEachGlyph
  rw [e1, Option.bind_some]
  have := forEachGlyphOver_eq h (placedRuns W al y ls) calls 0
    (by intro j c hc; rw [(e3 j c hc).1]; omega)
    (by intro j p hp; rw [Nat.zero_add, ← placedRuns_runs W al ls y, List.getElem?_map, hp]; rfl) e2
  have h2 := placed_flatMap W al ls [] y
  simp only [List.map_nil, List.sum_nil, add_zero, List.nil_append, List.length_nil, Nat.zero_add] at h2
  rw [← h2]
  simpa [glyphCount] using this

/-- After any sequence of calls that build a layout of whole lines: the functor sees exactly the glyphs and character
indices stored, in their order. -/
theorem C124_built (ops : List (LayoutOp φ)) (d : Draft φ) (h : Draft.steps {} ops = some d) (hd : d.open_ = []) (W : Rat)
    (al : XAlignment) :
    ∃ L calls, execLayout {} ops = some L ∧ L.forEachGlyph W al = some calls ∧ calls.map (·.glyph) = L.glyphs ∧
      calls.map (·.char) = L.charIdx := by
  obtain ⟨L, hL, hs⟩ := C19_stores ops d h
  rw [hd] at hs
  refine ⟨L, _, hL, C124_each_glyph hs W al, ?_, ?_⟩
  all_goals
    have h2 := placed_flatMap W al d.lines [] d.y
    simp only [List.map_nil, List.sum_nil, add_zero, List.nil_append, List.length_nil, Nat.zero_add] at h2
    rw [← h2]
  · rw [hs.glyphs, List.append_nil, ← placedRuns_runs W al d.lines d.y]
    simp [List.map_flatMap, List.flatMap_map, Function.comp_def]
  · rw [hs.charIdx, List.append_nil, ← placedRuns_runs W al d.lines d.y]
    simp [List.map_flatMap, List.flatMap_map, Function.comp_def]

/-- The plain `draw_text` draws what `for_each_glyph` hands out: the same glyphs with the same fonts, at the position in the
line added to the start of the line. -/
theorem C124_draw {L : Layout φ} {ls : List (LineSpec φ)} {y : Rat} (h : Stores L ls [] y) (W : Rat) (al : XAlignment) :
    ∃ calls, L.forEachGlyph W al = some calls ∧
      drawPlain L W al = some (calls.map fun c => (c.font, c.glyph, c.lineX + c.x, c.lineY + c.y)) := by
  refine ⟨_, C124_each_glyph h W al, ?_⟩
  rw [C16_plain h W al]
  have h2 := placed_flatMap W al ls [] y
  simp only [List.map_nil, List.sum_nil, add_zero, List.nil_append, List.length_nil, Nat.zero_add] at h2
  rw [← h2]
  simp [List.map_flatMap, Function.comp_def]

/-- Two lines; the second has an empty first run. -/
example : (execLayout {} [.run (0 : Nat) [⟨7, 0, 0, 0⟩, ⟨8, 1, 5, 1⟩] 9 0 0 2 false, .line 10 8, .run 1 [] 0 0 2 2 false,
    .run 2 [⟨9, 2, 0, 3⟩] 4 0 2 3 true, .line 12 9]).bind (fun L => L.forEachGlyph 20 .right) =
    some [⟨7, 0, 0, 0, 0, 11, 8⟩, ⟨8, 1, 5, 1, 0, 11, 8⟩, ⟨9, 2, 0, 3, 2, 16, 19⟩] := by decide +kernel

example : (Draft.steps {} [LayoutOp.run (0 : Nat) [⟨7, 0, 0, 0⟩, ⟨8, 1, 5, 1⟩] 9 0 0 2 false, .line 10 8, .run 1 [] 0 0 2 2 false,
    .run 2 [⟨9, 2, 0, 3⟩] 4 0 2 3 true, .line 12 9]).any (fun d => d.open_.isEmpty) = true := by decide +kernel

end RichText
