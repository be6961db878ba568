import Verif.Proof.Layout
import Verif.Proof.BinarySearch
/-!
Properties of `LayoutInfo` (C19 to C27).
-/
namespace RichText
variable {φ : Type _}

/-! ### C19: storage -/

/-- C19.  After any sequence of building calls that follows the protocol
(`Draft.steps` defined), the vectors store exactly the lines and runs that were
appended. -/
theorem C19_stores (ops : List (LayoutOp φ)) (d : Draft φ) (h : Draft.steps {} ops = some d) :
    ∃ L, execLayout {} ops = some L ∧ Stores L d.lines d.open_ d.y :=
  steps_stores ops stores_init h

/-- C19.  The stored vectors are consistent: two position entries per glyph and
per run, one character index per glyph, non-decreasing end indices of runs,
increasing end indices of lines, all in range. -/
theorem C19_consistent (ops : List (LayoutOp φ)) (d : Draft φ) (h : Draft.steps {} ops = some d) :
    ∃ L, execLayout {} ops = some L ∧
      L.pos.length = 2 * (L.glyphs.length + L.runs.length) ∧
      L.charIdx.length = L.glyphs.length ∧
      (∀ (i j : Nat) (r s : VisualRun φ), i ≤ j → L.runs[i]? = some r → L.runs[j]? = some s → r.glyphEnd ≤ s.glyphEnd) ∧
      (∀ (i : Nat) (r : VisualRun φ), L.runs[i]? = some r → r.glyphEnd ≤ L.glyphs.length) ∧
      (∀ (i j : Nat) (k l : LineInfo), i < j → L.lines[i]? = some k → L.lines[j]? = some l → k.runsEnd < l.runsEnd) ∧
      (∀ (i : Nat) (l : LineInfo), L.lines[i]? = some l → 0 < l.runsEnd ∧ l.runsEnd ≤ L.runs.length) ∧
      (∀ (i : Nat) (r : VisualRun φ), L.runs[i]? = some r → ∃ f p, L.firstGlyphIndex i = some f ∧ L.firstPositionIndex i = some p ∧
        f ≤ r.glyphEnd ∧ p + 2 * (r.glyphEnd - f) + 1 < L.pos.length) := by
  obtain ⟨L, hL, hs⟩ := C19_stores ops d h
  have hne : ∀ l ∈ d.lines, l.runs ≠ [] := steps_nonempty ops (by simp) h
  refine ⟨L, hL, ?_, ?_, ?_, ?_, ?_, ?_, ?_⟩
  · rw [hs.pos_length, hs.glyphs_length, hs.runCount]
  · rw [hs.charIdx_length, hs.glyphs_length]
  · intro i j r s hij hr hsj
    obtain ⟨r', _, rfl⟩ := hs.run_exists hr
    obtain ⟨s', _, rfl⟩ := hs.run_exists hsj
    exact glyphCount_take_mono _ (by omega)
  · intro i r hr
    obtain ⟨r', _, rfl⟩ := hs.run_exists hr
    rw [hs.glyphs_length]
    exact glyphCount_take_le _ _
  · intro i j k l hij hk hl
    obtain ⟨k', _, rfl⟩ := hs.line_exists hk
    obtain ⟨l', hl', rfl⟩ := hs.line_exists hl
    simp only
    rw [allRuns_take_succ hl', List.length_append]
    have := allRuns_take_mono d.lines (i := i + 1) (j := j) (by omega)
    have := List.length_pos_iff.2 (hne l' (List.mem_of_getElem? hl'))
    omega
  · intro i l hl
    obtain ⟨l', hl', rfl⟩ := hs.line_exists hl
    simp only
    have h1 := allRuns_take_le d.lines (i + 1)
    have h2 := List.length_pos_iff.2 (hne l' (List.mem_of_getElem? hl'))
    refine ⟨?_, ?_⟩
    · rw [allRuns_take_succ hl', List.length_append]; omega
    · rw [hs.runCount, List.length_append]; omega
  · intro i r hr
    obtain ⟨r', hr', rfl⟩ := hs.run_exists hr
    refine ⟨_, _, hs.firstGlyph hr', hs.firstPos hr', glyphCount_take_mono _ (by omega), ?_⟩
    have h1 := glyphCount_take_le (allRuns d.lines ++ d.open_) (i + 1)
    have h2 := glyphCount_take_mono (allRuns d.lines ++ d.open_) (i := i) (j := i + 1) (by omega)
    have h3 : i < (allRuns d.lines ++ d.open_).length := by
      rcases Nat.lt_or_ge i (allRuns d.lines ++ d.open_).length with h1 | h1
      · exact h1
      · rw [List.getElem?_eq_none h1] at hr'; cases hr'
    rw [hs.pos_length]
    simp only
    omega

/-- C19.  The first glyph and position indices of a run address its own glyphs,
characters and positions, the entry after the last glyph is the run's end. -/
theorem C19_addresses (ops : List (LayoutOp φ)) (d : Draft φ) (h : Draft.steps {} ops = some d)
    (k : Nat) (r : RunSpec φ) (hk : (allRuns d.lines ++ d.open_)[k]? = some r) :
    ∃ L f p, execLayout {} ops = some L ∧ L.firstGlyphIndex k = some f ∧ L.firstPositionIndex k = some p ∧
      L.runGlyphCount k = some (u32 r.glyphs.length) ∧
      (∀ j g, r.glyphs[j]? = some g → L.glyphs[f + j]? = some g.id ∧ L.charIdx[f + j]? = some g.char ∧
        L.pos[p + 2 * j]? = some g.x ∧ L.pos[p + 2 * j + 1]? = some g.y) ∧
      L.pos[p + 2 * r.glyphs.length]? = some r.endX ∧ L.pos[p + 2 * r.glyphs.length + 1]? = some r.endY := by
  obtain ⟨L, hL, hs⟩ := C19_stores ops d h
  refine ⟨L, _, _, hL, hs.firstGlyph hk, hs.firstPos hk, ?_, ?_, ?_, ?_⟩
  · unfold Layout.runGlyphCount
    rw [hs.firstGlyph hk, hs.runs k r hk]
    simp only [glyphCount_take_succ hk]
    congr 2
    omega
  · intro j g hg
    have hj : j < r.glyphs.length := by
      rcases Nat.lt_or_ge j r.glyphs.length with h1 | h1
      · exact h1
      · rw [List.getElem?_eq_none h1] at hg; cases hg
    have hp := posOf_get hk j (by omega)
    have hx : r.xs[j]? = some g.x := by
      rw [RunSpec.xs, List.getElem?_append_left (by simpa using hj), List.getElem?_map, hg]; rfl
    have hy : r.ys[j]? = some g.y := by
      rw [RunSpec.ys, List.getElem?_append_left (by simpa using hj), List.getElem?_map, hg]; rfl
    refine ⟨?_, ?_, ?_, ?_⟩
    · rw [hs.glyphs, glyphs_get (fun g => g.id) hk j hj, hg]; rfl
    · rw [hs.charIdx, glyphs_get (fun g => g.char) hk j hj, hg]; rfl
    · rw [hs.pos, hp.1, hx]
    · rw [hs.pos, hp.2, hy]
  · rw [hs.pos, (posOf_get hk _ (Nat.le_refl _)).1]; simp [RunSpec.xs]
  · rw [hs.pos, (posOf_get hk _ (Nat.le_refl _)).2]; simp [RunSpec.ys]

/-- Example: two lines, the first with a left-to-right and a right-to-left run
(one with a separator set later), the second empty. -/
def sampleOps : List (LayoutOp Nat) :=
  [.startY 3,
   .run 7 [⟨40, 0, 0, 0⟩, ⟨41, 1, 5, 0⟩] 9 0 0 2 false,
   .run 8 [⟨42, 3, 9, 0⟩, ⟨43, 2, 12, 1⟩] 20 0 2 4 true,
   .line 10 8, .setOffset 0 1, .emptyLine 7 5 12 9]

example : ∃ d, Draft.steps {} sampleOps = some d ∧ d.lines.length = 2 ∧
    (allRuns d.lines).map (·.charEndOffset) = [1, 0, 0] := ⟨_, rfl, rfl, rfl⟩

example : (execLayout {} sampleOps).map (·.pos) =
    some [0, 0, 5, 0, 9, 0, 9, 0, 12, 1, 20, 0, 0, 0] := by decide +kernel

/-! ### C20: line geometry -/

/-- C20.  The height of a line is the height it was appended with. -/
theorem C20_line_height {L : Layout φ} {ls : List (LineSpec φ)} {rs : List (RunSpec φ)} {y : Rat}
    (h : Stores L ls rs y) (i : Nat) (l : LineSpec φ) (hl : ls[i]? = some l) :
    L.lineHeight i = some l.height := by
  unfold Layout.lineHeight
  cases i with
  | zero =>
    rw [if_pos rfl, h.lines 0 l hl, Option.map_some, totalHeight_take_succ hl]
    simp [totalHeight]
  | succ i =>
    have hlt : i + 1 < ls.length := by
      rcases Nat.lt_or_ge (i + 1) ls.length with h1 | h1
      · exact h1
      · rw [List.getElem?_eq_none h1] at hl; cases hl
    rw [if_neg (by omega), h.lines _ l hl, Nat.add_sub_cancel,
      h.lines i _ (List.getElem?_eq_getElem (by omega))]
    simp only [totalHeight_take_succ hl]
    congr 1
    ring

/-- C20.  The text height is the sum of the line heights. -/
theorem C20_text_height {L : Layout φ} {ls : List (LineSpec φ)} {rs : List (RunSpec φ)} {y : Rat}
    (h : Stores L ls rs y) : L.textHeight = (ls.map (·.height)).sum := by
  have := nextDescent_eq h 0
  unfold Layout.nextDescent at this
  unfold Layout.textHeight
  cases hl : L.lines.getLast? with
  | none => rw [hl] at this; simpa [totalHeight] using this
  | some l => rw [hl] at this; simpa [totalHeight] using this

/-- Where a line of width `w` starts in an area of width `W`. -/
def alignedX (W w : Rat) : XAlignment → Rat
  | .left => 0
  | .right => W - w
  | .center => (W - w) / 2

theorem lineXStart_eq {L : Layout φ} {ls : List (LineSpec φ)} {rs : List (RunSpec φ)} {y : Rat}
    (h : Stores L ls rs y) {i : Nat} {l : LineSpec φ} (hl : ls[i]? = some l) (W : Rat) (a : XAlignment) :
    L.lineXStart i W a = some (alignedX W l.width a) := by
  unfold Layout.lineXStart
  rw [h.lines i l hl]
  cases a <;> simp only [alignedX]
  congr 1
  ring

theorem forEachLineFrom_eq {L : Layout φ} {ls : List (LineSpec φ)} {rs : List (RunSpec φ)} {y : Rat}
    (h : Stores L ls rs y) (W : Rat) (a : XAlignment) (n : Nat) : ∀ (i : Nat) (y0 : Rat), ls.length - i = n →
    ∃ calls, L.forEachLineFrom W a i y0 = some calls ∧ calls.length = ls.length - i ∧
      ∀ j l, ls[i + j]? = some l → calls[j]? =
        some (i + j, alignedX W l.width a, y0 + (totalHeight (ls.take (i + j)) - totalHeight (ls.take i)) + l.ascent) := by
  induction n with
  | zero =>
    intro i y0 hn
    refine ⟨[], ?_, by simp; omega, ?_⟩
    · rw [Layout.forEachLineFrom, if_neg (by rw [h.lineCount]; omega)]
    · intro j l hl
      rw [List.getElem?_eq_none (by omega)] at hl; cases hl
  | succ n ih =>
    intro i y0 hn
    have hi : i < ls.length := by omega
    have hl := List.getElem?_eq_getElem hi
    obtain ⟨calls, h1, h2, h3⟩ := ih (i + 1) (y0 + ls[i].height) (by omega)
    refine ⟨(i, alignedX W ls[i].width a, y0 + ls[i].ascent) :: calls, ?_, by simp [h2]; omega, ?_⟩
    · rw [Layout.forEachLineFrom, if_pos (by rw [h.lineCount]; omega), lineXStart_eq h hl, h.lines i _ hl,
        C20_line_height h i _ hl]
      simp only [h1]
    · intro j l hj
      cases j with
      | zero =>
        rw [Nat.add_zero, hl] at hj
        cases hj
        simp
      | succ j =>
        have e : i + (j + 1) = i + 1 + j := by omega
        rw [e] at hj ⊢
        rw [List.getElem?_cons_succ, h3 j l hj, totalHeight_take_succ hl]
        congr 3
        ring

/-- C20.  `for_each_line` calls the function once per line in order with the
aligned start and the baseline: text start, plus the heights of the lines
before, plus the line's ascent. -/
theorem C20_for_each_line {L : Layout φ} {ls : List (LineSpec φ)} {rs : List (RunSpec φ)} {y : Rat}
    (h : Stores L ls rs y) (W : Rat) (a : XAlignment) :
    ∃ calls, L.forEachLine W a = some calls ∧ calls.length = ls.length ∧
      ∀ i l, ls[i]? = some l → calls[i]? =
        some (i, alignedX W l.width a, y + ((ls.take i).map (·.height)).sum + l.ascent) := by
  obtain ⟨calls, h1, h2, h3⟩ := forEachLineFrom_eq h W a _ 0 L.startY rfl
  refine ⟨calls, h1, by simpa using h2, ?_⟩
  intro i l hl
  have := h3 i l (by simpa using hl)
  simpa [totalHeight, h.startY] using this

example : (execLayout {} sampleOps).bind (fun L => L.forEachLine 100 .center) =
    some [(0, 40, 11), (1, 50, 22)] := by decide +kernel

/-! ### C27: alignment -/

/-- C27.  A line that is not wider than the area lies inside it; `LEFT` starts
at 0, `RIGHT` ends at the area's width, `CENTER` leaves equal margins. -/
theorem C27_horizontal {L : Layout φ} {ls : List (LineSpec φ)} {rs : List (RunSpec φ)} {y : Rat}
    (h : Stores L ls rs y) (i : Nat) (l : LineSpec φ) (hl : ls[i]? = some l) (W : Rat) (hW : l.width ≤ W)
    (a : XAlignment) :
    ∃ x, L.lineXStart i W a = some x ∧ 0 ≤ x ∧ x + l.width ≤ W ∧
      (a = .left → x = 0) ∧ (a = .right → x + l.width = W) ∧
      (a = .center → x - 0 = W - (x + l.width)) := by
  refine ⟨_, lineXStart_eq h hl W a, ?_⟩
  cases a
  · refine ⟨by simp [alignedX], ?_, by simp [alignedX], by simp, by simp⟩
    simp only [alignedX]; linarith
  · refine ⟨?_, ?_, by simp, ?_, by simp⟩
    · simp only [alignedX]; linarith
    · simp only [alignedX]; linarith
    · intro _; simp only [alignedX]; ring
  · refine ⟨?_, ?_, by simp, by simp, ?_⟩
    · simp only [alignedX]; linarith
    · simp only [alignedX]; linarith
    · intro _; simp only [alignedX]; ring

/-- C27.  The vertical alignment set by `build_layout_info` places the text
block likewise. -/
theorem C27_vertical {L : Layout φ} {ls : List (LineSpec φ)} {rs : List (RunSpec φ)} {y : Rat}
    (h : Stores L ls rs y) (H : Rat) (hH : (ls.map (·.height)).sum ≤ H) (a : YAlignment) :
    Stores (L.alignY H a) ls rs (L.alignY H a).startY ∧
      0 ≤ (L.alignY H a).startY ∧ (L.alignY H a).startY + (ls.map (·.height)).sum ≤ H ∧
      (a = .top → (L.alignY H a).startY = 0) ∧
      (a = .bottom → (L.alignY H a).startY + (ls.map (·.height)).sum = H) ∧
      (a = .center → (L.alignY H a).startY = H - ((L.alignY H a).startY + (ls.map (·.height)).sum)) := by
  refine ⟨⟨h.glyphs, h.charIdx, h.pos, h.runCount, h.runs, h.lineCount, h.lines, rfl⟩, ?_⟩
  have e : (L.alignY H a).startY = a.toNat * (H - (ls.map (·.height)).sum) * (1 / 2) := by
    rw [← C20_text_height h]; rfl
  rw [e]
  generalize (ls.map (·.height)).sum = t at hH
  cases a <;> simp only [YAlignment.toNat]
  · refine ⟨by simp, by simp; linarith, by simp, by simp, by simp⟩
  · refine ⟨by push_cast; linarith, by push_cast; linarith, by simp, by simp, ?_⟩
    intro _; push_cast; ring
  · refine ⟨by push_cast; linarith, by push_cast; linarith, by simp, ?_, by simp⟩
    intro _; push_cast; ring

example : ∃ L, execLayout {} sampleOps = some L ∧ L.lineXStart 0 100 .right = some 80 ∧
    (L.alignY 40 .center).startY = 9 := by
  refine ⟨_, rfl, by decide +kernel, by decide +kernel⟩

/-- C20, the width of the text: no line is wider, and it is the width of some
line or 0. -/
theorem C20_text_width {L : Layout φ} {ls : List (LineSpec φ)} {rs : List (RunSpec φ)} {y : Rat}
    (h : Stores L ls rs y) : (∀ l ∈ ls, l.width ≤ L.textWidth) ∧ 0 ≤ L.textWidth ∧
      (L.textWidth = 0 ∨ ∃ l ∈ ls, L.textWidth = l.width) := by
  have key : ∀ (lines : List LineInfo) (w : Rat),
      (∀ l ∈ lines, l.width ≤ lines.foldl (fun w l => if w < l.width then l.width else w) w) ∧
      w ≤ lines.foldl (fun w l => if w < l.width then l.width else w) w ∧
      (lines.foldl (fun w l => if w < l.width then l.width else w) w = w ∨
        ∃ l ∈ lines, lines.foldl (fun w l => if w < l.width then l.width else w) w = l.width) := by
    intro lines
    induction lines with
    | nil => intro w; simp
    | cons l t ih =>
      intro w
      obtain ⟨h1, h2, h3⟩ := ih (if w < l.width then l.width else w)
      simp only [List.foldl_cons]
      have h4 : l.width ≤ (if w < l.width then l.width else w) ∧ w ≤ (if w < l.width then l.width else w) := by
        split
        · exact ⟨le_refl _, by linarith⟩
        · exact ⟨by linarith, le_refl _⟩
      refine ⟨?_, le_trans h4.2 h2, ?_⟩
      · intro q hq
        rcases List.mem_cons.1 hq with rfl | hq
        · exact le_trans h4.1 h2
        · exact h1 q hq
      · rcases h3 with h3 | ⟨q, hq, h3⟩
        · rw [h3]
          split
          · exact .inr ⟨l, List.mem_cons_self, rfl⟩
          · exact .inl rfl
        · exact .inr ⟨q, List.mem_cons_of_mem _ hq, h3⟩
  obtain ⟨h1, h2, h3⟩ := key L.lines 0
  refine ⟨?_, h2, ?_⟩
  · intro l hl
    obtain ⟨i, hi⟩ := List.mem_iff_getElem?.1 hl
    exact h1 _ (List.mem_of_getElem? (h.lines i l hi))
  · rcases h3 with h3 | ⟨q, hq, h3⟩
    · exact .inl h3
    · right
      obtain ⟨i, hi⟩ := List.mem_iff_getElem?.1 hq
      have hlt := (List.getElem?_eq_some_iff.1 hi).1
      rw [h.lineCount] at hlt
      have hl := List.getElem?_eq_getElem hlt
      have := h.lines i _ hl
      rw [hi] at this
      refine ⟨_, List.getElem_mem hlt, ?_⟩
      unfold Layout.textWidth
      rw [h3, Option.some.inj this]

/-! ### C21: vertical hit testing -/

theorem totalHeight_mono {ls : List (LineSpec φ)} (hpos : ∀ l ∈ ls, 0 < l.height) {i j : Nat} (hij : i ≤ j) :
    totalHeight (ls.take i) ≤ totalHeight (ls.take j) := by
  induction j with
  | zero => have : i = 0 := by omega
            subst this; exact le_refl _
  | succ j ih =>
    rcases Nat.lt_or_ge j i with h1 | h1
    · have : i = j + 1 := by omega
      subst this; exact le_refl _
    · refine le_trans (ih h1) ?_
      cases hl : ls[j]? with
      | none =>
        rw [List.take_add_one, hl]; simp
      | some l =>
        rw [totalHeight_take_succ hl]
        have := hpos l (List.mem_of_getElem? hl)
        linarith

theorem closestLine_spec {L : Layout φ} {ls : List (LineSpec φ)} {rs : List (RunSpec φ)} {y : Rat}
    (h : Stores L ls rs y) (q : Rat) (hpos : ∀ l ∈ ls, 0 < l.height) :
    ∃ r, L.closestLine q = some r ∧ r ≤ ls.length ∧
      (∀ i, i < r → totalHeight (ls.take (i + 1)) < q) ∧
      (∀ i, r ≤ i → i < ls.length → q ≤ totalHeight (ls.take (i + 1))) := by
  unfold Layout.closestLine
  rw [h.lineCount]
  obtain ⟨r, h1, _, h3, h4, h5⟩ := binarySearch_spec
    (fun i => (L.lines[i]?).map fun l => decide (l.totalDescent < q))
    (fun i => decide (totalHeight (ls.take (i + 1)) < q)) ls.length 0
    (by
      intro i _ hi
      rw [h.lines i _ (List.getElem?_eq_getElem (by omega))]
      rfl)
    (by
      intro i j _ hij hj hp
      simp only [decide_eq_true_eq] at hp ⊢
      exact lt_of_le_of_lt (totalHeight_mono hpos (by omega)) hp)
  refine ⟨r, h1, by omega, ?_, ?_⟩
  · intro i hi
    simpa using h4 i (by omega) hi
  · intro i hi hl
    simpa using h5 i hi (by omega)

/-- C21 is false as stated: below the last line `get_closest_line_to_height`
returns the number of lines, which is not the index of a line.  (The comment in
layout_info.hpp promises the last line.) -/
theorem C21_past_end_violated {L : Layout φ} {ls : List (LineSpec φ)} {rs : List (RunSpec φ)} {y : Rat}
    (h : Stores L ls rs y) (q : Rat) (hpos : ∀ l ∈ ls, 0 < l.height) (hq : (ls.map (·.height)).sum < q) :
    L.closestLine q = some ls.length ∧ L.lines[ls.length]? = none := by
  obtain ⟨r, h1, h2, h3, h4⟩ := closestLine_spec h q hpos
  have hr : r = ls.length := by
    by_contra hne
    have := h4 (ls.length - 1) (by omega) (by omega)
    rw [List.take_of_length_le (by omega)] at this
    unfold totalHeight at this
    linarith
  subst hr
  exact ⟨h1, List.getElem?_eq_none (by rw [h.lineCount])⟩

/-- C21 is false as stated: the text start is ignored.  A text of two lines of
height 10, placed 20 below the top of its area, is drawn from 20 to 40; the
point at height 25 lies on the first line, `closest_to_position` uses the
second. -/
theorem C21_start_violated : ∃ (L : Layout Nat) (ls : List (LineSpec Nat)), Stores L ls [] 20 ∧
    ls.map (·.height) = [10, 10] ∧ (∃ x, L.forEachLine 0 .left = some [(0, x, 28), (1, x, 38)]) ∧
    L.closestLine 25 = some 2 ∧ L.closestToPositionLine 25 = some 1 := by
  have h0 : Draft.steps {} [.emptyLine 0 0 10 8, .emptyLine 0 1 10 8, .startY 20] =
      some (⟨[⟨[.empty 0 0], 10, 8⟩, ⟨[.empty 0 1], 10, 8⟩], [], 20⟩ : Draft Nat) := rfl
  obtain ⟨L, hL, hs⟩ := C19_stores _ _ h0
  refine ⟨L, _, hs, rfl, ?_⟩
  have e := Option.some.inj hL
  rw [← e]
  refine ⟨⟨0, ?_⟩, ?_, ?_⟩ <;> decide +kernel

/-- C21 (partial: for heights measured from the start of the text).  With
positive line heights the result is the line whose band `(top, bottom]` contains
the point, the first line above the text, and `closest_to_position` uses the
last line below it. -/
theorem C21_line_partial {L : Layout φ} {ls : List (LineSpec φ)} {rs : List (RunSpec φ)} {y : Rat}
    (h : Stores L ls rs y) (q : Rat) (hpos : ∀ l ∈ ls, 0 < l.height) (hne : ls ≠ []) :
    ∃ i, L.closestToPositionLine q = some i ∧ i < ls.length ∧
      (q ≤ (ls.map (·.height)).sum → L.closestLine q = some i) ∧
      (q ≤ 0 → i = 0) ∧
      ((ls.map (·.height)).sum < q → i = ls.length - 1) ∧
      (0 < q → q ≤ (ls.map (·.height)).sum →
        ((ls.take i).map (·.height)).sum < q ∧ q ≤ ((ls.take (i + 1)).map (·.height)).sum) := by
  obtain ⟨r, h1, h2, h3, h4⟩ := closestLine_spec h q hpos
  have hlen := List.length_pos_iff.2 hne
  have hfull : totalHeight (ls.take (ls.length - 1 + 1)) = (ls.map (·.height)).sum := by
    rw [List.take_of_length_le (by omega)]; rfl
  have hend : (ls.map (·.height)).sum < q ↔ r = ls.length := by
    constructor
    · intro hq
      by_contra hc
      have := h4 (ls.length - 1) (by omega) (by omega)
      linarith
    · intro hr
      have := h3 (ls.length - 1) (by omega)
      linarith
  unfold Layout.closestToPositionLine
  rw [h1]
  simp only
  rw [h.lineCount]
  have hzero : q ≤ 0 → r = 0 := by
    intro hq
    by_contra hc
    have := h3 0 (by omega)
    obtain ⟨l, hl⟩ : ∃ l, ls[0]? = some l := ⟨_, List.getElem?_eq_getElem hlen⟩
    rw [totalHeight_take_succ hl] at this
    have h0 : totalHeight (ls.take 0) = 0 := by simp [totalHeight]
    have := hpos l (List.mem_of_getElem? hl)
    linarith
  by_cases hr : r = ls.length
  · rw [if_pos hr]
    refine ⟨_, rfl, by omega, ?_, ?_, fun _ => rfl, ?_⟩
    · intro hq; have := hend.2 hr; linarith
    · intro hq; have := hzero hq; omega
    · intro _ hq; have := hend.2 hr; linarith
  · rw [if_neg hr]
    refine ⟨_, rfl, by omega, fun _ => rfl, hzero, fun hq => absurd (hend.1 hq) hr, ?_⟩
    intro hq _
    refine ⟨?_, h4 r (Nat.le_refl _) (by omega)⟩
    cases r with
    | zero => simpa using hq
    | succ r => exact h3 r (by omega)

example : ∃ L, execLayout {} sampleOps = some L ∧ L.closestToPositionLine 10 = some 0 ∧
    L.closestToPositionLine 11 = some 1 ∧ L.closestToPositionLine 90 = some 1 ∧
    L.closestToPositionLine (-4) = some 0 := by
  refine ⟨_, rfl, ?_, ?_, ?_, ?_⟩ <;> decide +kernel

end RichText
