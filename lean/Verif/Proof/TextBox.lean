import Verif.Model.TextBox
import Verif.Props.HitTest
import Verif.Props.CursorController
/-! Queries on a layout are defined for every cursor position. -/
namespace RichText
variable {φ : Type _}

/-- A glyph offset is defined for every run and every character index. -/
theorem glyphOffset_total {L : Layout φ} {ls : List (LineSpec φ)} {rs : List (RunSpec φ)} {y : Rat}
    (h : Stores L ls rs y) (hsize : L.pos.length < 4294967296) {k : Nat} {r : RunSpec φ}
    (hk : (allRuns ls ++ rs)[k]? = some r) (q : Nat) : ∃ v, L.glyphOffset k q = some v := by
  obtain ⟨f, e1, e2, e3, e4, e5, e6⟩ := h.read hk
  have hu0 : u32 (((f + r.glyphs.length : Nat) : Int) - f) = r.glyphs.length := by
    rw [u32_sub (by omega) (by omega)]; omega
  have hcl := h.charIdx_length
  have hpl := h.pos_length
  have hkl := getElem?_lt hk
  have hfk : 0 < f → 0 < k := by
    intro hf
    apply Nat.pos_of_ne_zero
    rintro rfl
    unfold Layout.firstGlyphIndex at e1
    rw [if_pos rfl] at e1
    cases e1; omega
  have hcount : f + r.glyphs.length ≤ L.charIdx.length := by
    have := h.runs k r hk
    rw [e3] at this
    have h1 : f + r.glyphs.length = glyphCount ((allRuns ls ++ rs).take (k + 1)) := by
      have := Option.some.inj this
      exact congrArg (fun v : VisualRun φ => v.glyphEnd) this
    have := glyphCount_take_le (allRuns ls ++ rs) (k + 1)
    omega
  unfold Layout.glyphOffset
  rw [e3]
  simp only
  split
  · obtain ⟨g, b1, b2, b3⟩ := binarySearch_range (fun i => (L.charIdx[i]?).map fun c => decide (c ≥ q))
      (fun i => decide (r.charAt (i - f) ≥ q)) r.glyphs.length f (by
        intro i h1 h2
        have := e4 (i - f) (by omega)
        rw [show f + (i - f) = i by omega] at this
        simp only [this, Option.map_some])
    obtain ⟨nc, hnc⟩ : ∃ nc, L.rtlNextChar ⟨r.font, f + r.glyphs.length, r.charStart, r.charEnd, r.charEndOffset, r.rtl⟩ f g = some nc := by
      unfold Layout.rtlNextChar
      split
      · exact ⟨_, rfl⟩
      · exact ⟨_, List.getElem?_eq_getElem (by omega)⟩
    have hu2 : u32 (((2 * (f + k) : Nat) : Int) + 2 * ((g : Int) - f)) = 2 * (f + k) + 2 * (g - f) := by
      rw [u32_of (by omega) (by omega)]; omega
    unfold Layout.glyphOffsetRtl
    simp only [e1, e2, e3, Option.bind_eq_bind, Option.bind_some, hu0, b1, hnc, hu2, e5 (g - f) (by omega)]
    split
    · rename_i hc
      have hg := hc.2
      obtain ⟨c, hc'⟩ : ∃ c, L.charIdx[g]? = some c := ⟨_, List.getElem?_eq_getElem (by omega)⟩
      have hu3 : u32 (((2 * (f + k) : Nat) : Int) + 2 * ((g : Int) - f + 1)) = 2 * (f + k) + 2 * (g - f + 1) := by
        rw [u32_of (by omega) (by omega)]; omega
      simp only [hc', hu3, Option.bind_some, e5 (g - f + 1) (by omega)]
      exact ⟨_, rfl⟩
    · exact ⟨_, rfl⟩
  · obtain ⟨g, b1, b2, b3⟩ := binarySearch_range (fun i => (L.charIdx[i]?).map fun c => decide (c < q))
      (fun i => decide (r.charAt (i - f) < q)) r.glyphs.length f (by
        intro i h1 h2
        have := e4 (i - f) (by omega)
        rw [show f + (i - f) = i by omega] at this
        simp only [this, Option.map_some])
    obtain ⟨nc, hnc⟩ : ∃ nc, L.ltrNextChar ⟨r.font, f + r.glyphs.length, r.charStart, r.charEnd, r.charEndOffset, r.rtl⟩ g = some nc := by
      unfold Layout.ltrNextChar
      split
      · exact ⟨_, rfl⟩
      · rename_i hne
        simp only at hne
        exact ⟨_, List.getElem?_eq_getElem (by omega)⟩
    have hu2 : u32 (((2 * (f + k) : Nat) : Int) + 2 * ((g : Int) - f)) = 2 * (f + k) + 2 * (g - f) := by
      rw [u32_of (by omega) (by omega)]; omega
    unfold Layout.glyphOffsetLtr
    simp only [e1, e2, e3, Option.bind_eq_bind, Option.bind_some, hu0, b1, hnc, hu2, e5 (g - f) (by omega)]
    split
    · rename_i hc
      have hg := hc.2
      have hfk' : f = 0 ∨ 0 < k := by omega
      obtain ⟨c, hc'⟩ : ∃ c, L.charIdx[g - 1]? = some c := ⟨_, List.getElem?_eq_getElem (by omega)⟩
      obtain ⟨p, hp⟩ : ∃ p, L.pos[u32 (((2 * (f + k) : Nat) : Int) + 2 * ((g : Int) - f - 1))]? = some p := by
        rw [u32_of (by omega) (by omega)]
        exact ⟨_, List.getElem?_eq_getElem (by omega)⟩
      simp only [hc', hp, Option.bind_some]
      exact ⟨_, rfl⟩
    · exact ⟨_, rfl⟩

/-- The caret of every cursor position is defined, on a line of the text. -/
theorem cursorPixelPos_total {L : Layout φ} {ls : List (LineSpec φ)} {y : Rat} (h : Stores L ls [] y)
    (hne : ∀ l ∈ ls, l.runs ≠ []) (hls : ls ≠ []) (hsize : L.pos.length < 4294967296) (W : Rat) (al : XAlignment)
    (c : Nat) (a : Affinity) : ∃ info, L.cursorPixelPos W al c a = some info ∧ info.line < L.lines.length := by
  obtain ⟨k, m, h1, h2, l, j, h3, h4, h5⟩ := C22_line_number h hne hls c a
  have hm := getElem?_lt h3
  obtain ⟨v, hv⟩ := glyphOffset_total h hsize (k := k) (by rw [List.append_nil]; exact List.getElem?_eq_getElem h2) c
  have hlc := h.lineCount
  unfold Layout.cursorPixelPos
  simp only [h1, lineXStart_eq h h3, hv, h.lines m l h3]
  split
  · exact ⟨_, rfl, by simp only; omega⟩
  · obtain ⟨p, hp⟩ : ∃ p, L.lines[m - 1]? = some p := ⟨_, List.getElem?_eq_getElem (by omega)⟩
    rw [hp]
    exact ⟨_, rfl, by simp only; omega⟩

/-- Like C26_in_line_partial for clusters that may reach over the end of a run: the
position is at most the greatest boundary. -/
theorem findClosest_inside {L : Layout φ} {ls : List (LineSpec φ)} {y : Rat} (h : Stores L ls [] y)
    (hne : ∀ l ∈ ls, l.runs ≠ []) (hsize : L.pos.length < 4294967296) {m : Nat} {l : LineSpec φ}
    (hl : ls[m]? = some l) (hp : ProperLine l) (W : Rat) (al : XAlignment) {follow : Layout.Following} {B : Nat → Prop}
    (hf : FollowsBoundaries follow B) {n : Nat} (hn : B n) (hB : ∀ r ∈ l.runs, r.charEnd ≤ n) (cx : Rat) :
    ∃ p a, L.findClosest W al follow m cx = some (p, a) ∧ p ≤ n := by
  obtain ⟨j, c1, c2, c3, c4, c5⟩ := findClosest_run h hne hsize hl hp W al follow cx
  by_cases hj : j = l.runs.length
  · obtain ⟨r, e1, e2⟩ := c4 hj
    have hr := List.mem_of_getElem? e1
    refine ⟨_, _, e2, ?_⟩
    have : r.charStart ≤ r.charEnd := by
      rcases hp.runs r hr with h | h
      · exact h.start_end
      · exact h.start_end
    have := hB r hr
    split <;> omega
  · have hj' : j < l.runs.length := by omega
    have hr := List.getElem?_eq_getElem hj'
    have hmem := List.mem_of_getElem? hr
    generalize l.runs[j] = r at hr hmem
    have hsucc : (allRuns (ls.take (m + 1))).length = (allRuns (ls.take m)).length + l.runs.length := by
      rw [allRuns_take_succ hl, List.length_append]
    obtain ⟨r', g1, g2⟩ := runOfLine_mem (k := (allRuns (ls.take m)).length + j) hl (by omega) (by omega)
    rw [Nat.add_sub_cancel_left, hr] at g2
    cases g2
    have htot := allRuns_take_le ls (m + 1)
    have hx := c3 r hr
    have hbe := hB r hmem
    rw [c5 hj']
    rcases hp.runs r hmem with hlr | hrr
    · obtain ⟨i, p, a, d1, d2, d3, d4, d5, _⟩ := findInRun_ltr h hsize (by rw [List.append_nil]; exact g1) hlr
        (hp.size r hmem) (show (allRuns (ls.take m)).length ≤ (allRuns (ls.take m)).length + j by omega)
        (show (allRuns (ls.take m)).length + j < (allRuns (ls.take (m + 1))).length by omega)
        (by rw [List.append_nil]; exact htot) hf hx
      refine ⟨p, a, d4, ?_⟩
      have hse := hlr.start_end
      have e2 : ∀ i, i ≤ r.glyphs.length → r.charAt i ≤ r.charEnd := by
        intro i hi
        by_cases hn : i = r.glyphs.length
        · rw [charAt_end r (by omega)]
        · exact Nat.le_of_lt (charAt_below hlr.below (by omega))
      rcases d5 with ⟨_, rfl⟩ | ⟨h0, _, rfl⟩ | ⟨h0, h1, h2⟩
      · omega
      · have := e2 (i - 1) (by omega); omega
      · have := e2 i d1
        exact (h2.range hf (by omega) hn).2
    · obtain ⟨i, p, a, d1, d2, d3, d4, d5⟩ := findInRun_rtl h hsize (by rw [List.append_nil]; exact g1) hrr
        (hp.size r hmem) (show (allRuns (ls.take m)).length ≤ (allRuns (ls.take m)).length + j by omega)
        (show (allRuns (ls.take m)).length + j < (allRuns (ls.take (m + 1))).length by omega)
        (by rw [List.append_nil]; exact htot) hf hx
      refine ⟨p, a, d4, ?_⟩
      have hse := hrr.start_end
      have e2 : ∀ i, i < r.glyphs.length → r.charAt i ≤ r.charEnd := by
        intro i hi
        exact Nat.le_of_lt (charAt_below hrr.below (by omega))
      rcases d5 with ⟨_, rfl⟩ | ⟨h0, _, rfl⟩ | ⟨h0, h1, h2⟩
      · omega
      · have := e2 (i - 1) (by omega); omega
      · have : r.rtlEnd i ≤ r.charEnd := by
          unfold RunSpec.rtlEnd
          split
          · exact Nat.le_refl _
          · exact e2 _ (by omega)
        exact (h2.range hf (by omega) hn).2

theorem closestToPositionLine_total {L : Layout φ} (h : L.lines ≠ []) (y : Rat) :
    ∃ m, L.closestToPositionLine y = some m ∧ m < L.lines.length := by
  obtain ⟨r, b1, b2, b3⟩ := binarySearch_range (fun i => (L.lines[i]?).map fun l => decide (l.totalDescent < y))
    (fun i => ((L.lines[i]?).map fun l => decide (l.totalDescent < y)).getD false) L.lines.length 0 (by
      intro i _ hi
      rw [List.getElem?_eq_getElem (by omega)]; rfl)
  have hpos := List.length_pos_iff.2 h
  unfold Layout.closestToPositionLine Layout.closestLine
  rw [b1]
  refine ⟨_, rfl, ?_⟩
  split <;> omega

end RichText
