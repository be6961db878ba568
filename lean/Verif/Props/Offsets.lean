import Verif.Proof.GlyphOffset
import Verif.Props.Cursor
/-!
C24 and C25: horizontal cursor offsets and selection rectangles, and the caret
rectangle (C59).
-/
namespace RichText
variable {φ : Type _}

/-- A run is stored at index `k` of a layout whose vectors fit 32-bit indices. -/
structure RunAt (L : Layout φ) (k : Nat) (r : RunSpec φ) : Prop where
  /-- stored -/
  stored : ∃ ls rs y, Stores L ls rs y ∧ (allRuns ls ++ rs)[k]? = some r
  /-- size of the vectors -/
  size : L.pos.length < 4294967296
  /-- size of the text -/
  chars : r.charEnd < 4294967296

theorem ltr_offset {L : Layout φ} {k : Nat} {r : RunSpec φ} (h : RunAt L k r) (hr : LtrRun r) {q : Nat}
    (h1 : r.charStart ≤ q) (h2 : q ≤ r.charEnd) :
    ∃ v, L.glyphOffset k q = some v ∧ IsOffset r.charAt r.xAt r.glyphs.length q v := by
  obtain ⟨ls, rs, y, hs, hk⟩ := h.stored
  obtain ⟨v, e1, e2⟩ := glyphOffsetLtr_spec hs h.size hk hr h.chars h1 h2
  refine ⟨v, ?_, e2⟩
  unfold Layout.glyphOffset
  rw [hs.runs k r hk]
  simp only [hr.ltr, Bool.false_eq_true, if_false]
  exact e1

theorem rtl_offset {L : Layout φ} {k : Nat} {r : RunSpec φ} (h : RunAt L k r) (hr : RtlRun r) {q : Nat}
    (h1 : r.charStart ≤ q) (h2 : q ≤ r.charEnd) :
    ∃ v, L.glyphOffset k q = some v ∧ IsOffset r.charBack r.xBack r.glyphs.length q v := by
  obtain ⟨ls, rs, y, hs, hk⟩ := h.stored
  obtain ⟨v, e1, e2⟩ := glyphOffsetRtl_spec hs h.size hk hr h.chars h1 h2
  refine ⟨v, ?_, e2⟩
  unfold Layout.glyphOffset
  rw [hs.runs k r hk]
  simp only [hr.rtl, if_true]
  exact e1

theorem charAt_of {r : RunSpec φ} {i : Nat} {g : GlyphSpec} (h : r.glyphs[i]? = some g) : r.charAt i = g.char := by
  unfold RunSpec.charAt; rw [h]; rfl

theorem xAt_of {r : RunSpec φ} {i : Nat} {g : GlyphSpec} (h : r.glyphs[i]? = some g) : r.xAt i = g.x := by
  unfold RunSpec.xAt RunSpec.xs
  rw [List.getElem?_append_left (by simpa using getElem?_lt h), List.getElem?_map, h]; rfl

theorem xAt_end (r : RunSpec φ) : r.xAt r.glyphs.length = r.endX := by
  unfold RunSpec.xAt RunSpec.xs
  simp

theorem LtrRun.start_le {r : RunSpec φ} (hr : LtrRun r) {i : Nat} {g : GlyphSpec} (h : r.glyphs[i]? = some g) :
    r.charStart ≤ g.char := by
  have hi := getElem?_lt h
  have h0 := List.getElem?_eq_getElem (show 0 < r.glyphs.length by omega)
  have := charAt_sorted hr (Nat.zero_le i) hi
  rw [charAt_of h, charAt_of h0, hr.first _ h0] at this
  exact this

theorem LtrRun.start_end {r : RunSpec φ} (hr : LtrRun r) : r.charStart ≤ r.charEnd := by
  by_cases h : r.glyphs = []
  · exact Nat.le_of_eq (hr.empty h)
  · have h0 := List.getElem?_eq_getElem (List.length_pos_iff.2 h)
    have := hr.below _ (List.mem_of_getElem? h0)
    rw [hr.first _ h0] at this
    omega

theorem RtlRun.last_char {r : RunSpec φ} (hr : RtlRun r) (h : 0 < r.glyphs.length) :
    r.charAt (r.glyphs.length - 1) = r.charStart := by
  have h0 := List.getElem?_eq_getElem (show r.glyphs.length - 1 < r.glyphs.length by omega)
  rw [charAt_of h0]
  exact hr.last _ (by rw [List.getLast?_eq_getElem?, h0])

theorem RtlRun.start_le {r : RunSpec φ} (hr : RtlRun r) {i : Nat} {g : GlyphSpec} (h : r.glyphs[i]? = some g) :
    r.charStart ≤ g.char := by
  have hi := getElem?_lt h
  have := charAt_anti hr (show i ≤ r.glyphs.length - 1 by omega) (by omega)
  rw [charAt_of h, hr.last_char (by omega)] at this
  exact this

theorem RtlRun.start_end {r : RunSpec φ} (hr : RtlRun r) : r.charStart ≤ r.charEnd := by
  by_cases h : r.glyphs = []
  · exact Nat.le_of_eq (hr.empty h)
  · have h0 := List.getElem?_eq_getElem (List.length_pos_iff.2 h)
    have := hr.below _ (List.mem_of_getElem? h0)
    have := hr.start_le h0
    omega

/-! ### C24 -/

/-- C24, left to right: at the first character of a glyph (of the first glyph of
a cluster) the offset is the glyph's left edge; at the end of the run it is the
run's right edge. -/
theorem C24_ltr_exact {L : Layout φ} {k : Nat} {r : RunSpec φ} (h : RunAt L k r) (hr : LtrRun r) :
    (∀ (i : Nat) (g : GlyphSpec), r.glyphs[i]? = some g →
      (∀ (j : Nat) (p : GlyphSpec), j < i → r.glyphs[j]? = some p → p.char < g.char) →
      L.glyphOffset k g.char = some g.x) ∧
    L.glyphOffset k r.charEnd = some r.endX := by
  constructor
  · intro i g hg hfirst
    have hi := getElem?_lt hg
    obtain ⟨v, e1, e2⟩ := ltr_offset h hr (hr.start_le hg) (Nat.le_of_lt (hr.below _ (List.mem_of_getElem? hg)))
    rw [e1]
    congr 1
    have hlt : ∀ j, j < i → r.charAt j < g.char := by
      intro j hj
      have hp := List.getElem?_eq_getElem (show j < r.glyphs.length by omega)
      rw [charAt_of hp]
      exact hfirst j _ hj hp
    rw [e2.at (j := i) (by rw [charAt_of hg]) hlt, ← charAt_of hg, interp_exact, xAt_of hg]
    intro _
    rw [charAt_of hg]
    exact hlt _ (by omega)
  · obtain ⟨v, e1, e2⟩ := ltr_offset h hr hr.start_end (Nat.le_refl _)
    rw [e1]
    congr 1
    have hlt : ∀ j, j < r.glyphs.length → r.charAt j < r.charEnd := fun j hj => charAt_below hr.below hj
    have he := charAt_end r (Nat.le_refl r.glyphs.length)
    rw [e2.at (j := r.glyphs.length) (by rw [he]) hlt]
    conv => lhs; rw [← he]
    rw [interp_exact, xAt_end]
    intro _
    rw [he]
    exact hlt _ (by omega)

/-- C24, left to right, interpolation: after the first character `g.char` of the
last glyph of a cluster, up to the next cluster at `d` (a later glyph's
character, or the run's end), the offset grows linearly from the glyph's left
edge to the next one. -/
theorem C24_ltr_interpolates {L : Layout φ} {k : Nat} {r : RunSpec φ} (h : RunAt L k r) (hr : LtrRun r)
    (i : Nat) (g : GlyphSpec) (hg : r.glyphs[i]? = some g) (d : Nat) (x : Rat)
    (hnext : (i + 1 = r.glyphs.length ∧ d = r.charEnd ∧ x = r.endX) ∨
      (∃ n, r.glyphs[i + 1]? = some n ∧ d = n.char ∧ x = n.x))
    (c : Nat) (h1 : g.char < c) (h2 : c ≤ d) :
    L.glyphOffset k c = some (g.x + (x - g.x) * (((c : Rat) - g.char) / ((d : Rat) - g.char))) := by
  have hi := getElem?_lt hg
  have hd : r.charAt (i + 1) = d ∧ r.xAt (i + 1) = x ∧ d ≤ r.charEnd := by
    rcases hnext with ⟨e1, rfl, rfl⟩ | ⟨n, e1, rfl, rfl⟩
    · refine ⟨charAt_end r (by omega), ?_, Nat.le_refl _⟩
      rw [e1, xAt_end]
    · exact ⟨charAt_of e1, xAt_of e1, Nat.le_of_lt (hr.below _ (List.mem_of_getElem? e1))⟩
  obtain ⟨v, e1, e2⟩ := ltr_offset h hr (q := c) (by have := hr.start_le hg; omega) (by omega)
  rw [e1]
  congr 1
  rw [e2.at (j := i + 1) (by rw [hd.1]; exact h2) (by
    intro j hj
    have := charAt_sorted hr (show j ≤ i by omega) hi
    rw [charAt_of hg] at this
    omega)]
  unfold interp
  rw [if_neg (by omega), Nat.add_sub_cancel, hd.1, hd.2.1, charAt_of hg, xAt_of hg]

/-- C24, left to right: monotone and between the run's first and last position. -/
theorem C24_ltr_monotone {L : Layout φ} {k : Nat} {r : RunSpec φ} (h : RunAt L k r) (hr : LtrRun r)
    (c d : Nat) (h1 : r.charStart ≤ c) (h2 : c ≤ d) (h3 : d ≤ r.charEnd) :
    ∃ v w, L.glyphOffset k c = some v ∧ L.glyphOffset k d = some w ∧ v ≤ w ∧ w ≤ r.endX ∧
      ∀ x, r.xs[0]? = some x → x ≤ v := by
  obtain ⟨v, e1, e2⟩ := ltr_offset h hr h1 (by omega)
  obtain ⟨w, f1, f2⟩ := ltr_offset h hr (show r.charStart ≤ d by omega) h3
  have hx : ∀ i, i < r.glyphs.length → r.xAt i ≤ r.xAt (i + 1) := fun i hi => xAt_step hr.mono hi
  refine ⟨v, w, e1, f1, e2.mono hx f2 h2, ?_, ?_⟩
  · have := (f2.bounds hx).2
    rwa [xAt_end] at this
  · intro x hx0
    rw [xs_get r (Nat.zero_le _)] at hx0
    cases hx0
    exact (e2.bounds hx).1

/-- C24, right to left: at the first character of a glyph (of the last glyph, in
visual order, of a cluster) the offset is the glyph's right edge, that is the
next stored position; at the end of the run it is the run's left edge. -/
theorem C24_rtl_exact {L : Layout φ} {k : Nat} {r : RunSpec φ} (h : RunAt L k r) (hr : RtlRun r) :
    (∀ (i : Nat) (g : GlyphSpec), r.glyphs[i]? = some g →
      (∀ (j : Nat) (p : GlyphSpec), i < j → r.glyphs[j]? = some p → p.char < g.char) →
      L.glyphOffset k g.char = r.xs[i + 1]?) ∧
    L.glyphOffset k r.charEnd = r.xs[0]? := by
  constructor
  · intro i g hg hlast
    have hi := getElem?_lt hg
    obtain ⟨v, e1, e2⟩ := rtl_offset h hr (hr.start_le hg) (Nat.le_of_lt (hr.below _ (List.mem_of_getElem? hg)))
    rw [e1, xs_get r (by omega)]
    congr 1
    have he : r.charBack (r.glyphs.length - 1 - i) = g.char := by
      unfold RunSpec.charBack
      rw [if_pos (by omega), show r.glyphs.length - 1 - (r.glyphs.length - 1 - i) = i by omega, charAt_of hg]
    have hlt : ∀ j, j < r.glyphs.length - 1 - i → r.charBack j < g.char := by
      intro j hj
      unfold RunSpec.charBack
      rw [if_pos (by omega)]
      have hp := List.getElem?_eq_getElem (show r.glyphs.length - 1 - j < r.glyphs.length by omega)
      rw [charAt_of hp]
      exact hlast _ _ (by omega) hp
    rw [e2.at (j := r.glyphs.length - 1 - i) (by rw [he]) hlt]
    conv => lhs; rw [← he]
    rw [interp_exact]
    · unfold RunSpec.xBack
      congr 1
      omega
    · intro _
      rw [he]
      exact hlt _ (by omega)
  · obtain ⟨v, e1, e2⟩ := rtl_offset h hr hr.start_end (Nat.le_refl _)
    rw [e1, xs_get r (Nat.zero_le _)]
    congr 1
    have he : r.charBack r.glyphs.length = r.charEnd := by unfold RunSpec.charBack; simp
    have hlt : ∀ j, j < r.glyphs.length → r.charBack j < r.charEnd := by
      intro j hj
      unfold RunSpec.charBack
      rw [if_pos hj]
      exact charAt_below hr.below (by omega)
    rw [e2.at (j := r.glyphs.length) (by rw [he]) hlt]
    conv => lhs; rw [← he]
    rw [interp_exact]
    · unfold RunSpec.xBack
      congr 1
      omega
    · intro _
      rw [he]
      exact hlt _ (by omega)

/-- C24, right to left, interpolation: after the first character of the first
glyph (in visual order) of a cluster, up to the next cluster at `d`, which is at
the left, the offset falls linearly from the glyph's right edge `x` to its left
edge. -/
theorem C24_rtl_interpolates {L : Layout φ} {k : Nat} {r : RunSpec φ} (h : RunAt L k r) (hr : RtlRun r)
    (i : Nat) (g : GlyphSpec) (hg : r.glyphs[i]? = some g) (d : Nat) (x : Rat) (hx : r.xs[i + 1]? = some x)
    (hnext : (i = 0 ∧ d = r.charEnd) ∨ (∃ j n, i = j + 1 ∧ r.glyphs[j]? = some n ∧ d = n.char))
    (c : Nat) (h1 : g.char < c) (h2 : c ≤ d) :
    L.glyphOffset k c = some (x + (g.x - x) * (((c : Rat) - g.char) / ((d : Rat) - g.char))) := by
  have hi := getElem?_lt hg
  rw [xs_get r (by omega)] at hx
  cases hx
  have hd : r.charBack (r.glyphs.length - i) = d ∧ d ≤ r.charEnd := by
    rcases hnext with ⟨rfl, rfl⟩ | ⟨j, n, rfl, e1, rfl⟩
    · unfold RunSpec.charBack; simp
    · unfold RunSpec.charBack
      rw [if_pos (by omega), show r.glyphs.length - 1 - (r.glyphs.length - (j + 1)) = j by omega, charAt_of e1]
      exact ⟨rfl, Nat.le_of_lt (hr.below _ (List.mem_of_getElem? e1))⟩
  have hg2 : r.charBack (r.glyphs.length - i - 1) = g.char := by
    unfold RunSpec.charBack
    rw [if_pos (by omega), show r.glyphs.length - 1 - (r.glyphs.length - i - 1) = i by omega, charAt_of hg]
  obtain ⟨v, e1, e2⟩ := rtl_offset h hr (q := c) (by have := hr.start_le hg; omega) (by omega)
  rw [e1]
  congr 1
  rw [e2.at (j := r.glyphs.length - i) (by rw [hd.1]; exact h2) (by
    intro j hj
    unfold RunSpec.charBack
    rw [if_pos (by omega)]
    have := charAt_anti hr (show i ≤ r.glyphs.length - 1 - j by omega) (by omega)
    rw [charAt_of hg] at this
    omega)]
  unfold interp
  rw [if_neg (by omega), hd.1, hg2]
  unfold RunSpec.xBack
  rw [show r.glyphs.length - (r.glyphs.length - i) = i by omega,
    show r.glyphs.length - (r.glyphs.length - i - 1) = i + 1 by omega, xAt_of hg]

theorem xBack_step {r : RunSpec φ} (hr : RtlRun r) : ∀ i, i < r.glyphs.length → -r.xBack i ≤ -r.xBack (i + 1) := by
  intro i hi
  unfold RunSpec.xBack
  have := xAt_step hr.mono (i := r.glyphs.length - (i + 1)) (by omega)
  rw [show r.glyphs.length - (i + 1) + 1 = r.glyphs.length - i by omega] at this
  linarith

/-- C24, right to left: antitone and between the run's first and last position. -/
theorem C24_rtl_antitone {L : Layout φ} {k : Nat} {r : RunSpec φ} (h : RunAt L k r) (hr : RtlRun r)
    (c d : Nat) (h1 : r.charStart ≤ c) (h2 : c ≤ d) (h3 : d ≤ r.charEnd) :
    ∃ v w, L.glyphOffset k c = some v ∧ L.glyphOffset k d = some w ∧ w ≤ v ∧ v ≤ r.endX ∧
      ∀ x, r.xs[0]? = some x → x ≤ w := by
  obtain ⟨v, e1, e2⟩ := rtl_offset h hr h1 (by omega)
  obtain ⟨w, f1, f2⟩ := rtl_offset h hr (show r.charStart ≤ d by omega) h3
  refine ⟨v, w, e1, f1, ?_, ?_, ?_⟩
  · have := e2.neg.mono (xBack_step hr) f2.neg h2
    linarith
  · have := (e2.neg.bounds (xBack_step hr)).1
    unfold RunSpec.xBack at this
    rw [Nat.sub_zero, xAt_end] at this
    linarith
  · intro x hx0
    rw [xs_get r (Nat.zero_le _)] at hx0
    cases hx0
    have := (f2.neg.bounds (xBack_step hr)).2
    unfold RunSpec.xBack at this
    rw [Nat.sub_self] at this
    linarith

/-- Example: a left-to-right run with a two-character ligature, a right-to-left
run. -/
def sampleRuns : List (LayoutOp Nat) :=
  [.run 7 [⟨40, 0, 0, 0⟩, ⟨41, 1, 5, 0⟩, ⟨42, 3, 11, 0⟩] 15 0 0 4 false,
   .run 8 [⟨43, 6, 15, 0⟩, ⟨44, 4, 18, 1⟩] 24 0 4 7 true, .line 10 8]

def sampleRun0 : RunSpec Nat := ⟨7, [⟨40, 0, 0, 0⟩, ⟨41, 1, 5, 0⟩, ⟨42, 3, 11, 0⟩], 15, 0, 0, 4, 0, false⟩
def sampleRun1 : RunSpec Nat := ⟨8, [⟨43, 6, 15, 0⟩, ⟨44, 4, 18, 1⟩], 24, 0, 4, 7, 0, true⟩

theorem sampleRuns_at : ∃ L, execLayout {} sampleRuns = some L ∧ RunAt L 0 sampleRun0 ∧ RunAt L 1 sampleRun1 := by
  have h0 : Draft.steps {} sampleRuns = some (⟨[⟨[sampleRun0, sampleRun1], 10, 8⟩], [], 0⟩ : Draft Nat) := rfl
  obtain ⟨L, hL, hs⟩ := C19_stores _ _ h0
  have hlen : L.pos.length < 4294967296 := by
    have := hs.pos_length
    simp [glyphCount, allRuns, sampleRun0, sampleRun1] at this
    omega
  exact ⟨L, hL, ⟨⟨_, _, _, hs, rfl⟩, hlen, by decide⟩, ⟨⟨_, _, _, hs, rfl⟩, hlen, by decide⟩⟩

theorem pairs_mono {l : List Rat} (h : l.IsChain (· ≤ ·)) :
    ∀ (i : Nat) (a b : Rat), l[i]? = some a → l[i + 1]? = some b → a ≤ b := by
  induction l with
  | nil => intro i a b h1; simp at h1
  | cons x t ih =>
    intro i a b h1 h2
    cases i with
    | zero =>
      cases t with
      | nil => simp at h2
      | cons y u =>
        simp at h1 h2
        subst h1 h2
        cases h; assumption
    | succ i =>
      exact ih (by cases h; exact .nil; assumption) i a b (by simpa using h1) (by simpa using h2)

theorem sampleRun0_ltr : LtrRun sampleRun0 := by
  refine ⟨rfl, ?_, ?_, ?_, by decide, pairs_mono ?_⟩
  · intro i g h h1 h2
    have := getElem?_lt h2
    simp [sampleRun0] at this
    rcases i with _ | _ | i
    · simp [sampleRun0] at h1 h2; subst h1 h2; decide
    · simp [sampleRun0] at h1 h2; subst h1 h2; decide
    · omega
  · intro g hg; simp [sampleRun0] at hg; subst hg; rfl
  · intro h; simp [sampleRun0] at h
  · simp [RunSpec.xs, sampleRun0]; norm_num

theorem sampleRun1_rtl : RtlRun sampleRun1 := by
  refine ⟨rfl, ?_, ?_, ?_, by decide, pairs_mono ?_⟩
  · intro i g h h1 h2
    have := getElem?_lt h2
    simp [sampleRun1] at this
    have : i = 0 := by omega
    subst this
    simp [sampleRun1] at h1 h2; subst h1 h2; decide
  · intro g hg; simp [sampleRun1] at hg; subst hg; rfl
  · intro h; simp [sampleRun1] at h
  · simp [RunSpec.xs, sampleRun1]; norm_num

example : (execLayout {} sampleRuns).map (fun L =>
    ([0, 1, 2, 3, 4].map (L.glyphOffset 0), [4, 5, 6, 7].map (L.glyphOffset 1))) =
    some ([some 0, some 5, some 8, some 11, some 15], [some 24, some 21, some 18, some 15]) := by decide +kernel

/-- C24 is false for clusters of several glyphs: two glyphs (a base at 0 and a
mark at 10) of the two characters 0 and 1; the middle of the cluster is drawn at
15, not at 10.  Only the last glyph is divided. -/
theorem C24_cluster_violated : ∃ L : Layout Nat,
    execLayout {} [.run 0 [⟨40, 0, 0, 0⟩, ⟨41, 0, 10, 0⟩] 20 0 0 2 false, .line 10 8] = some L ∧
    L.glyphOffset 0 0 = some 0 ∧ L.glyphOffset 0 1 = some 15 ∧ L.glyphOffset 0 2 = some 20 := by
  refine ⟨_, rfl, ?_, ?_, ?_⟩ <;> decide +kernel

/-- C24 is false between the two characters of a CR LF separator: the offset is
extrapolated past the end of the run (`nextCharIndex - cursor` wraps around). -/
theorem C24_separator_violated : ∃ L : Layout Nat,
    execLayout {} [.run 0 [⟨40, 0, 0, 0⟩, ⟨41, 1, 10, 0⟩] 20 0 0 2 false, .line 10 8, .setOffset 0 2] = some L ∧
    L.runContaining 3 .default = some (0, 0) ∧ L.glyphOffset 0 3 = some 30 := by
  refine ⟨_, rfl, ?_, ?_⟩ <;> decide +kernel

/-! ### C25 -/

theorem clamp_bounds {s e c : Nat} (h : s ≤ e) : s ≤ max (min c e) s ∧ max (min c e) s ≤ e := by omega

theorem positionRange_ltr {L : Layout φ} {k : Nat} {r : RunSpec φ} (h : RunAt L k r) (hr : r.rtl = false) (a b : Nat) :
    L.positionRange k a b =
      match L.glyphOffset k (max (min a r.charEnd) r.charStart), L.glyphOffset k (max (min b r.charEnd) r.charStart) with
      | some v, some w => some (v, w)
      | _, _ => none := by
  obtain ⟨ls, rs, y, hs, hk⟩ := h.stored
  unfold Layout.positionRange
  rw [hs.runs k r hk]
  simp only [hr, Bool.false_eq_true, if_false]
  cases L.glyphOffset k (max (min a r.charEnd) r.charStart) <;>
    cases L.glyphOffset k (max (min b r.charEnd) r.charStart) <;> rfl

theorem positionRange_rtl {L : Layout φ} {k : Nat} {r : RunSpec φ} (h : RunAt L k r) (hr : r.rtl = true) (a b : Nat) :
    L.positionRange k a b =
      match L.glyphOffset k (max (min a r.charEnd) r.charStart), L.glyphOffset k (max (min b r.charEnd) r.charStart) with
      | some v, some w => some (w, v)
      | _, _ => none := by
  obtain ⟨ls, rs, y, hs, hk⟩ := h.stored
  unfold Layout.positionRange
  rw [hs.runs k r hk]
  simp only [hr, if_true]
  cases L.glyphOffset k (max (min a r.charEnd) r.charStart) <;>
    cases L.glyphOffset k (max (min b r.charEnd) r.charStart) <;> rfl

/-- C25.  The bounds are ordered and inside the run. -/
theorem C25_ordered {L : Layout φ} {k : Nat} {r : RunSpec φ} (h : RunAt L k r) (hr : LtrRun r ∨ RtlRun r)
    (a b : Nat) (hab : a ≤ b) :
    ∃ v w, L.positionRange k a b = some (v, w) ∧ v ≤ w ∧ w ≤ r.endX ∧ ∀ x, r.xs[0]? = some x → x ≤ v := by
  rcases hr with hr | hr
  · have hc := clamp_bounds (c := a) hr.start_end
    have hd := clamp_bounds (c := b) hr.start_end
    obtain ⟨v, w, e1, e2, e3, e4, e5⟩ := C24_ltr_monotone h hr _ _ hc.1
      (show max (min a r.charEnd) r.charStart ≤ max (min b r.charEnd) r.charStart by omega) hd.2
    refine ⟨v, w, ?_, e3, e4, e5⟩
    rw [positionRange_ltr h hr.ltr, e1, e2]
  · have hc := clamp_bounds (c := a) hr.start_end
    have hd := clamp_bounds (c := b) hr.start_end
    obtain ⟨v, w, e1, e2, e3, e4, e5⟩ := C24_rtl_antitone h hr _ _ hc.1
      (show max (min a r.charEnd) r.charStart ≤ max (min b r.charEnd) r.charStart by omega) hd.2
    refine ⟨w, v, ?_, e3, e4, e5⟩
    rw [positionRange_rtl h hr.rtl, e1, e2]

theorem ltr_start {L : Layout φ} {k : Nat} {r : RunSpec φ} (h : RunAt L k r) (hr : LtrRun r) :
    L.glyphOffset k r.charStart = r.xs[0]? := by
  by_cases hn : r.glyphs = []
  · rw [hr.empty hn, (C24_ltr_exact h hr).2]
    simp [RunSpec.xs, hn]
  · have h0 := List.getElem?_eq_getElem (List.length_pos_iff.2 hn)
    rw [← hr.first _ h0, (C24_ltr_exact h hr).1 0 _ h0 (by intro j p hj; omega)]
    rw [xs_get r (Nat.zero_le _), xAt_of h0]

theorem rtl_start {L : Layout φ} {k : Nat} {r : RunSpec φ} (h : RunAt L k r) (hr : RtlRun r) :
    L.glyphOffset k r.charStart = some r.endX := by
  by_cases hn : r.glyphs = []
  · rw [hr.empty hn, (C24_rtl_exact h hr).2]
    simp [RunSpec.xs, hn]
  · have hp := List.length_pos_iff.2 hn
    have h0 := List.getElem?_eq_getElem (show r.glyphs.length - 1 < r.glyphs.length by omega)
    have := hr.last_char hp
    rw [charAt_of h0] at this
    rw [← this, (C24_rtl_exact h hr).1 _ _ h0 (by
      intro j p hj hp'
      have := getElem?_lt hp'
      omega), xs_get r (by omega), show r.glyphs.length - 1 + 1 = r.glyphs.length by omega, xAt_end]

/-- C25.  A range that covers the run gives its full extent. -/
theorem C25_full {L : Layout φ} {k : Nat} {r : RunSpec φ} (h : RunAt L k r) (hr : LtrRun r ∨ RtlRun r)
    (a b : Nat) (ha : a ≤ r.charStart) (hb : r.charEnd ≤ b) :
    ∃ x, r.xs[0]? = some x ∧ L.positionRange k a b = some (x, r.endX) := by
  refine ⟨_, xs_get r (Nat.zero_le _), ?_⟩
  rcases hr with hr | hr
  · have := hr.start_end
    rw [positionRange_ltr h hr.ltr, show max (min a r.charEnd) r.charStart = r.charStart by omega,
      show max (min b r.charEnd) r.charStart = r.charEnd by omega, ltr_start h hr, (C24_ltr_exact h hr).2,
      xs_get r (Nat.zero_le _)]
  · have := hr.start_end
    rw [positionRange_rtl h hr.rtl, show max (min a r.charEnd) r.charStart = r.charStart by omega,
      show max (min b r.charEnd) r.charStart = r.charEnd by omega, rtl_start h hr, (C24_rtl_exact h hr).2,
      xs_get r (Nat.zero_le _)]

/-- C25.  The rectangles of adjacent ranges share an edge and together make the
rectangle of the union. -/
theorem C25_abut {L : Layout φ} {k : Nat} {r : RunSpec φ} (h : RunAt L k r) (hr : LtrRun r ∨ RtlRun r)
    (a b c : Nat) :
    ∃ u v w, (r.rtl = false ∧ L.positionRange k a b = some (u, v) ∧ L.positionRange k b c = some (v, w) ∧
        L.positionRange k a c = some (u, w)) ∨
      (r.rtl = true ∧ L.positionRange k b c = some (u, v) ∧ L.positionRange k a b = some (v, w) ∧
        L.positionRange k a c = some (u, w)) := by
  rcases hr with hr | hr
  · have hx := clamp_bounds (c := a) hr.start_end
    have hy := clamp_bounds (c := b) hr.start_end
    have hz := clamp_bounds (c := c) hr.start_end
    obtain ⟨u, e1, _⟩ := ltr_offset h hr hx.1 hx.2
    obtain ⟨v, e2, _⟩ := ltr_offset h hr hy.1 hy.2
    obtain ⟨w, e3, _⟩ := ltr_offset h hr hz.1 hz.2
    refine ⟨u, v, w, .inl ⟨hr.ltr, ?_, ?_, ?_⟩⟩ <;> simp only [positionRange_ltr h hr.ltr, e1, e2, e3]
  · have hx := clamp_bounds (c := a) hr.start_end
    have hy := clamp_bounds (c := b) hr.start_end
    have hz := clamp_bounds (c := c) hr.start_end
    obtain ⟨u, e1, _⟩ := rtl_offset h hr hx.1 hx.2
    obtain ⟨v, e2, _⟩ := rtl_offset h hr hy.1 hy.2
    obtain ⟨w, e3, _⟩ := rtl_offset h hr hz.1 hz.2
    refine ⟨w, v, u, .inr ⟨hr.rtl, ?_, ?_, ?_⟩⟩ <;> simp only [positionRange_rtl h hr.rtl, e1, e2, e3]

/-- C25.  Widths of adjacent ranges add up. -/
theorem C25_widths {L : Layout φ} {k : Nat} {r : RunSpec φ} (h : RunAt L k r) (hr : LtrRun r ∨ RtlRun r)
    (a b c : Nat) (p q s : Rat × Rat) (h1 : L.positionRange k a b = some p) (h2 : L.positionRange k b c = some q)
    (h3 : L.positionRange k a c = some s) : (p.2 - p.1) + (q.2 - q.1) = s.2 - s.1 := by
  obtain ⟨u, v, w, ⟨_, e1, e2, e3⟩ | ⟨_, e1, e2, e3⟩⟩ := C25_abut h hr a b c
  · rw [h1] at e1; rw [h2] at e2; rw [h3] at e3
    cases e1; cases e2; cases e3
    ring
  · rw [h2] at e1; rw [h1] at e2; rw [h3] at e3
    cases e1; cases e2; cases e3
    ring

/-- C25.  `run_contains_char_range` holds exactly if the range has a character of
the run. -/
theorem C25_contains {L : Layout φ} {k : Nat} {r : RunSpec φ} (h : RunAt L k r) (a b : Nat) (hab : a < b)
    (hne : r.charStart < r.charEnd) :
    ∃ t, L.runContainsCharRange k a b = some t ∧
      (t = true ↔ ∃ c, a ≤ c ∧ c < b ∧ r.charStart ≤ c ∧ c < r.charEnd) := by
  obtain ⟨ls, rs, y, hs, hk⟩ := h.stored
  unfold Layout.runContainsCharRange
  rw [hs.runs k r hk]
  refine ⟨_, rfl, ?_⟩
  simp only [Bool.and_eq_true, decide_eq_true_eq]
  constructor
  · rintro ⟨h1, h2⟩
    exact ⟨max a r.charStart, by omega⟩
  · rintro ⟨c, h1, h2, h3, h4⟩
    omega

example : (execLayout {} sampleRuns).map (fun L =>
    (L.positionRange 0 1 2, L.positionRange 0 2 9, L.positionRange 1 0 5, L.positionRange 1 5 7)) =
    some (some (5, 8), some (8, 15), some (21, 24), some (15, 21)) := by decide +kernel

/-! ### C59: the caret -/

/-- C59.  The caret is drawn at the start of the line of the run that was found
plus the offset of the cursor in that run, from the top of the line, with the
height of the line. -/
theorem C59_caret {L : Layout φ} {ls : List (LineSpec φ)} {y : Rat} (h : Stores L ls [] y)
    (hne : ∀ l ∈ ls, l.runs ≠ []) (hls : ls ≠ []) (W : Rat) (al : XAlignment) (c : Nat) (a : Affinity) :
    ∃ k m l, L.runContaining c a = some (k, m) ∧ ls[m]? = some l ∧ RunOfLine ls k m ∧
      ∀ v, L.glyphOffset k c = some v →
        ∃ i, L.cursorPixelPos W al c a = some i ∧ i.x = alignedX W l.width al + v ∧
          i.y = y + ((ls.take m).map (·.height)).sum ∧ i.height = l.height ∧ i.line = m := by
  obtain ⟨k, m, e1, e2, e3⟩ := C22_line_number h hne hls c a
  obtain ⟨l, j, e4, e5, e6⟩ := id e3
  refine ⟨k, m, l, e1, e4, e3, ?_⟩
  intro v hv
  unfold Layout.cursorPixelPos
  rw [e1]
  simp only
  rw [lineXStart_eq h e4, hv, h.lines m l e4]
  simp only
  by_cases hm : m = 0
  · subst hm
    rw [if_pos rfl]
    refine ⟨_, rfl, rfl, ?_, ?_, rfl⟩
    · simp [h.startY]
    · simp only [totalHeight_take_succ e4]
      simp [totalHeight]
  · have hlt := getElem?_lt e4
    have hp := List.getElem?_eq_getElem (show m - 1 < ls.length by omega)
    rw [if_neg hm, h.lines (m - 1) _ hp]
    simp only
    refine ⟨_, rfl, rfl, ?_, ?_, rfl⟩
    · rw [show m - 1 + 1 = m by omega, h.startY]; rfl
    · rw [show m - 1 + 1 = m by omega, totalHeight_take_succ e4]
      ring

example : (execLayout {} sampleRuns).bind (fun L => L.cursorPixelPos 30 .right 5 .default) =
    some ⟨27, 0, 10, 0⟩ := by decide +kernel

end RichText
