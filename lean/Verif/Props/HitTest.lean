import Verif.Proof.HitTest
import Verif.Props.Offsets
/-!
C26: from a point to a cursor position.
-/
namespace RichText
variable {φ : Type _}

/-- A line as the layout builder makes it: proper runs that abut. -/
structure ProperLine (l : LineSpec φ) : Prop where
  /-- each run is a left-to-right or a right-to-left run -/
  runs : ∀ r ∈ l.runs, LtrRun r ∨ RtlRun r
  /-- a run starts where the run before ended -/
  abut : ∀ (i : Nat) (r s : RunSpec φ), l.runs[i]? = some r → l.runs[i + 1]? = some s → s.xs[0]? = some r.endX
  /-- text size -/
  size : ∀ r ∈ l.runs, r.charEnd < 2147483648

theorem ProperLine.first_le_end {l : LineSpec φ} (h : ProperLine l) {r : RunSpec φ} (hr : r ∈ l.runs) :
    r.xAt 0 ≤ r.endX := by
  rw [← xAt_end]
  rcases h.runs r hr with h | h
  · exact mono_of_step (x := r.xAt) (fun i hi => xAt_step h.mono hi) (Nat.zero_le _) (Nat.le_refl _)
  · exact mono_of_step (x := r.xAt) (fun i hi => xAt_step h.mono hi) (Nat.zero_le _) (Nat.le_refl _)

theorem ProperLine.end_mono {l : LineSpec φ} (h : ProperLine l) {i j : Nat} (hij : i ≤ j) {r s : RunSpec φ}
    (hr : l.runs[i]? = some r) (hs : l.runs[j]? = some s) : r.endX ≤ s.endX := by
  induction j generalizing s with
  | zero =>
    have : i = 0 := by omega
    subst this
    rw [hr] at hs; cases hs; exact le_refl _
  | succ j ih =>
    by_cases e : i = j + 1
    · subst e; rw [hr] at hs; cases hs; exact le_refl _
    · have hjl : j < l.runs.length := by have := getElem?_lt hs; omega
      have hp := List.getElem?_eq_getElem hjl
      have h1 := ih (by omega) hp
      have h2 := h.abut j _ s hp hs
      rw [xs_get s (Nat.zero_le _)] at h2
      have h3 := h.first_le_end (List.mem_of_getElem? hs)
      have h4 : s.xAt 0 = l.runs[j].endX := Option.some.inj h2
      linarith

/-- How `find_closest_cursor_position` chooses the run. -/
theorem findClosest_run {L : Layout φ} {ls : List (LineSpec φ)} {y : Rat} (h : Stores L ls [] y)
    (hne : ∀ l ∈ ls, l.runs ≠ []) (hsize : L.pos.length < 4294967296) {m : Nat} {l : LineSpec φ}
    (hl : ls[m]? = some l) (hp : ProperLine l) (W : Rat) (al : XAlignment) (follow : Layout.Following) (cx : Rat) :
    ∃ j, j ≤ l.runs.length ∧
      (∀ i r, i < j → l.runs[i]? = some r → r.endX < cx - alignedX W l.width al) ∧
      (∀ r, l.runs[j]? = some r → cx - alignedX W l.width al ≤ r.endX) ∧
      (j = l.runs.length → ∃ r, l.runs[j - 1]? = some r ∧
        L.findClosest W al follow m cx = some (if r.rtl then r.charStart else r.charEnd, .opposite)) ∧
      (j < l.runs.length → L.findClosest W al follow m cx =
        L.findInRun follow ((allRuns (ls.take m)).length + j) (allRuns (ls.take m)).length
          (allRuns (ls.take (m + 1))).length (cx - alignedX W l.width al)) := by
  have hm := getElem?_lt hl
  generalize hX : cx - alignedX W l.width al = X
  generalize hF : (allRuns (ls.take m)).length = F
  have hsucc : (allRuns (ls.take (m + 1))).length = F + l.runs.length := by
    rw [allRuns_take_succ hl, List.length_append, hF]
  have htot := allRuns_take_le ls (m + 1)
  have hpos := List.length_pos_iff.2 (hne l (List.mem_of_getElem? hl))
  have hget : ∀ i, F ≤ i → i < F + l.runs.length → ∃ r, (allRuns ls)[i]? = some r ∧ l.runs[i - F]? = some r := by
    intro i hi hi2
    have := runOfLine_mem (k := i) hl (by omega) (by omega)
    rwa [hF] at this
  have hcount : (allRuns ls).length < 4294967296 := by
    have := h.pos_length
    simp at this
    omega
  obtain ⟨k, b1, b2, b3, b4, b5⟩ := binarySearch_spec
    (fun i => (L.runs[i]?).bind fun r => (L.pos[2 * (r.glyphEnd + i)]?).map fun p => decide (p < X))
    (fun i => ((l.runs[i - F]?).map fun r => decide (r.endX < X)).getD false) l.runs.length F
    (by
      intro i hi hi2
      obtain ⟨r, g1, g2⟩ := hget i hi hi2
      obtain ⟨f, e1, e2, e3, e4, e5, e6⟩ := h.read (k := i) (r := r) (by rw [List.append_nil]; exact g1)
      have e7 := e5 r.glyphs.length (Nat.le_refl _)
      rw [show 2 * (f + i) + 2 * r.glyphs.length = 2 * (f + r.glyphs.length + i) by omega, xAt_end] at e7
      simp only [e3, Option.bind_some, e7, Option.map_some, g2, Option.getD_some])
    (by
      intro i j hi hij hj hq
      obtain ⟨r, _, g2⟩ := hget i hi (by omega)
      obtain ⟨s, _, g4⟩ := hget j (by omega) hj
      simp only [g2, g4, Option.map_some, Option.getD_some, decide_eq_true_eq] at hq ⊢
      exact lt_of_le_of_lt (hp.end_mono (show i - F ≤ j - F by omega) g2 g4) hq)
  have hu : u32 (((allRuns (ls.take (m + 1))).length : Int) - F) = l.runs.length := by
    rw [u32_sub (by omega) (by omega)]; omega
  have hempty : ¬ L.lines.isEmpty = true := by
    have := h.lineCount
    cases hL : L.lines with
    | nil => rw [hL] at this; simp at this; omega
    | cons _ _ => simp
  have hfirst := firstRunIndex_eq h hm
  rw [hF] at hfirst
  refine ⟨k - F, by omega, ?_, ?_, ?_, ?_⟩
  · intro i r hi hr
    have := b4 (F + i) (by omega) (by omega)
    simpa [hr] using this
  · intro r hr
    have := b5 k (Nat.le_refl _) (by have := getElem?_lt hr; omega)
    simpa [hr] using this
  · intro hk
    obtain ⟨r, g1, g2⟩ := hget (F + l.runs.length - 1) (by omega) (by omega)
    refine ⟨r, by rw [hk]; rwa [show F + l.runs.length - 1 - F = l.runs.length - 1 by omega] at g2, ?_⟩
    unfold Layout.findClosest
    rw [if_neg hempty]
    simp only [lineXStart_eq h hl, hfirst, h.lines m l hl, Option.bind_eq_bind, Option.bind_some, hX, hu, b1]
    rw [if_pos (by omega), hsucc, h.runs _ r (by rw [List.append_nil]; exact g1)]
    rfl
  · intro hk
    unfold Layout.findClosest
    rw [if_neg hempty]
    simp only [lineXStart_eq h hl, hfirst, h.lines m l hl, Option.bind_eq_bind, Option.bind_some, hX, hu, b1]
    rw [if_neg (by omega), show F + (k - F) = k by omega]

/-- C26 is false as stated: a grapheme cluster can reach over the end of a line
(a forced break between its characters).  Line 0 has the characters 0 to 3 as
one ligature of width 8, line 1 the characters 4 and 5; grapheme boundaries are
0, 1 and 6.  A click on line 0 at 15/2 returns position 6, the end of line 1. -/
theorem C26_straddle_violated : ∃ (L : Layout Nat) (ls : List (LineSpec Nat)) (follow : Layout.Following) (B : Nat → Prop),
    Stores L ls [] 0 ∧ FollowsBoundaries follow B ∧
    ls.map (fun l => l.runs.map fun r => (r.charStart, r.charEnd)) = [[(0, 4)], [(4, 6)]] ∧
    (∃ a, L.findClosest 100 .left follow 0 (15 / 2) = some (6, a)) := by
  have h0 : Draft.steps {} [.run 0 [⟨40, 0, 0, 0⟩] 8 0 0 4 false, .line 10 8, .run 0 [⟨41, 4, 0, 0⟩] 4 0 4 6 false, .line 10 8] =
      some (⟨[⟨[⟨0, [⟨40, 0, 0, 0⟩], 8, 0, 0, 4, 0, false⟩], 10, 8⟩, ⟨[⟨0, [⟨41, 4, 0, 0⟩], 4, 0, 4, 6, 0, false⟩], 10, 8⟩],
        [], 0⟩ : Draft Nat) := rfl
  obtain ⟨L, hL, hs⟩ := C19_stores _ _ h0
  refine ⟨L, _, fun k => if k < 1 then some 1 else if k < 6 then some 6 else none, fun b => b = 0 ∨ b = 1 ∨ b = 6, hs,
    ⟨?_, ?_, ?_⟩, rfl, .default, ?_⟩
  · intro k n hk
    split at hk
    · cases hk; exact ⟨by omega, .inr (.inl rfl), fun b hb _ => by omega⟩
    · split at hk
      · cases hk; exact ⟨by omega, .inr (.inr rfl), fun b hb _ => by omega⟩
      · cases hk
  · intro k b hk hb
    split at hk
    · cases hk
    · split at hk
      · cases hk
      · omega
  · intro b hb; omega
  · have e := Option.some.inj hL
    rw [← e]
    decide +kernel

/-- C26 (partial: grapheme clusters do not reach over the end of a run).  The
search terminates, without an access out of range, and returns a position of a
run of the line. -/
theorem C26_in_line_partial {L : Layout φ} {ls : List (LineSpec φ)} {y : Rat} (h : Stores L ls [] y)
    (hne : ∀ l ∈ ls, l.runs ≠ []) (hsize : L.pos.length < 4294967296) (m : Nat) (l : LineSpec φ)
    (hl : ls[m]? = some l) (hp : ProperLine l) (W : Rat) (al : XAlignment) (follow : Layout.Following) (B : Nat → Prop)
    (hf : FollowsBoundaries follow B) (hB : ∀ r ∈ l.runs, B r.charEnd) (cx : Rat) :
    ∃ p a, L.findClosest W al follow m cx = some (p, a) ∧ ∃ r ∈ l.runs, r.charStart ≤ p ∧ p ≤ r.charEnd := by
  obtain ⟨j, c1, c2, c3, c4, c5⟩ := findClosest_run h hne hsize hl hp W al follow cx
  by_cases hj : j = l.runs.length
  · obtain ⟨r, e1, e2⟩ := c4 hj
    have hr := List.mem_of_getElem? e1
    refine ⟨_, _, e2, r, hr, ?_⟩
    have : r.charStart ≤ r.charEnd := by
      rcases hp.runs r hr with h | h
      · exact h.start_end
      · exact h.start_end
    split <;> omega
  · have hj' : j < l.runs.length := by omega
    have hr := List.getElem?_eq_getElem hj'
    have hmem := List.mem_of_getElem? hr
    generalize l.runs[j] = r at hr hmem
    have hsucc : (allRuns (ls.take (m + 1))).length = (allRuns (ls.take m)).length + l.runs.length := by
      rw [allRuns_take_succ hl, List.length_append]
    obtain ⟨r', g1, g2⟩ := runOfLine_mem (k := (allRuns (ls.take m)).length + j) hl (by omega) (by omega)
    rw [Nat.add_sub_cancel_left, hr] at g2
    cases g2
    have htot := allRuns_take_le ls (m + 1)
    have hx := c3 r hr
    have hbe := hB r hmem
    rw [c5 hj']
    rcases hp.runs r hmem with hlr | hrr
    · obtain ⟨i, p, a, d1, d2, d3, d4, d5, _⟩ := findInRun_ltr h hsize (by rw [List.append_nil]; exact g1) hlr
        (hp.size r hmem) (show (allRuns (ls.take m)).length ≤ (allRuns (ls.take m)).length + j by omega)
        (show (allRuns (ls.take m)).length + j < (allRuns (ls.take (m + 1))).length by omega)
        (by rw [List.append_nil]; exact htot) hf hx
      refine ⟨p, a, d4, r, hmem, ?_⟩
      have hse := hlr.start_end
      rcases d5 with ⟨_, rfl⟩ | ⟨h0, _, rfl⟩ | ⟨h0, h1, h2⟩
      · omega
      · have hg := List.getElem?_eq_getElem (show i - 1 < r.glyphs.length by omega)
        have := hlr.start_le hg
        have := hlr.below _ (List.mem_of_getElem? hg)
        rw [charAt_of hg]; omega
      · have hg := List.getElem?_eq_getElem (show i - 1 < r.glyphs.length by omega)
        have e1 := hlr.start_le hg
        have e2 : r.charAt i ≤ r.charEnd := by
          by_cases hn : i = r.glyphs.length
          · rw [charAt_end r (by omega)]
          · exact Nat.le_of_lt (charAt_below hlr.below (by omega))
        have := h2.range hf e2 hbe
        rw [charAt_of hg] at this
        omega
    · obtain ⟨i, p, a, d1, d2, d3, d4, d5⟩ := findInRun_rtl h hsize (by rw [List.append_nil]; exact g1) hrr
        (hp.size r hmem) (show (allRuns (ls.take m)).length ≤ (allRuns (ls.take m)).length + j by omega)
        (show (allRuns (ls.take m)).length + j < (allRuns (ls.take (m + 1))).length by omega)
        (by rw [List.append_nil]; exact htot) hf hx
      refine ⟨p, a, d4, r, hmem, ?_⟩
      have hse := hrr.start_end
      rcases d5 with ⟨_, rfl⟩ | ⟨h0, _, rfl⟩ | ⟨h0, h1, h2⟩
      · omega
      · have hg := List.getElem?_eq_getElem (show i - 1 < r.glyphs.length by omega)
        have := hrr.start_le hg
        have := hrr.below _ (List.mem_of_getElem? hg)
        rw [charAt_of hg]; omega
      · have hg := List.getElem?_eq_getElem (show i - 1 < r.glyphs.length by omega)
        have e1 := hrr.start_le hg
        have e2 : r.rtlEnd i ≤ r.charEnd := by
          unfold RunSpec.rtlEnd
          split
          · exact Nat.le_refl _
          · exact Nat.le_of_lt (charAt_below hrr.below (by omega))
        have := h2.range hf e2 hbe
        rw [charAt_of hg] at this
        omega

/-- Which run a point between the edges of a glyph selects. -/
theorem clicked_run {l : LineSpec φ} (hp : ProperLine l) {j k i : Nat} {r : RunSpec φ} {X : Rat}
    (hr : l.runs[k]? = some r) (hi : i < r.glyphs.length) (h1 : r.xAt i < X) (h2 : X ≤ r.xAt (i + 1))
    (hj : j ≤ l.runs.length) (c2 : ∀ i r, i < j → l.runs[i]? = some r → r.endX < X)
    (c3 : ∀ r, l.runs[j]? = some r → X ≤ r.endX) : j = k := by
  have hk := getElem?_lt hr
  have hmem := List.mem_of_getElem? hr
  have hm : ∀ a b, a ≤ b → b ≤ r.glyphs.length → r.xAt a ≤ r.xAt b := by
    intro a b hab hb
    rcases hp.runs r hmem with h | h
    · exact mono_of_step (x := r.xAt) (fun i hi => xAt_step h.mono hi) hab hb
    · exact mono_of_step (x := r.xAt) (fun i hi => xAt_step h.mono hi) hab hb
  have hend : X ≤ r.endX := by
    have := hm (i + 1) r.glyphs.length (by omega) (Nat.le_refl _)
    rw [xAt_end] at this
    linarith
  have hjk : j ≤ k := by
    by_contra hc
    have := c2 k r (by omega) hr
    linarith
  by_contra hne
  have hs := List.getElem?_eq_getElem (show j < l.runs.length by omega)
  have e1 := c3 _ hs
  -- a run before the clicked one ends at or before the clicked run's start
  have hprev := List.getElem?_eq_getElem (show k - 1 < l.runs.length by omega)
  have e2 := hp.end_mono (show j ≤ k - 1 by omega) hs hprev
  have e3 := hp.abut (k - 1) _ r hprev (by rwa [show k - 1 + 1 = k by omega])
  rw [xs_get r (Nat.zero_le _)] at e3
  have e4 : r.xAt 0 = l.runs[k - 1].endX := Option.some.inj e3
  have e5 := hm 0 i (Nat.zero_le _) (by omega)
  linarith

/-- C26, left to right: a point on glyph `i`, the last glyph of its cluster
`[g.char, d)`, selects the grapheme boundary in the cluster whose position is
nearest.  (The cluster starts and ends at grapheme boundaries.) -/
theorem C26_ltr_nearest {L : Layout φ} {ls : List (LineSpec φ)} {y : Rat} (h : Stores L ls [] y)
    (hne : ∀ l ∈ ls, l.runs ≠ []) (hsize : L.pos.length < 4294967296) (m : Nat) (l : LineSpec φ)
    (hl : ls[m]? = some l) (hp : ProperLine l) (W : Rat) (al : XAlignment) (follow : Layout.Following) (B : Nat → Prop)
    (hf : FollowsBoundaries follow B) (k : Nat) (r : RunSpec φ) (hr : l.runs[k]? = some r) (hlr : LtrRun r)
    (i : Nat) (g : GlyphSpec) (hg : r.glyphs[i]? = some g) (d : Nat) (x : Rat)
    (hnext : (i + 1 = r.glyphs.length ∧ d = r.charEnd ∧ x = r.endX) ∨
      (∃ n, r.glyphs[i + 1]? = some n ∧ d = n.char ∧ x = n.x))
    (hd : g.char < d) (hBs : B g.char) (hBe : B d) (cx : Rat) (h1 : g.x < cx - alignedX W l.width al)
    (h2 : cx - alignedX W l.width al ≤ x) :
    ∃ p a, L.findClosest W al follow m cx = some (p, a) ∧ B p ∧ g.char ≤ p ∧ p ≤ d ∧
      ∀ b, B b → g.char ≤ b → b ≤ d →
        |g.x + (x - g.x) * (((p : Rat) - g.char) / ((d : Rat) - g.char)) - (cx - alignedX W l.width al)| ≤
        |g.x + (x - g.x) * (((b : Rat) - g.char) / ((d : Rat) - g.char)) - (cx - alignedX W l.width al)| := by
  have hi := getElem?_lt hg
  have hmem := List.mem_of_getElem? hr
  have hdx : r.charAt (i + 1) = d ∧ r.xAt (i + 1) = x := by
    rcases hnext with ⟨e1, rfl, rfl⟩ | ⟨n, e1, rfl, rfl⟩
    · refine ⟨charAt_end r (by omega), ?_⟩
      rw [e1, xAt_end]
    · exact ⟨charAt_of e1, xAt_of e1⟩
  obtain ⟨j, c1, c2, c3, c4, c5⟩ := findClosest_run h hne hsize hl hp W al follow cx
  have hjk : j = k := clicked_run hp hr hi (by rw [xAt_of hg]; exact h1) (by rw [hdx.2]; exact h2) c1 c2 c3
  subst hjk
  have hsucc : (allRuns (ls.take (m + 1))).length = (allRuns (ls.take m)).length + l.runs.length := by
    rw [allRuns_take_succ hl, List.length_append]
  have hj' := getElem?_lt hr
  obtain ⟨r', g1, g2⟩ := runOfLine_mem (k := (allRuns (ls.take m)).length + j) hl (by omega) (by omega)
  rw [Nat.add_sub_cancel_left, hr] at g2
  cases g2
  have htot := allRuns_take_le ls (m + 1)
  rw [c5 hj']
  obtain ⟨q, p, a, d1, d2, d3, d4, d5, _⟩ := findInRun_ltr h hsize (by rw [List.append_nil]; exact g1) hlr
    (hp.size r hmem) (show (allRuns (ls.take m)).length ≤ (allRuns (ls.take m)).length + j by omega)
    (show (allRuns (ls.take m)).length + j < (allRuns (ls.take (m + 1))).length by omega)
    (by rw [List.append_nil]; exact htot) hf (c3 r hr)
  have hm : ∀ a b, a ≤ b → b ≤ r.glyphs.length → r.xAt a ≤ r.xAt b := fun a b hab hb =>
    mono_of_step (x := r.xAt) (fun i hi => xAt_step hlr.mono hi) hab hb
  have hq : q = i + 1 := by
    rcases Nat.lt_trichotomy q (i + 1) with e | e | e
    · have := hm q i (by omega) (by omega)
      rw [xAt_of hg] at this
      linarith
    · exact e
    · have := d2 (i + 1) e
      rw [hdx.2] at this
      linarith
  subst hq
  rw [Nat.add_sub_cancel, hdx.1, hdx.2, charAt_of hg, xAt_of hg] at d5
  rcases d5 with ⟨h0, _⟩ | ⟨_, h0, _⟩ | ⟨_, _, hpick⟩
  · omega
  · omega
  · have hrange := hpick.range hf (Nat.le_refl d) hBe
    have hpx : g.x ≤ x := by linarith
    have hnear := hpick.nearest hf hBs hBe (.inl (fun a b hab => clusterPos_mono hd hpx hab))
    exact ⟨p, a, d4, hnear.1, hrange.1, hrange.2, fun b hb _ _ => hnear.2 b hb⟩

/-- C26, right to left: a point on glyph `i`, the first glyph in visual order of
its cluster `[g.char, d)`, selects the nearest grapheme boundary. -/
theorem C26_rtl_nearest {L : Layout φ} {ls : List (LineSpec φ)} {y : Rat} (h : Stores L ls [] y)
    (hne : ∀ l ∈ ls, l.runs ≠ []) (hsize : L.pos.length < 4294967296) (m : Nat) (l : LineSpec φ)
    (hl : ls[m]? = some l) (hp : ProperLine l) (W : Rat) (al : XAlignment) (follow : Layout.Following) (B : Nat → Prop)
    (hf : FollowsBoundaries follow B) (k : Nat) (r : RunSpec φ) (hr : l.runs[k]? = some r) (hrr : RtlRun r)
    (i : Nat) (g : GlyphSpec) (hg : r.glyphs[i]? = some g) (d : Nat) (x : Rat) (hx : r.xs[i + 1]? = some x)
    (hnext : (i = 0 ∧ d = r.charEnd) ∨ (∃ j n, i = j + 1 ∧ r.glyphs[j]? = some n ∧ d = n.char))
    (hd : g.char < d) (hBs : B g.char) (hBe : B d) (cx : Rat) (h1 : g.x < cx - alignedX W l.width al)
    (h2 : cx - alignedX W l.width al ≤ x) :
    ∃ p a, L.findClosest W al follow m cx = some (p, a) ∧ B p ∧ g.char ≤ p ∧ p ≤ d ∧
      ∀ b, B b → g.char ≤ b → b ≤ d →
        |x + (g.x - x) * (((p : Rat) - g.char) / ((d : Rat) - g.char)) - (cx - alignedX W l.width al)| ≤
        |x + (g.x - x) * (((b : Rat) - g.char) / ((d : Rat) - g.char)) - (cx - alignedX W l.width al)| := by
  have hi := getElem?_lt hg
  have hmem := List.mem_of_getElem? hr
  have hx' : r.xAt (i + 1) = x := by
    rw [xs_get r (by omega)] at hx
    exact Option.some.inj hx
  have hde : r.rtlEnd (i + 1) = d := by
    unfold RunSpec.rtlEnd
    rcases hnext with ⟨rfl, rfl⟩ | ⟨j, n, rfl, e1, rfl⟩
    · simp
    · rw [if_neg (by omega), show j + 1 + 1 - 2 = j by omega, charAt_of e1]
  obtain ⟨j, c1, c2, c3, c4, c5⟩ := findClosest_run h hne hsize hl hp W al follow cx
  have hjk : j = k := clicked_run hp hr hi (by rw [xAt_of hg]; exact h1) (by rw [hx']; exact h2) c1 c2 c3
  subst hjk
  have hsucc : (allRuns (ls.take (m + 1))).length = (allRuns (ls.take m)).length + l.runs.length := by
    rw [allRuns_take_succ hl, List.length_append]
  have hj' := getElem?_lt hr
  obtain ⟨r', g1, g2⟩ := runOfLine_mem (k := (allRuns (ls.take m)).length + j) hl (by omega) (by omega)
  rw [Nat.add_sub_cancel_left, hr] at g2
  cases g2
  have htot := allRuns_take_le ls (m + 1)
  rw [c5 hj']
  obtain ⟨q, p, a, d1, d2, d3, d4, d5⟩ := findInRun_rtl h hsize (by rw [List.append_nil]; exact g1) hrr
    (hp.size r hmem) (show (allRuns (ls.take m)).length ≤ (allRuns (ls.take m)).length + j by omega)
    (show (allRuns (ls.take m)).length + j < (allRuns (ls.take (m + 1))).length by omega)
    (by rw [List.append_nil]; exact htot) hf (c3 r hr)
  have hm : ∀ a b, a ≤ b → b ≤ r.glyphs.length → r.xAt a ≤ r.xAt b := fun a b hab hb =>
    mono_of_step (x := r.xAt) (fun i hi => xAt_step hrr.mono hi) hab hb
  have hq : q = i + 1 := by
    rcases Nat.lt_trichotomy q (i + 1) with e | e | e
    · have := hm q i (by omega) (by omega)
      rw [xAt_of hg] at this
      linarith
    · exact e
    · have := d2 (i + 1) e
      rw [hx'] at this
      linarith
  subst hq
  rw [Nat.add_sub_cancel, hde, hx', charAt_of hg, xAt_of hg] at d5
  rcases d5 with ⟨h0, _⟩ | ⟨_, h0, _⟩ | ⟨_, _, hpick⟩
  · omega
  · omega
  · have hrange := hpick.range hf (Nat.le_refl d) hBe
    have hpx : g.x ≤ x := by linarith
    have hnear := hpick.nearest hf hBs hBe (.inr (fun a b hab => clusterPos_anti hd hpx hab))
    exact ⟨p, a, d4, hnear.1, hrange.1, hrange.2, fun b hb _ _ => hnear.2 b hb⟩

/-! ### C60: a click resolves to the clicked line -/

/-- C60 is false as stated: two soft-wrapped right-to-left lines `[0, 6)` and
`[6, 12)`.  A click at the left edge of line 0 gives position 6 with default
affinity, which resolves to line 1. -/
theorem C60_rtl_violated : ∃ (L : Layout Nat) (ls : List (LineSpec Nat)) (follow : Layout.Following),
    Stores L ls [] 0 ∧ FollowsBoundaries follow (fun b => b ≤ 12) ∧
    ls.map (fun l => l.runs.map fun r => (r.charStart, r.charEnd, r.charEndOffset, r.rtl)) =
      [[(0, 6, 0, true)], [(6, 12, 0, true)]] ∧
    L.findClosest 100 .left follow 0 0 = some (6, .default) ∧ L.runContaining 6 .default = some (1, 1) := by
  have h0 : Draft.steps {} [.run 0 [⟨1, 3, 0, 0⟩, ⟨2, 0, 5, 0⟩] 9 0 0 6 true, .line 10 8,
      .run 0 [⟨3, 9, 0, 0⟩, ⟨4, 6, 5, 0⟩] 8 0 6 12 true, .line 10 8] =
      some (⟨[⟨[⟨0, [⟨1, 3, 0, 0⟩, ⟨2, 0, 5, 0⟩], 9, 0, 0, 6, 0, true⟩], 10, 8⟩,
        ⟨[⟨0, [⟨3, 9, 0, 0⟩, ⟨4, 6, 5, 0⟩], 8, 0, 6, 12, 0, true⟩], 10, 8⟩], [], 0⟩ : Draft Nat) := rfl
  obtain ⟨L, hL, hs⟩ := C19_stores _ _ h0
  refine ⟨L, _, fun k => if k < 12 then some (k + 1) else none, hs, ⟨?_, ?_, fun b hb => by omega⟩, rfl, ?_⟩
  · intro k m hk
    split at hk
    · cases hk; exact ⟨by omega, by omega, fun b hb _ => by omega⟩
    · cases hk
  · intro k b hk hb
    split at hk
    · cases hk
    · omega
  · have e := Option.some.inj hL
    rw [← e]
    constructor <;> decide +kernel

/-- An earlier run does not claim a position after its end, nor its end with
default affinity. -/
theorem ltr_not_before {ls : List (LineSpec φ)} (ht : LtrText ls) {j k : Nat} {s r : RunSpec φ} (hj : j < k)
    (hs : (allRuns ls)[j]? = some s) (hr : (allRuns ls)[k]? = some r) {c : Nat} {a : Affinity}
    (hc : r.charStart < c ∨ (r.charStart ≤ c ∧ (a = .default ∨ 0 < s.charEndOffset ∨ j + 1 < k ∧
      ∃ q, (allRuns ls)[j + 1]? = some q ∧ q.charStart < q.charEnd + q.charEndOffset))) :
    ∀ d : Decidable (EndsLine ls j), ¬ Claims (allRuns ls) j s (@decide _ d) c a := by
  intro d
  have := Classical.propDecidable (EndsLine ls j)
  have e : @decide _ d = @decide _ this := by congr
  rw [e]
  have e1 := contiguous_le ht.cont ht.le hj hs hr
  have e2 := getElem?_lt hr
  have hcl := ltr_claims ht hs c a
  have e3 : @decide _ this = @decide _ (Classical.propDecidable (EndsLine ls j)) := by congr
  rw [e3, hcl]
  rintro ⟨_, h4 | ⟨h5, h4 | ⟨_, h6, h4⟩⟩⟩
  · omega
  · omega
  · rcases hc with hc | ⟨_, hc | hc | ⟨hc, q, hq, hq2⟩⟩
    · omega
    · rw [hc] at h4; cases h4
    · omega
    · have := contiguous_le ht.cont ht.le hc hq hr
      have := ht.cont j s q hs hq
      omega

/-- The run that the cursor of a click resolves to, in left-to-right text. -/
theorem click_resolves {L : Layout φ} {ls : List (LineSpec φ)} {y : Rat} (h : Stores L ls [] y)
    (hne : ∀ l ∈ ls, l.runs ≠ []) (hsize : L.pos.length < 4294967296) (ht : LtrText ls)
    (hempty : ∀ i r s, (allRuns ls)[i]? = some r → (allRuns ls)[i + 1]? = some s → s.charStart = s.charEnd →
      0 < r.charEndOffset) (m : Nat) (l : LineSpec φ)
    (hl : ls[m]? = some l) (hp : ProperLine l) (W : Rat) (al : XAlignment) (follow : Layout.Following) (B : Nat → Prop)
    (hf : FollowsBoundaries follow B) (hB : ∀ r ∈ l.runs, B r.charEnd) (cx : Rat) :
    ∃ p a k, L.findClosest W al follow m cx = some (p, a) ∧ L.runContaining p a = some (k, m) ∧
      ∃ r, (allRuns ls)[k]? = some r ∧ r.charStart ≤ p ∧ p ≤ r.charEnd := by
  classical
  have hm := getElem?_lt hl
  have hsucc : (allRuns (ls.take (m + 1))).length = (allRuns (ls.take m)).length + l.runs.length := by
    rw [allRuns_take_succ hl, List.length_append]
  have htot := allRuns_take_le ls (m + 1)
  -- runs of the line
  have hget : ∀ i, i < l.runs.length → ∃ r, (allRuns ls)[(allRuns (ls.take m)).length + i]? = some r ∧
      l.runs[i]? = some r := by
    intro i hi
    obtain ⟨r, g1, g2⟩ := runOfLine_mem (k := (allRuns (ls.take m)).length + i) hl (by omega) (by omega)
    rw [Nat.add_sub_cancel_left] at g2
    exact ⟨r, g1, g2⟩
  have hon : ∀ i, i < l.runs.length → OnLine ls ((allRuns (ls.take m)).length + i) m := by
    intro i hi
    exact ⟨by omega, by omega⟩
  -- an empty run is preceded by separators only
  have hbefore : ∀ (k : Nat) (r : RunSpec φ), (allRuns ls)[k]? = some r → r.charStart = r.charEnd → ∀ (j : Nat) (s : RunSpec φ), j < k →
      (allRuns ls)[j]? = some s → ∀ a, ¬ Claims (allRuns ls) j s (decide (EndsLine ls j)) r.charStart a := by
    intro k r hr he j s hj hs a
    refine ltr_not_before ht hj hs hr (.inr ⟨Nat.le_refl _, .inr ?_⟩) _
    by_cases hjk : j + 1 = k
    · exact .inl (hempty j s r hs (by rw [hjk]; exact hr) he)
    · have hlt := getElem?_lt hr
      refine .inr ⟨by omega, _, List.getElem?_eq_getElem (by omega), ?_⟩
      exact ht.pos (j + 1) _ (List.getElem?_eq_getElem (by omega)) (by omega)
  obtain ⟨j, c1, c2, c3, c4, c5⟩ := findClosest_run h hne hsize hl hp W al follow cx
  have hpos := List.length_pos_iff.2 (hne l (List.mem_of_getElem? hl))
  -- the last run of the line ends it
  have hends : ∀ i, i + 1 = l.runs.length → EndsLine ls ((allRuns (ls.take m)).length + i) ∨
      (allRuns (ls.take m)).length + i + 1 = (allRuns ls).length := by
    intro i hi
    by_cases e : (allRuns (ls.take m)).length + i + 1 = (allRuns ls).length
    · exact .inr e
    · exact .inl ⟨by omega, m, hm, by omega⟩
  by_cases hj : j = l.runs.length
  · obtain ⟨r, e1, e2⟩ := c4 hj
    obtain ⟨r', g1, g2⟩ := hget (j - 1) (by omega)
    rw [e1] at g2
    cases g2
    have hrl := ht.ltr r (List.mem_of_getElem? g1)
    rw [hrl] at e2
    have hle := ht.le r (List.mem_of_getElem? g1)
    refine ⟨_, _, _, e2, resolves h hne (hon (j - 1) (by omega)) hm g1 ?_ ?_, r, g1, by simpa using hle, by simp⟩
    · rw [ltr_claims ht g1]
      simp only [Bool.false_eq_true, if_false]
      refine ⟨hle, ?_⟩
      by_cases h0 : r.charEndOffset = 0
      · right
        refine ⟨by omega, ?_⟩
        rcases hends (j - 1) (by omega) with h1 | h1
        · exact .inr ⟨h1, h0, trivial⟩
        · exact .inl h1
      · left; omega
    · intro i s hi hs
      simp only [Bool.false_eq_true, if_false]
      rcases Nat.eq_or_lt_of_le hle with h1 | h1
      · rw [← h1]
        exact hbefore _ r g1 h1 i s hi hs _
      · exact ltr_not_before ht hi hs g1 (.inl h1) _
  · have hj' : j < l.runs.length := by omega
    obtain ⟨r, g1, hr⟩ := hget j hj'
    have hmem := List.mem_of_getElem? hr
    have hrl := ht.ltr r (List.mem_of_getElem? g1)
    have hlr : LtrRun r := by
      rcases hp.runs r hmem with h1 | h1
      · exact h1
      · have := h1.rtl
        rw [hrl] at this
        cases this
    have hbe := hB r hmem
    obtain ⟨i, p, a, d1, d2, d3, d4, d5, d6⟩ := findInRun_ltr h hsize (by rw [List.append_nil]; exact g1) hlr
      (hp.size r hmem) (show (allRuns (ls.take m)).length ≤ (allRuns (ls.take m)).length + j by omega)
      (show (allRuns (ls.take m)).length + j < (allRuns (ls.take (m + 1))).length by omega)
      (by rw [List.append_nil]; exact htot) hf (c3 r hr)
    have haff := d6 (by
      unfold Layout.firstGlyphAffinity
      by_cases hjz : j = 0
      · simp [hjz]
      · have hk := List.getElem?_eq_getElem (show (allRuns (ls.take m)).length + j - 1 < (allRuns ls).length by omega)
        rw [h.runs ((allRuns (ls.take m)).length + j - 1) _ (by rw [List.append_nil]; exact hk)]
        have := ht.ltr _ (List.mem_of_getElem? hk)
        simp [this])
    have hse := hlr.start_end
    have hin : r.charStart ≤ p ∧ p ≤ r.charEnd := by
      rcases d5 with ⟨_, rfl⟩ | ⟨h0, _, rfl⟩ | ⟨h0, h1, h2⟩
      · omega
      · have hg := List.getElem?_eq_getElem (show i - 1 < r.glyphs.length by omega)
        have := hlr.start_le hg
        have := hlr.below _ (List.mem_of_getElem? hg)
        rw [charAt_of hg]; omega
      · have hg := List.getElem?_eq_getElem (show i - 1 < r.glyphs.length by omega)
        have e1 := hlr.start_le hg
        have e2 : r.charAt i ≤ r.charEnd := by
          by_cases hn : i = r.glyphs.length
          · rw [charAt_end r (by omega)]
          · exact Nat.le_of_lt (charAt_below hlr.below (by omega))
        have := h2.range hf e2 hbe
        rw [charAt_of hg] at this
        omega
    rw [c5 hj']
    by_cases hee : r.charStart = r.charEnd
    · -- an empty run
      have hps : p = r.charStart := by omega
      subst hps
      refine ⟨_, a, _, d4, resolves h hne (hon j hj') hm g1 ?_ ?_, r, g1, hin⟩
      · rw [ltr_claims ht g1]
        refine ⟨Nat.le_refl _, ?_⟩
        by_cases e : (allRuns (ls.take m)).length + j + 1 = (allRuns ls).length
        · by_cases h0 : r.charEndOffset = 0
          · exact .inr ⟨by omega, .inl e⟩
          · left; omega
        · left
          exact ht.pos _ r g1 (by omega)
      · intro i s hi hs
        exact hbefore _ r g1 hee i s hi hs a
    · by_cases hpe : p = r.charEnd
      · by_cases hcl : Claims (allRuns ls) ((allRuns (ls.take m)).length + j) r
            (decide (EndsLine ls ((allRuns (ls.take m)).length + j))) p a
        · exact ⟨_, a, _, d4, resolves h hne (hon j hj') hm g1 hcl fun i s hi hs =>
            ltr_not_before ht hi hs g1 (.inl (by omega)) _, r, g1, hin⟩
        · -- the next run of the line
          rw [ltr_claims ht g1] at hcl
          have h0 : r.charEndOffset = 0 := by
            by_contra h0
            exact hcl ⟨by omega, .inl (by omega)⟩
          have hj2 : j + 1 < l.runs.length := by
            by_contra hlast
            refine hcl ⟨by omega, .inr ⟨by omega, ?_⟩⟩
            rcases hends j (by omega) with h1 | h1
            · right
              refine ⟨h1, h0, haff.2 ?_ (by omega) h0 hpe⟩
              rcases d5 with ⟨_, h2⟩ | ⟨h2, _⟩ | ⟨h2, _⟩
              · omega
              · exact h2
              · exact h2
            · exact .inl h1
          obtain ⟨s, f1, f2⟩ := hget (j + 1) hj2
          rw [← Nat.add_assoc] at f1
          have hc := ht.cont _ r s g1 f1
          have hslt : s.charStart < s.charEnd := by
            rcases ht.shared l (List.mem_of_getElem? hl) s (List.mem_of_getElem? f2) with h1 | h1
            · exact h1
            · rw [h1] at hj2; simp at hj2
          refine ⟨_, a, _, d4, resolves h hne (hon (j + 1) hj2) hm f1 ?_ ?_, s, f1, by omega, by omega⟩
          · rw [Nat.add_assoc] at f1
            have := (ltr_claims ht f1 p a).2 ⟨by omega, .inl (by omega)⟩
            rwa [← Nat.add_assoc] at this
          · intro i q hi hq
            by_cases hij : i = (allRuns (ls.take m)).length + j
            · subst hij
              rw [g1] at hq
              cases hq
              rw [ltr_claims ht g1]
              exact hcl
            · exact ltr_not_before ht (show i < (allRuns (ls.take m)).length + j by omega) hq g1 (.inl (by omega)) _
      · have ha : a = .default := haff.1 (.inl hpe)
        refine ⟨_, a, _, d4, resolves h hne (hon j hj') hm g1 ?_ ?_, r, g1, hin⟩
        · rw [ltr_claims ht g1]
          exact ⟨hin.1, .inl (by omega)⟩
        · intro i s hi hs
          exact ltr_not_before ht hi hs g1 (.inr ⟨hin.1, .inl ha⟩) _

/-- C60 (partial: left-to-right text).  The cursor of a click on line `m`
resolves to a run of line `m`. -/
theorem C60_click_resolves_partial {L : Layout φ} {ls : List (LineSpec φ)} {y : Rat} (h : Stores L ls [] y)
    (hne : ∀ l ∈ ls, l.runs ≠ []) (hsize : L.pos.length < 4294967296) (ht : LtrText ls)
    (hempty : ∀ i r s, (allRuns ls)[i]? = some r → (allRuns ls)[i + 1]? = some s → s.charStart = s.charEnd →
      0 < r.charEndOffset) (m : Nat) (l : LineSpec φ)
    (hl : ls[m]? = some l) (hp : ProperLine l) (W : Rat) (al : XAlignment) (follow : Layout.Following) (B : Nat → Prop)
    (hf : FollowsBoundaries follow B) (hB : ∀ r ∈ l.runs, B r.charEnd) (cx : Rat) :
    ∃ p a k, L.findClosest W al follow m cx = some (p, a) ∧ L.runContaining p a = some (k, m) := by
  obtain ⟨p, a, k, e1, e2, _⟩ := click_resolves h hne hsize ht hempty m l hl hp W al follow B hf hB cx
  exact ⟨p, a, k, e1, e2⟩

/-- Example: clicks on the line of `sampleRuns` with every position a boundary. -/
example : (execLayout {} sampleRuns).map (fun L =>
    [-3, 2, 3, 7, 29/4, 22, 17, 90].map fun x =>
      L.findClosest 100 .left (fun k => if k < 7 then some (k + 1) else none) 0 x) =
    some [some (0, .default), some (0, .default), some (1, .default), some (2, .default), some (2, .default),
      some (5, .default), some (6, .default), some (4, .opposite)] := by decide +kernel

theorem succ_follows (n : Nat) (h : n < 2147483648) :
    FollowsBoundaries (fun k => if k < n then some (k + 1) else none) (fun b => b ≤ n) := by
  refine ⟨?_, ?_, fun b hb => by omega⟩
  · intro k m hk
    split at hk
    · cases hk; exact ⟨by omega, by omega, fun b hb _ => by omega⟩
    · cases hk
  · intro k b hk hb
    split at hk
    · cases hk
    · omega

theorem sampleLine_proper : ProperLine (⟨[sampleRun0, sampleRun1], 10, 8⟩ : LineSpec Nat) := by
  refine ⟨?_, ?_, ?_⟩
  · intro r hr
    simp only [List.mem_cons, List.not_mem_nil, or_false] at hr
    rcases hr with rfl | rfl
    · exact .inl sampleRun0_ltr
    · exact .inr sampleRun1_rtl
  · intro i r s h1 h2
    have := getElem?_lt h2
    simp at this
    obtain rfl : i = 0 := by omega
    simp at h1 h2
    subst h1 h2
    simp [RunSpec.xs, sampleRun1, sampleRun0]
  · intro r hr
    simp only [List.mem_cons, List.not_mem_nil, or_false] at hr
    rcases hr with rfl | rfl <;> decide

/-- Example: the hypotheses of `C26_ltr_nearest` and `C26_rtl_nearest` hold for
the ligature of `sampleRuns` and for the last glyph of its second run. -/
example : ∃ (L : Layout Nat) (p q : Nat) (a b : Affinity),
    L.findClosest 100 .left (fun k => if k < 7 then some (k + 1) else none) 0 7 = some (p, a) ∧ 1 ≤ p ∧ p ≤ 3 ∧
    L.findClosest 100 .left (fun k => if k < 7 then some (k + 1) else none) 0 20 = some (q, b) ∧ 4 ≤ q ∧ q ≤ 6 := by
  have h0 : Draft.steps {} sampleRuns = some (⟨[⟨[sampleRun0, sampleRun1], 10, 8⟩], [], 0⟩ : Draft Nat) := rfl
  obtain ⟨L, hL, hs⟩ := C19_stores _ _ h0
  have hlen : L.pos.length < 4294967296 := by
    have := hs.pos_length
    simp [glyphCount, allRuns, sampleRun0, sampleRun1] at this
    omega
  obtain ⟨p, a, e1, _, e2, e3, _⟩ := C26_ltr_nearest hs (by simp) hlen 0 _ rfl sampleLine_proper 100 .left _ _
    (succ_follows 7 (by omega)) 0 _ rfl sampleRun0_ltr 1 ⟨41, 1, 5, 0⟩ rfl 3 11 (.inr ⟨⟨42, 3, 11, 0⟩, rfl, rfl, rfl⟩)
    (by simp) (by simp) (by simp) 7 (by simp [alignedX]; norm_num) (by simp [alignedX]; norm_num)
  obtain ⟨q, b, f1, _, f2, f3, _⟩ := C26_rtl_nearest hs (by simp) hlen 0 _ rfl sampleLine_proper 100 .left _ _
    (succ_follows 7 (by omega)) 1 _ rfl sampleRun1_rtl 1 ⟨44, 4, 18, 1⟩ rfl 6 24 rfl (.inr ⟨0, ⟨43, 6, 15, 0⟩, rfl, rfl, rfl⟩)
    (by simp) (by simp) (by simp) 20 (by simp [alignedX]; norm_num) (by simp [alignedX]; norm_num)
  exact ⟨L, p, q, a, b, e1, e2, e3, f1, f2, f3⟩

/-- Two soft-wrapped lines: `ab` and `c`. -/
def wrapRun0 : RunSpec Nat := ⟨0, [⟨1, 0, 0, 0⟩, ⟨2, 1, 5, 0⟩], 9, 0, 0, 2, 0, false⟩
def wrapRun1 : RunSpec Nat := ⟨0, [⟨3, 2, 0, 0⟩], 4, 0, 2, 3, 0, false⟩
def wrapLines : List (LineSpec Nat) := [⟨[wrapRun0], 10, 8⟩, ⟨[wrapRun1], 10, 8⟩]

/-- The hypotheses of `C60_click_resolves_partial` hold for `wrapLines`. -/
theorem wrapLines_ok : LtrText wrapLines ∧ (∀ l ∈ wrapLines, ProperLine l) ∧
    (∀ i r s, (allRuns wrapLines)[i]? = some r → (allRuns wrapLines)[i + 1]? = some s → s.charStart = s.charEnd →
      0 < r.charEndOffset) := by
  have e : allRuns wrapLines = [wrapRun0, wrapRun1] := rfl
  have two : ∀ {P : RunSpec Nat → RunSpec Nat → Prop}, P wrapRun0 wrapRun1 → ∀ i r s,
      (allRuns wrapLines)[i]? = some r → (allRuns wrapLines)[i + 1]? = some s → P r s := by
    intro P hP i r s h1 h2
    rw [e] at h1 h2
    have := getElem?_lt h2
    simp at this
    obtain rfl : i = 0 := by omega
    simp at h1 h2
    subst h1 h2
    exact hP
  refine ⟨⟨by decide, two rfl, by decide, ?_, two (by decide), by decide⟩, ?_, two (by decide)⟩
  · intro i r h1 h2
    rw [e] at h1 h2
    simp at h2
    obtain rfl : i = 0 := by omega
    simp at h1
    subst h1
    decide
  · intro l hl
    simp only [wrapLines, List.mem_cons, List.not_mem_nil, or_false] at hl
    have ab : ∀ (q : RunSpec Nat) (i : Nat) (r s : RunSpec Nat), [q][i]? = some r → [q][i + 1]? = some s →
        s.xs[0]? = some r.endX := by
      intro q i r s _ h2
      simp at h2
    rcases hl with rfl | rfl
    · refine ⟨?_, ab _, by decide⟩
      intro r hr
      simp only [List.mem_cons, List.not_mem_nil, or_false] at hr
      subst hr
      left
      refine ⟨rfl, ?_, ?_, ?_, by decide, pairs_mono ?_⟩
      · intro i g h h1 h2
        have := getElem?_lt h2
        simp [wrapRun0] at this
        obtain rfl : i = 0 := by omega
        simp [wrapRun0] at h1 h2; subst h1 h2; decide
      · intro g hg; simp [wrapRun0] at hg; subst hg; rfl
      · intro h; simp [wrapRun0] at h
      · simp [RunSpec.xs, wrapRun0]; norm_num
    · refine ⟨?_, ab _, by decide⟩
      intro r hr
      simp only [List.mem_cons, List.not_mem_nil, or_false] at hr
      subst hr
      left
      refine ⟨rfl, ?_, ?_, ?_, by decide, pairs_mono ?_⟩
      · intro i g h h1 h2
        simp [wrapRun1] at h2
      · intro g hg; simp [wrapRun1] at hg; subst hg; rfl
      · intro h; simp [wrapRun1] at h
      · simp [RunSpec.xs, wrapRun1]

/-- Example: a click after `ab` of `wrapLines` gives position 2 on line 0. -/
example : ∃ L : Layout Nat, Stores L wrapLines [] 0 ∧ LtrText wrapLines ∧ (∀ l ∈ wrapLines, ProperLine l) ∧
    (∀ i r s, (allRuns wrapLines)[i]? = some r → (allRuns wrapLines)[i + 1]? = some s → s.charStart = s.charEnd →
      0 < r.charEndOffset) ∧
    L.findClosest 100 .left (fun k => if k < 3 then some (k + 1) else none) 0 8 = some (2, .opposite) ∧
    L.runContaining 2 .opposite = some (0, 0) ∧ L.runContaining 2 .default = some (1, 1) := by
  have h0 : Draft.steps {} [.run 0 [⟨1, 0, 0, 0⟩, ⟨2, 1, 5, 0⟩] 9 0 0 2 false, .line 10 8,
      .run 0 [⟨3, 2, 0, 0⟩] 4 0 2 3 false, .line 10 8] = some (⟨wrapLines, [], 0⟩ : Draft Nat) := rfl
  obtain ⟨L, hL, hs⟩ := C19_stores _ _ h0
  refine ⟨L, hs, wrapLines_ok.1, wrapLines_ok.2.1, wrapLines_ok.2.2, ?_⟩
  have e := Option.some.inj hL
  rw [← e]
  refine ⟨?_, ?_, ?_⟩ <;> decide +kernel

end RichText
