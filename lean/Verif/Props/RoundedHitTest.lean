import Verif.Proof.RoundedHitTest
import Verif.Props.RoundedQueries
/-!
C95: from a point to a cursor position in `float`.
-/
namespace RichText
variable {φ : Type _}

/-- C95 (partial: grapheme clusters do not reach over the end of a run).  The
search in `float` terminates, without an access out of range, and returns a position of a
run of the line. -/
theorem C95_in_line_partial {L : Layout φ} {ls : List (LineSpec φ)} {y : Rat} (h : Stores L ls [] y)
    (hcl : CrispLayout L) (hne : ∀ l ∈ ls, l.runs ≠ []) (hsize : L.pos.length < 4294967296) (m : Nat) (l : LineSpec φ)
    (hl : ls[m]? = some l) (hp : ProperLine l) {W : Rat} (hW : Crisp W) (al : XAlignment) (follow : Layout.Following) (B : Nat → Prop)
    (hf : FollowsBoundaries follow B) (hB : ∀ r ∈ l.runs, B r.charEnd) (cx : Rat) :
    ∃ p a, L.findClosestR f32Round W al follow m cx = some (p, a) ∧ ∃ r ∈ l.runs, r.charStart ≤ p ∧ p ≤ r.charEnd := by
  obtain ⟨j, c1, c2, c3, c4, c5⟩ := findClosestR_run h hcl hne hsize hl hp hW al follow cx
  by_cases hj : j = l.runs.length
  · obtain ⟨r, e1, e2⟩ := c4 hj
    have hr := List.mem_of_getElem? e1
    refine ⟨_, _, e2, r, hr, ?_⟩
    have : r.charStart ≤ r.charEnd := by
      rcases hp.runs r hr with h | h
      · exact h.start_end
      · exact h.start_end
    split <;> omega
  · have hj' : j < l.runs.length := by omega
    have hr := List.getElem?_eq_getElem hj'
    have hmem := List.mem_of_getElem? hr
    generalize l.runs[j] = r at hr hmem
    have hsucc : (allRuns (ls.take (m + 1))).length = (allRuns (ls.take m)).length + l.runs.length := by
      rw [allRuns_take_succ hl, List.length_append]
    obtain ⟨r', g1, g2⟩ := runOfLine_mem (k := (allRuns (ls.take m)).length + j) hl (by omega) (by omega)
    rw [Nat.add_sub_cancel_left, hr] at g2
    cases g2
    have htot := allRuns_take_le ls (m + 1)
    have hx := c3 r hr
    have hbe := hB r hmem
    rw [c5 hj']
    rcases hp.runs r hmem with hlr | hrr
    · obtain ⟨i, p, a, d1, d2, d3, d4, d5, _⟩ := findInRunR_ltr h hcl.pos hsize (by rw [List.append_nil]; exact g1) hlr
        (hp.size r hmem) (show (allRuns (ls.take m)).length ≤ (allRuns (ls.take m)).length + j by omega)
        (show (allRuns (ls.take m)).length + j < (allRuns (ls.take (m + 1))).length by omega)
        (by rw [List.append_nil]; exact htot) hf hx
      refine ⟨p, a, d4, r, hmem, ?_⟩
      have hse := hlr.start_end
      rcases d5 with ⟨_, rfl⟩ | ⟨h0, _, rfl⟩ | ⟨h0, h1, h2⟩
      · omega
      · have hg := List.getElem?_eq_getElem (show i - 1 < r.glyphs.length by omega)
        have := hlr.start_le hg
        have := hlr.below _ (List.mem_of_getElem? hg)
        rw [charAt_of hg]; omega
      · have hg := List.getElem?_eq_getElem (show i - 1 < r.glyphs.length by omega)
        have e1 := hlr.start_le hg
        have e2 : r.charAt i ≤ r.charEnd := by
          by_cases hn : i = r.glyphs.length
          · rw [charAt_end r (by omega)]
          · exact Nat.le_of_lt (charAt_below hlr.below (by omega))
        have := h2.range hf e2 hbe
        rw [charAt_of hg] at this
        omega
    · obtain ⟨i, p, a, d1, d2, d3, d4, d5⟩ := findInRunR_rtl h hcl.pos hsize (by rw [List.append_nil]; exact g1) hrr
        (hp.size r hmem) (show (allRuns (ls.take m)).length ≤ (allRuns (ls.take m)).length + j by omega)
        (show (allRuns (ls.take m)).length + j < (allRuns (ls.take (m + 1))).length by omega)
        (by rw [List.append_nil]; exact htot) hf hx
      refine ⟨p, a, d4, r, hmem, ?_⟩
      have hse := hrr.start_end
      rcases d5 with ⟨_, rfl⟩ | ⟨h0, _, rfl⟩ | ⟨h0, h1, h2⟩
      · omega
      · have hg := List.getElem?_eq_getElem (show i - 1 < r.glyphs.length by omega)
        have := hrr.start_le hg
        have := hrr.below _ (List.mem_of_getElem? hg)
        rw [charAt_of hg]; omega
      · have hg := List.getElem?_eq_getElem (show i - 1 < r.glyphs.length by omega)
        have e1 := hrr.start_le hg
        have e2 : r.rtlEnd i ≤ r.charEnd := by
          unfold RunSpec.rtlEnd
          split
          · exact Nat.le_refl _
          · exact Nat.le_of_lt (charAt_below hrr.below (by omega))
        have := h2.range hf e2 hbe
        rw [charAt_of hg] at this
        omega

/-- From distances in `float` to exact distances. -/
theorem pick_error {sc ec : Nat} {sp ep t : Rat} (h : sc < ec) (hs : ec ≤ 16777216) (h1 : Crisp sp) (h2 : Crisp ep)
    (ht : |f32Round t| ≤ 32768) {p b : Nat} (hp : sc ≤ p ∧ p ≤ ec) (hb : sc ≤ b ∧ b ≤ ec)
    (hd : |clusterPosR sc ec sp ep p - f32Round t| ≤ |clusterPosR sc ec sp ep b - f32Round t| + 1 / 128) :
    |clusterPos sc ec sp ep p - t| ≤ |clusterPos sc ec sp ep b - t| + 1 / 32 := by
  have e1 := clusterPosR_near h hp.1 hp.2 hs h1 h2
  have e2 := clusterPosR_near h hb.1 hb.2 hs h1 h2
  have e3 : |t| < (2 : Rat) ^ (16 : Int) := lt_of_round 16 (by norm_num) (lt_of_le_of_lt ht (by norm_num))
  have e4 := round_err (x := t) (-8) (by norm_num) (by norm_num at e3 ⊢; exact e3)
  norm_num at e4
  have t1 := abs_sub_le (clusterPos sc ec sp ep p) (clusterPosR sc ec sp ep p) t
  have t2 := abs_sub_le (clusterPosR sc ec sp ep p) (f32Round t) t
  have t3 := abs_sub_le (clusterPosR sc ec sp ep b) (clusterPos sc ec sp ep b) (f32Round t)
  have t4 := abs_sub_le (clusterPos sc ec sp ep b) t (f32Round t)
  rw [abs_sub_comm t] at t4
  rw [abs_sub_comm (clusterPos sc ec sp ep p) (clusterPosR sc ec sp ep p)] at t1
  linarith

/-- C95, left to right: a point that is, as the code sees it, on glyph `i`, the
last glyph of its cluster `[g.char, d)`, selects a grapheme boundary in the
cluster whose exact position is the nearest up to 1/32 pixel.  (The cluster starts
and ends at grapheme boundaries.) -/
theorem C95_ltr_nearest {L : Layout φ} {ls : List (LineSpec φ)} {y : Rat} (h : Stores L ls [] y)
    (hcl : CrispLayout L) (hne : ∀ l ∈ ls, l.runs ≠ []) (hsize : L.pos.length < 4294967296) (m : Nat) (l : LineSpec φ)
    (hl : ls[m]? = some l) (hp : ProperLine l) {W : Rat} (hW : Crisp W) (al : XAlignment) (follow : Layout.Following) (B : Nat → Prop)
    (hf : FollowsBoundaries follow B) (k : Nat) (r : RunSpec φ) (hr : l.runs[k]? = some r) (hlr : LtrRun r)
    (i : Nat) (g : GlyphSpec) (hg : r.glyphs[i]? = some g) (d : Nat) (x : Rat)
    (hnext : (i + 1 = r.glyphs.length ∧ d = r.charEnd ∧ x = r.endX) ∨
      (∃ n, r.glyphs[i + 1]? = some n ∧ d = n.char ∧ x = n.x))
    (hd : g.char < d) (hBs : B g.char) (hBe : B d) (cx : Rat) (hs : r.charEnd ≤ 16777216) (h1 : g.x < f32Round (cx - alignedX W l.width al))
    (h2 : f32Round (cx - alignedX W l.width al) ≤ x) :
    ∃ p a, L.findClosestR f32Round W al follow m cx = some (p, a) ∧ B p ∧ g.char ≤ p ∧ p ≤ d ∧
      ∀ b, B b → g.char ≤ b → b ≤ d →
        |g.x + (x - g.x) * (((p : Rat) - g.char) / ((d : Rat) - g.char)) - (cx - alignedX W l.width al)| ≤
        |g.x + (x - g.x) * (((b : Rat) - g.char) / ((d : Rat) - g.char)) - (cx - alignedX W l.width al)| + 1 / 32 := by
  have hi := getElem?_lt hg
  have hmem := List.mem_of_getElem? hr
  have hdx : r.charAt (i + 1) = d ∧ r.xAt (i + 1) = x := by
    rcases hnext with ⟨e1, rfl, rfl⟩ | ⟨n, e1, rfl, rfl⟩
    · refine ⟨charAt_end r (by omega), ?_⟩
      rw [e1, xAt_end]
    · exact ⟨charAt_of e1, xAt_of e1⟩
  obtain ⟨j, c1, c2, c3, c4, c5⟩ := findClosestR_run h hcl hne hsize hl hp hW al follow cx
  have hjk : j = k := clicked_run hp hr hi (by rw [xAt_of hg]; exact h1) (by rw [hdx.2]; exact h2) c1 c2 c3
  subst hjk
  have hsucc : (allRuns (ls.take (m + 1))).length = (allRuns (ls.take m)).length + l.runs.length := by
    rw [allRuns_take_succ hl, List.length_append]
  have hj' := getElem?_lt hr
  obtain ⟨r', g1, g2⟩ := runOfLine_mem (k := (allRuns (ls.take m)).length + j) hl (by omega) (by omega)
  rw [Nat.add_sub_cancel_left, hr] at g2
  cases g2
  have htot := allRuns_take_le ls (m + 1)
  rw [c5 hj']
  obtain ⟨q, p, a, d1, d2, d3, d4, d5, _⟩ := findInRunR_ltr h hcl.pos hsize (by rw [List.append_nil]; exact g1) hlr
    (hp.size r hmem) (show (allRuns (ls.take m)).length ≤ (allRuns (ls.take m)).length + j by omega)
    (show (allRuns (ls.take m)).length + j < (allRuns (ls.take (m + 1))).length by omega)
    (by rw [List.append_nil]; exact htot) hf (c3 r hr)
  have hm : ∀ a b, a ≤ b → b ≤ r.glyphs.length → r.xAt a ≤ r.xAt b := fun a b hab hb =>
    mono_of_step (x := r.xAt) (fun i hi => xAt_step hlr.mono hi) hab hb
  have hq : q = i + 1 := by
    rcases Nat.lt_trichotomy q (i + 1) with e | e | e
    · have := hm q i (by omega) (by omega)
      rw [xAt_of hg] at this
      linarith
    · exact e
    · have := d2 (i + 1) e
      rw [hdx.2] at this
      linarith
  subst hq
  rw [Nat.add_sub_cancel, hdx.1, hdx.2, charAt_of hg, xAt_of hg] at d5
  rcases d5 with ⟨h0, _⟩ | ⟨_, h0, _⟩ | ⟨_, _, hpick⟩
  · omega
  · omega
  · have hrange := hpick.range hf (Nat.le_refl d) hBe
    have hpx : g.x ≤ x := by linarith
    have hat : RunAt L ((allRuns (ls.take m)).length + j) r :=
      ⟨⟨ls, [], y, h, by rw [List.append_nil]; exact g1⟩, hsize, by have := hp.size r hmem; omega⟩
    have hgx : Crisp g.x := by rw [← xAt_of hg]; exact xAt_crisp hcl.pos hat (by omega)
    have hxx : Crisp x := by rw [← hdx.2]; exact xAt_crisp hcl.pos hat (by omega)
    have hds : d ≤ 16777216 := le_trans (by rw [← hdx.1]; exact charAt_le_end hlr.below _) hs
    have ht : |f32Round (cx - alignedX W l.width al)| ≤ 32768 := by
      have q1 := hgx.2
      have q2 := hxx.2
      rw [abs_le] at *
      constructor <;> linarith
    have hnear := hpick.nearest hf hBs hBe (.inl (fun a b hab => clusterPosR_mono _ _ hgx hxx hpx hab))
    exact ⟨p, a, d4, hnear.1, hrange.1, hrange.2, fun b hb b1 b2 =>
      pick_error hd hds hgx hxx ht hrange ⟨b1, b2⟩ (hnear.2 b hb)⟩

/-- C95, right to left: the same for the first glyph in visual order of a
cluster. -/
theorem C95_rtl_nearest {L : Layout φ} {ls : List (LineSpec φ)} {y : Rat} (h : Stores L ls [] y)
    (hcl : CrispLayout L) (hne : ∀ l ∈ ls, l.runs ≠ []) (hsize : L.pos.length < 4294967296) (m : Nat) (l : LineSpec φ)
    (hl : ls[m]? = some l) (hp : ProperLine l) {W : Rat} (hW : Crisp W) (al : XAlignment) (follow : Layout.Following) (B : Nat → Prop)
    (hf : FollowsBoundaries follow B) (k : Nat) (r : RunSpec φ) (hr : l.runs[k]? = some r) (hrr : RtlRun r)
    (i : Nat) (g : GlyphSpec) (hg : r.glyphs[i]? = some g) (d : Nat) (x : Rat) (hx : r.xs[i + 1]? = some x)
    (hnext : (i = 0 ∧ d = r.charEnd) ∨ (∃ j n, i = j + 1 ∧ r.glyphs[j]? = some n ∧ d = n.char))
    (hd : g.char < d) (hBs : B g.char) (hBe : B d) (cx : Rat) (hs : r.charEnd ≤ 16777216) (h1 : g.x < f32Round (cx - alignedX W l.width al))
    (h2 : f32Round (cx - alignedX W l.width al) ≤ x) :
    ∃ p a, L.findClosestR f32Round W al follow m cx = some (p, a) ∧ B p ∧ g.char ≤ p ∧ p ≤ d ∧
      ∀ b, B b → g.char ≤ b → b ≤ d →
        |x + (g.x - x) * (((p : Rat) - g.char) / ((d : Rat) - g.char)) - (cx - alignedX W l.width al)| ≤
        |x + (g.x - x) * (((b : Rat) - g.char) / ((d : Rat) - g.char)) - (cx - alignedX W l.width al)| + 1 / 32 := by
  have hi := getElem?_lt hg
  have hmem := List.mem_of_getElem? hr
  have hx' : r.xAt (i + 1) = x := by
    rw [xs_get r (by omega)] at hx
    exact Option.some.inj hx
  have hde : r.rtlEnd (i + 1) = d := by
    unfold RunSpec.rtlEnd
    rcases hnext with ⟨rfl, rfl⟩ | ⟨j, n, rfl, e1, rfl⟩
    · simp
    · rw [if_neg (by omega), show j + 1 + 1 - 2 = j by omega, charAt_of e1]
  obtain ⟨j, c1, c2, c3, c4, c5⟩ := findClosestR_run h hcl hne hsize hl hp hW al follow cx
  have hjk : j = k := clicked_run hp hr hi (by rw [xAt_of hg]; exact h1) (by rw [hx']; exact h2) c1 c2 c3
  subst hjk
  have hsucc : (allRuns (ls.take (m + 1))).length = (allRuns (ls.take m)).length + l.runs.length := by
    rw [allRuns_take_succ hl, List.length_append]
  have hj' := getElem?_lt hr
  obtain ⟨r', g1, g2⟩ := runOfLine_mem (k := (allRuns (ls.take m)).length + j) hl (by omega) (by omega)
  rw [Nat.add_sub_cancel_left, hr] at g2
  cases g2
  have htot := allRuns_take_le ls (m + 1)
  rw [c5 hj']
  obtain ⟨q, p, a, d1, d2, d3, d4, d5⟩ := findInRunR_rtl h hcl.pos hsize (by rw [List.append_nil]; exact g1) hrr
    (hp.size r hmem) (show (allRuns (ls.take m)).length ≤ (allRuns (ls.take m)).length + j by omega)
    (show (allRuns (ls.take m)).length + j < (allRuns (ls.take (m + 1))).length by omega)
    (by rw [List.append_nil]; exact htot) hf (c3 r hr)
  have hm : ∀ a b, a ≤ b → b ≤ r.glyphs.length → r.xAt a ≤ r.xAt b := fun a b hab hb =>
    mono_of_step (x := r.xAt) (fun i hi => xAt_step hrr.mono hi) hab hb
  have hq : q = i + 1 := by
    rcases Nat.lt_trichotomy q (i + 1) with e | e | e
    · have := hm q i (by omega) (by omega)
      rw [xAt_of hg] at this
      linarith
    · exact e
    · have := d2 (i + 1) e
      rw [hx'] at this
      linarith
  subst hq
  rw [Nat.add_sub_cancel, hde, hx', charAt_of hg, xAt_of hg] at d5
  rcases d5 with ⟨h0, _⟩ | ⟨_, h0, _⟩ | ⟨_, _, hpick⟩
  · omega
  · omega
  · have hrange := hpick.range hf (Nat.le_refl d) hBe
    have hpx : g.x ≤ x := by linarith
    have hat : RunAt L ((allRuns (ls.take m)).length + j) r :=
      ⟨⟨ls, [], y, h, by rw [List.append_nil]; exact g1⟩, hsize, by have := hp.size r hmem; omega⟩
    have hgx : Crisp g.x := by rw [← xAt_of hg]; exact xAt_crisp hcl.pos hat (by omega)
    have hxx : Crisp x := by rw [← hx']; exact xAt_crisp hcl.pos hat (by omega)
    have hds : d ≤ 16777216 := le_trans (by
      rcases hnext with ⟨_, rfl⟩ | ⟨j, n, _, e1, rfl⟩
      · exact Nat.le_refl _
      · exact Nat.le_of_lt (hrr.below _ (List.mem_of_getElem? e1))) hs
    have ht : |f32Round (cx - alignedX W l.width al)| ≤ 32768 := by
      have q1 := hgx.2
      have q2 := hxx.2
      rw [abs_le] at *
      constructor <;> linarith
    have hnear := hpick.nearest hf hBs hBe (.inr (fun a b hab => clusterPosR_anti _ _ hxx hgx hpx hab))
    exact ⟨p, a, d4, hnear.1, hrange.1, hrange.2, fun b hb b1 b2 =>
      pick_error hd hds hxx hgx ht hrange ⟨b1, b2⟩ (hnear.2 b hb)⟩

/-! ### Cases -/

/-- A ligature of six characters, 7 pixels wide. -/
def sixOps : List (LayoutOp Nat) := [.run 7 [⟨40, 0, 0, 0⟩] 7 0 0 6 false, .line 10 8]

/-- C95: the slack is needed.  At this point the boundary 3 (at 7/2) is nearer
than the boundary 2 (at 7/3), but in `float` 2 is found. -/
theorem C95_nearest_violated : ∃ L : Layout Nat, execLayout {} sixOps = some L ∧
    L.findClosest 100 .left (fun k => if k < 6 then some (k + 1) else none) 0 (12233387 / 4194304) = some (3, .default) ∧
    L.findClosestR f32Round 100 .left (fun k => if k < 6 then some (k + 1) else none) 0 (12233387 / 4194304) =
      some (2, .default) ∧
    |(7 / 2 : Rat) - 12233387 / 4194304| < |7 / 3 - 12233387 / 4194304| := by
  refine ⟨(execLayout {} sixOps).getD {}, ?_, ?_, ?_, ?_⟩
  · decide +kernel
  · decide +kernel
  · decide +kernel
  · rw [abs_of_pos (by norm_num), abs_of_neg (by norm_num)]; norm_num

example : (execLayout {} sampleRuns).map (fun L =>
    [-3, 2, 3, 7, 29/4, 22, 17, 90].map fun x =>
      L.findClosestR f32Round 100 .left (fun k => if k < 7 then some (k + 1) else none) 0 x) =
    some [some (0, .default), some (0, .default), some (1, .default), some (2, .default), some (2, .default),
      some (5, .default), some (6, .default), some (4, .opposite)] := by decide +kernel

/-- The hypotheses are met by the sample line. -/
example : ∃ (L : Layout Nat) (p q : Nat) (a b : Affinity),
    L.findClosestR f32Round 100 .left (fun k => if k < 7 then some (k + 1) else none) 0 7 = some (p, a) ∧ 1 ≤ p ∧ p ≤ 3 ∧
    L.findClosestR f32Round 100 .left (fun k => if k < 7 then some (k + 1) else none) 0 20 = some (q, b) ∧ 4 ≤ q ∧ q ≤ 6 := by
  have h0 : Draft.steps {} sampleRuns = some (⟨[⟨[sampleRun0, sampleRun1], 10, 8⟩], [], 0⟩ : Draft Nat) := rfl
  obtain ⟨L, hL, hs⟩ := C19_stores _ _ h0
  have hlen : L.pos.length < 4294967296 := by
    have := hs.pos_length
    simp [glyphCount, allRuns, sampleRun0, sampleRun1] at this
    omega
  have hW : Crisp 100 := ⟨⟨6400, by norm_num⟩, by norm_num⟩
  have f7 : f32Round 7 = 7 := by decide +kernel
  have f20 : f32Round 20 = 20 := by decide +kernel
  obtain ⟨p, a, e1, _, e2, e3, _⟩ := C95_ltr_nearest hs (sampleRuns_crisp hL) (by simp) hlen 0 _ rfl sampleLine_proper hW .left _ _
    (succ_follows 7 (by omega)) 0 _ rfl sampleRun0_ltr 1 ⟨41, 1, 5, 0⟩ rfl 3 11 (.inr ⟨⟨42, 3, 11, 0⟩, rfl, rfl, rfl⟩)
    (by simp) (by simp) (by simp) 7 (by decide) (by simp [alignedX, f7]; norm_num) (by simp [alignedX, f7]; norm_num)
  obtain ⟨q, b, f1, _, f2, f3, _⟩ := C95_rtl_nearest hs (sampleRuns_crisp hL) (by simp) hlen 0 _ rfl sampleLine_proper hW .left _ _
    (succ_follows 7 (by omega)) 1 _ rfl sampleRun1_rtl 1 ⟨44, 4, 18, 1⟩ rfl 6 24 rfl (.inr ⟨0, ⟨43, 6, 15, 0⟩, rfl, rfl, rfl⟩)
    (by simp) (by simp) (by simp) 20 (by decide) (by simp [alignedX, f20]; norm_num) (by simp [alignedX, f20]; norm_num)
  exact ⟨L, p, q, a, b, e1, e2, e3, f1, f2, f3⟩

end RichText
