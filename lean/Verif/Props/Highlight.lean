import Verif.Props.Rendered
/-!
C142: what is highlighted is what Copy copies.
-/
namespace RichText
open Spec

section
variable {φ : Type}

/-- A place between two clusters of the glyphs of a run, or outside of the run. -/
def BetweenClusters (r : RunSpec φ) (c : Nat) : Prop :=
  c ≤ r.charStart ∨ r.charEnd ≤ c ∨ ∃ g ∈ r.glyphs, g.char = c

/-- The offset of a place where a cluster begins divides the clusters. -/
theorem IsOffset.divides {c : Nat → Nat} {x : Nat → Rat} {n q : Nat} {v : Rat} (hx : ∀ i, i < n → x i ≤ x (i + 1))
    (hc : ∀ i j, i ≤ j → j ≤ n → c i ≤ c j) (h : IsOffset c x n q v) {k : Nat} (hk : k ≤ n) (hq : c k = q) {i : Nat} (hi : i < n) :
    (c i < q → x (i + 1) ≤ v) ∧ (q ≤ c i → v ≤ x i) := by
  obtain ⟨j, a1, a2, a3, rfl⟩ := h
  have hjk : j ≤ k := by
    by_contra hn
    have := a3 k (by omega)
    omega
  have hj : c j = q := by
    have := hc j k hjk hk
    omega
  have he : interp c x j q = x j := by
    rw [← hj]
    refine interp_exact fun h0 => ?_
    rw [hj]
    exact a3 _ (by omega)
  rw [he]
  constructor
  · intro hlt
    refine mono_of_step hx ?_ a1
    by_contra hn
    have := hc j i (by omega) (by omega)
    omega
  · intro hle
    refine mono_of_step hx ?_ (by omega)
    by_contra hn
    have := a3 i (by omega)
    omega

theorem LtrRun.divides {L : Layout φ} {k : Nat} {r : RunSpec φ} (h : RunAt L k r) (hr : LtrRun r) {q : Nat} (hb : BetweenClusters r q) :
    ∃ v, L.glyphOffset k (max (min q r.charEnd) r.charStart) = some v ∧ ∀ i, i < r.glyphs.length →
      (r.charAt i < q → r.xAt (i + 1) ≤ v) ∧ (q ≤ r.charAt i → v ≤ r.xAt i) := by
  have hse := hr.start_end
  have hcl := clamp_bounds (c := q) hse
  obtain ⟨v, e1, e2⟩ := ltr_offset h hr hcl.1 hcl.2
  refine ⟨v, e1, fun i hi => ?_⟩
  have hsort : ∀ i j, i ≤ j → j ≤ r.glyphs.length → r.charAt i ≤ r.charAt j := by
    intro i j hij hj
    by_cases hjn : j < r.glyphs.length
    · exact charAt_sorted hr hij hjn
    · rw [charAt_end r (i := j) (by omega)]
      by_cases hin : i < r.glyphs.length
      · exact Nat.le_of_lt (charAt_below hr.below hin)
      · exact Nat.le_of_eq (charAt_end r (by omega))
  have hstart : ∃ k, k ≤ r.glyphs.length ∧ r.charAt k = r.charStart := by
    by_cases hn : r.glyphs = []
    · exact ⟨0, Nat.zero_le _, by rw [charAt_end r (by simp [hn]), hr.empty hn]⟩
    · have h0 := List.getElem?_eq_getElem (List.length_pos_iff.2 hn)
      exact ⟨0, Nat.zero_le _, by rw [charAt_of h0, hr.first _ h0]⟩
  have hg := List.getElem?_eq_getElem hi
  have hlo := hr.start_le hg
  have hhi := hr.below _ (List.mem_of_getElem? hg)
  rw [← charAt_of hg] at hlo hhi
  have hk : ∃ k, k ≤ r.glyphs.length ∧ r.charAt k = max (min q r.charEnd) r.charStart := by
    rcases hb with hb | hb | ⟨g, hg, rfl⟩
    · obtain ⟨k, k1, k2⟩ := hstart
      exact ⟨k, k1, by omega⟩
    · exact ⟨_, Nat.le_refl _, by rw [charAt_end r (Nat.le_refl _)]; omega⟩
    · obtain ⟨j, hj⟩ := List.mem_iff_getElem?.1 hg
      have := hr.start_le hj
      have := hr.below _ hg
      exact ⟨j, Nat.le_of_lt (getElem?_lt hj), by rw [charAt_of hj]; omega⟩
  obtain ⟨k', k1, k2⟩ := hk
  have hx : ∀ i, i < r.glyphs.length → r.xAt i ≤ r.xAt (i + 1) := fun i hi => xAt_step hr.mono hi
  obtain ⟨d1, d2⟩ := e2.divides hx hsort k1 k2 hi
  exact ⟨fun hlt => d1 (by omega), fun hle => d2 (by omega)⟩

theorem charBack_of {r : RunSpec φ} {i : Nat} (hi : i < r.glyphs.length) : r.charBack (r.glyphs.length - 1 - i) = r.charAt i := by
  unfold RunSpec.charBack
  rw [if_pos (by omega), show r.glyphs.length - 1 - (r.glyphs.length - 1 - i) = i by omega]

theorem RtlRun.divides {L : Layout φ} {k : Nat} {r : RunSpec φ} (h : RunAt L k r) (hr : RtlRun r) {q : Nat} (hb : BetweenClusters r q) :
    ∃ v, L.glyphOffset k (max (min q r.charEnd) r.charStart) = some v ∧ ∀ i, i < r.glyphs.length →
      (r.charAt i < q → v ≤ r.xAt i) ∧ (q ≤ r.charAt i → r.xAt (i + 1) ≤ v) := by
  have hse := hr.start_end
  have hcl := clamp_bounds (c := q) hse
  obtain ⟨v, e1, e2⟩ := rtl_offset h hr hcl.1 hcl.2
  refine ⟨v, e1, fun i hi => ?_⟩
  have hend : r.charBack r.glyphs.length = r.charEnd := by unfold RunSpec.charBack; simp
  have hsort : ∀ i j, i ≤ j → j ≤ r.glyphs.length → r.charBack i ≤ r.charBack j := by
    intro i j hij hj
    unfold RunSpec.charBack
    by_cases hjn : j < r.glyphs.length
    · rw [if_pos hjn, if_pos (by omega)]
      exact charAt_anti hr (by omega) (by omega)
    · rw [if_neg hjn]
      split
      · exact Nat.le_of_lt (charAt_below hr.below (by omega))
      · exact Nat.le_refl _
  have hstart : ∃ k, k ≤ r.glyphs.length ∧ r.charBack k = r.charStart := by
    by_cases hn : r.glyphs = []
    · exact ⟨r.glyphs.length, Nat.le_refl _, by rw [hend, hr.empty hn]⟩
    · have hp := List.length_pos_iff.2 hn
      refine ⟨r.glyphs.length - 1 - (r.glyphs.length - 1), by omega, ?_⟩
      rw [charBack_of (by omega), hr.last_char hp]
  have hg := List.getElem?_eq_getElem hi
  have hlo := hr.start_le hg
  have hhi := hr.below _ (List.mem_of_getElem? hg)
  rw [← charAt_of hg] at hlo hhi
  have hk : ∃ k, k ≤ r.glyphs.length ∧ r.charBack k = max (min q r.charEnd) r.charStart := by
    rcases hb with hb | hb | ⟨g, hg, rfl⟩
    · obtain ⟨k, k1, k2⟩ := hstart
      exact ⟨k, k1, by omega⟩
    · exact ⟨_, Nat.le_refl _, by rw [hend]; omega⟩
    · obtain ⟨j, hj⟩ := List.mem_iff_getElem?.1 hg
      have h1 := hr.start_le hj
      have h2 := hr.below _ hg
      exact ⟨r.glyphs.length - 1 - j, by omega, by rw [charBack_of (getElem?_lt hj), charAt_of hj]; omega⟩
  obtain ⟨k', k1, k2⟩ := hk
  obtain ⟨d1, d2⟩ := e2.neg.divides (xBack_step hr) hsort k1 k2 (i := r.glyphs.length - 1 - i) (by omega)
  rw [charBack_of hi] at d1 d2
  unfold RunSpec.xBack at d1 d2
  rw [show r.glyphs.length - (r.glyphs.length - 1 - i + 1) = i by omega] at d1
  rw [show r.glyphs.length - (r.glyphs.length - 1 - i) = i + 1 by omega] at d2
  refine ⟨fun hlt => ?_, fun hle => ?_⟩
  · have := d1 (by omega); linarith
  · have := d2 (by omega); linarith

/-- C142: between the ends of the selection in a run are exactly the glyphs of the selected characters. -/
theorem C142_run {L : Layout φ} {k : Nat} {r : RunSpec φ} (h : RunAt L k r) (hr : LtrRun r ∨ RtlRun r) {a b : Nat}
    (ha : BetweenClusters r a) (hb : BetweenClusters r b) :
    ∃ u v, L.positionRange k a b = some (u, v) ∧ ∀ i g, r.glyphs[i]? = some g → ∀ x w, r.xs[i]? = some x → r.xs[i + 1]? = some w →
      (a ≤ g.char ∧ g.char < b → u ≤ x ∧ w ≤ v) ∧ (a ≤ b → ¬(a ≤ g.char ∧ g.char < b) → w ≤ u ∨ v ≤ x) := by
  have hx : ∀ i g, r.glyphs[i]? = some g → ∀ x w, r.xs[i]? = some x → r.xs[i + 1]? = some w →
      i < r.glyphs.length ∧ r.charAt i = g.char ∧ r.xAt i = x ∧ r.xAt (i + 1) = w := by
    intro i g hg x w h1 h2
    have hi := getElem?_lt hg
    rw [xs_get r (by omega)] at h1 h2
    exact ⟨hi, charAt_of hg, Option.some.inj h1, Option.some.inj h2⟩
  rcases hr with hr | hr
  · obtain ⟨u, e1, e2⟩ := hr.divides h ha
    obtain ⟨v, f1, f2⟩ := hr.divides h hb
    refine ⟨u, v, by rw [positionRange_ltr h hr.ltr, e1, f1], fun i g hg x w h1 h2 => ?_⟩
    obtain ⟨hi, hc, rfl, rfl⟩ := hx i g hg x w h1 h2
    have e3 := e2 i hi
    have f3 := f2 i hi
    rw [hc] at e3 f3
    refine ⟨fun hin => ⟨e3.2 hin.1, f3.1 hin.2⟩, fun hab hout => ?_⟩
    by_cases hlt : g.char < a
    · exact .inl (e3.1 hlt)
    · exact .inr (f3.2 (by omega))
  · obtain ⟨u, e1, e2⟩ := hr.divides h ha
    obtain ⟨v, f1, f2⟩ := hr.divides h hb
    refine ⟨v, u, by rw [positionRange_rtl h hr.rtl, e1, f1], fun i g hg x w h1 h2 => ?_⟩
    obtain ⟨hi, hc, rfl, rfl⟩ := hx i g hg x w h1 h2
    have e3 := e2 i hi
    have f3 := f2 i hi
    rw [hc] at e3 f3
    refine ⟨fun hin => ⟨f3.1 hin.2, e3.2 hin.1⟩, fun hab hout => ?_⟩
    by_cases hlt : g.char < a
    · exact .inr (e3.1 hlt)
    · exact .inl (f3.2 (by omega))

/-- A glyph is highlighted: it lies on one of the rectangles. -/
def OnHighlight {κ : Type} (rects : List (Quad κ)) (left right : Rat) : Prop := ∃ q ∈ rects, q.x ≤ left ∧ right ≤ q.x + q.width

/-- A glyph is not highlighted: it lies beside all the rectangles. -/
def OffHighlight {κ : Type} (rects : List (Quad κ)) (left right : Rat) : Prop := ∀ q ∈ rects, right ≤ q.x ∨ q.x + q.width ≤ left

/-- C142: the rectangles behind the selected part of a text, run by run: the glyphs of selected characters lie on them, all others beside
them. -/
theorem C142_highlight {κ : Type} {L : Layout φ} {ls : List (LineSpec φ)} {y : Rat} (h : Stores L ls [] y) (ho : RunsOk L ls)
    (blue : κ) (posX posY W : Rat) (al : XAlignment) {a b : Nat} (hab : a ≤ b)
    (hbc : ∀ r ∈ allRuns ls, BetweenClusters r a ∧ BetweenClusters r b) :
    ∃ back : List (List (Quad κ)), highlights L blue posX posY W al (some (a, b)) = some back.flatten ∧
      back.length = (placedRuns W al y ls).length ∧
      ∀ (k : Nat) (x base : Rat) (r : RunSpec φ), (placedRuns W al y ls)[k]? = some (x, base, r) →
        ∃ rects, back[k]? = some rects ∧ ∀ i g left right, r.glyphs[i]? = some g → r.xs[i]? = some left → r.xs[i + 1]? = some right →
          (a ≤ g.char ∧ g.char < b → OnHighlight rects (posX + x + left) (posX + x + right)) ∧
          (¬(a ≤ g.char ∧ g.char < b) → OffHighlight rects (posX + x + left) (posX + x + right)) := by
  obtain ⟨back, b1, b2, b3⟩ := C98_highlight h ho blue posX posY W al hab
  refine ⟨back, b1, b2, fun k x base r hp => ?_⟩
  obtain ⟨m, l, u, v, -, -, q3, q4, q5⟩ := b3 k x base r hp
  have hk := placed_run hp
  have hm := List.mem_of_getElem? hk
  have hat : RunAt L k r := ⟨⟨ls, [], y, h, by rw [List.append_nil]; exact hk⟩, ho.size, (ho.runs r hm).2⟩
  obtain ⟨u', v', e1, e2⟩ := C142_run hat (ho.runs r hm).1 (hbc r hm).1 (hbc r hm).2
  rw [q3] at e1
  cases e1
  refine ⟨_, q5, fun i g left right hg h1 h2 => ?_⟩
  obtain ⟨e3, e4⟩ := e2 i g hg left right h1 h2
  have hrange : r.charStart ≤ g.char ∧ g.char < r.charEnd := by
    rcases (ho.runs r hm).1 with hr | hr
    · exact ⟨hr.start_le hg, hr.below _ (List.mem_of_getElem? hg)⟩
    · exact ⟨hr.start_le hg, hr.below _ (List.mem_of_getElem? hg)⟩
  constructor
  · intro hin
    obtain ⟨f1, f2⟩ := e3 hin
    have ht : Touches a b r := ⟨by omega, by omega⟩
    refine ⟨_, by rw [if_pos ht]; exact List.mem_singleton_self _, ?_, ?_⟩ <;> simp only [backQuad] <;> linarith
  · intro hout q hq
    split at hq
    · rw [List.mem_singleton] at hq
      subst hq
      simp only [backQuad]
      rcases e4 hab hout with f1 | f1
      · left; linarith
      · right; linarith
    · cases hq

theorem LaidOut.runsOk {L : Layout φ} {n : Nat} (h : LaidOut L n) (hn : n < 4294967296) : ∃ ls y, Stores L ls [] y ∧ RunsOk L ls := by
  obtain ⟨ls, y, h1, -, -, h4, h5⟩ := h
  refine ⟨ls, y, h1, h4, fun r hr => ?_⟩
  obtain ⟨l, hl, hrl⟩ := List.mem_flatMap.1 hr
  have := (h5 l hl).2 r hrl
  exact ⟨(h5 l hl).1.runs r hrl, by omega⟩

end

namespace App
variable {F β φ : Type}

theorem Shows.laidOut {a : App F β φ} {k : Nat} (h : a.Contract k) {f : FormattingRuns F} {s : TextBox φ} (hs : a.Shows f s)
    (hlen : s.text.length < a.limit) (hne : s.ctrl ≠ []) : LaidOut s.layout s.ctrl.length := by
  have hsh : a.shownAs s.showsRich s.text = (s.ctrl, f) := by
    unfold App.shownAs
    rw [hs.content]
  obtain ⟨h1, h2⟩ := h.built s.showsRich (t := s.text) (by rw [hsh]; exact hne) hlen {}
  rw [hsh] at h1 h2
  have := hs.layout hne
  rw [h1] at this
  rw [← Option.some.inj this]
  exact h2

/-- C142: in a box that shows its text as it is, with a selection whose ends are not inside of clusters, the glyphs of the characters that
Copy copies lie on the highlight, all others beside it. -/
theorem C142_copied (a : App F β φ) {k : Nat} (h : a.Contract k) {f : FormattingRuns F} {s s' : TextBox φ} (hs : a.Shows f s)
    (hplain : s.showsRich = false) (hlen : s.text.length < a.limit) (hne : s.text ≠ []) (hfoc : s.focused = true) {c : Cursor}
    (hsel : s.sel = some c) (hc : c.1 ≠ s.cursor.1) (hcopy : TextBox.handle a.box s .copy = some s') (hnul : 0 ∉ s.text)
    {κ : Type} (blue : κ) (posX posY : Rat) :
    s'.clip = some ((s.text.drop (min c.1 s.cursor.1)).take (max c.1 s.cursor.1 - min c.1 s.cursor.1)) ∧
    ∃ ls y, Stores s.layout ls [] y ∧
      ((∀ r ∈ allRuns ls, BetweenClusters r c.1 ∧ BetweenClusters r s.cursor.1) →
        ∃ back : List (List (Quad κ)),
          highlights s.layout blue posX posY a.width a.align (orderedSelection (s.sel.map (·.1)) s.cursor.1) = some back.flatten ∧
          back.length = (placedRuns a.width a.align y ls).length ∧
          ∀ (k : Nat) (x base : Rat) (r : RunSpec φ), (placedRuns a.width a.align y ls)[k]? = some (x, base, r) →
            ∃ rects, back[k]? = some rects ∧
              ∀ i g left right, r.glyphs[i]? = some g → r.xs[i]? = some left → r.xs[i + 1]? = some right →
                (min c.1 s.cursor.1 ≤ g.char ∧ g.char < max c.1 s.cursor.1 → OnHighlight rects (posX + x + left) (posX + x + right)) ∧
                (¬(min c.1 s.cursor.1 ≤ g.char ∧ g.char < max c.1 s.cursor.1) →
                  OffHighlight rects (posX + x + left) (posX + x + right))) := by
  constructor
  · rw [C53_copy hfoc hsel hc hcopy]
    rw [takeWhile_all]
    intro b hb
    rw [decide_eq_true_iff]
    rintro rfl
    exact hnul (List.mem_of_mem_drop (List.mem_of_mem_take hb))
  · have hct : s.ctrl = s.text := by
      have := hs.content
      rw [hplain] at this
      simp only [App.formatted, Bool.false_eq_true, if_false] at this
      injection this with this
      exact (congrArg Prod.fst this).symm
    obtain ⟨-, l1, -⟩ := h.limit
    obtain ⟨ls, y, e1, e2⟩ := (hs.laidOut h hlen (by rw [hct]; exact hne)).runsOk (by rw [hct]; omega)
    refine ⟨ls, y, e1, fun hbc => ?_⟩
    have hord : orderedSelection (s.sel.map (·.1)) s.cursor.1 = some (min c.1 s.cursor.1, max c.1 s.cursor.1) := by
      rw [hsel]
      simp only [orderedSelection, Option.map_some]
      split
      · rw [Nat.min_eq_right (by omega), Nat.max_eq_left (by omega)]
      · rw [Nat.min_eq_left (by omega), Nat.max_eq_right (by omega)]
    rw [hord]
    refine C142_highlight e1 e2 blue posX posY a.width a.align (by omega) fun r hr => ?_
    rcases Nat.le_total c.1 s.cursor.1 with hle | hle
    · rw [Nat.min_eq_left hle, Nat.max_eq_right hle]; exact hbc r hr
    · rw [Nat.min_eq_right hle, Nat.max_eq_left hle]; exact (hbc r hr).symm

/-- Typing "abcd" and selecting "bc" with the mouse: Copy copies it, and the rectangle is behind its two glyphs. -/
example : ((demoApp.runF { focused := true } [.char 97, .char 98, .char 99, .char 100, .press 1 2 false 0, .move 3 2, .release, .copy] noFormat).map
      fun r => (r.2.text, r.2.sel.map (·.1), r.2.cursor.1, r.2.clip)) = some (b!"abcd", some 1, 3, some b!"bc") ∧
    ((demoApp.runF { focused := true } [.char 97, .char 98, .char 99, .char 100, .press 1 2 false 0, .move 3 2, .release] noFormat).bind
      fun r => (highlights r.2.layout () 0 0 100 .left (orderedSelection (r.2.sel.map (·.1)) r.2.cursor.1)).map fun q =>
        (q.map fun q => (q.x, q.width), r.2.layout.pos)) = some ([(1, 2)], [0, 0, 1, 0, 2, 0, 3, 0, 4, 0]) := by decide +kernel

end App
end RichText
