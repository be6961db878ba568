import Verif.Props.HitTest
/-!
C99: a click on the caret leaves the caret where it is.
-/
namespace RichText
variable {φ : Type _}

/-- Left-to-right text with the grapheme boundaries `B`. -/
structure CaretText (L : Layout φ) (ls : List (LineSpec φ)) (B : Nat → Prop) : Prop where
  /-- every line has a run -/
  ne : ∀ l ∈ ls, l.runs ≠ []
  /-- size of the vectors -/
  size : L.pos.length < 4294967296
  /-- directions and positions in the text -/
  ltr : LtrText ls
  /-- an empty run follows a separator -/
  empty : ∀ i r s, (allRuns ls)[i]? = some r → (allRuns ls)[i + 1]? = some s → s.charStart = s.charEnd → 0 < r.charEndOffset
  /-- lines as the layout builder makes them -/
  proper : ∀ l ∈ ls, ProperLine l
  /-- grapheme clusters do not reach over the end of a run -/
  ends : ∀ r ∈ allRuns ls, B r.charEnd
  /-- nor over the start of a glyph's cluster -/
  starts : ∀ r ∈ allRuns ls, ∀ g ∈ r.glyphs, B g.char
  /-- the second glyph of a cluster, and all further ones, have a width -/
  wide : ∀ r ∈ allRuns ls, ∀ (i : Nat) (g n : GlyphSpec) (x x' : Rat), r.glyphs[i]? = some g → r.glyphs[i + 1]? = some n →
    g.char = n.char → r.xs[i + 1]? = some x → r.xs[i + 2]? = some x' → x < x'

theorem IsOffset.unique {c : Nat → Nat} {x : Nat → Rat} {n q : Nat} {v v' : Rat}
    (h : IsOffset c x n q v) (h' : IsOffset c x n q v') : v = v' := by
  obtain ⟨j, a1, a2, a3, rfl⟩ := h'
  exact h.at a2 a3

theorem LtrRun.xmono {r : RunSpec φ} (h : LtrRun r) {a b : Nat} (hab : a ≤ b) (hb : b ≤ r.glyphs.length) : r.xAt a ≤ r.xAt b :=
  mono_of_step (x := r.xAt) (fun i hi => xAt_step h.mono hi) hab hb

/-- The start of a run. -/
theorem LtrRun.offset_start {r : RunSpec φ} (h : LtrRun r) : IsOffset r.charAt r.xAt r.glyphs.length r.charStart (r.xAt 0) := by
  refine ⟨0, Nat.zero_le _, ?_, fun i hi => by omega, rfl⟩
  by_cases hg : r.glyphs = []
  · rw [charAt_end r (by simp [hg]), h.empty hg]
  · have h0 := List.getElem?_eq_getElem (List.length_pos_iff.2 hg)
    rw [charAt_of h0, h.first _ h0]

/-- The end of a run. -/
theorem LtrRun.offset_end {r : RunSpec φ} (h : LtrRun r) : IsOffset r.charAt r.xAt r.glyphs.length r.charEnd r.endX := by
  refine ⟨r.glyphs.length, Nat.le_refl _, by rw [charAt_end r (Nat.le_refl _)], fun i hi => charAt_below h.below hi, ?_⟩
  rw [← xAt_end]
  have := interp_exact (c := r.charAt) (x := r.xAt) (j := r.glyphs.length) (fun h0 => by
    rw [charAt_end r (Nat.le_refl _)]; exact charAt_below h.below (by omega))
  rw [charAt_end r (Nat.le_refl _)] at this
  exact this.symm

/-- A caret in a run that contains its position. -/
theorem caret_run {L : Layout φ} {ls : List (LineSpec φ)} {y : Rat} (h : Stores L ls [] y) (hne : ∀ l ∈ ls, l.runs ≠ [])
    (ht : LtrText ls) {c : Nat} (hin : ∃ r ∈ allRuns ls, r.charStart ≤ c ∧ c ≤ r.charEnd) (a : Affinity) :
    ∃ k m r, L.runContaining c a = some (k, m) ∧ (allRuns ls)[k]? = some r ∧ r.charStart ≤ c ∧ c ≤ r.charEnd ∧
      RunOfLine ls k m := by
  classical
  obtain ⟨q, hq, q1, q2⟩ := hin
  obtain ⟨i, hi⟩ := List.mem_iff_getElem?.1 hq
  have hls : ls ≠ [] := by rintro rfl; simp [allRuns] at hq
  obtain ⟨k, m, e1, _, e3, e4, e5, e6, _⟩ := runContaining_spec h hne hls c a
  have hil := getElem?_lt hi
  rcases e6 with ⟨r, hr, hc⟩ | ⟨_, hno⟩
  · refine ⟨k, m, r, e1, hr, ?_, ?_, (onLine_iff e4).1 e3⟩
    · exact hc.1
    · rw [ltr_claims ht hr] at hc
      have hrl := ht.le r (List.mem_of_getElem? hr)
      rcases Nat.lt_trichotomy k i with hki | hki | hki
      · have := contiguous_le ht.cont ht.le hki hr hi
        omega
      · subst hki
        rw [hr] at hi; cases hi; exact q2
      · have := contiguous_le ht.cont ht.le hki hi hr
        omega
  · exfalso
    have hn := hno i q (Nat.zero_le _) hi
    rw [ltr_claims ht hi] at hn
    have h1 : c = q.charEnd ∧ q.charEndOffset = 0 := by
      by_contra hx
      exact hn ⟨q1, .inl (by omega)⟩
    have h2 : i + 1 ≠ (allRuns ls).length := fun hx => hn ⟨q1, .inr ⟨by omega, .inl hx⟩⟩
    have hs := List.getElem?_eq_getElem (show i + 1 < (allRuns ls).length by omega)
    generalize (allRuns ls)[i + 1] = s at hs
    have hcs := ht.cont i q s hi hs
    have hsl := ht.le s (List.mem_of_getElem? hs)
    have hm := hno (i + 1) s (Nat.zero_le _) hs
    rw [ltr_claims ht hs] at hm
    refine hm ⟨by omega, ?_⟩
    by_cases h3 : s.charStart < s.charEnd + s.charEndOffset
    · exact .inl (by omega)
    · refine .inr ⟨by omega, .inl ?_⟩
      by_contra h4
      exact h3 (ht.pos (i + 1) s hs (by omega))

/-- A run and an earlier one of a line. -/
theorem ProperLine.before {l : LineSpec φ} (h : ProperLine l) {i j : Nat} (hij : i < j) {r s : RunSpec φ}
    (hr : l.runs[i]? = some r) (hs : l.runs[j]? = some s) : r.endX ≤ s.xAt 0 := by
  have hjl := getElem?_lt hs
  have hp := List.getElem?_eq_getElem (show j - 1 < l.runs.length by omega)
  have h1 := h.end_mono (show i ≤ j - 1 by omega) hr hp
  have h2 := h.abut (j - 1) _ s hp (by rwa [show j - 1 + 1 = j by omega])
  rw [xs_get s (Nat.zero_le _)] at h2
  have h4 : s.xAt 0 = l.runs[j - 1].endX := Option.some.inj h2
  linarith

/-- Runs of a left-to-right text are left-to-right runs. -/
theorem CaretText.run {L : Layout φ} {ls : List (LineSpec φ)} {B : Nat → Prop} (hc : CaretText L ls B) {l : LineSpec φ}
    (hl : l ∈ ls) {r : RunSpec φ} (hr : r ∈ l.runs) : r ∈ allRuns ls ∧ LtrRun r := by
  have hm : r ∈ allRuns ls := List.mem_flatMap.2 ⟨l, hl, hr⟩
  refine ⟨hm, ?_⟩
  rcases (hc.proper l hl).runs r hr with h | h
  · exact h
  · have := hc.ltr.ltr r hm
    rw [h.rtl] at this
    cases this

/-- A click at the place of a boundary selects a boundary at that place. -/
theorem click_place {L : Layout φ} {ls : List (LineSpec φ)} {y : Rat} (h : Stores L ls [] y) {B : Nat → Prop}
    (hc : CaretText L ls B) {follow : Layout.Following} (hf : FollowsBoundaries follow B) {m : Nat} {l : LineSpec φ}
    (hl : ls[m]? = some l) (W : Rat) (al : XAlignment) {k : Nat} {r : RunSpec φ} (hr : l.runs[k]? = some r) {c : Nat} (hBc : B c)
    {X : Rat} (hX : IsOffset r.charAt r.xAt r.glyphs.length c X) :
    ∃ (p : Nat) (b : Affinity) (j : Nat) (s : RunSpec φ), L.findClosest W al follow m (alignedX W l.width al + X) = some (p, b) ∧ B p ∧ l.runs[j]? = some s ∧
      s.charStart ≤ p ∧ p ≤ s.charEnd ∧ IsOffset s.charAt s.xAt s.glyphs.length p X := by
  have hlm := List.mem_of_getElem? hl
  have hp := hc.proper l hlm
  obtain ⟨j, c1, c2, c3, c4, c5⟩ := findClosest_run h hc.ne hc.size hl hp W al follow (alignedX W l.width al + X)
  rw [add_sub_cancel_left] at c2 c3 c5
  have hrr := hc.run hlm (List.mem_of_getElem? hr)
  have hbx := IsOffset.bounds (x := r.xAt) (fun i hi => xAt_step hrr.2.mono hi) hX
  rw [xAt_end] at hbx
  have hk := getElem?_lt hr
  have hjk : j ≤ k := by
    by_contra hx
    have := c2 k r (by omega) hr
    linarith
  have hj' : j < l.runs.length := by omega
  have hs := List.getElem?_eq_getElem hj'
  generalize l.runs[j] = s at hs
  have hsm := List.mem_of_getElem? hs
  obtain ⟨hsa, hsl⟩ := hc.run hlm hsm
  have hsucc : (allRuns (ls.take (m + 1))).length = (allRuns (ls.take m)).length + l.runs.length := by
    rw [allRuns_take_succ hl, List.length_append]
  obtain ⟨s', g1, g2⟩ := runOfLine_mem (k := (allRuns (ls.take m)).length + j) hl (by omega) (by omega)
  rw [Nat.add_sub_cancel_left, hs] at g2
  cases g2
  have htot := allRuns_take_le ls (m + 1)
  obtain ⟨i, p, b, d1, d2, d3, d4, d5, _⟩ := findInRun_ltr h hc.size (by rw [List.append_nil]; exact g1) hsl
    (hp.size s hsm) (show (allRuns (ls.take m)).length ≤ (allRuns (ls.take m)).length + j by omega)
    (show (allRuns (ls.take m)).length + j < (allRuns (ls.take (m + 1))).length by omega)
    (by rw [List.append_nil]; exact htot) hf (c3 s hs)
  refine ⟨p, b, j, s, by rw [c5 hj']; exact d4, ?_⟩
  -- where the boundary is
  have hlow : s.xAt 0 ≤ X := by
    rcases Nat.eq_or_lt_of_le hjk with e | e
    · subst e; rw [hr] at hs; cases hs; exact hbx.1
    · have h1 := hp.before e hs hr
      have h2 := hsl.xmono (Nat.zero_le s.glyphs.length) (Nat.le_refl _)
      rw [xAt_end] at h2
      linarith
  have hBi : ∀ i, B (s.charAt i) := by
    intro i
    by_cases hn : i < s.glyphs.length
    · have hg := List.getElem?_eq_getElem hn
      rw [charAt_of hg]
      exact hc.starts s hsa _ (List.mem_of_getElem? hg)
    · rw [charAt_end s (by omega)]
      exact hc.ends s hsa
  have hwide : ∀ i, 0 < i → i < s.glyphs.length → s.charAt (i - 1) = s.charAt i → s.xAt i < s.xAt (i + 1) := by
    intro i h0 hi he
    have e1 := List.getElem?_eq_getElem (show i - 1 < s.glyphs.length by omega)
    have e2 := List.getElem?_eq_getElem hi
    rw [charAt_of e1, charAt_of e2] at he
    exact hc.wide s hsa (i - 1) _ _ _ _ e1 (by rw [show i - 1 + 1 = i by omega]; exact e2) he
      (by rw [show i - 1 + 1 = i by omega]; exact xs_get s (by omega))
      (by rw [show i - 1 + 2 = i + 1 by omega]; exact xs_get s (by omega))
  -- the right edge of the glyph that was found, or a position on the glyph
  have hcase : 0 < i → (s.xAt i = X ∧ s.charAt (i - 1) ≠ s.charAt i) ∨
      (s.charAt (i - 1) < c ∧ c ≤ s.charAt i ∧ X = interp s.charAt s.xAt i c) := by
    intro h0
    have hsame : s.charAt (i - 1) = s.charAt i → i < s.glyphs.length := by
      intro he
      by_contra hn
      have := charAt_below hsl.below (show i - 1 < s.glyphs.length by omega)
      rw [he, charAt_end s (by omega)] at this
      omega
    rcases Nat.eq_or_lt_of_le hjk with e | e
    · subst e
      rw [hr] at hs; cases hs
      obtain ⟨q, a1, a2, a3, a4⟩ := hX
      have hib := interp_bounds (x := r.xAt) (fun i hi => xAt_step hrr.2.mono hi) a1 a2 a3
      rw [← a4] at hib
      have hiq : i ≤ q := by
        by_contra hx
        have := d2 q (by omega)
        linarith
      rcases Nat.eq_or_lt_of_le hiq with e | e
      · subst e
        exact .inr ⟨a3 (i - 1) (by omega), a2, a4⟩
      · have h1 := hsl.xmono (show i ≤ q - 1 by omega) (by omega)
        have h2 : r.xAt i = X := by linarith
        refine .inl ⟨h2, fun he => ?_⟩
        have h3 := hwide i h0 (hsame he) he
        by_cases h4 : i = q - 1
        · have h5 := a3 (q - 1) (by omega)
          rw [show i + 1 = q by omega] at h3
          rw [h4] at h2 h3
          have h6 : (0 : Rat) < (c : Rat) - r.charAt (q - 1) := by
            have : (r.charAt (q - 1) : Rat) < c := by exact_mod_cast h5
            linarith
          have h7 : (0 : Rat) < (r.charAt q : Rat) - r.charAt (q - 1) := by
            have : (c : Rat) ≤ r.charAt q := by exact_mod_cast a2
            linarith
          have h8 : 0 < (r.xAt q - r.xAt (q - 1)) * (((c : Rat) - r.charAt (q - 1)) / ((r.charAt q : Rat) - r.charAt (q - 1))) :=
            mul_pos (by linarith) (div_pos h6 h7)
          unfold interp at a4
          rw [if_neg (by omega)] at a4
          linarith
        · have h5 := hsl.xmono (show i + 1 ≤ q - 1 by omega) (by omega)
          linarith
    · have h1 := hp.before e hs hr
      have h2 := hsl.xmono d1 (Nat.le_refl _)
      rw [xAt_end] at h2
      have h3 : s.xAt i = X := by linarith
      refine .inl ⟨h3, fun he => ?_⟩
      have h4 := hwide i h0 (hsame he) he
      have h5 := hsl.xmono (show i + 1 ≤ s.glyphs.length by have := hsame he; omega) (Nat.le_refl _)
      rw [xAt_end] at h5
      linarith
  rcases d5 with ⟨h0, rfl⟩ | ⟨h0, h1, _⟩ | ⟨h0, h1, h2⟩
  · subst h0
    have h3 : X = s.xAt 0 := by linarith
    refine ⟨?_, hs, Nat.le_refl _, hsl.start_end, by rw [h3]; exact hsl.offset_start⟩
    have h4 := hBi 0
    by_cases hg : s.glyphs = []
    · rw [hsl.empty hg]; exact hc.ends s hsa
    · have h0 := List.getElem?_eq_getElem (List.length_pos_iff.2 hg)
      rwa [charAt_of h0, hsl.first _ h0] at h4
  · exfalso
    rcases hcase h0 with h2 | h2
    · exact h2.2 h1
    · omega
  · have hxi : s.xAt (i - 1) < X := d2 (i - 1) (by omega)
    have hrange := h2.range hf (Nat.le_refl _) (hBi i)
    have hnear := h2.nearest hf (hBi (i - 1)) (hBi i) (.inl fun a b hab => clusterPos_mono h1 (by linarith) hab)
    have hpos : clusterPos (s.charAt (i - 1)) (s.charAt i) (s.xAt (i - 1)) (s.xAt i) p = X := by
      have key : ∃ e, B e ∧ clusterPos (s.charAt (i - 1)) (s.charAt i) (s.xAt (i - 1)) (s.xAt i) e = X := by
        rcases hcase h0 with ⟨h3, _⟩ | ⟨_, _, h3⟩
        · exact ⟨_, hBi i, by rw [clusterPos_end h1, h3]⟩
        · refine ⟨c, hBc, ?_⟩
          rw [h3]
          unfold interp
          rw [if_neg (by omega)]
          rfl
      obtain ⟨e, e1, e2⟩ := key
      have := hnear.2 e e1
      rw [e2, sub_self, abs_zero] at this
      have := abs_eq_zero.1 (le_antisymm this (abs_nonneg _))
      linarith
    have hgt : s.charAt (i - 1) < p := by
      rcases Nat.eq_or_lt_of_le hrange.1 with e | e
      · rw [← e, clusterPos_start] at hpos
        linarith
      · exact e
    have hg := List.getElem?_eq_getElem (show i - 1 < s.glyphs.length by omega)
    have hst := hsl.start_le hg
    rw [← charAt_of hg] at hst
    have hle : s.charAt i ≤ s.charEnd := by
      by_cases hn : i < s.glyphs.length
      · exact Nat.le_of_lt (charAt_below hsl.below hn)
      · rw [charAt_end s (by omega)]
    refine ⟨hnear.1, hs, by omega, by omega, i, d1, hrange.2, ?_, ?_⟩
    · intro q hq
      have := charAt_sorted hsl (show q ≤ i - 1 by omega) (by omega)
      omega
    · rw [← hpos]
      unfold interp
      rw [if_neg (by omega)]
      rfl

/-- Two runs of a line that share a position show it at the same place. -/
theorem shared_place {L : Layout φ} {ls : List (LineSpec φ)} {B : Nat → Prop} (hc : CaretText L ls B) {m : Nat} {l : LineSpec φ}
    (hl : ls[m]? = some l) {i j : Nat} {s t : RunSpec φ} (hs : l.runs[i]? = some s) (ht : l.runs[j]? = some t) {p : Nat}
    (s1 : s.charStart ≤ p) (s2 : p ≤ s.charEnd) (t1 : t.charStart ≤ p) (t2 : p ≤ t.charEnd) {X : Rat}
    (hX : IsOffset s.charAt s.xAt s.glyphs.length p X) : IsOffset t.charAt t.xAt t.glyphs.length p X := by
  have hlm := List.mem_of_getElem? hl
  have hp := hc.proper l hlm
  have hsucc : (allRuns (ls.take (m + 1))).length = (allRuns (ls.take m)).length + l.runs.length := by
    rw [allRuns_take_succ hl, List.length_append]
  have hget : ∀ i r, l.runs[i]? = some r → (allRuns ls)[(allRuns (ls.take m)).length + i]? = some r := by
    intro i r hi
    have := getElem?_lt hi
    obtain ⟨r', g1, g2⟩ := runOfLine_mem (k := (allRuns (ls.take m)).length + i) hl (by omega) (by omega)
    rw [Nat.add_sub_cancel_left, hi] at g2
    cases g2
    exact g1
  -- the earlier one ends where the later one starts
  have key : ∀ (i j : Nat) (s t : RunSpec φ), i < j → l.runs[i]? = some s → l.runs[j]? = some t → p ≤ s.charEnd → t.charStart ≤ p →
      p = s.charEnd ∧ p = t.charStart ∧ t.xAt 0 = s.endX := by
    intro i j s t hij hs ht h1 h2
    have hti := getElem?_lt ht
    have e1 := contiguous_le hc.ltr.cont hc.ltr.le (show (allRuns (ls.take m)).length + i < (allRuns (ls.take m)).length + j by omega)
      (hget i s hs) (hget j t ht)
    have e2 : j = i + 1 := by
      by_contra hx
      have hu := List.getElem?_eq_getElem (show i + 1 < l.runs.length by omega)
      generalize l.runs[i + 1] = u at hu
      have e3 := contiguous_le hc.ltr.cont hc.ltr.le
        (show (allRuns (ls.take m)).length + i < (allRuns (ls.take m)).length + (i + 1) by omega) (hget i s hs) (hget _ u hu)
      have e4 := contiguous_le hc.ltr.cont hc.ltr.le
        (show (allRuns (ls.take m)).length + (i + 1) < (allRuns (ls.take m)).length + j by omega) (hget _ u hu) (hget j t ht)
      rcases hc.ltr.shared l hlm u (List.mem_of_getElem? hu) with h3 | h3
      · omega
      · rw [h3] at hti; simp at hti; omega
    subst e2
    have e3 := hp.abut i s t hs ht
    rw [xs_get t (Nat.zero_le _)] at e3
    exact ⟨by omega, by omega, Option.some.inj e3⟩
  have hsl := (hc.run hlm (List.mem_of_getElem? hs)).2
  have htl := (hc.run hlm (List.mem_of_getElem? ht)).2
  rcases Nat.lt_trichotomy i j with h1 | h1 | h1
  · obtain ⟨e1, e2, e3⟩ := key i j s t h1 hs ht s2 t1
    have := hX.unique (e1 ▸ hsl.offset_end)
    rw [this, ← e3, e2]
    exact htl.offset_start
  · subst h1
    rw [hs] at ht; cases ht; exact hX
  · obtain ⟨e1, e2, e3⟩ := key j i t s h1 ht hs t2 s1
    have := hX.unique (e2 ▸ hsl.offset_start)
    rw [this, e3, e1]
    exact htl.offset_end

/-- C99 (partial: left-to-right text, see `CaretText`).  A click where the caret of a position is drawn selects a position whose
caret is drawn there too. -/
theorem C99_click_on_caret_partial {L : Layout φ} {ls : List (LineSpec φ)} {y : Rat} (h : Stores L ls [] y) {B : Nat → Prop}
    (hc : CaretText L ls B) (W : Rat) (al : XAlignment) (follow : Layout.Following) (hf : FollowsBoundaries follow B)
    (c : Nat) (a : Affinity) (hB : B c) (hin : ∃ r ∈ allRuns ls, r.charStart ≤ c ∧ c ≤ r.charEnd) :
    ∃ i p b, L.cursorPixelPos W al c a = some i ∧ L.findClosest W al follow i.line i.x = some (p, b) ∧ B p ∧
      L.cursorPixelPos W al p b = some i := by
  have hls : ls ≠ [] := by rintro rfl; simp [allRuns] at hin
  have hat : ∀ (k : Nat) (r : RunSpec φ), (allRuns ls)[k]? = some r → RunAt L k r := by
    intro k r hr
    obtain ⟨l, hl, hrl⟩ := List.mem_flatMap.1 (List.mem_of_getElem? hr)
    have := (hc.proper l hl).size r hrl
    exact ⟨⟨ls, [], y, h, by rw [List.append_nil]; exact hr⟩, hc.size, by omega⟩
  have hline : ∀ {k m : Nat} {r : RunSpec φ}, (allRuns ls)[k]? = some r → RunOfLine ls k m → ∃ (l : LineSpec φ) (j : Nat), ls[m]? = some l ∧
      l.runs[j]? = some r ∧ LtrRun r := by
    intro k m r hr ⟨l, j, e1, e2, e3⟩
    have hsucc : (allRuns (ls.take (m + 1))).length = (allRuns (ls.take m)).length + l.runs.length := by
      rw [allRuns_take_succ e1, List.length_append]
    obtain ⟨r', g1, g2⟩ := runOfLine_mem (k := k) e1 (by omega) (by omega)
    rw [hr] at g1; cases g1
    exact ⟨l, _, e1, g2, (hc.run (List.mem_of_getElem? e1) (List.mem_of_getElem? g2)).2⟩
  obtain ⟨k, m, r, e1, e2, e3, e4, e5⟩ := caret_run h hc.ne hc.ltr hin a
  obtain ⟨l, j, f1, f2, f3⟩ := hline e2 e5
  obtain ⟨X, x1, x2⟩ := ltr_offset (hat k r e2) f3 e3 e4
  obtain ⟨k', m', l', g1, g2, _, g4⟩ := C59_caret h hc.ne hls W al c a
  rw [e1] at g1
  cases g1
  rw [f1] at g2
  cases g2
  obtain ⟨i, i1, i2, i3, i4, i5⟩ := g4 X x1
  obtain ⟨p, b, j', s, p1, p2, p3, p4, p5, p6⟩ := click_place h hc hf f1 W al f2 hB x2
  have hBl : ∀ r ∈ l.runs, B r.charEnd := fun r hr => hc.ends r (hc.run (List.mem_of_getElem? f1) hr).1
  obtain ⟨p', b', k', q1, q2, t, q3, q4, q5⟩ := click_resolves h hc.ne hc.size hc.ltr hc.empty m l f1
    (hc.proper l (List.mem_of_getElem? f1)) W al follow B hf hBl (alignedX W l.width al + X)
  rw [p1] at q1
  cases q1
  refine ⟨i, p, b, i1, by rw [i5, i2]; exact p1, p2, ?_⟩
  obtain ⟨k'', m'', l'', o1, o2, o3, o4⟩ := C59_caret h hc.ne hls W al p b
  rw [q2] at o1
  cases o1
  rw [f1] at o2
  cases o2
  obtain ⟨l', j'', u1, u2, u3⟩ := hline q3 o3
  rw [f1] at u1
  cases u1
  have hX := shared_place hc f1 p3 u2 p4 p5 q4 q5 p6
  obtain ⟨X', y1, y2⟩ := ltr_offset (hat k' t q3) u3 q4 q5
  have := y2.unique hX
  subst this
  obtain ⟨i', z1, z2, z3, z4, z5⟩ := o4 X' y1
  rw [z1]
  cases i; cases i'
  simp_all

/-- The value is larger than that of the position before its segment. -/
theorem interp_gt {c : Nat → Nat} {x : Nat → Rat} {j q : Nat} (h0 : 0 < j) (hx : x (j - 1) < x j) (h1 : c (j - 1) < q)
    (h2 : q ≤ c j) : x (j - 1) < interp c x j q := by
  have h6 : (0 : Rat) < (q : Rat) - c (j - 1) := by
    have : (c (j - 1) : Rat) < q := by exact_mod_cast h1
    linarith
  have h7 : (0 : Rat) < (c j : Rat) - c (j - 1) := by
    have : (q : Rat) ≤ c j := by exact_mod_cast h2
    linarith
  have h8 : 0 < (x j - x (j - 1)) * (((q : Rat) - c (j - 1)) / ((c j : Rat) - c (j - 1))) :=
    mul_pos (by linarith) (div_pos h6 h7)
  unfold interp
  rw [if_neg (by omega)]
  linarith

/-- Strictly monotone, if all glyphs have a width. -/
theorem IsOffset.strict {c : Nat → Nat} {x : Nat → Rat} {n q q' : Nat} {v v' : Rat} (hx : ∀ i, i < n → x i < x (i + 1))
    (h : IsOffset c x n q v) (h' : IsOffset c x n q' v') (h0 : c 0 ≤ q) (hq : q < q') : v < v' := by
  have hx' : ∀ i, i < n → x i ≤ x (i + 1) := fun i hi => le_of_lt (hx i hi)
  obtain ⟨j, a1, a2, a3, rfl⟩ := h
  obtain ⟨k, b1, b2, b3, rfl⟩ := h'
  have hjk : j ≤ k := by
    by_contra hc
    have := a3 k (by omega)
    omega
  have hk : 0 < k := by
    by_contra hk
    have : k = 0 := by omega
    subst this
    omega
  by_cases e : j = k
  · subst e
    have h3 := a3 (j - 1) (by omega)
    have h4 : x (j - 1) < x j := by have := hx (j - 1) (by omega); rwa [show j - 1 + 1 = j by omega] at this
    have h5 : (0 : Rat) < (c j : Rat) - c (j - 1) := by
      have : (c (j - 1) : Rat) < c j := by exact_mod_cast (by omega : c (j - 1) < c j)
      linarith
    have h6 : (q : Rat) - c (j - 1) < (q' : Rat) - c (j - 1) := by
      have : (q : Rat) < q' := by exact_mod_cast hq
      linarith
    have h7 := (div_lt_div_iff_of_pos_right h5).2 h6
    have := mul_lt_mul_of_pos_left h7 (show (0 : Rat) < x j - x (j - 1) by linarith)
    unfold interp
    rw [if_neg (by omega), if_neg (by omega)]
    linarith
  · have e1 := (interp_bounds hx' a1 a2 a3).2
    have e2 := interp_gt (c := c) (x := x) (q := q') hk
      (by have := hx (k - 1) (by omega); rwa [show k - 1 + 1 = k by omega] at this) (b3 (k - 1) (by omega)) b2
    have e3 : x j ≤ x (k - 1) := mono_of_step hx' (by omega) (by omega)
    linarith

/-- All glyphs have a width, separators are at the ends of lines. -/
structure WideText (ls : List (LineSpec φ)) : Prop where
  wide : ∀ r ∈ allRuns ls, ∀ (i : Nat) (x x' : Rat), r.xs[i]? = some x → r.xs[i + 1]? = some x' → x < x'
  separators : ∀ l ∈ ls, ∀ (i : Nat) (r s : RunSpec φ), l.runs[i]? = some r → l.runs[i + 1]? = some s → r.charEndOffset = 0

/-- Positions at the same place of a line are the same. -/
theorem same_position {L : Layout φ} {ls : List (LineSpec φ)} {B : Nat → Prop} (hc : CaretText L ls B) (hw : WideText ls) {m : Nat}
    {l : LineSpec φ} (hl : ls[m]? = some l) {i j : Nat} {s t : RunSpec φ} (hij : i ≤ j) (hs : l.runs[i]? = some s)
    (ht : l.runs[j]? = some t) {p q : Nat} (s1 : s.charStart ≤ p) (s2 : p ≤ s.charEnd) (t1 : t.charStart ≤ q) (t2 : q ≤ t.charEnd)
    {X : Rat} (hX : IsOffset s.charAt s.xAt s.glyphs.length p X) (hY : IsOffset t.charAt t.xAt t.glyphs.length q X) : p = q := by
  have hlm := List.mem_of_getElem? hl
  have hp := hc.proper l hlm
  have hrun : ∀ {r : RunSpec φ}, r ∈ l.runs → ∀ i, i < r.glyphs.length → r.xAt i < r.xAt (i + 1) := by
    intro r hr i hi
    exact hw.wide r (hc.run hlm hr).1 i _ _ (xs_get r (by omega)) (xs_get r (by omega))
  have hstart : ∀ {r : RunSpec φ}, r ∈ l.runs → r.charAt 0 = r.charStart := by
    intro r hr
    have hrl := (hc.run hlm hr).2
    by_cases hg : r.glyphs = []
    · rw [charAt_end r (by simp [hg]), hrl.empty hg]
    · have h0 := List.getElem?_eq_getElem (List.length_pos_iff.2 hg)
      rw [charAt_of h0, hrl.first _ h0]
  have hsm := List.mem_of_getElem? hs
  have htm := List.mem_of_getElem? ht
  have hsl := (hc.run hlm hsm).2
  have htl := (hc.run hlm htm).2
  have inj : ∀ {r : RunSpec φ}, r ∈ l.runs → ∀ {a b : Nat}, r.charStart ≤ a → r.charStart ≤ b →
      IsOffset r.charAt r.xAt r.glyphs.length a X → IsOffset r.charAt r.xAt r.glyphs.length b X → a = b := by
    intro r hr a b ha hb h1 h2
    rw [← hstart hr] at ha hb
    rcases Nat.lt_trichotomy a b with e | e | e
    · exact absurd (h1.strict (hrun hr) h2 ha e) (lt_irrefl _)
    · exact e
    · exact absurd (h2.strict (hrun hr) h1 hb e) (lt_irrefl _)
  rcases Nat.eq_or_lt_of_le hij with e | e
  · subst e
    rw [hs] at ht; cases ht
    exact inj hsm s1 t1 hX hY
  · have b1 := (IsOffset.bounds (x := s.xAt) (fun i hi => le_of_lt (hrun hsm i hi)) hX).2
    have b2 := (IsOffset.bounds (x := t.xAt) (fun i hi => le_of_lt (hrun htm i hi)) hY).1
    rw [xAt_end] at b1
    have b3 := hp.before e hs ht
    have hjl := getElem?_lt ht
    have e2 : j = i + 1 := by
      by_contra hx
      have hu := List.getElem?_eq_getElem (show i + 1 < l.runs.length by omega)
      generalize l.runs[i + 1] = u at hu
      have hum := List.mem_of_getElem? hu
      have b4 := hp.before (show i < i + 1 by omega) hs hu
      have b5 := hp.before (show i + 1 < j by omega) hu ht
      have hul := (hc.run hlm hum).2
      rcases hc.ltr.shared l hlm u hum with h3 | h3
      · have hg : 0 < u.glyphs.length := by
          by_contra hg
          have := hul.empty (List.length_eq_zero_iff.1 (by omega))
          omega
        have b6 := hrun hum 0 hg
        have b7 := hul.xmono (show 1 ≤ u.glyphs.length by omega) (Nat.le_refl _)
        rw [xAt_end] at b7
        simp only [Nat.zero_add] at b6
        linarith
      · rw [h3] at hjl; simp at hjl; omega
    subst e2
    have c1 : s.endX = X := by linarith
    have c2 : t.xAt 0 = X := by linarith
    have p1 := inj hsm s1 hsl.start_end hX (c1 ▸ hsl.offset_end)
    have q1 := inj htm t1 (Nat.le_refl _) hY (c2 ▸ htl.offset_start)
    have hsucc : (allRuns (ls.take (m + 1))).length = (allRuns (ls.take m)).length + l.runs.length := by
      rw [allRuns_take_succ hl, List.length_append]
    have hget : ∀ i r, l.runs[i]? = some r → (allRuns ls)[(allRuns (ls.take m)).length + i]? = some r := by
      intro i r hi
      have := getElem?_lt hi
      obtain ⟨r', g1, g2⟩ := runOfLine_mem (k := (allRuns (ls.take m)).length + i) hl (by omega) (by omega)
      rw [Nat.add_sub_cancel_left, hi] at g2
      cases g2
      exact g1
    have := hc.ltr.cont _ s t (hget i s hs) (by rw [Nat.add_assoc]; exact hget _ t ht)
    have := hw.separators l hlm i s t hs ht
    omega

/-- C99 (partial: left-to-right text in which every glyph has a width).  A click on the caret selects the caret's position. -/
theorem C99_same_position_partial {L : Layout φ} {ls : List (LineSpec φ)} {y : Rat} (h : Stores L ls [] y) {B : Nat → Prop}
    (hc : CaretText L ls B) (hw : WideText ls) (W : Rat) (al : XAlignment) (follow : Layout.Following)
    (hf : FollowsBoundaries follow B) (c : Nat) (a : Affinity) (hB : B c)
    (hin : ∃ r ∈ allRuns ls, r.charStart ≤ c ∧ c ≤ r.charEnd) :
    ∃ i b, L.cursorPixelPos W al c a = some i ∧ L.findClosest W al follow i.line i.x = some (c, b) := by
  have hls : ls ≠ [] := by rintro rfl; simp [allRuns] at hin
  obtain ⟨k, m, r, e1, e2, e3, e4, l, j, f1, f2, f3⟩ := caret_run h hc.ne hc.ltr hin a
  have hsucc : (allRuns (ls.take (m + 1))).length = (allRuns (ls.take m)).length + l.runs.length := by
    rw [allRuns_take_succ f1, List.length_append]
  obtain ⟨r', g1, g2⟩ := runOfLine_mem (k := k) f1 (by omega) (by omega)
  rw [e2] at g1; cases g1
  have hlm := List.mem_of_getElem? f1
  have hrm := List.mem_of_getElem? g2
  have hsz := (hc.proper l hlm).size r hrm
  obtain ⟨X, x1, x2⟩ := ltr_offset (L := L) (k := k) ⟨⟨ls, [], y, h, by rw [List.append_nil]; exact e2⟩, hc.size, by omega⟩
    (hc.run hlm hrm).2 e3 e4
  obtain ⟨k', m', l', o1, o2, _, o4⟩ := C59_caret h hc.ne hls W al c a
  rw [e1] at o1
  cases o1
  rw [f1] at o2
  cases o2
  obtain ⟨i, i1, i2, i3, i4, i5⟩ := o4 X x1
  obtain ⟨p, b, j', s, p1, p2, p3, p4, p5, p6⟩ := click_place h hc hf f1 W al g2 hB x2
  refine ⟨i, b, i1, ?_⟩
  rw [i5, i2, p1]
  have : p = c := by
    rcases Nat.le_total j' (k - (allRuns (ls.take m)).length) with hle | hle
    · exact same_position hc hw f1 hle p3 g2 p4 p5 e3 e4 p6 x2
    · exact (same_position hc hw f1 hle g2 p3 e3 e4 p4 p5 x2 p6).symm
  rw [this]

/-- Where the caret of a cursor is, which cursor a click there selects and where that one's caret is. -/
def clickTrip (ops : List (LayoutOp Nat)) (follow : Layout.Following) (c : Nat) (a : Affinity) :
    Option (Layout.CursorInfo × (Nat × Affinity) × Layout.CursorInfo) :=
  (execLayout {} ops).bind fun L => (L.cursorPixelPos 100 .left c a).bind fun i =>
    (L.findClosest 100 .left follow i.line i.x).bind fun q => (L.cursorPixelPos 100 .left q.1 q.2).map fun i' => (i, q, i')

/-- C99 is false as stated: left-to-right text that ends with right-to-left text.  The caret at position 3 is at the right end of the
line; a click there moves it between the two parts of the text. -/
theorem C99_bidi_violated :
    clickTrip [.run 0 [⟨1, 0, 0, 0⟩, ⟨2, 1, 10, 0⟩, ⟨3, 2, 20, 0⟩] 30 0 0 3 false,
      .run 0 [⟨6, 5, 30, 0⟩, ⟨5, 4, 40, 0⟩, ⟨4, 3, 50, 0⟩] 60 0 3 6 true, .line 10 8]
      (fun k => if k < 6 then some (k + 1) else none) 3 .default =
    some (⟨60, 0, 10, 0⟩, (3, .opposite), ⟨30, 0, 10, 0⟩) := by decide +kernel

/-- C99 is false as stated: a letter with an accent, a glyph of its own without width.  The caret is after the letter; a click there
moves it before the letter. -/
theorem C99_accent_violated :
    clickTrip [.run 0 [⟨1, 0, 0, 0⟩, ⟨2, 0, 10, 0⟩, ⟨3, 2, 10, 0⟩] 20 0 0 3 false, .line 10 8]
      (fun k => if k < 2 then some 2 else if k < 3 then some 3 else none) 2 .default =
    some (⟨10, 0, 10, 0⟩, (0, .default), ⟨0, 0, 10, 0⟩) := by decide +kernel

/-- The hypotheses of C99 hold for `wrapLines`; the end of the first line and the start of the second are one position. -/
theorem wrapLines_caret : ∃ L : Layout Nat, Stores L wrapLines [] 0 ∧ CaretText L wrapLines (· ≤ 3) ∧ WideText wrapLines ∧
    L.cursorPixelPos 100 .left 2 .opposite = some ⟨9, 0, 10, 0⟩ ∧ L.cursorPixelPos 100 .left 2 .default = some ⟨0, 10, 10, 1⟩ := by
  have h0 : Draft.steps {} [.run 0 [⟨1, 0, 0, 0⟩, ⟨2, 1, 5, 0⟩] 9 0 0 2 false, .line 10 8,
      .run 0 [⟨3, 2, 0, 0⟩] 4 0 2 3 false, .line 10 8] = some (⟨wrapLines, [], 0⟩ : Draft Nat) := rfl
  obtain ⟨L, hL, hs⟩ := C19_stores _ _ h0
  have hw : WideText wrapLines := by
    refine ⟨?_, ?_⟩
    · intro r hr i x x' h1 h2
      have : r = wrapRun0 ∨ r = wrapRun1 := by simpa [allRuns, wrapLines] using hr
      have := getElem?_lt h2
      rcases ‹r = _ ∨ r = _› with rfl | rfl
      · have : i = 0 ∨ i = 1 := by simp [RunSpec.xs, wrapRun0] at this; omega
        rcases this with rfl | rfl <;> simp [RunSpec.xs, wrapRun0] at h1 h2 <;> subst h1 h2 <;> norm_num
      · obtain rfl : i = 0 := by simp [RunSpec.xs, wrapRun1] at this; omega
        simp [RunSpec.xs, wrapRun1] at h1 h2
        subst h1 h2
        norm_num
    · intro l hl i r s h1 h2
      have : l.runs.length = 1 := (by decide : ∀ l ∈ wrapLines, l.runs.length = 1) l hl
      have := getElem?_lt h2
      omega
  refine ⟨L, hs, ⟨by decide, ?_, wrapLines_ok.1, wrapLines_ok.2.2, wrapLines_ok.2.1, by decide, by decide, ?_⟩, hw, ?_⟩
  · have := hs.pos_length
    rw [this]; decide
  · intro r hr i g n x x' _ _ _ h1 h2
    exact hw.wide r hr (i + 1) x x' h1 h2
  · have e := Option.some.inj hL
    rw [← e]
    constructor <;> decide +kernel

end RichText
