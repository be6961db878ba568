import Verif.Proof.LineBreak
/-! C28, C29, C33: line breaking and tabs. -/
namespace RichText

/-! ## C28 -/

/-- More iterations than the paragraph has bytes change nothing: the loop ends
by itself, whatever the widths (also zero or negative) and the results of the
break iterator.  No order of the glyphs is needed. -/
theorem C28_terminates (e : LineEnv) (charIdx : List Nat) (widths : List Int)
    (hb : e.BreaksInside) (hin : e.Inside charIdx) (fuel : Nat) (hf : e.length ≤ fuel) :
    breakLines e charIdx fuel e.start widths = breakLines e charIdx e.length e.start widths :=
  breakLines_fuel hb hin _ _ _ _ (by omega) (by omega)

/-- The lines are consecutive non-empty ranges from the start of the paragraph to
its end. -/
theorem C28_partition (e : LineEnv) (charIdx : List Nat) (widths : List Int)
    (hb : e.BreaksInside) (hin : e.Inside charIdx) (hl : 0 < e.length)
    (lines : List BrokenLine) (h : paragraphLines e charIdx widths = some lines) :
    Consecutive (e.start + e.length) e.start (lineRanges lines) := by
  unfold paragraphLines at h
  split at h
  · simp only [Option.map_eq_some_iff] at h
    obtain ⟨ws, _, rfl⟩ := h
    exact ⟨rfl, by simp only; omega, rfl⟩
  · exact (breakLines_consecutive hb hin _ _ _ _ (by omega) h).1

/-- It is defined if there are no tabs, or a tab width in pixels other than zero, or tab stops in multiples (1.0 or
above) of the advances of the tabs, which are above zero. -/
theorem C28_defined (e : LineEnv) (charIdx : List Nat) (widths : List Int)
    (hb : e.BreaksInside) (hd : e.Decodes) (hin : e.Inside charIdx) (hl : widths.length = charIdx.length)
    (ht : (∀ c ∈ charIdx, e.isTab c = false) ∨ (e.tabPixels = true ∧ e.tabWidth ≠ 0) ∨
      (e.tabPixels = false ∧ 64 ≤ e.tabWidth ∧ ∀ (i c : Nat) (w : Int), charIdx[i]? = some c → e.isTab c = true →
        widths[i]? = some w → 0 < w)) :
    ∃ lines, paragraphLines e charIdx widths = some lines := by
  unfold paragraphLines
  split
  · obtain ⟨ws, hws⟩ := applyTabs_defined _ 0 0 widths ht rfl hl
    exact ⟨_, by rw [hws]; rfl⟩
  · exact breakLines_defined hb hd hin _ _ _ ht hl (by omega)

/-- "ab cd" at offset 10, break opportunity after the blank, three glyphs wide.
The last line is the result of glyphs of negative and zero width. -/
def sampleLine (area : Int) : LineEnv where
  start := 10
  length := 5
  area := area
  tabWidth := 256
  tabPixels := true
  isTab := fun _ => false
  next := fun i => i + 1
  hangs := fun i => i == 2
  preceding := fun i => if i ≤ 0 then -1 else if i ≤ 3 then 0 else if i ≤ 5 then 3 else 5

example : (sampleLine 200).BreaksInside ∧ (sampleLine 200).Decodes ∧ (sampleLine 200).Inside [10, 11, 12, 13, 14] := by
  refine ⟨fun i => ?_, fun i hi => ?_, ?_⟩
  · simp only [sampleLine]; (repeat' split) <;> omega
  · simp only [sampleLine] at hi ⊢; omega
  · simp [LineEnv.Inside, sampleLine]

example : (paragraphLines (sampleLine 200) [10, 11, 12, 13, 14] [64, 64, 64, 64, 64]).map lineRanges
    = some [(10, 13), (13, 15)] := by decide +kernel
example : (paragraphLines (sampleLine 1) [10, 11, 12, 13, 14] [64, 64, 64, 64, 64]).map lineRanges
    = some [(10, 11), (11, 13), (13, 14), (14, 15)] := by decide +kernel
example : (paragraphLines (sampleLine 1) [10, 11, 12, 13, 14] [-64, 0, 64, 1, 65]).map lineRanges
    = some [(10, 13), (13, 14), (14, 15)] := by decide +kernel

/-! ## C29 -/

/-- For each line there is a glyph `m`, the first that overflows, and `m'`, which
is `m` or, if nothing of any width fits, the glyph after it, such that
* either the line ends at a break opportunity and all its glyphs from `m'` on are
  white space or control characters,
* or the break is forced: all break opportunities after the start of the line are
  behind a character at or after that of `m'` which is neither; then the line
  ends where the next glyph's character starts (or with the paragraph). -/
theorem C29_only_space_hangs (e : LineEnv) (charIdx : List Nat) (widths : List Int)
    (isStart isBreak : Nat → Prop) (hc : e.Codepoints isStart) (hb : e.Breaks isBreak)
    (hbs : ∀ b, isBreak b → b < e.length → isStart b)
    (hin : ∀ c ∈ charIdx, e.start ≤ c ∧ c < e.start + e.length ∧ isStart (c - e.start))
    (hs : charIdx.Pairwise (· ≤ ·)) (ht : ∀ c ∈ charIdx, e.isTab c = false)
    (lines : List BrokenLine) (h : breakLines e charIdx e.length e.start widths = some lines) :
    ∀ l ∈ lines, ∃ g m m' : Nat,
      (∀ (k c : Nat), charIdx[k]? = some c → (c < l.first ↔ k < g)) ∧
      g ≤ m ∧ m ≤ charIdx.length ∧
      (∀ k, g < k → k ≤ m → sumRange widths g k ≤ e.area) ∧
      (m < charIdx.length → e.area < sumRange widths g (m + 1)) ∧
      (m' = m ∨ (m' = m + 1 ∧ m < charIdx.length ∧ sumRange widths g m = 0)) ∧
      ((isBreak (l.stop - e.start) ∧
          ∀ (k c : Nat), m' ≤ k → charIdx[k]? = some c → c < l.stop → e.hangs (c - e.start) = true) ∨
        ((∀ b, isBreak b → l.first < e.start + b → ∃ c k, charIdx[m']? = some c ∧ c ≤ e.start + k ∧ k < b ∧
            isStart k ∧ e.hangs k = false) ∧
          ((∃ k : Nat, m' ≤ k ∧ charIdx[k]? = some l.stop ∧
              ∀ (k' c : Nat), m' ≤ k' → k' < k → charIdx[k']? = some c → c ≤ l.first) ∨
            (l.stop = e.start + e.length ∧
              ∀ (k' c : Nat), m' ≤ k' → charIdx[k']? = some c → c ≤ l.first)))) := by
  have hbi : e.BreaksInside := by
    intro i
    rcases hb.preceding i with ⟨h1, _⟩ | ⟨b, h1, h2, _⟩
    · omega
    · have := hb.inside b h2; omega
  intro l hl
  obtain ⟨ws0, ⟨hfirst, rfl⟩, hlt, hbl⟩ := breakLines_mem (e := e) (ci := charIdx) (fun ls ws => e.start ≤ ls ∧ ws = widths)
    (fun ls ws l hw hlt hx => ⟨by
      have := (breakLine_bounds hbi (fun c hc => ⟨(hin c hc).1, (hin c hc).2.1⟩) hlt hx).2.1; omega,
      by rw [breakLine_noTabs ht hx, hw.2]⟩) _ _ _ _ ⟨Nat.le_refl _, rfl⟩ h l hl
  obtain ⟨it⟩ := breakLine_iteration hbl
  obtain ⟨g, hg, hgl, hgs⟩ := search_spec hs l.first
  rw [it.search] at hg; cases hg
  have hfs := fitLine_spec _ _ _ _ rfl hgl it.fit
  obtain ⟨hfw, hfsf, hfit, hover⟩ := hfs.noTabs ht
  obtain ⟨hm1, hm2⟩ := forceGlyph_bounds hfs.hi
  refine ⟨it.g, it.f.glyph, forceGlyph charIdx.length it.f, hgs, hfs.lo, hfs.hi, hfit, hover, ?_, ?_⟩
  · unfold forceGlyph
    split
    · rename_i hz; exact Or.inr ⟨rfl, hz.2, by omega⟩
    · exact Or.inl rfl
  · -- where the search starts
    have hfrom : isStart (breakFrom e charIdx (forceGlyph charIdx.length it.f) - e.start) ∨
        e.length ≤ breakFrom e charIdx (forceGlyph charIdx.length it.f) - e.start := by
      unfold breakFrom
      cases hx : charIdx[forceGlyph charIdx.length it.f]? with
      | none => right; simp only; omega
      | some c => exact Or.inl (hin c (List.mem_of_getElem? hx)).2.2
    obtain ⟨p, hp, hcase⟩ := findPreviousLineBreak_spec hc _ _ rfl hfrom
    rw [it.prev] at hp
    cases hp
    obtain ⟨_, _, f3, f4⟩ := forceBreak_spec charIdx l.first _ (it.p + e.start) (forceGlyph charIdx.length it.f) rfl hm2
    -- glyphs from `m'` on are at or after the place of the search
    have hafter : ∀ (k c : Nat), forceGlyph charIdx.length it.f ≤ k → charIdx[k]? = some c →
        breakFrom e charIdx (forceGlyph charIdx.length it.f) ≤ c := by
      intro k c hk hkc
      obtain ⟨hkl, hke⟩ := List.getElem?_eq_some_iff.1 hkc
      have hml : forceGlyph charIdx.length it.f < charIdx.length := by omega
      unfold breakFrom
      rw [List.getElem?_eq_getElem hml]
      simp only
      rcases Nat.lt_or_ge (forceGlyph charIdx.length it.f) k with h' | h'
      · have := List.pairwise_iff_getElem.1 hs _ _ hml hkl h'; omega
      · have : k = forceGlyph charIdx.length it.f := by omega
        subst this; omega
    by_cases hple : (l.first : Int) < it.p + e.start
    · left
      have hstop : l.stop = (it.p + e.start).toNat := by
        rw [it.stop, f3 hple]; unfold lastBreak; simp only; rw [if_neg (by omega)]
      have hpb : ∃ b : Nat, it.p = b ∧ isBreak b ∧
          ∀ c, isStart c → breakFrom e charIdx (forceGlyph charIdx.length it.f) - e.start ≤ c → c < b →
            e.hangs c = true := by
        rcases hcase with ⟨k, a1, a2, a3, a4, a5, a6⟩ | ⟨j, a1, a2, a3⟩
        · rcases hb.preceding (e.next k) with ⟨b1, _⟩ | ⟨b, b1, b2, b3, _⟩
          · rw [b1] at a5; omega
          · refine ⟨b, by omega, b2, fun c hcs hc1 hc2 => a6 c hcs hc1 ?_⟩
            obtain ⟨n1, n2, _⟩ := hc.next k a3 a2
            have : b ≤ k := by
              rcases Nat.lt_or_ge k b with hkb | hkb
              · have := hc.gap k b a3 a2 (hbs b b2 (by omega)) hkb; omega
              · exact hkb
            omega
        · rcases hb.preceding j with ⟨b1, _⟩ | ⟨b, b1, b2, b3, _⟩
          · rw [b1] at a2; omega
          · have := hb.inside b b2
            exact ⟨b, by omega, b2, fun c hcs hc1 hc2 => a3 c hcs hc1 (by omega)⟩
      obtain ⟨b, hpb, hbb, hhang⟩ := hpb
      refine ⟨by rw [hstop, hpb]; rw [show ((b : Int) + e.start).toNat - e.start = b by omega]; exact hbb, ?_⟩
      intro k c hk hkc hcs
      have h1 := hin c (List.mem_of_getElem? hkc)
      have h2 := hafter k c hk hkc
      exact hhang _ h1.2.2 (by omega) (by omega)
    · right
      have hple' : it.p + e.start ≤ l.first := by omega
      refine ⟨?_, ?_⟩
      · intro b hbb hbl
        rcases hcase with ⟨k, a1, a2, a3, a4, a5, a6⟩ | ⟨j, a1, a2, a3⟩
        · have hkb : k < b := by
            rcases Nat.lt_or_ge k b with hkb | hkb
            · exact hkb
            · obtain ⟨n1, _, _⟩ := hc.next k a3 a2
              rcases hb.preceding (e.next k) with ⟨b1, b2⟩ | ⟨b', b1, _, _, b4⟩
              · have := b2 b hbb; omega
              · have := b4 b hbb (by omega); omega
          unfold breakFrom at a1
          cases hx : charIdx[forceGlyph charIdx.length it.f]? with
          | none => simp only [hx] at a1; omega
          | some c =>
            simp only [hx] at a1
            exact ⟨c, k, rfl, by omega, hkb, a3, a4⟩
        · rcases hb.preceding j with ⟨b1, b2⟩ | ⟨b', b1, _, _, b4⟩
          · have := b2 e.length hb.last; omega
          · have := b4 e.length hb.last (by omega); omega
      · rcases f4 hple' with ⟨a1, a2, a3⟩ | ⟨k, c, a1, a2, a3, a4, a5⟩
        · right
          refine ⟨by rw [it.stop]; unfold lastBreak; rw [if_pos ⟨a1, a2⟩]; omega, ?_⟩
          intro k' c h1 h2
          have := a3 k' c h1 h2; omega
        · left
          refine ⟨k, a1, ?_, fun k' c' h1 h2 h3 => by have := a5 k' c' h1 h2 h3; omega⟩
          rw [it.stop, a4]; unfold lastBreak; simp only
          rw [if_neg (by omega), a2]; simp

/-- The contracts hold for the sample paragraph: code points everywhere, break
opportunities at 0, 3 and the end. -/
example : (sampleLine 200).Codepoints (fun _ => True) ∧
    (sampleLine 200).Breaks (fun i => i = 0 ∨ i = 3 ∨ i = 5) := by
  refine ⟨⟨fun i _ hi => ?_, fun i j _ _ _ h => ?_⟩, ⟨fun i hi => ?_, Or.inr (Or.inr rfl), fun i => ?_⟩⟩
  · exact ⟨Nat.lt_succ_self _, hi, fun _ => trivial⟩
  · simp only [sampleLine]; omega
  · show i ≤ 5; omega
  · simp only [sampleLine]
    by_cases h0 : i ≤ 0
    · left; rw [if_pos h0]; exact ⟨rfl, fun b _ => by omega⟩
    · right
      rw [if_neg h0]
      by_cases h3 : i ≤ 3
      · exact ⟨0, by rw [if_pos h3]; rfl, Or.inl rfl, by omega, fun b hb hlt => by omega⟩
      · rw [if_neg h3]
        by_cases h5 : i ≤ 5
        · exact ⟨3, by rw [if_pos h5]; rfl, Or.inr (Or.inl rfl), by omega, fun b hb hlt => by omega⟩
        · exact ⟨5, by rw [if_neg h5]; rfl, Or.inr (Or.inr rfl), by omega, fun b hb hlt => by omega⟩

/-- With an area of two glyphs the blank hangs over the margin. -/
example : (breakLines (sampleLine 128) [10, 11, 12, 13, 14] 5 10 [64, 64, 64, 64, 64]).map lineRanges
    = some [(10, 13), (13, 15)] := by decide +kernel

/-! ## C33 -/

/-- The width between tab stops for a tab whose glyph has width `w`. -/
def LineEnv.stopWidth (e : LineEnv) (w : Int) : Int := if e.tabPixels then e.tabWidth else mulFixed w e.tabWidth

/-- Without line breaking: every tab ends at the next tab stop and has a positive
width. -/
theorem C33_no_break (e : LineEnv) (charIdx : List Nat) (widths : List Int) (ha : e.area = 0)
    (hn : ∀ w ∈ widths, 0 ≤ w)
    (hp : ∀ (k c : Nat) (w : Int), charIdx[k]? = some c → e.isTab c = true → widths[k]? = some w → 0 < e.stopWidth w)
    (lines : List BrokenLine) (h : paragraphLines e charIdx widths = some lines) :
    ∀ l ∈ lines, ∀ (k c : Nat) (w : Int), charIdx[k]? = some c → e.isTab c = true → widths[k]? = some w →
      IsNextStop (e.stopWidth w) (sumRange l.widths 0 k) (sumRange l.widths 0 (k + 1)) ∧
      ∃ v, l.widths[k]? = some v ∧ 0 < v := by
  unfold paragraphLines at h
  rw [if_pos ha] at h
  simp only [Option.map_eq_some_iff] at h
  obtain ⟨ws, hws, rfl⟩ := h
  intro l hl
  rw [List.mem_singleton] at hl
  subst hl
  have hpr := applyTabs_spec _ 0 0 widths rfl (Nat.zero_le _) hws
  intro k c w hk ht hw
  obtain ⟨h1, h2⟩ := hpr.stops hn hp (by omega) k c w (Nat.zero_le _) (List.getElem?_eq_some_iff.1 hk).1 hk ht hw
  simp only [Int.zero_add] at h1
  exact ⟨h1, h2⟩

/-- Three tabs, two of them after letters: with stops every 256 units they end at
256, 512 and 768. -/
def tabLine (area : Int) (pixels : Bool) (tabWidth : Int) (length : Nat) (tabs : List Nat)
    (prec : Nat → Int) : LineEnv where
  start := 0
  length := length
  area := area
  tabWidth := tabWidth
  tabPixels := pixels
  isTab := fun i => decide (i ∈ tabs)
  next := fun i => i + 1
  hangs := fun i => decide (i ∈ tabs)
  preceding := prec

example : (paragraphLines (tabLine 0 true 256 5 [1, 2, 4] fun i => (i : Int) - 1) [0, 1, 2, 3, 4]
    [100, 20, 20, 40, 20]).map (·.map (·.widths)) = some [[100, 156, 256, 40, 216]] := by decide +kernel

/-- With tab stops in pixels every tab of every line, up to and including the
first glyph that overflows, ends at the next tab stop from the start of the line
and has a positive width.  Missing: the tabs behind the first overflowing glyph
(see the violation below). -/
theorem C33_pixels_partial (e : LineEnv) (charIdx : List Nat) (widths : List Int)
    (hs : charIdx.Pairwise (· ≤ ·)) (hpx : e.tabPixels = true) (htw : 0 < e.tabWidth)
    (hn : ∀ w ∈ widths, 0 ≤ w)
    (lines : List BrokenLine) (h : breakLines e charIdx e.length e.start widths = some lines) :
    ∀ l ∈ lines, ∃ g m : Nat,
      (∀ (k c : Nat), charIdx[k]? = some c → (c < l.first ↔ k < g)) ∧ g ≤ m ∧ m ≤ charIdx.length ∧
      (∀ k, g < k → k ≤ m → sumRange l.widths g k ≤ e.area) ∧
      (m < charIdx.length → e.area < sumRange l.widths g (m + 1)) ∧
      ∀ (k c : Nat), g ≤ k → k ≤ m → charIdx[k]? = some c → e.isTab c = true →
        IsNextStop e.tabWidth (sumRange l.widths g k) (sumRange l.widths g (k + 1)) ∧
        ∃ v, l.widths[k]? = some v ∧ 0 < v := by
  intro l hl
  obtain ⟨ws0, hn0, _, hbl⟩ := breakLines_mem (e := e) (ci := charIdx) (fun _ ws => ∀ w ∈ ws, 0 ≤ w)
    (fun ls ws l hw _ hx => breakLine_nonneg hpx htw hw hx) _ _ _ _ hn h l hl
  obtain ⟨it⟩ := breakLine_iteration hbl
  obtain ⟨g, hg, hgl, hgs⟩ := search_spec hs l.first
  rw [it.search] at hg; cases hg
  have hfs := fitLine_spec _ _ _ _ rfl hgl it.fit
  have hm := hfs.pixels hpx htw hn0 (adjustTabs_spec _ _ _ _ it.adjust)
  exact ⟨it.g, it.f.glyph, hgs, hfs.lo, hfs.hi, hm⟩

/-- Two lines: the first tab of the second line is measured from its start. -/
example : (breakLines (tabLine 300 true 256 6 [1, 4] fun i => if i ≤ 2 then 0 else if i ≤ 6 then 2 else 6)
    [0, 1, 2, 3, 4, 5] 6 0 [100, 20, 60, 10, 20, 30]).map (·.map (fun l => (l.first, l.stop, l.widths)))
    = some [(0, 2, [100, 156, 60, 10, 20, 30]), (2, 6, [100, 156, 60, 10, 186, 30])] := by decide +kernel

/-- With tab stops in multiples of the width of a blank, the tabs of the first
line before the first glyph that overflows end at the next tab stop.  Missing:
tabs that are looked at again (the glyph that overflows, later lines). -/
theorem C33_scaled_partial (e : LineEnv) (charIdx : List Nat) (widths : List Int)
    (hs : charIdx.Pairwise (· ≤ ·)) (hn : ∀ w ∈ widths, 0 ≤ w)
    (hp : ∀ (k c : Nat) (w : Int), charIdx[k]? = some c → e.isTab c = true → widths[k]? = some w → 0 < e.stopWidth w)
    (l : BrokenLine) (rest : List BrokenLine)
    (h : breakLines e charIdx e.length e.start widths = some (l :: rest)) :
    ∃ g m : Nat,
      (∀ (k c : Nat), charIdx[k]? = some c → (c < l.first ↔ k < g)) ∧ g ≤ m ∧ m ≤ charIdx.length ∧
      (∀ k, g < k → k ≤ m → sumRange l.widths g k ≤ e.area) ∧
      (m = charIdx.length ∨ ∃ c w v, charIdx[m]? = some c ∧ widths[m]? = some w ∧
        e.area < sumRange l.widths g m + v ∧ (e.isTab c = false → v = w) ∧
        (e.isTab c = true → IsNextStop (e.stopWidth w) (sumRange l.widths g m) (sumRange l.widths g m + v))) ∧
      ∀ (k c : Nat) (w : Int), g ≤ k → k < m → charIdx[k]? = some c → e.isTab c = true → widths[k]? = some w →
        IsNextStop (e.stopWidth w) (sumRange l.widths g k) (sumRange l.widths g (k + 1)) ∧
        ∃ v, l.widths[k]? = some v ∧ 0 < v := by
  have hbl : breakLine e charIdx e.start widths = some l := by
    cases hlen : e.length with
    | zero =>
      rw [hlen] at h; unfold breakLines at h
      rw [if_neg (by omega)] at h; cases h
    | succ n =>
      rw [hlen] at h; unfold breakLines at h
      rw [if_pos (by omega)] at h
      cases hx : breakLine e charIdx e.start widths with
      | none => simp [hx] at h
      | some l' =>
        simp only [hx, Option.map_eq_some_iff, List.cons.injEq] at h
        obtain ⟨_, _, rfl, _⟩ := h; rfl
  obtain ⟨it⟩ := breakLine_iteration hbl
  have hf : l.first = e.start := it.first
  obtain ⟨g, hg, hgl, hgs⟩ := search_spec hs e.start
  rw [it.search] at hg; cases hg
  have hfs := fitLine_spec _ _ _ _ rfl hgl it.fit
  obtain ⟨h1, h2, h3⟩ := hfs.scaled hn hp (adjustTabs_spec _ _ _ _ it.adjust)
  exact ⟨it.g, it.f.glyph, by rw [hf]; exact hgs, hfs.lo, hfs.hi, h1, h2, h3⟩

/-- Stops every four blanks (of 20 units): 80 and 160. -/
example : (∀ (k c : Nat) (w : Int), [0, 1, 2, 3][k]? = some c →
      (tabLine 170 false 256 4 [1, 3] fun i => (i : Int) - 1).isTab c = true → [10, 20, 30, 20][k]? = some w →
      0 < (tabLine 170 false 256 4 [1, 3] fun i => (i : Int) - 1).stopWidth w) ∧
    (breakLines (tabLine 170 false 256 4 [1, 3] fun i => (i : Int) - 1) [0, 1, 2, 3] 4 0 [10, 20, 30, 20]).map
      (·.map (·.widths)) = some [[10, 70, 30, 50]] := by
  refine ⟨fun k c w h1 h2 h3 => ?_, by decide +kernel⟩
  rcases k with _ | _ | _ | _ | k <;> simp at h1 h3
  all_goals subst h1 h3; revert h2; decide

/-- With a tab width in pixels above zero or of one blank or above, no tab of any line, however often it was looked at,
has zero or negative width. -/
theorem C33_positive (e : LineEnv) (charIdx : List Nat) (widths : List Int)
    (ht : (e.tabPixels = true ∧ 0 < e.tabWidth) ∨ (e.tabPixels = false ∧ 64 ≤ e.tabWidth))
    (hp : ∀ (k c : Nat) (w : Int), charIdx[k]? = some c → e.isTab c = true → widths[k]? = some w → 0 < w)
    (lines : List BrokenLine) (h : paragraphLines e charIdx widths = some lines) :
    ∀ l ∈ lines, ∀ (k c : Nat) (w : Int), charIdx[k]? = some c → e.isTab c = true → l.widths[k]? = some w → 0 < w := by
  have hP : ∀ ws ws' i j s, Processed e charIdx ws ws' i j s →
      (∀ (k c : Nat) (w : Int), charIdx[k]? = some c → e.isTab c = true → ws[k]? = some w → 0 < w) →
      ∀ (k c : Nat) (w : Int), charIdx[k]? = some c → e.isTab c = true → ws'[k]? = some w → 0 < w := by
    intro ws ws' i j s hpr hws
    rcases ht with ⟨h1, h2⟩ | ⟨h1, h2⟩
    · intro k c w hc hb hw
      by_cases hin : i ≤ k ∧ k < j
      · obtain ⟨w0, c', v, g1, g2, g3, _, g5⟩ := hpr.step k hin.1 hin.2
        rw [hc] at g2; cases g2
        rw [hw] at g3; cases g3
        have := g5 hb
        unfold tabStop at this
        simp only [h1, if_true] at this
        rw [if_neg (by omega)] at this
        simp only [Option.some.injEq] at this
        have := Int.tmod_lt_of_pos (s + sumRange ws' i k) h2
        omega
      · rw [hpr.out k (by omega)] at hw
        exact hws k c w hc hb hw
    · exact (hpr.scaled ⟨h1, h2, hws⟩).2.2
  unfold paragraphLines at h
  split at h
  · simp only [Option.map_eq_some_iff] at h
    obtain ⟨ws', h1, rfl⟩ := h
    intro l hl
    rw [List.mem_singleton] at hl
    subst hl
    exact hP _ _ _ _ _ (applyTabs_spec _ 0 0 widths rfl (Nat.zero_le _) h1) hp
  · intro l hl
    obtain ⟨ws0, h0, _, hbl⟩ := breakLines_mem (e := e) (ci := charIdx)
      (fun _ ws => ∀ (k c : Nat) (w : Int), charIdx[k]? = some c → e.isTab c = true → ws[k]? = some w → 0 < w)
      (fun ls ws l hw _ hx => breakLine_preserves hP hx hw) _ _ _ _ hp h l hl
    exact breakLine_preserves hP hbl h0

/-- The second tab does not fit and is looked at three times. -/
example : (paragraphLines { tabLine 170 false 512 4 [1, 2] (fun i => (i : Int) - 1) with hangs := fun _ => false }
    [0, 1, 2, 3] [10, 20, 20, 20]).map (·.map fun l => (l.first, l.stop, l.widths)) =
      some [(0, 2, [10, 150, 160, 20]), (2, 3, [10, 150, 10240, 20]), (3, 4, [10, 150, 10240, 20])] := by decide +kernel

/-- VIOLATION (white space that hangs).  Tab stops every 256 units, a letter as
wide as the line, then two tabs and a letter: the second tab hangs over the
margin with its own width and does not end at a tab stop. -/
theorem C33_hanging_violated :
    ∃ (e : LineEnv) (charIdx : List Nat) (widths : List Int) (l : BrokenLine) (rest : List BrokenLine),
      e.tabPixels = true ∧ e.tabWidth = 256 ∧ e.BreaksInside ∧ e.Decodes ∧ e.Inside charIdx ∧
      breakLines e charIdx e.length e.start widths = some (l :: rest) ∧ l.first = 0 ∧ l.stop = 3 ∧
      e.isTab 2 = true ∧ charIdx[2]? = some 2 ∧
      ¬ IsNextStop 256 (sumRange l.widths 0 2) (sumRange l.widths 0 3) := by
  refine ⟨tabLine 100 true 256 4 [1, 2] fun i => if i ≤ 0 then -1 else if i ≤ 3 then 0 else if i ≤ 4 then 3 else 4,
    [0, 1, 2, 3], [100, 20, 20, 100], ⟨0, 3, [100, 156, 20, 100]⟩, [⟨3, 4, [100, 156, 20, 100]⟩],
    rfl, rfl, ?_, ?_, ?_, by decide +kernel, rfl, rfl, rfl, rfl, ?_⟩
  · intro i; simp only [tabLine]; (repeat' split) <;> omega
  · intro i hi; simp only [tabLine] at hi ⊢; omega
  · simp [LineEnv.Inside, tabLine]
  · simp only [IsNextStop, sumRange]
    decide

/-- VIOLATION (tab widths scaled twice).  A single tab as wide as ten units of
64, stops every eight blanks (5120): if it does not fit, it becomes eight times
as wide as the distance between two stops. -/
theorem C33_scaled_twice_violated :
    ∃ (e : LineEnv) (l : BrokenLine),
      e.tabPixels = false ∧ e.tabWidth = 512 ∧ e.BreaksInside ∧ e.Decodes ∧ e.Inside [0] ∧ e.isTab 0 = true ∧
      breakLines e [0] e.length e.start [640] = some [l] ∧ e.stopWidth 640 = 5120 ∧ l.widths = [40960] ∧
      ¬ IsNextStop (e.stopWidth 640) (sumRange l.widths 0 0) (sumRange l.widths 0 1) := by
  refine ⟨tabLine 3200 false 512 1 [0] fun i => (min i 1 : Nat), ⟨0, 1, [40960]⟩, rfl, rfl, ?_, ?_, ?_, rfl,
    by decide +kernel, by decide +kernel, rfl, ?_⟩
  · intro i; simp only [tabLine]; omega
  · intro i hi; simp only [tabLine] at hi ⊢; omega
  · simp [LineEnv.Inside, tabLine]
  · have : (tabLine 3200 false 512 1 [0] fun i => (min i 1 : Nat)).stopWidth 640 = 5120 := by decide +kernel
    rw [this]
    simp only [IsNextStop, sumRange]
    decide

/-- VIOLATION (undefined).  With a tab width of zero every paragraph with a tab
that is reached divides by zero. -/
theorem C33_zero_violated (e : LineEnv) (charIdx : List Nat) (widths : List Int) (k c : Nat)
    (hz : e.tabWidth = 0) (hk : charIdx[k]? = some c) (ht : e.isTab c = true) (ha : e.area = 0) :
    paragraphLines e charIdx widths = none := by
  unfold paragraphLines
  rw [if_pos ha]
  cases h : applyTabs e charIdx 0 0 widths with
  | none => rfl
  | some ws =>
    have hpr := applyTabs_spec _ 0 0 widths rfl (Nat.zero_le _) h
    obtain ⟨w, c', v, h1, h2, _, _, h5⟩ := hpr.step k (Nat.zero_le _) (List.getElem?_eq_some_iff.1 hk).1
    rw [hk] at h2; cases h2
    have := h5 ht
    simp [tabStop, hz, mulFixed] at this

/-- A paragraph with one tab and a tab width of zero. -/
example : paragraphLines (tabLine 0 true 0 2 [1] fun i => (i : Int) - 1) [0, 1] [10, 20] = none :=
  C33_zero_violated _ _ _ 1 1 rfl rfl rfl rfl

end RichText
