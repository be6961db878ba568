import Verif.Props.LineBreak
import Verif.Props.VisualRuns
import Verif.Proof.Built
import Verif.Proof.TabFit
import Verif.Props.Built
/-! Lines are as long as they can be, and as few (C129). -/
namespace RichText

/-- How a line is chosen: `g` is its first glyph, `m` the first that overflows, the search for a break begins at `m'`. -/
structure LineChoice (e : LineEnv) (charIdx : List Nat) (widths : List Int) (isStart isBreak : Nat → Prop) (l : BrokenLine)
    (g m m' : Nat) : Prop where
  front : ∀ (k c : Nat), charIdx[k]? = some c → (c < l.first ↔ k < g)
  lo : g ≤ m
  hi : m ≤ charIdx.length
  fit : ∀ k, g < k → k ≤ m → e.linePos charIdx widths g k ≤ e.area
  over : m < charIdx.length → e.area < e.linePos charIdx widths g (m + 1)
  force : m' = m ∨ (m' = m + 1 ∧ m < charIdx.length ∧ e.linePos charIdx widths g m = 0)
  inside : e.start ≤ l.first
  alt : (isBreak (l.stop - e.start) ∧ l.first < l.stop ∧
      (∀ c, isStart c → breakFrom e charIdx m' ≤ e.start + c → e.start + c < l.stop → e.hangs c = true) ∧
      ∀ b, isBreak b → l.stop < e.start + b →
        ∃ c k, charIdx[m']? = some c ∧ c ≤ e.start + k ∧ k < b ∧ isStart k ∧ e.hangs k = false) ∨
    (∀ b, isBreak b → l.first < e.start + b →
      ∃ c k, charIdx[m']? = some c ∧ c ≤ e.start + k ∧ k < b ∧ isStart k ∧ e.hangs k = false)

theorem lineChoice {e : LineEnv} {charIdx : List Nat} {widths : List Int}
    {isStart isBreak : Nat → Prop} (hc : e.Codepoints isStart) (hb : e.Breaks isBreak)
    (hbs : ∀ b, isBreak b → b < e.length → isStart b)
    (hin : ∀ c ∈ charIdx, e.start ≤ c ∧ c < e.start + e.length ∧ isStart (c - e.start))
    (hs : charIdx.Pairwise (· ≤ ·)) (ho : e.TabsOnce isStart isBreak charIdx)
    (hgood : ∀ x ∈ charIdx.zip widths, e.Onward x) (hlen : widths.length = charIdx.length)
    {lines : List BrokenLine} (h : breakLines e charIdx e.length e.start widths = some lines) :
    ∀ l ∈ lines, ∃ g m m' : Nat, LineChoice e charIdx widths isStart isBreak l g m m' := by
  intro l hl
  obtain ⟨ws, hfirst, hlt, hbl, hag⟩ := breakLines_agrees hc hb hin hs ho h l hl
  obtain ⟨it⟩ := breakLine_iteration hbl
  obtain ⟨g, hg, hgl, hgs⟩ := search_spec hs l.first
  rw [it.search] at hg; cases hg
  have hfs := fitLine_spec _ _ _ _ rfl hgl it.fit
  obtain ⟨hfsf, hfit, hover⟩ := hfs.positions hlen
    (fun k c hk hck => hag k c (by have := hgs k c hck; omega) hck) hgood
  obtain ⟨hm1, hm2⟩ := forceGlyph_bounds hfs.hi
  refine ⟨it.g, it.f.glyph, forceGlyph charIdx.length it.f, hgs, hfs.lo, hfs.hi, hfit, hover, ?_, hfirst, ?_⟩
  · unfold forceGlyph
    split
    · rename_i hz; exact Or.inr ⟨rfl, hz.2, by rw [← hfsf]; exact hz.1⟩
    · exact Or.inl rfl
  · have hfrom : isStart (breakFrom e charIdx (forceGlyph charIdx.length it.f) - e.start) ∨
        e.length ≤ breakFrom e charIdx (forceGlyph charIdx.length it.f) - e.start := by
      unfold breakFrom
      cases hx : charIdx[forceGlyph charIdx.length it.f]? with
      | none => right; simp only; omega
      | some c => exact Or.inl (hin c (List.mem_of_getElem? hx)).2.2
    obtain ⟨p, hp, hcase⟩ := findPreviousLineBreak_spec hc _ _ rfl hfrom
    rw [it.prev] at hp
    cases hp
    obtain ⟨_, _, f3, f4⟩ := forceBreak_spec charIdx l.first _ (it.p + e.start) (forceGlyph charIdx.length it.f) rfl hm2
    -- an opportunity after the one that was found is behind a character that does not hang
    have hlater : ∀ b, isBreak b → it.p < b →
        ∃ c k, charIdx[forceGlyph charIdx.length it.f]? = some c ∧ c ≤ e.start + k ∧ k < b ∧ isStart k ∧ e.hangs k = false := by
      intro b hbb hbl
      rcases hcase with ⟨k, a1, a2, a3, a4, a5, a6⟩ | ⟨j, a1, a2, a3⟩
      · have hkb : k < b := by
          rcases Nat.lt_or_ge k b with hkb | hkb
          · exact hkb
          · obtain ⟨n1, _, _⟩ := hc.next k a3 a2
            rcases hb.preceding (e.next k) with ⟨b1, b2⟩ | ⟨b', b1, _, _, b4⟩
            · have := b2 b hbb; omega
            · have := b4 b hbb (by omega); omega
        unfold breakFrom at a1
        cases hx : charIdx[forceGlyph charIdx.length it.f]? with
        | none => simp only [hx] at a1; omega
        | some c =>
          simp only [hx] at a1
          exact ⟨c, k, rfl, by omega, hkb, a3, a4⟩
      · have hbl' := hb.inside b hbb
        rcases hb.preceding j with ⟨b1, b2⟩ | ⟨b', b1, _, _, b4⟩
        · have := b2 e.length hb.last; omega
        · have := b4 e.length hb.last (by omega); omega
    by_cases hple : (l.first : Int) < it.p + e.start
    · left
      have hstop : l.stop = (it.p + e.start).toNat := by
        rw [it.stop, f3 hple]; unfold lastBreak; simp only; rw [if_neg (by omega)]
      have hpb : ∃ b : Nat, it.p = b ∧ isBreak b ∧
          ∀ c, isStart c → breakFrom e charIdx (forceGlyph charIdx.length it.f) - e.start ≤ c → c < b →
            e.hangs c = true := by
        rcases hcase with ⟨k, a1, a2, a3, a4, a5, a6⟩ | ⟨j, a1, a2, a3⟩
        · rcases hb.preceding (e.next k) with ⟨b1, _⟩ | ⟨b, b1, b2, b3, _⟩
          · rw [b1] at a5; omega
          · refine ⟨b, by omega, b2, fun c hcs hc1 hc2 => a6 c hcs hc1 ?_⟩
            obtain ⟨n1, n2, _⟩ := hc.next k a3 a2
            have : b ≤ k := by
              rcases Nat.lt_or_ge k b with hkb | hkb
              · have := hc.gap k b a3 a2 (hbs b b2 (by omega)) hkb; omega
              · exact hkb
            omega
        · rcases hb.preceding j with ⟨b1, _⟩ | ⟨b, b1, b2, b3, _⟩
          · rw [b1] at a2; omega
          · have := hb.inside b b2
            exact ⟨b, by omega, b2, fun c hcs hc1 hc2 => a3 c hcs hc1 (by omega)⟩
      obtain ⟨b, hpb, hbb, hhang⟩ := hpb
      refine ⟨by rw [hstop, hpb]; rw [show ((b : Int) + e.start).toNat - e.start = b by omega]; exact hbb, by omega, ?_, ?_⟩
      · intro c hcs h1 h2
        exact hhang c hcs (by omega) (by omega)
      · intro b' hb' hlt'
        exact hlater b' hb' (by omega)
    · right
      intro b hbb hbl
      exact hlater b hbb (by omega)

/-- A range that fits does not reach past a character at or after the glyph from which the search begins. -/
theorem LineChoice.no_fit {e : LineEnv} {charIdx : List Nat} {widths : List Int} {isStart isBreak : Nat → Prop}
    {l : BrokenLine} {g m m' : Nat} (hl : LineChoice e charIdx widths isStart isBreak l g m m')
    (hs : charIdx.Pairwise (· ≤ ·)) (hgood : ∀ x ∈ charIdx.zip widths, e.Onward x)
    {b c k : Nat} (hfit : e.FitsIn isStart charIdx widths l.first (e.start + b)) (hc : charIdx[m']? = some c)
    (hck : c ≤ e.start + k) (hk : k < b) (hst : isStart k) (hv : e.hangs k = false) : False := by
  obtain ⟨v, hv1, hv2, hv3⟩ := hfit
  have hkv : e.start + k < v := by
    rcases Nat.lt_or_ge (e.start + k) v with h | h
    · exact h
    · have := hv2 k hst h (by omega)
      rw [hv] at this
      exact absurd this (by decide)
  obtain ⟨h, hh, hhl, hhs⟩ := search_spec hs v
  have h1 : m' < h := (hhs m' c hc).mp (by omega)
  have hm' : m' < charIdx.length := (List.getElem?_eq_some_iff.1 hc).1
  have hmm : m ≤ m' := by rcases hl.force with h | h <;> omega
  have e1 : e.widthBetween charIdx widths l.first v = e.linePos charIdx widths g h := by
    refine widthBetween_eq ?_
    intro k c hkc
    have := hl.front k c hkc
    have := hhs k c hkc
    omega
  have h2 := hl.over (by omega)
  have h3 := linePos_mono hgood (g := g) (k := m + 1) (k' := h) (by omega)
  omega

theorem LineEnv.FitsIn.tail {e : LineEnv} {isStart : Nat → Prop} {charIdx : List Nat} {widths : List Int}
    (hgood : ∀ x ∈ charIdx.zip widths, e.Onward x) {p p' q : Nat} (h : e.FitsIn isStart charIdx widths p q) (hp : p ≤ p') :
    e.FitsIn isStart charIdx widths p' q := by
  obtain ⟨v, h1, h2, h3⟩ := h
  exact ⟨v, h1, h2, Int.le_trans (widthBetween_mono hgood hp (Nat.le_refl _)) h3⟩

/-! ## C129 -/

/-- No line could be longer: if the text from the start of a line up to an opportunity fits, the line reaches at least up to
there. -/
theorem C129_greedy (e : LineEnv) (charIdx : List Nat) (widths : List Int)
    (isStart isBreak : Nat → Prop) (hc : e.Codepoints isStart) (hb : e.Breaks isBreak)
    (hbs : ∀ b, isBreak b → b < e.length → isStart b)
    (hin : ∀ c ∈ charIdx, e.start ≤ c ∧ c < e.start + e.length ∧ isStart (c - e.start))
    (hs : charIdx.Pairwise (· ≤ ·)) (ht : e.TabsForward charIdx widths) (ho : e.TabsOnce isStart isBreak charIdx)
    (hw : ∀ w ∈ widths, 0 ≤ w) (hlen : widths.length = charIdx.length)
    (lines : List BrokenLine) (h : breakLines e charIdx e.length e.start widths = some lines) :
    ∀ l ∈ lines, ∀ b, isBreak b → l.first < e.start + b →
      e.FitsIn isStart charIdx widths l.first (e.start + b) → e.start + b ≤ l.stop := by
  intro l hl b hbb hlt hfit
  obtain ⟨g, m, m', hch⟩ := lineChoice hc hb hbs hin hs ho (onward_of hw ht) hlen h l hl
  rcases hch.alt with ⟨_, _, _, hlater⟩ | hno
  · rcases Nat.lt_or_ge l.stop (e.start + b) with hlt' | hge
    · obtain ⟨c, k, a1, a2, a3, a4, a5⟩ := hlater b hbb hlt'
      exact (hch.no_fit hs (onward_of hw ht) hfit a1 a2 a3 a4 a5).elim
    · exact hge
  · obtain ⟨c, k, a1, a2, a3, a4, a5⟩ := hno b hbb hlt
    exact (hch.no_fit hs (onward_of hw ht) hfit a1 a2 a3 a4 a5).elim

theorem parts_le {e : Nat} : ∀ {l : List (Nat × Nat)} {s : Nat}, Consecutive e s l → s ≤ e
  | [], _, h => Nat.le_of_eq h
  | (_, _) :: _, _, ⟨h1, h2, h3⟩ => by have := parts_le h3; omega

theorem fewest_aux {e : LineEnv} {isStart : Nat → Prop} {charIdx : List Nat} {widths : List Int} {isBreak : Nat → Prop}
    (hgood : ∀ x ∈ charIdx.zip widths, e.Onward x) :
    ∀ (parts : List (Nat × Nat)) (p s : Nat) (lines : List BrokenLine), p ≤ s → e.start ≤ p →
    Consecutive (e.start + e.length) p parts →
    (∀ r ∈ parts, isBreak (r.2 - e.start) ∧ e.FitsIn isStart charIdx widths r.1 r.2) →
    Consecutive (e.start + e.length) s (lineRanges lines) →
    (∀ l ∈ lines, ∀ b, isBreak b → l.first < e.start + b →
      e.FitsIn isStart charIdx widths l.first (e.start + b) → e.start + b ≤ l.stop) →
    lines.length ≤ parts.length := by
  intro parts
  induction parts with
  | nil =>
    intro p s lines hps _ hp _ hl _
    cases lines with
    | nil => exact Nat.le_refl _
    | cons l ls =>
      obtain ⟨h1, h2, h3⟩ := hl
      have := (parts_le h3)
      have : p = e.start + e.length := hp
      omega
  | cons r t ih =>
    intro p s lines hps hep hp hr hl hg
    obtain ⟨h1, h2, h3⟩ := hp
    obtain ⟨hr1, hr2⟩ := hr r (List.mem_cons_self ..)
    have ht := fun r' h' => hr r' (List.mem_cons_of_mem _ h')
    rcases Nat.lt_or_ge s r.2 with hlt | hge
    · cases lines with
      | nil => exact Nat.zero_le _
      | cons l ls =>
        obtain ⟨g1, g2, g3⟩ := hl
        have er : e.start + (r.2 - e.start) = r.2 := by omega
        have hle := hg l (List.mem_cons_self ..) (r.2 - e.start) hr1 (by omega) (by rw [er]; exact hr2.tail hgood (by omega))
        have := ih r.2 l.stop ls (by omega) (by omega) h3 ht g3 fun l' h' => hg l' (List.mem_cons_of_mem _ h')
        simpa using this
    · have := ih r.2 s lines hge (by omega) h3 ht hl hg
      simp only [List.length_cons]
      omega

/-- There is no way to break the paragraph at opportunities into fewer lines that fit. -/
theorem C129_fewest (e : LineEnv) (charIdx : List Nat) (widths : List Int)
    (isStart isBreak : Nat → Prop) (hc : e.Codepoints isStart) (hb : e.Breaks isBreak)
    (hbs : ∀ b, isBreak b → b < e.length → isStart b)
    (hin : ∀ c ∈ charIdx, e.start ≤ c ∧ c < e.start + e.length ∧ isStart (c - e.start))
    (hs : charIdx.Pairwise (· ≤ ·)) (ht : e.TabsForward charIdx widths) (ho : e.TabsOnce isStart isBreak charIdx)
    (hw : ∀ w ∈ widths, 0 ≤ w) (hlen : widths.length = charIdx.length)
    (lines : List BrokenLine) (h : breakLines e charIdx e.length e.start widths = some lines)
    (parts : List (Nat × Nat)) (hp : Consecutive (e.start + e.length) e.start parts)
    (hfit : ∀ r ∈ parts, isBreak (r.2 - e.start) ∧ e.FitsIn isStart charIdx widths r.1 r.2) :
    lines.length ≤ parts.length := by
  have hbi : e.BreaksInside := by
    intro i
    rcases hb.preceding i with ⟨h1, _⟩ | ⟨b, h1, h2, _⟩
    · omega
    · have := hb.inside b h2; omega
  refine fewest_aux (isBreak := isBreak) (onward_of hw ht) parts e.start e.start lines (Nat.le_refl _) (Nat.le_refl _) hp hfit ?_
    (C129_greedy e charIdx widths isStart isBreak hc hb hbs hin hs ht ho hw hlen lines h)
  exact (breakLines_consecutive hbi (fun c hc => ⟨(hin c hc).1, (hin c hc).2.1⟩) _ _ _ _ (by omega) h).1

theorem parts_find {e : Nat} : ∀ {l : List (Nat × Nat)} {s : Nat}, Consecutive e s l → ∀ x, s ≤ x → x < e →
    ∃ r ∈ l, r.1 ≤ x ∧ x < r.2
  | [], s, h, x, h1, h2 => by have : s = e := h; omega
  | (a, b) :: t, s, ⟨h1, h2, h3⟩, x, g1, g2 => by
    rcases Nat.lt_or_ge x b with hx | hx
    · exact ⟨(a, b), List.mem_cons_self .., by show a ≤ x; omega, hx⟩
    · obtain ⟨r, hr, hr'⟩ := parts_find h3 x hx g2
      exact ⟨r, List.mem_cons_of_mem _ hr, hr'⟩

theorem parts_ge {e : Nat} : ∀ {l : List (Nat × Nat)} {s : Nat}, Consecutive e s l → ∀ r ∈ l, s ≤ r.1 ∧ r.1 < r.2 ∧ r.2 ≤ e
  | [], _, _, _, hr => nomatch hr
  | (a, b) :: t, s, ⟨h1, h2, h3⟩, r, hr => by
    rcases List.mem_cons.mp hr with rfl | hr
    · exact ⟨by show s ≤ a; omega, h2, (parts_le h3)⟩
    · have := parts_ge h3 r hr
      exact ⟨by omega, this.2⟩

/-- If the paragraph can be broken at opportunities into lines that fit, then it is: every line ends at an opportunity, and
fits.  No opportunity is inside the characters of one glyph. -/
theorem C129_fits (e : LineEnv) (charIdx : List Nat) (widths : List Int)
    (isStart isBreak : Nat → Prop) (hc : e.Codepoints isStart) (hb : e.Breaks isBreak)
    (hbs : ∀ b, isBreak b → b < e.length → isStart b)
    (hin : ∀ c ∈ charIdx, e.start ≤ c ∧ c < e.start + e.length ∧ isStart (c - e.start))
    (hs : charIdx.Pairwise (· ≤ ·)) (ht : e.TabsForward charIdx widths) (ho : e.TabsOnce isStart isBreak charIdx)
    (hw : ∀ w ∈ widths, 0 ≤ w) (hlen : widths.length = charIdx.length)
    (hcl : ∀ b, isBreak b → b < e.length → e.start + b ∈ charIdx)
    (lines : List BrokenLine) (h : breakLines e charIdx e.length e.start widths = some lines)
    (parts : List (Nat × Nat)) (hp : Consecutive (e.start + e.length) e.start parts)
    (hfit : ∀ r ∈ parts, isBreak (r.2 - e.start) ∧ e.FitsIn isStart charIdx widths r.1 r.2) :
    ∀ l ∈ lines, isBreak (l.stop - e.start) ∧ e.FitsIn isStart charIdx widths l.first l.stop := by
  have hbi : e.BreaksInside := by
    intro i
    rcases hb.preceding i with ⟨h1, _⟩ | ⟨b, h1, h2, _⟩
    · omega
    · have := hb.inside b h2; omega
  have hgood := onward_of hw ht
  intro l hl
  have hcons := (breakLines_consecutive hbi (fun c hc => ⟨(hin c hc).1, (hin c hc).2.1⟩) _ _ _ _ (by omega) h).1
  have hlr := parts_ge hcons (l.first, l.stop) (List.mem_map.mpr ⟨l, hl, rfl⟩)
  dsimp only at hlr
  obtain ⟨g, m, m', hch⟩ := lineChoice hc hb hbs hin hs ho (onward_of hw ht) hlen h l hl
  -- the part in which the line starts
  obtain ⟨r0, hr0, hr0a, hr0b⟩ := parts_find hp l.first hlr.1 (by omega)
  have hr0f := (hfit r0 hr0).2.tail hgood hr0a
  have harea : 0 ≤ e.area := by
    obtain ⟨v, _, _, hv⟩ := hr0f
    have := widthBetween_nonneg hgood l.first v
    omega
  rcases hch.alt with ⟨a1, a2, a3, _⟩ | hno
  · refine ⟨a1, ?_⟩
    have hwm : ∀ v, (∀ (k c : Nat), charIdx[k]? = some c → c < v → k < m) → e.widthBetween charIdx widths l.first v ≤ e.area := by
      intro v hv
      obtain ⟨x, _, _, hxs⟩ := search_spec hs v
      have e1 : e.widthBetween charIdx widths l.first v = e.linePos charIdx widths g (min x m) := by
        refine widthBetween_eq ?_
        intro k c hkc
        have := hch.front k c hkc
        have := hxs k c hkc
        have := hv k c hkc
        omega
      rw [e1]
      by_cases hgx : g < min x m
      · exact hch.fit _ hgx (by omega)
      · rw [linePos_empty _ _ _ (by omega)]
        exact harea
    rcases hch.force with hm | ⟨hm, hml, hm0⟩
    · -- up to the first glyph that overflows
      rw [hm] at a3
      refine ⟨min (breakFrom e charIdx m) l.stop, by omega, fun c hcs h1 h2 => a3 c hcs (by omega) h2, hwm _ ?_⟩
      intro k c hkc hlt
      rcases Nat.lt_or_ge k m with hkm | hkm
      · exact hkm
      · exfalso
        obtain ⟨hkl, hke⟩ := List.getElem?_eq_some_iff.1 hkc
        have hml : m < charIdx.length := by omega
        unfold breakFrom at hlt
        rw [List.getElem?_eq_getElem hml] at hlt
        simp only at hlt
        rcases Nat.lt_or_ge m k with h' | h'
        · have := List.pairwise_iff_getElem.1 hs _ _ hml hkl h'; omega
        · have : k = m := by omega
          subst this; omega
    · -- one glyph that is wider than the area: it hangs in the other division
      rw [hm] at a3
      obtain ⟨c, hcm⟩ : ∃ c, charIdx[m]? = some c := ⟨_, List.getElem?_eq_getElem hml⟩
      have hov := hch.over hml
      have hcin := hin c (List.mem_of_getElem? hcm)
      have hcf : l.first ≤ c := by
        have := hch.front m c hcm
        have := hch.lo
        omega
      obtain ⟨r, hr, hra, hrb⟩ := parts_find hp c (by omega) hcin.2.1
      obtain ⟨hrbr, v, hv1, hv2, hv3⟩ := hfit r hr
      have hrr := parts_ge hp r hr
      -- the glyph is not in the part that counts
      have hvc : v ≤ c := by
        rcases Nat.lt_or_ge c v with hlt | hge
        · exfalso
          obtain ⟨x, _, _, hxs⟩ := search_spec hs v
          obtain ⟨y, _, _, hys⟩ := search_spec hs r.1
          have e1 : e.widthBetween charIdx widths r.1 v = e.linePos charIdx widths y x := by
            refine widthBetween_eq ?_
            intro k c' hkc
            have := hys k c' hkc
            have := hxs k c' hkc
            omega
          have h1 : m < x := (hxs m c hcm).mp hlt
          have h2 : y ≤ m := by
            have := hys m c hcm
            omega
          have h3 := linePos_mono hgood (g := y) (k := m + 1) (k' := x) (by omega)
          obtain ⟨w, hwm⟩ : ∃ w, widths[m]? = some w := ⟨_, List.getElem?_eq_getElem (by omega)⟩
          have hon := hgood (c, w) (List.mem_of_getElem? (i := m) (by rw [List.getElem?_zip_eq_some]; exact ⟨hcm, hwm⟩))
          have h4 := linePos_succ e hcm hwm h2
          have h5 := linePos_succ e hcm hwm hch.lo
          rw [hm0] at h5
          have h6 := advance_mono hon (linePos_nonneg hgood y m)
          omega
        · exact hge
      -- the end of that part is not inside the glyph
      have hend : breakFrom e charIdx (m + 1) ≤ r.2 := by
        rcases Nat.lt_or_ge (r.2 - e.start) e.length with hlt | hge
        · have hmem := hcl _ hrbr hlt
          rw [show e.start + (r.2 - e.start) = r.2 by omega] at hmem
          obtain ⟨k, hk⟩ := List.getElem?_of_mem hmem
          obtain ⟨hkl, hke⟩ := List.getElem?_eq_some_iff.1 hk
          obtain ⟨hml', hme⟩ := List.getElem?_eq_some_iff.1 hcm
          have hkm : m + 1 ≤ k := by
            rcases Nat.lt_or_ge m k with h' | h'
            · exact h'
            · rcases Nat.lt_or_ge k m with h'' | h''
              · have := List.pairwise_iff_getElem.1 hs _ _ hkl hml' h''; omega
              · have : k = m := by omega
                subst this; omega
          unfold breakFrom
          rw [List.getElem?_eq_getElem (by omega)]
          simp only
          rcases Nat.lt_or_ge (m + 1) k with h' | h'
          · have := List.pairwise_iff_getElem.1 hs _ _ (by omega) hkl h'; omega
          · have : k = m + 1 := by omega
            subst this; omega
        · unfold breakFrom
          split
          · omega
          · rename_i hx
            have := (hin _ (List.mem_of_getElem? hx)).2.1
            omega
      refine ⟨min c l.stop, by omega, ?_, ?_⟩
      · intro c' hcs h1 h2
        rcases Nat.lt_or_ge (e.start + c') (breakFrom e charIdx (m + 1)) with hlt | hge
        · exact hv2 c' hcs (by omega) (by omega)
        · exact a3 c' hcs hge h2
      · refine hwm _ fun k c' hkc hlt => ?_
        rcases Nat.lt_or_ge k m with hkm | hkm
        · exact hkm
        · exfalso
          obtain ⟨hkl, hke⟩ := List.getElem?_eq_some_iff.1 hkc
          obtain ⟨hml', hme⟩ := List.getElem?_eq_some_iff.1 hcm
          rcases Nat.lt_or_ge m k with h' | h'
          · have := List.pairwise_iff_getElem.1 hs _ _ hml' hkl h'; omega
          · have : k = m := by omega
            subst this; omega
  · exfalso
    have er : e.start + (r0.2 - e.start) = r0.2 := by omega
    obtain ⟨c, k, b1, b2, b3, b4, b5⟩ := hno (r0.2 - e.start) (hfit r0 hr0).1 (by omega)
    exact hch.no_fit hs (onward_of hw ht) (by rw [er]; exact hr0f) b1 b2 b3 b4 b5

/-- The sample paragraph, two glyphs wide: "ab " fits since the blank hangs, "ab cd" does not. -/
example : (sampleLine 128).FitsIn (fun _ => True) [10, 11, 12, 13, 14] [64, 64, 64, 64, 64] 10 13 ∧
    (sampleLine 128).FitsIn (fun _ => True) [10, 11, 12, 13, 14] [64, 64, 64, 64, 64] 13 15 ∧
    ¬ (sampleLine 128).FitsIn (fun _ => True) [10, 11, 12, 13, 14] [64, 64, 64, 64, 64] 10 15 := by
  refine ⟨⟨12, by decide, fun c _ h1 h2 => ?_, by decide +kernel⟩, ⟨15, by decide, fun c _ h1 h2 => ?_, by decide +kernel⟩, ?_⟩
  · simp only [sampleLine] at h1 h2 ⊢
    have : c = 2 := by omega
    rw [this]; rfl
  · simp only [sampleLine] at h1 h2; omega
  · rintro ⟨v, h1, h2, h3⟩
    have hv : 15 ≤ v := by
      rcases Nat.lt_or_ge v 15 with h | h
      · have := h2 4 trivial (by simp only [sampleLine]; omega) (by simp [sampleLine])
        exact absurd this (by decide)
      · exact h
    have : v = 15 := by omega
    subst this
    exact absurd h3 (by decide +kernel)
example : (breakLines (sampleLine 128) [10, 11, 12, 13, 14] 5 10 [64, 64, 64, 64, 64]).map lineRanges
    = some [(10, 13), (13, 15)] := by decide +kernel

/-! ### Paragraphs -/

variable {β φ : Type _}

/-- The call ends a line. -/
def LayoutOp.endsLine : LayoutOp φ → Bool
  | .line _ _ => true
  | _ => false

theorem visualRuns_noLine {b : Shaped φ} {ws : List Int} {v : Bool} : ∀ {ps : List VisualPiece} {w : Int} {ops : List (LayoutOp φ)},
    visualRuns b ws v ps w = some ops → ops.countP (·.endsLine) = 0
  | [], _, _, h => by cases h; rfl
  | p :: t, w, ops, h => by
    unfold visualRuns at h
    split at h
    · cases h
    · rename_i r hr
      simp only [Option.map_eq_some_iff] at h
      obtain ⟨z, hz, rfl⟩ := h
      have hr1 : r.1.endsLine = false := by
        unfold visualRun at hr
        split at hr
        · split at hr
          · cases hr; rfl
          · cases hr
        · cases hr
      rw [List.countP_cons_of_neg (by simp [hr1])]
      exact visualRuns_noLine hz

theorem linesOps_count {e : ParaEnv β φ} {b : Shaped φ} : ∀ {ls : List BrokenLine} {r : List (LayoutOp φ) × List VisualPiece},
    linesOps e b ls = some r → r.1.countP (·.endsLine) = ls.length
  | [], _, h => by cases h; rfl
  | l :: t, r, h => by
    unfold linesOps at h
    split at h
    · rename_i x y hx hy
      cases h
      unfold lineOps at hx
      simp only [Option.bind_eq_some_iff, Option.map_eq_some_iff] at hx
      obtain ⟨ps, _, ops, h2, m, _, rfl⟩ := hx
      dsimp only
      rw [List.countP_append, List.countP_append, visualRuns_noLine h2, linesOps_count hy]
      simp [LayoutOp.endsLine]
      omega
    · cases h

/-- A paragraph gets as few lines as possible, for a text area of any width: there is no way to break it at
opportunities into fewer lines that fit.  The widths are those of the shaped paragraph `b`; that they are not negative follows from
`Forward`. -/
theorem C129_paragraph {e : ParaEnv β φ} {calls : List (Nat × β)} (h : e.OK calls) (hF : e.Forward)
    {starts : Nat → Prop} (hK : e.Clusters starts) (harea : e.line.area ≠ 0)
    {isStart isBreak : Nat → Prop} (hc : e.line.Codepoints isStart) (hb : e.line.Breaks isBreak)
    (hbs : ∀ b, isBreak b → b < e.line.length → isStart b) {b : Shaped φ} (hsh : shapeParagraph e calls = some b)
    (hcp : ∀ c ∈ b.charIdx, isStart (c - e.line.start)) (ho : e.line.TabsOnce isStart isBreak b.charIdx) (runCount : Nat)
    (parts : List (Nat × Nat))
    (hp : Consecutive (e.line.start + e.line.length) e.line.start parts)
    (hfit : ∀ r ∈ parts, isBreak (r.2 - e.line.start) ∧ e.line.FitsIn isStart b.charIdx b.widths r.1 r.2) :
    ∃ ops hi total lines, buildParagraph e calls runCount = some (ops, hi, total) ∧
      ops.countP (·.endsLine) ≤ parts.length ∧
      paragraphLines e.line b.charIdx b.widths = some lines ∧ ops.countP (·.endsLine) = lines.length ∧
      ∀ l ∈ lines, isBreak (l.stop - e.line.start) ∧ e.line.FitsIn isStart b.charIdx b.widths l.first l.stop := by
  obtain ⟨b', qs, h1, h2, _⟩ := shapeParagraph_spec h.contract h.calls (by have := h.nonempty; omega)
  rw [hsh] at h1
  cases h1
  obtain ⟨hw, hst, _⟩ := shapeParagraph_dense h hF hK hsh
  have hin : ∀ c ∈ b.charIdx, e.line.start ≤ c ∧ c < e.line.start + e.line.length := by
    intro c hcm
    obtain ⟨i, hi⟩ := List.getElem?_of_mem hcm
    exact h2.char_inside hi
  have hlen : b.widths.length = b.charIdx.length := by rw [h2.widths, h2.charIdx]
  obtain ⟨lines, hl⟩ := C28_defined e.line b.charIdx b.widths h.breaks h.decodes hin hlen
    (h.tabs.imp (fun h' c _ => h' c) fun h' => h'.imp id fun h' => shapeParagraph_scaled h' hsh)
  have ht : e.line.TabsForward b.charIdx b.widths := hF.tabs.imp id fun h' => h'.imp id fun h' => shapeParagraph_scaled h' hsh
  have hl' := hl
  unfold paragraphLines at hl'
  rw [if_neg harea] at hl'
  have hcons := C28_partition e.line b.charIdx b.widths h.breaks hin h.nonempty lines hl
  have hlw : ∀ l ∈ lines, l.widths.length = b.glyphs.length :=
    fun l hlm => by rw [paragraphLines_widths h.breaks hin hl l hlm, h2.widths]
  obtain ⟨ops, ps, idx, g1, _, _⟩ := linesOps_spec (e := e) h2 lines e.line.start (Nat.le_refl _) hcons hlw fun l hlm => by
    have := parts_ge hcons (l.first, l.stop) (List.mem_map.mpr ⟨l, hlm, rfl⟩)
    exact h.bidi _ _ this.1 this.2.1 this.2.2
  have hcount := linesOps_count g1
  dsimp only at hcount
  have hcl : ∀ k, isBreak k → k < e.line.length → e.line.start + k ∈ b.charIdx := by
    intro k hk hkl
    refine hst _ (by omega) (by omega) ?_
    rcases hb.preceding (k + 1) with ⟨_, x2⟩ | ⟨k', x1, _, x3, x4⟩
    · have := x2 k hk; omega
    · have := x4 k hk (by omega)
      obtain rfl : k' = k := by omega
      exact hK.breaks _ _ x1
  have hin' := fun c hcm => (⟨(hin c hcm).1, (hin c hcm).2, hcp c hcm⟩ : _ ∧ _ ∧ _)
  refine ⟨ops, (highest ps.flatten runCount (0, -2147483648)).1, runCount + ps.flatten.length, lines, ?_, ?_, hl, hcount, ?_⟩
  · unfold buildParagraph
    rw [hsh, Option.bind_some, hl, Option.bind_some, g1]
    rfl
  · rw [hcount]
    exact C129_fewest e.line b.charIdx b.widths isStart isBreak hc hb hbs hin' h2.sorted ht ho hw hlen lines hl' parts hp hfit
  · exact C129_fits e.line b.charIdx b.widths isStart isBreak hc hb hbs hin' h2.sorted ht ho hw hlen hcl lines hl' parts hp hfit

/-- Six characters of one pixel each, breaks everywhere, in an area of two pixels. -/
def tightEnv : ParaEnv (Nat × Bool) Nat :=
  { demoEnv 3 6 (fun s t => [⟨s, t - s, 0⟩]) with line := { (demoEnv 3 6 (fun s t => [⟨s, t - s, 0⟩])).line with area := 128 } }

theorem tightEnv_ok : tightEnv.OK [(9, (0, false))] := by
  have h := demoEnv_ok 3 6 (fun s t => [⟨s, t - s, 0⟩]) [(9, (0, false))] (by omega) ⟨by decide, rfl⟩ fun s t h1 h2 h3 =>
    Partition.single (by simp [BidiRun.range]; omega) h2
  exact ⟨h.nonempty, h.contract, h.calls, h.breaks, h.decodes, Or.inl fun _ => rfl, h.bidi⟩

/-- All conditions of `C129_paragraph` are met by it, with the opportunities at every character and lines of two characters. -/
example : tightEnv.Forward ∧ (∃ starts, tightEnv.Clusters starts) ∧ tightEnv.line.Codepoints (fun _ => True) ∧
    tightEnv.line.Breaks (· ≤ 6) ∧ ∃ b, shapeParagraph tightEnv [(9, (0, false))] = some b ∧
      ∀ r ∈ [(3, 5), (5, 7), (7, 9)], r.2 - 3 ≤ 6 ∧ tightEnv.line.FitsIn (fun _ => True) b.charIdx b.widths r.1 r.2 := by
  obtain ⟨hF, starts, hK⟩ := demoEnv_placed 3 6 (fun s t => [⟨s, t - s, 0⟩])
  have hsh : (shapeParagraph tightEnv [(9, (0, false))]).map (fun b => (b.charIdx, b.widths)) =
      some ([3, 4, 5, 6, 7, 8], [64, 64, 64, 64, 64, 64]) := by decide +kernel
  obtain ⟨b, hb, hbe⟩ := Option.map_eq_some_iff.1 hsh
  refine ⟨⟨hF.horizontal, hF.step, hF.last, Or.inl fun _ => rfl⟩, ⟨starts, hK.glyph, hK.breaks, hK.bidi⟩,
    ⟨fun i _ hi => ⟨Nat.lt_succ_self _, hi, fun _ => trivial⟩, fun i j _ _ _ h => h⟩,
    ⟨fun i hi => hi, Nat.le_refl _, fun i => ?_⟩, b, hb, ?_⟩
  · have he : tightEnv.line.preceding i = if i ≤ 6 then (i : Int) - 1 else 6 := rfl
    rw [he]
    by_cases hi : i ≤ 6
    · rw [if_pos hi]
      by_cases h0 : i = 0
      · exact Or.inl ⟨by omega, fun b _ => by omega⟩
      · exact Or.inr ⟨i - 1, by omega, by show i - 1 ≤ 6; omega, by omega, fun b _ hb => by omega⟩
    · rw [if_neg hi]
      exact Or.inr ⟨6, rfl, Nat.le_refl _, by omega, fun b hb _ => hb⟩
  · have h1 : b.charIdx = [3, 4, 5, 6, 7, 8] := congrArg Prod.fst hbe
    have h2 : b.widths = [64, 64, 64, 64, 64, 64] := congrArg Prod.snd hbe
    rw [h1, h2]
    intro r hr
    refine ⟨?_, r.2, Nat.le_refl _, fun c _ h1 h2 => by omega, ?_⟩
    · revert r; decide
    · revert r; decide +kernel

/-! ### Text with tabs -/

/-- "aaaa b", tab, and a last character, each a pixel wide, tab stops every four blanks, in an area of eight pixels; there is an
opportunity behind the blank, and behind the tab if `after`.  (There is none behind a tab in front of a closing bracket, an
exclamation mark or a comma.) -/
def tabText (after : Bool) : ParaEnv (Nat × Bool) Nat :=
  { tabbedEnv 0 8 (· == 6) (fun s t => [⟨s, t - s, 0⟩]) with
    line := { (tabbedEnv 0 8 (· == 6) (fun s t => [⟨s, t - s, 0⟩])).line with
      area := 512
      tabWidth := 256
      hangs := fun i => i == 4 || i == 6
      preceding := fun i => if i = 0 then -1 else if i ≤ 5 then 0 else if after = true ∧ i = 8 then 7 else if i ≤ 8 then 5 else 8 } }

/-- Its opportunities. -/
def tabTextBreak (after : Bool) (b : Nat) : Prop := b = 0 ∨ b = 5 ∨ (after = true ∧ b = 7) ∨ b = 8

theorem tabText_breaks (after : Bool) : (tabText after).line.Breaks (tabTextBreak after) := by
  refine ⟨?_, Or.inr (Or.inr (Or.inr rfl)), ?_⟩
  · rintro i (h | h | h | h) <;> show i ≤ 8 <;> omega
  · intro i
    have he : (tabText after).line.preceding i =
      if i = 0 then -1 else if i ≤ 5 then 0 else if after = true ∧ i = 8 then 7 else if i ≤ 8 then 5 else 8 := rfl
    rw [he]
    unfold tabTextBreak
    by_cases h0 : i = 0
    · rw [if_pos h0]; exact Or.inl ⟨rfl, fun b _ => by omega⟩
    · rw [if_neg h0]
      by_cases h5 : i ≤ 5
      · rw [if_pos h5]; exact Or.inr ⟨0, rfl, Or.inl rfl, by omega, by rintro b (h | h | h | h) hb <;> omega⟩
      · rw [if_neg h5]
        by_cases h8 : after = true ∧ i = 8
        · rw [if_pos h8]; exact Or.inr ⟨7, rfl, Or.inr (Or.inr (Or.inl ⟨h8.1, rfl⟩)), by omega, fun b _ hb => by omega⟩
        · rw [if_neg h8]
          by_cases h9 : i ≤ 8
          · rw [if_pos h9]
            refine Or.inr ⟨5, rfl, Or.inr (Or.inl rfl), by omega, ?_⟩
            rintro b (h | h | h | h) hb
            · omega
            · omega
            · exact absurd ⟨h.1, by omega⟩ h8
            · omega
          · rw [if_neg h9]; exact Or.inr ⟨8, rfl, Or.inr (Or.inr (Or.inr rfl)), by omega, by rintro b (h | h | h | h) hb <;> omega⟩

theorem tabText_ok (after : Bool) : (tabText after).OK [(8, (0, false))] ∧ (tabText after).Forward ∧
    (∃ starts, (tabText after).Clusters starts) ∧ (tabText after).line.Codepoints fun _ => True := by
  obtain ⟨h1, h2⟩ := tabbedEnv_ok 0 8 (· == 6) (fun s t => [⟨s, t - s, 0⟩]) [(8, (0, false))] (by decide) ⟨by decide, rfl⟩
    fun s t h1 h2 h3 => Partition.single (by simp [BidiRun.range]; omega) h2
  obtain ⟨_, starts, hK⟩ := demoEnv_placed 0 8 (fun s t => [⟨s, t - s, 0⟩])
  have hs : (tabbedEnv 0 8 (· == 6) (fun s t => [⟨s, t - s, 0⟩])).TabsScaled := by
    rcases h1.tabs with h | h | h
    · exact absurd (h 6) (by decide)
    · exact absurd h.1 (by decide)
    · exact h
  have hs' : (tabText after).TabsScaled := ⟨rfl, show (64 : Int) ≤ 256 by decide, hs.2.2⟩
  refine ⟨⟨h1.nonempty, h1.contract, h1.calls, ?_, h1.decodes, Or.inr (Or.inr hs'), h1.bidi⟩,
    ⟨rfl, h2.step, h2.last, Or.inr (Or.inr hs')⟩, ⟨starts, hK.glyph, ?_, hK.bidi⟩,
    fun i _ hi => ⟨Nat.lt_succ_self _, hi, fun _ => trivial⟩, fun i j _ _ _ h => h⟩
  · intro i
    rcases (tabText_breaks after).preceding i with ⟨h, _⟩ | ⟨b, h, hb, _⟩
    · rw [h]; show (-1 : Int) ≤ ((8 : Nat) : Int); decide
    · have := (tabText_breaks after).inside b hb; omega
  · intro j b hj
    refine hK.breaks (b + 1) b ?_
    have hb : b ≤ 8 := by
      rcases (tabText_breaks after).preceding j with ⟨h, _⟩ | ⟨b', h, hb', _⟩
      · rw [hj] at h; omega
      · have := (tabText_breaks after).inside b' hb'
        have : b' ≤ 8 := this
        rw [hj] at h; omega
    show (if b + 1 ≤ 8 then ((b + 1 : Nat) : Int) - 1 else ((8 : Nat) : Int)) = b
    split <;> omega

/-- With the opportunity behind the tab, `TabsOnce` holds. -/
theorem tabText_once : (tabText true).line.TabsOnce (fun _ => True) (tabTextBreak true) [0, 1, 2, 3, 4, 5, 6, 7] := by
  refine fun _ => ⟨fun c _ h => ⟨7, Or.inr (Or.inr (Or.inl ⟨rfl, rfl⟩)), ?_, ?_⟩, ?_⟩
  · have h : (c == 6) = true := h
    have : c = 6 := by simpa using h
    show c < 0 + 7
    omega
  · intro k _ h1 h2
    have h : (c == 6) = true := h
    have : c = 6 := by simpa using h
    have h1 : c ≤ 0 + k := h1
    obtain rfl : k = 6 := by omega
    rfl
  · intro k c t h1 h2 _
    have hk : k < 8 := (List.getElem?_eq_some_iff.1 h1).1
    exfalso
    have key : ∀ k < 8, ([0, 1, 2, 3, 4, 5, 6, 7] : List Nat)[k]? ≠ [0, 1, 2, 3, 4, 5, 6, 7][k + 1]? := by decide
    exact key k hk (by rw [h1, h2])

/-- All conditions of `C129_paragraph` are met by it, with the division behind the blank: the tab ends at four pixels on the
second line, not at eight. -/
example : ∃ b, shapeParagraph (tabText true) [(8, (0, false))] = some b ∧
    (tabText true).line.TabsOnce (fun _ => True) (tabTextBreak true) b.charIdx ∧
    ∀ r ∈ [(0, 5), (5, 8)], tabTextBreak true (r.2 - 0) ∧
      (tabText true).line.FitsIn (fun _ => True) b.charIdx b.widths r.1 r.2 := by
  have hsh : (shapeParagraph (tabText true) [(8, (0, false))]).map (fun b => (b.charIdx, b.widths)) =
      some ([0, 1, 2, 3, 4, 5, 6, 7], [64, 64, 64, 64, 64, 64, 64, 64]) := by decide +kernel
  obtain ⟨b, hb, hbe⟩ := Option.map_eq_some_iff.1 hsh
  have h1 : b.charIdx = [0, 1, 2, 3, 4, 5, 6, 7] := congrArg Prod.fst hbe
  have h2 : b.widths = [64, 64, 64, 64, 64, 64, 64, 64] := congrArg Prod.snd hbe
  refine ⟨b, hb, by rw [h1]; exact tabText_once, ?_⟩
  rw [h1, h2]
  intro r hr
  refine ⟨?_, r.2, Nat.le_refl _, fun c _ h1 h2 => by omega, ?_⟩
  · revert r; unfold tabTextBreak; decide
  · revert r; decide +kernel
example : (tabText true).line.widthBetween [0, 1, 2, 3, 4, 5, 6, 7] [64, 64, 64, 64, 64, 64, 64, 64] 5 8 = 320 ∧
    (tabText true).line.widthBetween [0, 1, 2, 3, 4, 5, 6, 7] [64, 64, 64, 64, 64, 64, 64, 64] 0 8 = 576 := by decide +kernel

/-- Without an opportunity behind the tab there may be more lines than needed: the first line takes the tab for one that ends
at eight pixels and leaves it two blanks wide (layout_builder.cpp:322-333, 633-648), so that the second has tab stops every eight
pixels.  The text fits on two lines, and gets three. -/
theorem C129_tab_violated : ∃ (e : LineEnv) (charIdx : List Nat) (widths : List Int) (isStart isBreak : Nat → Prop),
    e.Codepoints isStart ∧ e.Breaks isBreak ∧ (∀ b, isBreak b → b < e.length → isStart b) ∧
    (∀ c ∈ charIdx, e.start ≤ c ∧ c < e.start + e.length ∧ isStart (c - e.start)) ∧ charIdx.Pairwise (· ≤ ·) ∧
    e.TabsForward charIdx widths ∧ (∀ w ∈ widths, 0 ≤ w) ∧ widths.length = charIdx.length ∧
    (∀ b, isBreak b → b < e.length → e.start + b ∈ charIdx) ∧ (breakLines e charIdx e.length e.start widths).map (·.length) = some 3 ∧
    Consecutive (e.start + e.length) e.start [(0, 5), (5, 8)] ∧
    ∀ r ∈ [(0, 5), (5, 8)], isBreak (r.2 - e.start) ∧ e.FitsIn isStart charIdx widths r.1 r.2 := by
  obtain ⟨_, _, _, hc⟩ := tabText_ok false
  refine ⟨(tabText false).line, [0, 1, 2, 3, 4, 5, 6, 7], [64, 64, 64, 64, 64, 64, 64, 64], fun _ => True, tabTextBreak false,
    hc, tabText_breaks false, fun _ _ _ => trivial, ?_, by decide, Or.inr (Or.inr ⟨rfl, show (64 : Int) ≤ 256 by decide, ?_⟩),
    by decide, rfl, ?_, by decide +kernel, ⟨rfl, by decide, rfl, by decide, rfl⟩, ?_⟩
  · intro c h
    have : ∀ c ∈ [0, 1, 2, 3, 4, 5, 6, 7], 0 ≤ c ∧ c < 0 + 8 := by decide
    exact ⟨(this c h).1, (this c h).2, trivial⟩
  · intro i c w _ _ hw
    have : ∀ w ∈ ([64, 64, 64, 64, 64, 64, 64, 64] : List Int), 0 < w := by decide
    exact this w (List.mem_of_getElem? hw)
  · rintro b (rfl | rfl | h | rfl) hlt
    · decide
    · decide
    · exact absurd h.1 (by decide)
    · exact absurd hlt (by decide)
  · intro r hr
    refine ⟨?_, r.2, Nat.le_refl _, fun c _ h1 h2 => ?_, ?_⟩
    · revert r; unfold tabTextBreak; decide
    · have h1 : r.2 ≤ 0 + c := h1
      have h2 : 0 + c < r.2 := h2
      omega
    · revert r; decide +kernel

end RichText
