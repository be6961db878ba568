import Verif.Proof.IcuBuilder
import Verif.Props.RefBuilder
/-!
C125: the layout builder gives the layout of the builder for UTF-16 text that the tests compare with that of ICU
(test/test_layout_info.cpp:136-149, test/build_layout_info_icu.cpp), on indices of UTF-16 code units.
-/
namespace RichText
variable {β φ : Type _}

/-! ## C125 -/

/-- The paragraphs found are those of the text: each with the length and the separator it has, and one behind the last
separator. -/
theorem C125_split (s : List Nat) (l : List (Nat × Nat)) : icuScan s 0 = l ↔ Segments16 s l := by
  refine ⟨?_, Segments16.scan⟩
  rintro rfl
  obtain ⟨l, hl⟩ := segments16_exist _ s (Nat.le_refl _)
  rw [hl.scan]
  exact hl

/-- One paragraph.  If the contracts hold, if both builders shape the same parts, if there are no breaks in front of
surrogate pairs, and if the builder of the tests lays the paragraph out, then the layout builder does so with the same
calls but for the height of the ends of runs, and with the same calls if no glyph is moved up or down. -/
theorem C125_paragraph_partial {e : ParaEnv β φ} {calls : List (Nat × β)} (h : e.OK calls) {qs : List (Sub β φ)}
    (hs : Subs e.toShapeEnv calls e.line.start qs) (hq : Comparable e qs) (hu : e.Units) (n : Nat)
    {r : List (LayoutOp φ) × Nat × Nat} (hr : icuParagraph e (qs.map (Sub.ref e.line.start)) n = some r) :
    ∃ ops, buildParagraph e calls n = some (ops, r.2) ∧ ops.map LayoutOp.flatEnd = r.1.map LayoutOp.flatEnd ∧
      (e.toShapeEnv.Level → ops = r.1) := by
  obtain ⟨ops, ops', hi, m, h1, h2, h3, h4⟩ := refParagraph_spec h hs hq n
  rw [icuParagraph_ref hu hr] at h2
  cases h2
  exact ⟨ops, h1, h3, h4⟩

/-- It does so if in addition no two glyphs of a part start at the same character and, in right-to-left parts, there is a
glyph wherever a part or a run of a line starts. -/
theorem C125_defined_partial {e : ParaEnv β φ} {calls : List (Nat × β)} (h : e.OK calls) {qs : List (Sub β φ)}
    (hs : Subs e.toShapeEnv calls e.line.start qs) (hq : Comparable e qs) (hi : IcuSafe e qs) (n : Nat) :
    ∃ r, icuParagraph e (qs.map (Sub.ref e.line.start)) n = some r :=
  icuParagraph_defined h hs hq hi n

/-- The whole text, also if it ends with a separator: what the builder of the tests makes of it, if anything, the layout
builder makes of it, whatever layout is overwritten. -/
theorem C125_text_partial {count : Nat} {ps : List (Paragraph β φ)} {ps' : List (RefPara β φ)}
    (h : Paragraphs count 0 ps) (hs : SameText ps ps') (hz : ∀ p ∈ ps, p.env.toShapeEnv.Level ∧ p.env.Units)
    {L L' : Layout φ} {yAlign : YAlignment} {areaHeight : Rat} (hL : icuLayout L ps' yAlign areaHeight = some L') :
    buildLayout L ps count yAlign areaHeight = some L' := by
  unfold icuLayout at hL
  simp only [Option.bind_eq_some_iff, Option.map_eq_some_iff] at hL
  obtain ⟨ops', h1, L1, h2, rfl⟩ := hL
  obtain ⟨ops, h3, h4⟩ := icuParagraphs_exec hs h hz h1
  have hclear : Stores L.clear ([] : List (LineSpec φ)) [] L.startY := by
    refine ⟨rfl, rfl, rfl, rfl, ?_, rfl, ?_, rfl⟩ <;> intro i r hr <;> simp [allRuns] at hr
  have h5 : execLayout L.clear ops = some L1 := by
    rw [← h4 L.clear ⟨[], [], L.startY⟩ rfl hclear rfl]
    exact h2
  unfold buildLayout
  rw [h3]
  simp only [Option.bind_some, execLayout, LayoutOp.exec, h5, Option.map_some]

/-- Both lay the text out, with equal layouts. -/
theorem C125_layout_partial {count : Nat} {ps : List (Paragraph β φ)} {ps' : List (RefPara β φ)}
    (h : Paragraphs count 0 ps) (hs : SameText ps ps') (hz : ∀ p ∈ ps, p.env.toShapeEnv.Level ∧ p.env.Units)
    (hi : ∀ p ∈ ps, 0 < p.length - p.separator → ∀ qs, Subs p.env.toShapeEnv p.calls p.env.line.start qs → IcuSafe p.env qs)
    (L : Layout φ) (yAlign : YAlignment) (areaHeight : Rat) :
    ∃ L', icuLayout L ps' yAlign areaHeight = some L' ∧ buildLayout L ps count yAlign areaHeight = some L' := by
  obtain ⟨ops', h1⟩ := icuParagraphs_defined hs (n := 0) h hi
  obtain ⟨ops, h3, h4⟩ := icuParagraphs_exec hs h hz h1
  obtain ⟨L', _, _, hL', _⟩ := C32_coverage L ps count h yAlign areaHeight
  have hclear : Stores L.clear ([] : List (LineSpec φ)) [] L.startY := by
    refine ⟨rfl, rfl, rfl, rfl, ?_, rfl, ?_, rfl⟩ <;> intro i r hr <;> simp [allRuns] at hr
  refine ⟨L', ?_, hL'⟩
  unfold buildLayout at hL'
  rw [h3] at hL'
  simp only [Option.bind_some, execLayout, LayoutOp.exec] at hL'
  unfold icuLayout
  rw [h1]
  simp only [Option.bind_some, execLayout, LayoutOp.exec]
  rw [h4 L.clear ⟨[], [], L.startY⟩ rfl hclear rfl]
  exact hL'

/-! ### Cases -/

/-- "a", carriage return, line feed, "b", line separator. -/
example : Segments16 [0x61, 0x0D, 0x0A, 0x62, 0x2028] [(3, 2), (2, 1), (0, 0)] :=
  (C125_split _ _).1 (by decide +kernel)

/-- A carriage return, a line feed alone; a surrogate pair. -/
example : icuScan [0x0D, 0xD83D, 0xDE00, 0x0A, 0x0A, 0x61] 0 = [(1, 1), (3, 1), (1, 1), (1, 0)] := by decide +kernel

/-- As `demoEnv`, in an area of a width. -/
def narrowEnv (start length : Nat) (area : Int) (bidi : Nat → Nat → List BidiRun) : ParaEnv (Nat × Bool) Nat :=
  { demoEnv start length bidi with
    line := { (demoEnv start length bidi).line with area := area } }

theorem narrowEnv_ok {start length : Nat} {bidi : Nat → Nat → List BidiRun} {calls : List (Nat × (Nat × Bool))}
    (h : (demoEnv start length bidi).OK calls) (area : Int) : (narrowEnv start length area bidi).OK calls :=
  ⟨h.nonempty, ⟨h.contract.subFont, h.contract.cluster, h.contract.order⟩, h.calls, h.breaks, h.decodes, Or.inl fun _ => rfl,
    h.bidi⟩

theorem narrowEnv_level (start length : Nat) (area : Int) (bidi : Nat → Nat → List BidiRun) :
    (narrowEnv start length area bidi).toShapeEnv.Level :=
  fun f v a b g hg => (demoEnv_flat start length bidi f v a b g hg).2

theorem narrowEnv_units (start length : Nat) (area : Int) (bidi : Nat → Nat → List BidiRun) :
    (narrowEnv start length area bidi).Units := fun _ _ => rfl

theorem narrowEnv_glyph {start length : Nat} {area : Int} {bidi : Nat → Nat → List BidiRun} (f : Nat) (v : Nat × Bool)
    (a b i : Nat) (hi : i < b - a) : ∃ g ∈ (narrowEnv start length area bidi).shape f v a b, g.cluster = i := by
  refine ⟨⟨100 + a + i, i, 64, 0, 0, 0⟩, ?_, rfl⟩
  simp only [narrowEnv, demoEnv]
  rw [(revIf_perm _ _).mem_iff]
  exact List.mem_map.2 ⟨i, List.mem_range.2 hi, rfl⟩

/-- One glyph per character: nothing is missing, wherever the lines end. -/
theorem narrowEnv_safe (start length : Nat) (area : Int) (bidi : Nat → Nat → List BidiRun) (hl : 0 < length)
    (qs : List (Sub (Nat × Bool) Nat)) (hq : ∀ q ∈ qs, q.first < q.stop) : IcuSafe (narrowEnv start length area bidi) qs where
  units := narrowEnv_units start length area bidi
  atEnd := by simp [narrowEnv, demoEnv]
  clusters := by
    intro q _
    simp only [narrowEnv, demoEnv]
    have : ((List.range (q.stop - q.first)).map fun i => (⟨100 + q.first + i, i, 64, 0, 0, 0⟩ : HbGlyph)).Pairwise
        (fun g h => g.cluster ≠ h.cluster) := by
      rw [List.pairwise_map]
      exact List.pairwise_lt_range.imp fun h => Nat.ne_of_lt h
    unfold revIf
    split
    · exact List.pairwise_reverse.2 (this.imp fun h => Ne.symm h)
    · exact this
  first := by
    intro q hq' _
    have := hq q hq'
    exact narrowEnv_glyph q.font q.args q.first q.stop 0 (by omega)
  starts := by
    intro s t _ _ _ r _ q _ _ h1 h2
    obtain ⟨g, hg, h0⟩ := narrowEnv_glyph (start := start) (length := length) (area := area) (bidi := bidi) q.font q.args
      q.first q.stop (r.offset - q.first) (by omega)
    exact ⟨g, hg, by omega⟩

/-- The parts of a text are not empty. -/
theorem Subs.nonempty {e : ShapeEnv β φ} (hC : e.Contract) {calls : List (Nat × β)} {off : Nat} {qs : List (Sub β φ)}
    (h : Subs e calls off qs) : ∀ q ∈ qs, q.first < q.stop := by
  induction h with
  | nil => simp
  | next _ _ ih => exact ih
  | sub hlt _ ih =>
    intro q hq
    rcases List.mem_cons.1 hq with rfl | hq
    · exact (hC.subFont _ _ _ hlt).1
    · exact ih q hq

/-- The paragraph of C31 and C102 in an area two characters wide. -/
theorem narrow_comparable (area : Int) : Comparable (narrowEnv 3 6 area demoBidi) demoSubs :=
  { demoSubs_comparable with }

theorem narrow_subs (area : Int) : Subs (narrowEnv 3 6 area demoBidi).toShapeEnv demoCalls 3 demoSubs :=
  have h {off limit : Nat} {v : Nat × Bool} : limit ≤ ((narrowEnv 3 6 area demoBidi).subFont v off limit).2 := Nat.le_refl _
  have h' {off limit m : Nat} {v : Nat × Bool} (hm : limit < m) :
    ((narrowEnv 3 6 area demoBidi).subFont v off limit).2 < m := hm
  Subs.sub (by decide) (Subs.next h (Subs.sub (h' (by decide)) (Subs.next h (Subs.sub (h' (by decide)) (Subs.next h
    (Subs.sub (h' (by decide)) (Subs.next h (Subs.nil _))))))))

theorem narrow_ok (area : Int) : (narrowEnv 3 6 area demoBidi).OK demoCalls :=
  narrowEnv_ok (demoEnv_ok 3 6 _ demoCalls (by omega) ⟨by decide, rfl⟩ demoBidi_partition) area

example : ∃ r, icuParagraph (narrowEnv 3 6 128 demoBidi) (demoSubs.map (Sub.ref 3)) 0 = some r ∧
    buildParagraph (narrowEnv 3 6 128 demoBidi) demoCalls 0 = some r := by
  obtain ⟨r, hr⟩ := C125_defined_partial (narrow_ok 128) (narrow_subs 128) (narrow_comparable 128)
    (narrowEnv_safe _ _ _ _ (by omega) _ (by decide)) 0
  obtain ⟨ops, h1, _, h3⟩ := C125_paragraph_partial (narrow_ok 128) (narrow_subs 128) (narrow_comparable 128)
    (narrowEnv_units 3 6 128 _) 0 hr
  refine ⟨r, hr, ?_⟩
  rw [h1, h3 (narrowEnv_level 3 6 128 _)]

/-- Three lines with five runs. -/
example : (icuParagraph (narrowEnv 3 6 128 demoBidi) (demoSubs.map (Sub.ref 3)) 0).map (fun r => (r.1.length, r.2)) =
    some (8, 4, 5) := by decide +kernel

/-- A text with an empty paragraph, the paragraph above, and a separator at the end. -/
def narrowText : List (Paragraph (Nat × Bool) Nat) :=
  [⟨1, 1, demoEnv 0 0 fun _ _ => [], [], 5, ⟨8, -2⟩⟩,
   ⟨2, 1, narrowEnv 1 1 128 fun s t => [⟨s, t - s, 0⟩], [(2, (0, false))], 5, ⟨8, -2⟩⟩,
   ⟨8, 2, narrowEnv 3 6 128 demoBidi, demoCalls, 5, ⟨8, -2⟩⟩]

def narrowIcuText : List (RefPara (Nat × Bool) Nat) :=
  [⟨1, 1, demoEnv 0 0 fun _ _ => [], [], 5, ⟨8, -2⟩⟩,
   ⟨2, 1, narrowEnv 1 1 128 fun s t => [⟨s, t - s, 0⟩], [⟨0, (0, false), 1⟩], 5, ⟨8, -2⟩⟩,
   ⟨8, 2, narrowEnv 3 6 128 demoBidi, demoSubs.map (Sub.ref 3), 5, ⟨8, -2⟩⟩,
   ⟨0, 0, demoEnv 0 0 fun _ _ => [], [], 5, ⟨8, -2⟩⟩]

theorem narrowText_paragraphs : Paragraphs 11 0 narrowText := by
  refine ⟨by decide, by decide, fun _ => by decide, fun h => by simp at h, ?_⟩
  refine ⟨by decide, by decide, fun _ => by decide,
    fun _ => ⟨narrowEnv_ok (demoEnv_ok 1 1 _ _ (by omega) ⟨by decide, rfl⟩ ?_) _, rfl, rfl⟩, ?_⟩
  · intro s t h1 h2 h3
    exact Partition.single (by simp only [BidiRun.range]; congr 1; omega) h2
  · exact ⟨by decide, by decide, fun h => absurd rfl h, fun _ => ⟨narrow_ok 128, rfl, rfl⟩, rfl⟩

theorem narrowText_same : SameText narrowText narrowIcuText := by
  refine .cons ⟨rfl, rfl, rfl, rfl, fun h => by simp at h⟩ (.cons ⟨rfl, rfl, rfl, rfl, fun _ => ⟨rfl,
    [⟨0, (0, false), 1, 2⟩], ?_, ?_, rfl⟩⟩ (.final (by decide) ⟨rfl, rfl, rfl, rfl, fun _ => ⟨rfl, demoSubs, narrow_subs 128,
    narrow_comparable 128, rfl⟩⟩ rfl rfl rfl))
  · exact Subs.sub (by decide) (Subs.next (by decide) (Subs.nil _))
  · have hc : Comparable (demoEnv 1 1 fun s t => [⟨s, t - s, 0⟩]) [⟨0, (0, false), 1, 2⟩] := by
      apply demoEnv_comparable
      · intro s t h1 h2 h3 r hr q hq _ _
        rw [List.mem_singleton] at hr hq
        subst hr; subst hq; rfl
      · intro s t h1 h2 h3 r hr q hq q' hq' h4
        rw [List.mem_singleton] at hq hq'
        subst hq; subst hq'
        simp at h4
    exact { hc with }

example : ∃ L', icuLayout {} narrowIcuText .top 100 = some L' ∧ buildLayout {} narrowText 11 .top 100 = some L' :=
  C125_layout_partial narrowText_paragraphs narrowText_same
    (by
      intro p hp
      simp only [narrowText, List.mem_cons, List.not_mem_nil, or_false] at hp
      rcases hp with rfl | rfl | rfl
      · exact ⟨fun f v a b g hg => (demoEnv_flat _ _ _ f v a b g hg).2, fun _ _ => rfl⟩
      · exact ⟨narrowEnv_level _ _ _ _, narrowEnv_units _ _ _ _⟩
      · exact ⟨narrowEnv_level _ _ _ _, narrowEnv_units _ _ _ _⟩)
    (by
      intro p hp h0 qs hqs
      simp only [narrowText, List.mem_cons, List.not_mem_nil, or_false] at hp
      rcases hp with rfl | rfl | rfl
      · simp at h0
      · exact narrowEnv_safe _ _ _ _ (by omega) _ (hqs.nonempty
          (narrowEnv_ok (demoEnv_ok 1 1 _ [(2, (0, false))] (by omega) ⟨by decide, rfl⟩ (by
            intro s t h1 h2 h3
            exact Partition.single (by simp only [BidiRun.range]; congr 1; omega) h2)) 128).contract)
      · exact narrowEnv_safe _ _ _ _ (by omega) _ (hqs.nonempty (narrow_ok 128).contract))
    {} .top 100

/-- Six lines: the empty paragraph, one character, three lines, the empty line behind the separator. -/
example : (icuLayout {} narrowIcuText .top 100).map (fun L => (L.lines.length, L.runs.map VisualRun.charEndOffset)) =
    some (6, [1, 1, 0, 0, 0, 0, 2, 0]) := by decide +kernel

/-! ### Where they differ -/

/-- One character with three glyphs in an area as wide as one: the loop that forces a break runs past the glyphs.  The
layout builder and the earlier builder end the line at the end of the paragraph. -/
theorem C125_cluster_violated :
    ∃ (e : ParaEnv (Nat × Bool) Nat) (calls : List (Nat × (Nat × Bool))) (qs : List (Sub (Nat × Bool) Nat)), e.OK calls ∧
      Subs e.toShapeEnv calls e.line.start qs ∧ Comparable e qs ∧ e.Units ∧
      (buildParagraph e calls 0).isSome = true ∧ (refParagraph e (qs.map (Sub.ref e.line.start)) 0).isSome = true ∧
      icuParagraph e (qs.map (Sub.ref e.line.start)) 0 = none := by
  have hp : ∀ s t, 0 ≤ s → s < t → t ≤ 0 + 1 → Partition BidiRun.range s t [⟨s, t - s, 0⟩] := by
    intro s t h1 h2 h3
    exact Partition.single (by simp only [BidiRun.range]; congr 1; omega) h2
  have h := narrowEnv_ok (demoEnv_ok 0 1 (fun s t => [⟨s, t - s, 0⟩]) [(1, (0, false))] (by omega) ⟨by decide, rfl⟩ hp) 64
  have hc : Comparable (demoEnv 0 1 fun s t => [⟨s, t - s, 0⟩]) [⟨0, (0, false), 0, 1⟩] := by
    apply demoEnv_comparable
    · intro s t h1 h2 h3 r hr q hq _ _
      rw [List.mem_singleton] at hr hq
      subst hr; subst hq; rfl
    · intro s t h1 h2 h3 r hr q hq q' hq' h4
      rw [List.mem_singleton] at hq hq'
      subst hq; subst hq'
      simp at h4
  refine ⟨{ narrowEnv 0 1 64 fun s t => [⟨s, t - s, 0⟩] with
    shape := fun _ _ _ _ => [⟨1, 0, 64, 0, 0, 0⟩, ⟨2, 0, 64, 0, 0, 0⟩, ⟨3, 0, 64, 0, 0, 0⟩] }, [(1, (0, false))],
    [⟨0, (0, false), 0, 1⟩], ⟨h.nonempty, ⟨h.contract.subFont, ?_, ?_⟩, h.calls, h.breaks, h.decodes, Or.inl fun _ => rfl, h.bidi⟩,
    Subs.sub (by decide) (Subs.next (by decide) (Subs.nil _)), { hc with flat := ?_, glyphs := ?_ }, fun _ _ => rfl,
    by decide +kernel, by decide +kernel, by decide +kernel⟩
  · intro f v a b hab g hg
    simp only [List.mem_cons, List.not_mem_nil, or_false] at hg
    rcases hg with rfl | rfl | rfl <;> (simp only; omega)
  · intro f v a b hab
    split <;> simp
  · intro f v a b g hg
    simp only [List.mem_cons, List.not_mem_nil, or_false] at hg
    rcases hg with rfl | rfl | rfl <;> rfl
  · intro f v a b _ _ hn
    cases hn

/-- Two right-to-left characters with one glyph, in front of one left-to-right character: the break iterator allows a
break between the two but none behind them, and the second line starts with a right-to-left run without glyphs.  The
other builders lay it out. -/
theorem C125_empty_run_violated :
    ∃ (e : ParaEnv (Nat × Bool) Nat) (calls : List (Nat × (Nat × Bool))) (qs : List (Sub (Nat × Bool) Nat)), e.OK calls ∧
      Subs e.toShapeEnv calls e.line.start qs ∧ Comparable e qs ∧ e.Units ∧
      (buildParagraph e calls 0).isSome = true ∧ (refParagraph e (qs.map (Sub.ref e.line.start)) 0).isSome = true ∧
      icuParagraph e (qs.map (Sub.ref e.line.start)) 0 = none := by
  let bidi : Nat → Nat → List BidiRun := fun s t =>
    [⟨s, min t 2 - s, 1⟩, ⟨max s 2, t - max s 2, 0⟩].filter fun r => 0 < r.length
  have hp : ∀ s t, 0 ≤ s → s < t → t ≤ 0 + 3 → Partition BidiRun.range s t (bidi s t) := by
    intro s t h1 h2 h3
    refine ⟨_, List.Perm.refl _, ?_⟩
    have hs : s = 0 ∨ s = 1 ∨ s = 2 := by omega
    have ht : t = 1 ∨ t = 2 ∨ t = 3 := by omega
    rcases hs with rfl | rfl | rfl <;> rcases ht with rfl | rfl | rfl <;>
      first | omega | simp [bidi, Consecutive, BidiRun.range]
  have h := demoEnv_ok 0 3 bidi [(2, (0, true)), (3, (1, false))] (by omega) ⟨by decide, rfl⟩ hp
  have hd : ∀ s ∈ List.range' 0 3, ∀ t ∈ List.range' 1 3, s < t → ∀ r ∈ bidi s t,
      ∀ q ∈ ([⟨0, (0, true), 0, 2⟩, ⟨1, (1, false), 2, 3⟩] : List (Sub (Nat × Bool) Nat)),
      q.first < r.offset + r.length → r.offset < q.stop → q.args.2 = r.rtl := by decide +kernel
  have hc : Comparable (demoEnv 0 3 bidi) [⟨0, (0, true), 0, 2⟩, ⟨1, (1, false), 2, 3⟩] := by
    apply demoEnv_comparable
    · exact fun s t h1 h2 h3 => hd s (List.mem_range'_1.2 (by omega)) t (List.mem_range'_1.2 (by omega)) h2
    · intro s t h1 h2 h3 r hr q hq q' hq' h4 _ _
      simp only [List.mem_cons, List.not_mem_nil, or_false] at hq hq'
      rcases hq with rfl | rfl <;> rcases hq' with rfl | rfl <;> simp at h4 ⊢
  refine ⟨{ demoEnv 0 3 bidi with
    shape := fun _ _ _ _ => [⟨1, 0, 64, 0, 0, 0⟩]
    line := { (demoEnv 0 3 bidi).line with
      area := 64
      preceding := fun i => if i ≤ 1 then 0 else if i ≤ 3 then 1 else 3 } }, [(2, (0, true)), (3, (1, false))],
    [⟨0, (0, true), 0, 2⟩, ⟨1, (1, false), 2, 3⟩], ⟨h.nonempty, ⟨h.contract.subFont, ?_, ?_⟩, h.calls, ?_, h.decodes,
      Or.inl fun _ => rfl, h.bidi⟩,
    Subs.sub (by decide) (Subs.next (by decide) (Subs.sub (by decide) (Subs.next (by decide) (Subs.nil _)))),
    { hc with flat := ?_, glyphs := ?_ }, fun _ _ => rfl, by decide +kernel, by decide +kernel, by decide +kernel⟩
  · intro f v a b hab g hg
    simp only [List.mem_cons, List.not_mem_nil, or_false] at hg
    subst hg
    simp only; omega
  · intro f v a b hab
    split <;> simp
  · intro i
    simp only [demoEnv]
    split
    · decide
    · split <;> decide
  · intro f v a b g hg
    simp only [List.mem_cons, List.not_mem_nil, or_false] at hg
    subst hg; rfl
  · intro f v a b _ _ hn
    cases hn

/-- Two characters and a surrogate pair, with breaks between all of them, in an area two characters wide: the break in
front of the pair is not found (`preceding` of an index inside the pair), the first line has one character, the layout
builder's two.  Both have two lines. -/
theorem C125_surrogate_violated :
    ∃ (e : ParaEnv (Nat × Bool) Nat) (calls : List (Nat × (Nat × Bool))) (qs : List (Sub (Nat × Bool) Nat)), e.OK calls ∧
      Subs e.toShapeEnv calls e.line.start qs ∧ Comparable e qs ∧ IcuSafe { e with line := { e.line with next := (· + 1) } } qs ∧
      (buildParagraph e calls 0).map (fun r => r.1.map LayoutOp.flatEnd) =
        some [.run 0 [⟨100, 0, 0, 0⟩, ⟨101, 1, 1, 0⟩] 2 0 0 2 false, .line 12 10,
          .run 0 [⟨102, 2, 0, 0⟩] 1 0 2 4 false, .line 12 10] ∧
      (icuParagraph e (qs.map (Sub.ref e.line.start)) 0).map (fun r => r.1.map LayoutOp.flatEnd) =
        some [.run 0 [⟨100, 0, 0, 0⟩] 1 0 0 1 false, .line 12 10,
          .run 0 [⟨101, 1, 0, 0⟩, ⟨102, 2, 1, 0⟩] 2 0 1 4 false, .line 12 10] := by
  have hp : ∀ s t, 0 ≤ s → s < t → t ≤ 0 + 4 → Partition BidiRun.range s t [⟨s, t - s, 0⟩] := by
    intro s t h1 h2 h3
    exact Partition.single (by simp only [BidiRun.range]; congr 1; omega) h2
  have h := demoEnv_ok 0 4 (fun s t => [⟨s, t - s, 0⟩]) [(4, (0, false))] (by omega) ⟨by decide, rfl⟩ hp
  have hc : Comparable (demoEnv 0 4 fun s t => [⟨s, t - s, 0⟩]) [⟨0, (0, false), 0, 4⟩] := by
    apply demoEnv_comparable
    · intro s t h1 h2 h3 r hr q hq _ _
      rw [List.mem_singleton] at hr hq
      subst hr; subst hq; rfl
    · intro s t h1 h2 h3 r hr q hq q' hq' h4
      rw [List.mem_singleton] at hq hq'
      subst hq; subst hq'
      simp at h4
  refine ⟨{ demoEnv 0 4 (fun s t => [⟨s, t - s, 0⟩]) with
    shape := fun _ _ a b => [⟨100, 0, 64, 0, 0, 0⟩, ⟨101, 1, 64, 0, 0, 0⟩, ⟨102, 2, 64, 0, 0, 0⟩].filter (·.cluster < b - a)
    reversed := fun _ => false
    line := { (demoEnv 0 4 fun s t => [⟨s, t - s, 0⟩]).line with
      area := 128
      next := fun i => if i = 2 then 4 else i + 1
      preceding := fun i => if i ≤ 1 then 0 else if i ≤ 2 then 1 else if i = 3 then 1 else if i ≤ 4 then 2 else 4 } }, [(4, (0, false))],
    [⟨0, (0, false), 0, 4⟩], ⟨h.nonempty, ⟨h.contract.subFont, ?_, ?_⟩, h.calls, ?_, ?_, Or.inl fun _ => rfl, h.bidi⟩,
    Subs.sub (by decide) (Subs.next (by decide) (Subs.nil _)), { hc with flat := ?_, glyphs := ?_, direction := ?_ }, ?_,
    by decide +kernel, by decide +kernel⟩
  · intro f v a b hab g hg
    have := of_decide_eq_true (List.mem_filter.1 hg).2
    omega
  · intro f v a b hab
    rw [if_neg (by simp)]
    exact List.Pairwise.filter _ (by decide)
  · intro i
    simp only [demoEnv]
    repeat' split
    all_goals omega
  · intro i hi
    simp only [demoEnv] at hi ⊢
    split <;> omega
  · intro f v a b g hg
    have := (List.mem_filter.1 hg).1
    simp only [List.mem_cons, List.not_mem_nil, or_false] at this
    rcases this with rfl | rfl | rfl <;> rfl
  · intro f v a b _ hn
    cases hn
  · intro s t h1 h2 h3 r hr q _ _ _
    rw [List.mem_singleton.1 hr]
    rfl
  · refine ⟨fun _ _ => rfl, rfl, ?_, ?_, ?_⟩
    · intro q _
      exact List.Pairwise.filter _ (by decide)
    · intro q _ hn
      cases hn
    · intro s t _ _ _ r _ q _ hn
      cases hn

/-- The empty text has one line, in the layout builder none. -/
theorem C125_empty_text_violated :
    Segments16 [] [(0, 0)] ∧
      (icuLayout ({} : Layout Nat) [(⟨0, 0, demoEnv 0 0 fun _ _ => [], [], 5, ⟨8, -2⟩⟩ : RefPara (Nat × Bool) Nat)] .top 100).map
        (·.lines.length) = some 1 ∧
      (buildLayout ({} : Layout Nat) ([] : List (Paragraph (Nat × Bool) Nat)) 0 .top 100).map (·.lines.length) = some 0 :=
  ⟨(C125_split _ _).1 (by decide +kernel), by decide +kernel, by decide +kernel⟩

end RichText
