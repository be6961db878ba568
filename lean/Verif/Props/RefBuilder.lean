import Verif.Proof.RefPieces
import Verif.Props.VisualRuns
/-!
C102: the layout builder gives the layout of the earlier builder that the regression test
compares it with (test/test_layout_info.cpp:83-105, test/build_layout_info_utf8.cpp).
-/
namespace RichText
variable {β φ : Type _}

/-! ## C102 -/

/-- A paragraph for which the contracts hold and which both builders shape in the same parts `qs`
(`Comparable` says what must not occur in it): both lay it out, with the same highest run and number of
runs, and make the same calls on the layout but for the height of the ends of runs; if no glyph is moved
up or down, the same calls. -/
theorem C102_paragraph_partial {e : ParaEnv β φ} {calls : List (Nat × β)} (h : e.OK calls) {qs : List (Sub β φ)}
    (hs : Subs e.toShapeEnv calls e.line.start qs) (hq : Comparable e qs) (n : Nat) :
    ∃ ops ops' hi m, buildParagraph e calls n = some (ops, hi, m) ∧
      refParagraph e (qs.map (Sub.ref e.line.start)) n = some (ops', hi, m) ∧
      ops.map LayoutOp.flatEnd = ops'.map LayoutOp.flatEnd ∧ (e.toShapeEnv.Level → ops = ops') :=
  refParagraph_spec h hs hq n

/-- The whole text, if it does not end with a separator: both builders make the same calls on the layout but
for the height of the ends of runs. -/
theorem C102_calls_partial {count : Nat} {ps : List (Paragraph β φ)} {ps' : List (RefPara β φ)}
    (h : Paragraphs count 0 ps) (hlast : ∀ p, ps.getLast? = some p → p.separator = 0)
    (hs : List.Forall₂ SamePara ps ps') :
    ∃ ops ops', paragraphsOps count ps 0 0 = some ops ∧ refParagraphs count ps' 0 0 = some ops' ∧
      ops.map LayoutOp.flatEnd = ops'.map LayoutOp.flatEnd := by
  obtain ⟨ops, ops', h1, h2, h3, _⟩ := refParagraphs_spec h hlast hs 0
  exact ⟨ops, ops', h1, h2, h3⟩

/-- If no glyph is moved up or down, the layouts are equal, whatever layout is overwritten. -/
theorem C102_layout_partial {count : Nat} {ps : List (Paragraph β φ)} {ps' : List (RefPara β φ)}
    (h : Paragraphs count 0 ps) (hlast : ∀ p, ps.getLast? = some p → p.separator = 0)
    (hs : List.Forall₂ SamePara ps ps') (hz : ∀ p ∈ ps, p.env.toShapeEnv.Level) (L : Layout φ) (yAlign : YAlignment)
    (areaHeight : Rat) :
    ∃ L', buildLayout L ps count yAlign areaHeight = some L' ∧ refLayout L ps' count yAlign areaHeight = some L' := by
  obtain ⟨ops, ops', h1, h2, _, h4⟩ := refParagraphs_spec h hlast hs 0
  have := h4 hz
  subst this
  obtain ⟨L', _, _, hL', _⟩ := C32_coverage L ps count h yAlign areaHeight
  refine ⟨L', hL', ?_⟩
  rw [← hL']
  unfold refLayout buildLayout
  rw [h1, h2]

/-- The parts of the paragraph of C31 and C32: four, where the layout builder has two logical runs. -/
def demoSubs : List (Sub (Nat × Bool) Nat) :=
  [⟨0, (0, false), 3, 5⟩, ⟨0, (0, true), 5, 6⟩, ⟨1, (1, true), 6, 8⟩, ⟨1, (1, false), 8, 9⟩]

theorem demoSubs_subs : Subs (demoEnv 3 6 demoBidi).toShapeEnv demoCalls 3 demoSubs := by
  refine Subs.sub (by decide) (Subs.next (by decide) (Subs.sub (by decide) (Subs.next (by decide)
    (Subs.sub (by decide) (Subs.next (by decide) (Subs.sub (by decide) (Subs.next (by decide) (Subs.nil _))))))))

theorem demoEnv_flat (start length : Nat) (bidi : Nat → Nat → List BidiRun) (f : Nat) (v : Nat × Bool) (a b : Nat) :
    ∀ g ∈ (demoEnv start length bidi).shape f v a b, g.yAdvance = 0 ∧ g.yOffset = 0 := by
  intro g hg
  obtain ⟨i, _, rfl⟩ := List.mem_map.1 ((revIf_perm _ _).mem_iff.1 hg)
  exact ⟨rfl, rfl⟩

theorem demoEnv_comparable {start length : Nat} {bidi : Nat → Nat → List BidiRun} {qs : List (Sub (Nat × Bool) Nat)}
    (h1 : ∀ s t, start ≤ s → s < t → t ≤ start + length →
      ∀ r ∈ bidi s t, ∀ q ∈ qs, q.first < r.offset + r.length → r.offset < q.stop → q.args.2 = r.rtl)
    (h2 : ∀ s t, start ≤ s → s < t → t ≤ start + length →
      ∀ r ∈ bidi s t, ∀ q ∈ qs, ∀ q' ∈ qs, q.stop = q'.first → r.offset < q.stop →
      q.stop < r.offset + r.length → q.font ≠ q'.font) : Comparable (demoEnv start length bidi) qs where
  horizontal := rfl
  noTabs := fun _ => rfl
  noTabs' := fun _ => rfl
  same := fun f g => by simp [demoEnv]
  flat := fun f v a b g hg => (demoEnv_flat start length bidi f v a b g hg).1
  glyphs := by
    intro f v a b hab _ h
    have := congrArg List.length h
    simp [demoEnv, revIf_length] at this
    omega
  direction := h1
  fonts := h2

theorem demoSubs_comparable : Comparable (demoEnv 3 6 demoBidi) demoSubs := by
  have hd : ∀ s ∈ List.range' 3 6, ∀ t ∈ List.range' 4 6, s < t → ∀ r ∈ demoBidi s t, ∀ q ∈ demoSubs,
      q.first < r.offset + r.length → r.offset < q.stop → q.args.2 = r.rtl := by decide +kernel
  have hf : ∀ s ∈ List.range' 3 6, ∀ t ∈ List.range' 4 6, s < t → ∀ r ∈ demoBidi s t, ∀ q ∈ demoSubs, ∀ q' ∈ demoSubs,
      q.stop = q'.first → r.offset < q.stop → q.stop < r.offset + r.length → q.font ≠ q'.font := by decide +kernel
  exact demoEnv_comparable
    (fun s t h1 h2 h3 => hd s (List.mem_range'_1.2 (by omega)) t (List.mem_range'_1.2 (by omega)) h2)
    (fun s t h1 h2 h3 => hf s (List.mem_range'_1.2 (by omega)) t (List.mem_range'_1.2 (by omega)) h2)

/-- C102 applies to it. -/
example : ∃ ops, (buildParagraph (demoEnv 3 6 demoBidi) demoCalls 0).map (·.1) = some ops ∧
    (refParagraph (demoEnv 3 6 demoBidi) (demoSubs.map (Sub.ref 3)) 0).map (·.1) = some ops := by
  obtain ⟨ops, ops', hi, m, h1, h2, _, h4⟩ := C102_paragraph_partial
    (demoEnv_ok 3 6 _ demoCalls (by omega) ⟨by decide, rfl⟩ demoBidi_partition) demoSubs_subs demoSubs_comparable 0
  have := h4 fun f v a b g hg => (demoEnv_flat _ _ _ f v a b g hg).2
  subst this
  refine ⟨ops, by rw [h1]; rfl, ?_⟩
  have h2' : refParagraph (demoEnv 3 6 demoBidi) (demoSubs.map (Sub.ref 3)) 0 = some (ops, hi, m) := h2
  rw [h2']; rfl

/-- The same by evaluation. -/
example : (refParagraph (demoEnv 3 6 demoBidi) (demoSubs.map (Sub.ref 3)) 0).map (·.1) =
    some [.run 0 [⟨103, 3, 0, 0⟩, ⟨104, 4, 1, 0⟩] 2 0 3 5 false, .run 1 [⟨107, 7, 2, 0⟩, ⟨106, 6, 3, 0⟩] 4 0 6 8 true,
      .run 0 [⟨105, 5, 4, 0⟩] 5 0 5 6 true, .run 1 [⟨108, 8, 5, 0⟩] 6 0 8 9 false, .line 13 11] := by decide +kernel

/-- A text of an empty paragraph, two separators and the paragraph above. -/
def demoText : List (Paragraph (Nat × Bool) Nat) :=
  [⟨1, 1, demoEnv 0 0 fun _ _ => [], [], 5, ⟨8, -2⟩⟩,
   ⟨2, 1, demoEnv 1 1 fun s t => [⟨s, t - s, 0⟩], [(2, (0, false))], 5, ⟨8, -2⟩⟩,
   ⟨6, 0, demoEnv 3 6 demoBidi, demoCalls, 5, ⟨8, -2⟩⟩]

def demoRefText : List (RefPara (Nat × Bool) Nat) :=
  [⟨1, 1, demoEnv 0 0 fun _ _ => [], [], 5, ⟨8, -2⟩⟩,
   ⟨2, 1, demoEnv 1 1 fun s t => [⟨s, t - s, 0⟩], [⟨0, (0, false), 1⟩], 5, ⟨8, -2⟩⟩,
   ⟨6, 0, demoEnv 3 6 demoBidi, demoSubs.map (Sub.ref 3), 5, ⟨8, -2⟩⟩]

theorem demoText_paragraphs : Paragraphs 9 0 demoText := by
  refine ⟨by decide, by decide, fun _ => by decide, fun h => by simp at h, ?_⟩
  refine ⟨by decide, by decide, fun _ => by decide, fun _ => ⟨demoEnv_ok 1 1 _ _ (by omega) ⟨by decide, rfl⟩ ?_, rfl, rfl⟩, ?_⟩
  · intro s t h1 h2 h3
    exact Partition.single (by simp only [BidiRun.range]; congr 1; omega) h2
  · exact ⟨by decide, by decide, fun h => absurd rfl h, fun _ =>
      ⟨demoEnv_ok 3 6 _ _ (by omega) ⟨by decide, rfl⟩ demoBidi_partition, rfl, rfl⟩, rfl⟩

theorem demoText_same : List.Forall₂ SamePara demoText demoRefText := by
  refine .cons ⟨rfl, rfl, rfl, rfl, fun h => by simp at h⟩ (.cons ⟨rfl, rfl, rfl, rfl, fun _ => ⟨rfl,
    [⟨0, (0, false), 1, 2⟩], ?_, ?_, rfl⟩⟩ (.cons ⟨rfl, rfl, rfl, rfl, fun _ => ⟨rfl, demoSubs, demoSubs_subs,
    demoSubs_comparable, rfl⟩⟩ .nil))
  · exact Subs.sub (by decide) (Subs.next (by decide) (Subs.nil _))
  · apply demoEnv_comparable
    · intro s t h1 h2 h3 r hr q hq _ _
      rw [List.mem_singleton] at hr hq
      subst hr; subst hq; rfl
    · intro s t h1 h2 h3 r hr q hq q' hq' h4
      rw [List.mem_singleton] at hq hq'
      subst hq; subst hq'
      simp at h4

example : ∃ L', buildLayout {} demoText 9 .top 100 = some L' ∧ refLayout {} demoRefText 9 .top 100 = some L' :=
  C102_layout_partial demoText_paragraphs (by intro p hp; simp [demoText] at hp; subst hp; rfl) demoText_same
    (by
      intro p hp
      simp only [demoText, List.mem_cons, List.not_mem_nil, or_false] at hp
      rcases hp with rfl | rfl | rfl <;> exact fun f v a b g hg => (demoEnv_flat _ _ _ f v a b g hg).2) {} .top 100

/-! ### Where they differ -/

/-- Not if the text ends with a separator: the layout builder adds an empty line behind it; the earlier builder
shapes the separator with the last line and has no line more.  Here "a", line feed. -/
theorem C102_final_separator_violated :
    ∃ (ps : List (Paragraph (Nat × Bool) Nat)) (ps' : List (RefPara (Nat × Bool) Nat)), Paragraphs 2 0 ps ∧
      (ps.map fun p => (p.length, p.separator)) = ps'.map (fun p => (p.length, p.separator)) ∧
      (buildLayout {} ps 2 .top 100).map (·.lines.length) = some 2 ∧
      (refLayout {} ps' 2 .top 100).map (·.lines.length) = some 1 := by
  refine ⟨[⟨2, 1, demoEnv 0 1 fun s t => [⟨s, t - s, 0⟩], [(1, (0, false))], 5, ⟨8, -2⟩⟩],
    [⟨2, 1, demoEnv 0 2 fun s t => [⟨s, t - s, 0⟩], [⟨0, (0, false), 2⟩], 5, ⟨8, -2⟩⟩], ?_, rfl, by decide +kernel,
    by decide +kernel⟩
  refine ⟨by decide, by decide, fun h => absurd rfl h, fun _ => ⟨demoEnv_ok 0 1 _ _ (by omega) ⟨by decide, rfl⟩ ?_, rfl, rfl⟩, rfl⟩
  intro s t h1 h2 h3
  exact Partition.single (by simp only [BidiRun.range]; congr 1; omega) h2

/-- Not if text of one direction and one font is shaped in two parts, as for two scripts: one visual run
in the layout builder, two in the earlier builder. -/
theorem C102_merged_violated :
    ∃ (e : ParaEnv (Nat × Bool) Nat) (calls : List (Nat × (Nat × Bool))) (qs : List (Sub (Nat × Bool) Nat)), e.OK calls ∧
      Subs e.toShapeEnv calls e.line.start qs ∧ (∀ q ∈ qs, e.reversed q.args = false) ∧
      (buildParagraph e calls 0).map (·.2.2) = some 1 ∧
      (refParagraph e (qs.map (Sub.ref e.line.start)) 0).map (·.2.2) = some 2 := by
  refine ⟨demoEnv 0 2 fun s t => [⟨s, t - s, 0⟩], [(1, (0, false)), (2, (0, false))],
    [⟨0, (0, false), 0, 1⟩, ⟨0, (0, false), 1, 2⟩], demoEnv_ok 0 2 _ _ (by omega) ⟨by decide, rfl⟩ ?_, ?_, by decide,
    by decide +kernel, by decide +kernel⟩
  · intro s t h1 h2 h3
    exact Partition.single (by simp only [BidiRun.range]; congr 1; omega) h2
  · exact Subs.sub (by decide) (Subs.next (by decide) (Subs.sub (by decide) (Subs.next (by decide) (Subs.nil _))))

/-- Directions of the runs appended. -/
def runDirections (ops : List (LayoutOp φ)) : List Bool :=
  ops.filterMap fun op => match op with
    | .run _ _ _ _ _ _ rtl => some rtl
    | _ => none

/-- Not if white space at the end of a line was shaped in a right-to-left part but has the level of the paragraph in
the line (rule L1): the layout builder takes the direction from the line, the earlier builder from the part. -/
theorem C102_space_direction_violated :
    ∃ (e : ParaEnv (Nat × Bool) Nat) (calls : List (Nat × (Nat × Bool))) (qs : List (Sub (Nat × Bool) Nat)), e.OK calls ∧
      Subs e.toShapeEnv calls e.line.start qs ∧
      (buildParagraph e calls 0).map (fun r => runDirections r.1) = some [true, false] ∧
      (refParagraph e (qs.map (Sub.ref e.line.start)) 0).map (fun r => runDirections r.1) = some [true, true] := by
  refine ⟨demoEnv 0 2 fun s t => if s = 0 ∧ t = 2 then [⟨0, 1, 1⟩, ⟨1, 1, 0⟩] else [⟨s, t - s, 0⟩], [(2, (0, true))],
    [⟨0, (0, true), 0, 2⟩], demoEnv_ok 0 2 _ _ (by omega) ⟨by decide, rfl⟩ ?_, ?_, by decide +kernel, by decide +kernel⟩
  · intro s t h1 h2 h3
    split
    · rename_i h; obtain ⟨rfl, rfl⟩ := h
      exact ⟨_, List.Perm.refl _, by simp [Consecutive, BidiRun.range]⟩
    · exact Partition.single (by simp only [BidiRun.range]; congr 1; omega) h2
  · exact Subs.sub (by decide) (Subs.next (by decide) (Subs.nil _))

/-- As `demoEnv`, but font 1 raises its glyphs by one pixel. -/
def raisedEnv (start length : Nat) (bidi : Nat → Nat → List BidiRun) : ParaEnv (Nat × Bool) Nat :=
  { demoEnv start length bidi with
    shape := fun f v a b => ((demoEnv start length bidi).shape f v a b).map fun g =>
      { g with yOffset := if f = 1 then 64 else 0 } }

theorem raisedEnv_ok {start length : Nat} {bidi : Nat → Nat → List BidiRun} {calls : List (Nat × (Nat × Bool))}
    (h : (demoEnv start length bidi).OK calls) : (raisedEnv start length bidi).OK calls := by
  refine ⟨h.nonempty, ⟨h.contract.subFont, ?_, ?_⟩, h.calls, h.breaks, h.decodes, Or.inl fun _ => rfl, h.bidi⟩
  · intro f v a b hab g hg
    obtain ⟨g', hg', rfl⟩ := List.mem_map.1 hg
    exact h.contract.cluster f v a b hab g' hg'
  · intro f v a b hab
    have := h.contract.order f v a b hab
    have hr : (raisedEnv start length bidi).reversed v = (demoEnv start length bidi).reversed v := rfl
    rw [hr]
    split <;> rename_i hc
    · rw [if_pos hc] at this
      exact List.pairwise_map.2 this
    · rw [if_neg hc] at this
      exact List.pairwise_map.2 this

/-- Heights of the ends of the runs appended. -/
def runEnds (ops : List (LayoutOp φ)) : List Rat :=
  ops.filterMap fun op => match op with
    | .run _ _ _ y _ _ _ => some y
    | _ => none

/-- The height of the end of a run is, in the layout builder, that of the glyph that is next in the text, in the earlier
builder that of the base line or of the glyph that is next in the logical run. -/
theorem C102_height_violated :
    ∃ (e : ParaEnv (Nat × Bool) Nat) (calls : List (Nat × (Nat × Bool))) (qs : List (Sub (Nat × Bool) Nat)), e.OK calls ∧
      Subs e.toShapeEnv calls e.line.start qs ∧ Comparable e qs ∧
      (buildParagraph e calls 0).map (fun r => runEnds r.1) = some [1, 0] ∧
      (refParagraph e (qs.map (Sub.ref e.line.start)) 0).map (fun r => runEnds r.1) = some [0, 0] := by
  have hc : Comparable (demoEnv 0 2 fun s t => [⟨s, t - s, 0⟩]) [⟨0, (0, false), 0, 1⟩, ⟨1, (1, false), 1, 2⟩] := by
    apply demoEnv_comparable
    · intro s t h1 h2 h3 r hr q hq _ _
      rw [List.mem_singleton] at hr
      subst hr
      simp only [List.mem_cons, List.not_mem_nil, or_false] at hq
      rcases hq with rfl | rfl <;> rfl
    · intro s t h1 h2 h3 r hr q hq q' hq' h4 _ _
      simp only [List.mem_cons, List.not_mem_nil, or_false] at hq hq'
      rcases hq with rfl | rfl <;> rcases hq' with rfl | rfl <;> simp at h4 ⊢
  refine ⟨raisedEnv 0 2 fun s t => [⟨s, t - s, 0⟩], [(1, (0, false)), (2, (1, false))],
    [⟨0, (0, false), 0, 1⟩, ⟨1, (1, false), 1, 2⟩], raisedEnv_ok (demoEnv_ok 0 2 _ _ (by omega) ⟨by decide, rfl⟩ ?_), ?_,
    { hc with flat := ?_, glyphs := ?_ }, by decide +kernel, by decide +kernel⟩
  · intro s t h1 h2 h3
    exact Partition.single (by simp only [BidiRun.range]; congr 1; omega) h2
  · exact Subs.sub (by decide) (Subs.next (by decide) (Subs.sub (by decide) (Subs.next (by decide) (Subs.nil _))))
  · intro f v a b g hg
    obtain ⟨g', hg', rfl⟩ := List.mem_map.1 hg
    exact hc.flat f v a b g' hg'
  · intro f v a b hab hr h
    exact hc.glyphs f v a b hab hr (List.map_eq_nil_iff.1 h)

/-- If HarfBuzz returns no glyph for right-to-left text, the earlier builder indexes its buffer with -1; the layout
builder is defined. -/
theorem C102_empty_buffer_violated :
    ∃ (e : ParaEnv (Nat × Bool) Nat) (calls : List (Nat × (Nat × Bool))) (qs : List (Sub (Nat × Bool) Nat)), e.OK calls ∧
      Subs e.toShapeEnv calls e.line.start qs ∧ (buildParagraph e calls 0).isSome = true ∧
      refParagraph e (qs.map (Sub.ref e.line.start)) 0 = none := by
  have h := demoEnv_ok 0 1 (fun s t => [⟨s, t - s, 1⟩]) [(1, (0, true))] (by omega) ⟨by decide, rfl⟩ (by
    intro s t h1 h2 h3
    exact Partition.single (by simp only [BidiRun.range]; congr 1; omega) h2)
  refine ⟨{ demoEnv 0 1 fun s t => [⟨s, t - s, 1⟩] with shape := fun _ _ _ _ => [] }, [(1, (0, true))],
    [⟨0, (0, true), 0, 1⟩], ⟨h.nonempty, ⟨h.contract.subFont, ?_, ?_⟩, h.calls, h.breaks, h.decodes, Or.inl fun _ => rfl, h.bidi⟩,
    Subs.sub (by decide) (Subs.next (by decide) (Subs.nil _)), by decide +kernel, by decide +kernel⟩
  · intro f v a b hab g hg; cases hg
  · intro f v a b hab; split <;> exact List.Pairwise.nil

end RichText
