import Verif.Proof.Paragraph
import Verif.Proof.ParaIter
import Verif.Model.Font
/-! C30, C31, C32, C34, C35: visual runs, glyphs, coverage of the text, fonts and
scripts. -/
namespace RichText
open Spec

variable {β φ : Type _}

/-! ## C30 -/

/-- For a line `[ls, le)` inside a paragraph divided into logical runs, and bidi
runs (in visual order) that partition it: every bidi run is cut into pieces that
follow each other without gap, from right to left if the run is right-to-left;
each piece has the direction of its bidi run and lies inside its logical run; the
visual runs of the line are these pieces, bidi run by bidi run, and contain every
character of the line exactly once. -/
theorem C30_line (s e n : Nat) (runs : List (LogicalRun φ)) (h : LogicalRuns s e n runs) (ls le : Nat)
    (hs : s ≤ ls) (he : le ≤ e) (bs : List BidiRun) (hb : Partition BidiRun.range ls le bs) :
    ∃ f : BidiRun → List VisualPiece,
      linePieces runs bs = some (bs.flatMap f) ∧
      (∀ r ∈ bs, Consecutive (r.offset + r.length) r.offset ((revIf r.rtl (f r)).map VisualPiece.range) ∧
        ∀ p ∈ f r, p.rtl = r.rtl ∧ p.Inside s runs) ∧
      (∀ p ∈ bs.flatMap f, ls ≤ p.first ∧ p.first ≤ p.last ∧ p.last < le) ∧
      (∀ c, ls ≤ c → c < le → ∃ p ∈ bs.flatMap f, p.first ≤ c ∧ c ≤ p.last) ∧
      (bs.flatMap f).Pairwise (fun p q => p.last < q.first ∨ q.last < p.first) := by
  obtain ⟨f, h1, h2, h3⟩ := linePieces_spec h hs he hb
  refine ⟨f, h2, fun r hr => (h1 r hr).2, ?_, ?_, ?_⟩
  · intro p hp
    have := h3.mem p hp
    simp only [VisualPiece.range] at this
    omega
  · intro c h4 h5
    obtain ⟨p, hp, h6, h7⟩ := h3.find h4 h5
    simp only [VisualPiece.range] at h6 h7
    exact ⟨p, hp, h6, by omega⟩
  · refine h3.disjoint.imp_of_mem ?_
    intro p q hp hq hd
    have hp' := h3.mem p hp
    have hq' := h3.mem q hq
    simp only [VisualPiece.range] at hp' hq' hd
    rcases Nat.lt_or_ge p.last q.first with h8 | h8
    · exact Or.inl h8
    · rcases Nat.lt_or_ge q.last p.first with h9 | h9
      · exact Or.inr h9
      · exact (hd (max p.first q.first) (by omega) (by omega) (by omega) (by omega)).elim

/-- Three logical runs, the characters 5 to 9 right-to-left: the bidi run is cut
at the boundary at 7, its second half comes first. -/
example : linePieces (φ := Nat) [⟨0, 5, 2⟩, ⟨1, 7, 4⟩, ⟨2, 12, 9⟩] [⟨3, 2, 0⟩, ⟨5, 5, 1⟩, ⟨10, 2, 0⟩] =
    some [⟨0, 3, 4, false⟩, ⟨2, 7, 9, true⟩, ⟨1, 5, 6, true⟩, ⟨2, 10, 11, false⟩] := by decide +kernel

example : LogicalRuns (φ := Nat) 3 12 9 [⟨0, 5, 2⟩, ⟨1, 7, 4⟩, ⟨2, 12, 9⟩] ∧
    Partition BidiRun.range 3 12 [⟨3, 2, 0⟩, ⟨5, 5, 1⟩, ⟨10, 2, 0⟩] := by
  refine ⟨⟨by simp, ?_, rfl, ?_, rfl⟩, ⟨_, List.Perm.refl _, by simp [Consecutive, BidiRun.range]⟩⟩
  · intro k r hk
    match k with
    | 0 | 1 | 2 => simp at hk; subst hk; simp [runStart]
    | k + 3 => simp at hk
  · intro k r hk
    match k with
    | 0 | 1 | 2 => simp at hk; subst hk; simp [runFirstGlyph]
    | k + 3 => simp at hk

/-! ## C31 -/

/-- The calls made for the lines of a shaped paragraph: there are visual runs `ps`
and glyph lists `idx`, line by line and run by run, such that the calls append
exactly these runs with these glyphs (`LinesOps`: the glyphs of a run are those
whose character lies in it, in logical order or, right-to-left, in reverse order;
each glyph is placed at the sum of the widths before it in the line).  All glyph
lists together contain every shaped glyph exactly once. -/
theorem C31_lines (e : ParaEnv β φ) (b : Shaped φ) (stop : Nat) (h : ShapedOK e.line.start stop b)
    (ls : List BrokenLine) (hc : Consecutive stop e.line.start (lineRanges ls))
    (hw : ∀ l ∈ ls, l.widths.length = b.glyphs.length)
    (hb : ∀ l ∈ ls, Partition BidiRun.range l.first l.stop (e.bidi l.first l.stop)) :
    ∃ ops ps idx, linesOps e b ls = some (ops, ps.flatten) ∧ LinesOps e b ls ps idx ops ∧
      idx.flatten.flatten.Perm (List.range b.glyphs.length) := by
  obtain ⟨ops, ps, idx, h1, h2, h3⟩ := linesOps_spec h ls e.line.start (Nat.le_refl _) hc hw hb
  exact ⟨ops, ps, idx, h1, h2, h2.lists.perm h h3⟩

/-- The same from the contracts of the libraries: shaping, line breaking and the
calls for the lines are defined, the lines are consecutive, and the calls append
every glyph that shaping produced exactly once. -/
theorem C31_paragraph (e : ParaEnv β φ) (calls : List (Nat × β)) (h : e.OK calls) (runCount : Nat) :
    ∃ b ls ops ps idx hi, shapeParagraph e calls = some b ∧
      ShapedOK e.line.start (e.line.start + e.line.length) b ∧
      paragraphLines e.line b.charIdx b.widths = some ls ∧
      Consecutive (e.line.start + e.line.length) e.line.start (lineRanges ls) ∧
      buildParagraph e calls runCount = some (ops, hi, runCount + ps.flatten.length) ∧
      LinesOps e b ls ps idx ops ∧ idx.flatten.flatten.Perm (List.range b.glyphs.length) := by
  obtain ⟨b, qs, ls, ops, ps, idx, h1, h2, h3, h4, h5, h6, h7, h8, h9, h10⟩ := paragraph_spec h
  refine ⟨b, ls, ops, ps, idx, (highest ps.flatten runCount (0, -2147483648)).1, h1, h2, h6, h7, ?_, h9, h9.lists.perm h2 h10⟩
  unfold buildParagraph
  rw [h1, Option.bind_some, h6, Option.bind_some, h8, Option.map_some]

/-- A text whose characters are one glyph each, 64 wide, whose fonts are numbers;
values of a call are font and direction. -/
def demoEnv (start length : Nat) (bidi : Nat → Nat → List BidiRun) : ParaEnv (Nat × Bool) Nat where
  subFont := fun v _ limit => (v.1, limit)
  shape := fun _ v a b => revIf v.2 ((List.range (b - a)).map fun i => ⟨100 + a + i, i, 64, 0, 0, 0⟩)
  reversed := fun v => v.2
  same := fun f g => f == g
  isTab := fun _ => false
  spaceAdvance := fun _ => 64
  spaceGlyph := fun _ => 0
  vertical := false
  line := { start := start, length := length, area := 0, tabWidth := 256, tabPixels := true, isTab := fun _ => false,
            next := fun i => i + 1, hangs := fun _ => false, preceding := fun i => if i ≤ length then i - 1 else length }
  bidi := bidi
  metrics := fun f => ⟨10 + f, -(2 : Rat)⟩

theorem demoEnv_ok (start length : Nat) (bidi : Nat → Nat → List BidiRun) (calls : List (Nat × (Nat × Bool)))
    (hl : 0 < length) (hc : CallsTo (start + length) calls)
    (hb : ∀ s t, start ≤ s → s < t → t ≤ start + length → Partition BidiRun.range s t (bidi s t)) :
    (demoEnv start length bidi).OK calls := by
  refine ⟨hl, ⟨?_, ?_, ?_⟩, hc, ?_, ?_, Or.inl fun _ => rfl, hb⟩
  · intro v o l h; exact ⟨h, Nat.le_refl _⟩
  · intro f v a b hab g hg
    simp only [demoEnv] at hg
    have hg : g ∈ (List.range (b - a)).map fun i => (⟨100 + a + i, i, 64, 0, 0, 0⟩ : HbGlyph) := by
      unfold revIf at hg; split at hg
      · exact List.mem_reverse.1 hg
      · exact hg
    obtain ⟨i, hi, rfl⟩ := List.mem_map.1 hg
    exact List.mem_range.1 hi
  · intro f v a b hab
    have : ((List.range (b - a)).map fun i => (⟨100 + a + i, i, 64, 0, 0, 0⟩ : HbGlyph)).Pairwise
        (fun g h => g.cluster ≤ h.cluster) := by
      rw [List.pairwise_map]
      exact List.pairwise_lt_range.imp fun h => Nat.le_of_lt h
    obtain ⟨v1, v2⟩ := v
    cases v2
    · exact this
    · exact List.pairwise_reverse.2 this
  · intro i; simp only [demoEnv]; split <;> omega
  · intro i hi; simp only [demoEnv] at hi ⊢; omega

/-- Six characters from 3 on; those from 5 to 7 are right-to-left. -/
def demoBidi (s t : Nat) : List BidiRun :=
  [⟨s, min t 5 - s, 0⟩, ⟨max s 5, min t 8 - max s 5, 1⟩, ⟨max s 8, t - max s 8, 0⟩].filter fun r => 0 < r.length

theorem demoBidi_partition (s t : Nat) (h1 : 3 ≤ s) (h2 : s < t) (h3 : t ≤ 3 + 6) :
    Partition BidiRun.range s t (demoBidi s t) := by
  refine ⟨_, List.Perm.refl _, ?_⟩
  have hs : s = 3 ∨ s = 4 ∨ s = 5 ∨ s = 6 ∨ s = 7 ∨ s = 8 := by omega
  have ht : t = 4 ∨ t = 5 ∨ t = 6 ∨ t = 7 ∨ t = 8 ∨ t = 9 := by omega
  rcases hs with rfl | rfl | rfl | rfl | rfl | rfl <;> rcases ht with rfl | rfl | rfl | rfl | rfl | rfl <;>
    first | omega | simp [demoBidi, Consecutive, BidiRun.range]

/-- The font changes at 6, inside the right-to-left part. -/
def demoCalls : List (Nat × (Nat × Bool)) := [(5, (0, false)), (6, (0, true)), (8, (1, true)), (9, (1, false))]

example : (demoEnv 3 6 demoBidi).OK demoCalls :=
  demoEnv_ok 3 6 _ _ (by omega) ⟨by decide, rfl⟩ demoBidi_partition

example : (buildParagraph (demoEnv 3 6 demoBidi) demoCalls 0).map (·.1) =
    some [.run 0 [⟨103, 3, 0, 0⟩, ⟨104, 4, 1, 0⟩] 2 0 3 5 false, .run 1 [⟨107, 7, 2, 0⟩, ⟨106, 6, 3, 0⟩] 4 0 6 8 true,
      .run 0 [⟨105, 5, 4, 0⟩] 5 0 5 6 true, .run 1 [⟨108, 8, 5, 0⟩] 6 0 8 9 false, .line 13 11] := by decide +kernel

/-! ## C32 -/

/-- Whatever the layout to overwrite contains: building the layout of the
paragraphs of a text succeeds; the runs, each with the separator behind it,
contain every byte of `[0, count)` exactly once; they are followed by one empty
run at `count` if the text ends in a separator, by nothing otherwise. -/
theorem C32_coverage (L : Layout φ) (ps : List (Paragraph β φ)) (count : Nat) (h : Paragraphs count 0 ps)
    (yAlign : YAlignment) (areaHeight : Rat) :
    ∃ L' covering extra, buildLayout L ps count yAlign areaHeight = some L' ∧ L'.runs = covering ++ extra ∧
      Partition VisualRun.range 0 count covering ∧
      ((∃ p, ps.getLast? = some p ∧ 0 < p.separator) →
        ∃ r, extra = [r] ∧ r.charStart = count ∧ r.charEnd = count ∧ r.charEndOffset = 0) ∧
      ((∀ p, ps.getLast? = some p → p.separator = 0) → extra = []) := by
  obtain ⟨ops, new, rs, h1, h2, h3, h4⟩ := paragraphsOps_spec ps 0 0 h
  have hclear : Stores L.clear ([] : List (LineSpec φ)) [] L.startY := by
    refine ⟨rfl, rfl, rfl, rfl, ?_, rfl, ?_, rfl⟩ <;> intro i r hr <;> simp [allRuns] at hr
  obtain ⟨L1, h5, h6⟩ := steps_stores ops (L := L.clear) (d := ⟨[], [], L.startY⟩) hclear (h4 _ rfl rfl)
  have hmap : L1.runs.map VisualRun.range = (allRuns new).map RunSpec.range ∧
      ∀ (i : Nat) (r : RunSpec φ), (allRuns new)[i]? = some r → ∃ v : VisualRun φ, L1.runs[i]? = some v ∧
        v.charStart = r.charStart ∧ v.charEnd = r.charEnd ∧ v.charEndOffset = r.charEndOffset := by
    have hcount := h6.runCount
    simp only [List.nil_append, List.append_nil] at hcount
    have hruns : ∀ (i : Nat) (r : RunSpec φ), (allRuns new)[i]? = some r → ∃ v : VisualRun φ, L1.runs[i]? = some v ∧
        v.charStart = r.charStart ∧ v.charEnd = r.charEnd ∧ v.charEndOffset = r.charEndOffset := by
      intro i r hr
      have := h6.runs i r (by simpa using hr)
      exact ⟨_, this, rfl, rfl, rfl⟩
    refine ⟨?_, hruns⟩
    apply List.ext_getElem?
    intro i
    rw [List.getElem?_map, List.getElem?_map]
    cases hr : (allRuns new)[i]? with
    | none =>
      rw [List.getElem?_eq_none_iff] at hr
      rw [List.getElem?_eq_none (by omega)]; rfl
    | some r =>
      obtain ⟨v, hv, e1, e2, e3⟩ := hruns i r hr
      rw [hv]
      simp [VisualRun.range, RunSpec.range, e1, e2, e3]
  have hbuild : buildLayout L ps count yAlign areaHeight = some (L1.alignY areaHeight yAlign) := by
    unfold buildLayout
    rw [h1, Option.bind_some]
    have : execLayout L (.clear :: ops) = some L1 := h5
    rw [this]; rfl
  have halign : (L1.alignY areaHeight yAlign).runs = L1.runs := by
    unfold Layout.alignY; rfl
  refine ⟨_, L1.runs.take rs.length, L1.runs.drop rs.length, hbuild, by rw [halign, List.take_append_drop], ?_, ?_, ?_⟩
  · refine Partition.congr ?_ h3
    rw [List.map_take, hmap.1, h2, ← List.map_take, List.take_left]
  · rintro ⟨p, hp, hsep⟩
    have hf : finalRuns ps count = [.empty p.defaultFont count] := by
      unfold finalRuns; rw [hp]; simp only; rw [if_pos hsep]
    obtain ⟨v, hv, e1, e2, e3⟩ := hmap.2 rs.length (.empty p.defaultFont count) (by rw [h2, hf]; simp)
    have hlen : L1.runs.length = rs.length + 1 := by
      have := congrArg List.length hmap.1
      simpa [h2, hf] using this
    refine ⟨v, ?_, e1, e2, e3⟩
    have hlt : rs.length < L1.runs.length := by omega
    rw [List.drop_eq_getElem_cons hlt, List.drop_of_length_le (by omega)]
    rw [List.getElem?_eq_getElem hlt] at hv
    rw [Option.some.inj hv]
  · intro hp
    have hf : finalRuns ps count = [] := by
      unfold finalRuns
      cases hl : ps.getLast? with
      | none => rfl
      | some p => simp only; rw [if_neg (by have := hp p hl; omega)]
    have hlen : L1.runs.length = rs.length := by
      have := congrArg List.length hmap.1
      simpa [h2, hf] using this
    exact List.drop_of_length_le (by omega)

/-- "ab\n", the paragraph above with a separator of one byte, and an empty
paragraph before them. -/
def demoParagraphs : List (Paragraph (Nat × Bool) Nat) :=
  [⟨1, 1, demoEnv 0 0 fun _ _ => [], [], 5, ⟨8, -2⟩⟩,
   ⟨2, 1, demoEnv 1 1 fun s t => [⟨s, t - s, 0⟩], [(2, (0, false))], 5, ⟨8, -2⟩⟩,
   ⟨7, 1, demoEnv 3 6 demoBidi, demoCalls, 5, ⟨8, -2⟩⟩]

example : Paragraphs 10 0 demoParagraphs := by
  refine ⟨by decide, by decide, fun _ => by decide, fun h => absurd h (by decide), ?_⟩
  refine ⟨by decide, by decide, fun _ => by decide, fun _ => ⟨demoEnv_ok 1 1 _ _ (by omega) ⟨by decide, rfl⟩ ?_, rfl, rfl⟩, ?_⟩
  · intro s t h1 h2 h3
    exact Partition.single (by simp [BidiRun.range]; omega) h2
  refine ⟨by decide, by decide, fun h => absurd rfl h, fun _ =>
    ⟨demoEnv_ok 3 6 _ _ (by omega) ⟨by decide, rfl⟩ demoBidi_partition, rfl, rfl⟩, rfl⟩

example : (buildLayout {} demoParagraphs 10 .top 100).map
      (fun L => L.runs.map fun r => (r.charStart, r.charEnd, r.charEndOffset)) =
    some [(0, 0, 1), (1, 2, 1), (3, 5, 0), (6, 8, 0), (5, 6, 0), (8, 9, 1), (10, 10, 0)] := by decide +kernel

/-! ## C34 -/

/-- Full claim: for every character `c` of every run appended, the font of the run
equals the font resolved for the piece of text that contains `c`.  What holds:
the text divides into consecutive pieces with resolved fonts, and face and size
of the run's font are those of the font resolved for the character.  Missing:
weight, style and the flags for subscript, superscript and small caps, see
`C34_violated`. -/
theorem C34_face_size_partial (e : ParaEnv β SingleScriptFont) (hsame : e.same = SingleScriptFont.same)
    (calls : List (Nat × β)) (h : e.OK calls) (runCount : Nat) :
    ∃ (r : List (LayoutOp SingleScriptFont) × Nat × Nat) (qs : List (FontPiece SingleScriptFont)), buildParagraph e calls runCount = some r ∧
      Consecutive (e.line.start + e.line.length) e.line.start (qs.map FontPiece.range) ∧
      (∀ q ∈ qs, q.Resolved e.toShapeEnv calls) ∧
      ∀ font gs ex ey cs ce rtl, LayoutOp.run font gs ex ey cs ce rtl ∈ r.1 → ∀ c, cs ≤ c → c < ce →
        ∃ q ∈ qs, q.first ≤ c ∧ c < q.stop ∧ font.face = q.font.face ∧ font.size = q.font.size := by
  obtain ⟨b, qs, ls, ops, ps, idx, h1, h2, h3, h4, h5, h6, h7, h8, h9, h10⟩ := paragraph_spec h
  refine ⟨(ops, (highest ps.flatten runCount (0, -2147483648)).1, runCount + ps.flatten.length), qs, ?_, h4, h5, ?_⟩
  · unfold buildParagraph
    rw [h1, Option.bind_some, h6, Option.bind_some, h8, Option.map_some]
  · intro font gs ex ey cs ce rtl hop c hc1 hc2
    rcases h9.mem _ hop with ⟨_, _, hx⟩ | ⟨p, ⟨p1, p2, r, hr, p3⟩, r', gs', ex', ey', hr', hop'⟩
    · cases hx
    · rw [hr] at hr'; cases hr'
      cases hop'
      obtain ⟨q, hq, q1, q2⟩ := h4.find (c := c) (by
        have := h2.runs.start_le p.run; omega) (by
        have := (h2.runs.le_last hr).1; omega)
      refine ⟨q, hq, q1, q2, ?_⟩
      rcases h3.font h4 p.run r hr q hq c q1 q2 (by omega) (by omega) with hf | hf
      · rw [hf]; exact ⟨rfl, rfl⟩
      · rw [hsame] at hf
        simp only [SingleScriptFont.same, Bool.and_eq_true, beq_iff_eq] at hf
        refine ⟨?_, hf.2⟩
        rcases hf1 : r.font.face with ⟨a, a', a''⟩
        rcases hf2 : q.font.face with ⟨d, d', d''⟩
        rw [hf1, hf2] at hf
        simp only at hf
        rw [hf.1.1.1, hf.1.1.2, hf.1.2]

/-- If no two resolved fonts have the same face and size without being equal, the
claim holds in full. -/
theorem C34_distinct_partial (e : ParaEnv β φ) (calls : List (Nat × β)) (h : e.OK calls)
    (hd : ∀ v o l v' o' l', e.same (e.subFont v o l).1 (e.subFont v' o' l').1 = true →
      (e.subFont v o l).1 = (e.subFont v' o' l').1) (runCount : Nat) :
    ∃ (r : List (LayoutOp φ) × Nat × Nat) (qs : List (FontPiece φ)), buildParagraph e calls runCount = some r ∧
      Consecutive (e.line.start + e.line.length) e.line.start (qs.map FontPiece.range) ∧
      (∀ q ∈ qs, q.Resolved e.toShapeEnv calls) ∧
      ∀ font gs ex ey cs ce rtl, LayoutOp.run font gs ex ey cs ce rtl ∈ r.1 → ∀ c, cs ≤ c → c < ce →
        ∃ q ∈ qs, q.first ≤ c ∧ c < q.stop ∧ font = q.font := by
  obtain ⟨b, qs, ls, ops, ps, idx, h1, h2, h3, h4, h5, h6, h7, h8, h9, h10⟩ := paragraph_spec h
  refine ⟨(ops, (highest ps.flatten runCount (0, -2147483648)).1, runCount + ps.flatten.length), qs, ?_, h4, h5, ?_⟩
  · unfold buildParagraph
    rw [h1, Option.bind_some, h6, Option.bind_some, h8, Option.map_some]
  · intro font gs ex ey cs ce rtl hop c hc1 hc2
    rcases h9.mem _ hop with ⟨_, _, hx⟩ | ⟨p, ⟨p1, p2, r, hr, p3⟩, r', gs', ex', ey', hr', hop'⟩
    · cases hx
    · rw [hr] at hr'; cases hr'
      cases hop'
      obtain ⟨q, hq, q1, q2⟩ := h4.find (c := c) (by
        have := h2.runs.start_le p.run; omega) (by
        have := (h2.runs.le_last hr).1; omega)
      refine ⟨q, hq, q1, q2, ?_⟩
      rcases h3.font h4 p.run r hr q hq c q1 q2 (by omega) (by omega) with hf | hf
      · exact hf
      · obtain ⟨q', hq', hqf⟩ := h3.font_mem r (List.mem_of_getElem? hr)
        obtain ⟨_, l, v, _, _, _, _, hv⟩ := h5 q hq
        obtain ⟨_, l', v', _, _, _, _, hv'⟩ := h5 q' hq'
        have e1 : q.font = (e.subFont v q.first l).1 := by rw [hv]
        have e2 : r.font = (e.subFont v' q'.first l').1 := by rw [hqf, hv']
        rw [e1, e2] at hf ⊢
        exact hd _ _ _ _ _ _ hf

/-- The same text with real fonts: face 0 in size 20; `true` asks for subscript. -/
def fontEnv : ParaEnv Bool SingleScriptFont where
  subFont := fun v _ limit =>
    (⟨⟨0#16, 3#4, .normal⟩, 20#32, 3#4, .normal, v, false, false, true, false, false⟩, limit)
  shape := fun _ _ a b => (List.range (b - a)).map fun i => ⟨100 + a + i, i, 64, 0, 0, 0⟩
  reversed := fun _ => false
  same := SingleScriptFont.same
  isTab := fun _ => false
  spaceAdvance := fun _ => 64
  spaceGlyph := fun _ => 0
  vertical := false
  line := (demoEnv 0 2 fun _ _ => []).line
  bidi := fun s t => [⟨s, t - s, 0⟩]
  metrics := fun _ => ⟨10, -(2 : Rat)⟩

theorem fontEnv_ok : fontEnv.OK [(1, false), (2, true)] := by
  have hd := demoEnv_ok 0 2 (fun s t => [⟨s, t - s, 0⟩]) [(2, (0, false))] (by omega) ⟨by decide, rfl⟩
    (fun s t h1 h2 h3 => Partition.single (by simp [BidiRun.range]; omega) h2)
  refine ⟨by decide, ⟨?_, ?_, ?_⟩, ⟨by decide, rfl⟩, hd.breaks, hd.decodes, Or.inl fun _ => rfl, hd.bidi⟩
  · intro v o l h; exact ⟨h, Nat.le_refl _⟩
  · intro f v a b hab g hg
    exact hd.contract.cluster 0 (0, false) a b hab g hg
  · intro f v a b hab
    exact hd.contract.order 0 (0, false) a b hab

/-- The claim is false: in "H" followed by a subscript "2" both are in one run,
and the font of that run, used to draw it, is not a subscript font, although the
font resolved for the "2" is.  (`get_sub_font` gives the subscript font the same
face and size; the flags are not compared.) -/
theorem C34_violated :
    ∃ (e : ParaEnv Bool SingleScriptFont) (calls : List (Nat × Bool)) (r : List (LayoutOp SingleScriptFont) × Nat × Nat)
      (font : SingleScriptFont) (gs : List GlyphSpec) (ex ey : Rat),
      e.OK calls ∧ e.same = SingleScriptFont.same ∧ buildParagraph e calls 0 = some r ∧
      LayoutOp.run font gs ex ey 0 2 false ∈ r.1 ∧ font.subscript = false ∧
      ∀ q : FontPiece SingleScriptFont, q.Resolved e.toShapeEnv calls → q.first ≤ 1 → 1 < q.stop →
        q.font.subscript = true := by
  refine ⟨fontEnv, [(1, false), (2, true)], ((buildParagraph fontEnv [(1, false), (2, true)] 0).getD ([], 0, 0)),
    (fontEnv.subFont false 0 1).1, [⟨100, 0, 0, 0⟩, ⟨101, 1, 1, 0⟩], 2, 0, fontEnv_ok, rfl, ?_, ?_, rfl, ?_⟩
  · obtain ⟨r, _, hr, _⟩ := C34_face_size_partial fontEnv rfl _ fontEnv_ok 0
    rw [hr]; rfl
  · decide +kernel
  · intro q ⟨before, l, v, after, h1, h2, h3, h4⟩ _ hq
    have hv : v = true := by
      match before, h1 with
      | [], h1 =>
        simp at h1
        have : l = q.stop := congrArg Prod.snd h4
        omega
      | [x], h1 => simp at h1; exact h1.2.1.2
      | x :: y :: t, h1 => simp at h1
    subst hv
    have : q.font = (fontEnv.subFont true q.first l).1 := by rw [h4]
    rw [this]; rfl

/-! ## C35 -/

/-- The part that holds for every paragraph: the iteration over the runs of a
paragraph `[start, e)` ends; the limits of its calls ascend to the end of the
paragraph; for every index of the paragraph, the call that covers it (the first
one with a limit beyond it) has the values the run iterators' lists have at the
index, and the bidi level of the index.  `st` are the sources of the run iterators
with their positions, which may be anywhere before the paragraph.  The script is
that of the script run only if the paragraph starts at 0 or has just one script
run. -/
theorem C35_partial {α σ : Type _} (st : SState α) (start e : Nat) (levels : List Nat) (scripts : List (Int × σ)) (d : σ)
    (hlt : start < e) (hlen : levels.length = e - start)
    (hsorted : ∀ p ∈ st, SortedLimits p.1.runs)
    (hends : ∀ p ∈ st, ∃ e', endOf p.1.runs = some e' ∧ (e : Int) ≤ e')
    (hrange : ∀ p ∈ st, Src.idx p < p.1.runs.length)
    (hbefore : ∀ p ∈ st, ∀ j (hj : j < p.1.runs.length), j < Src.idx p → p.1.runs[j].1 ≤ start)
    (hscripts : scripts.Pairwise (fun a b => a.1 < b.1)) (hse : endOf scripts = some ((e : Int) - start)) :
    ∃ lv fuel calls fin, LevelsIter.init levels start = some lv ∧
      iteratePara e fuel start ⟨st.map Src.iter, ScriptIter.init scripts d start, lv⟩ = (calls, fin) ∧
      fin ≠ .outOfFuel ∧ CallsTo e (calls.map fun c => (c.limit.toNat, c)) ∧
      ∀ i : Nat, start ≤ i → i < e →
        ∃ call, calls.find? (fun c => decide ((i : Int) < c.limit)) = some call ∧
          List.Forall₂ (fun (p : Src α × Nat) x => valueAt p.1.runs i = some x) st call.values ∧
          levels[i - start]? = some call.level ∧
          (start = 0 ∨ scripts.length = 1 → valueAt scripts ((i : Int) - start) = some call.script) := by
  have hne : levels ≠ [] := by rintro rfl; simp at hlen; omega
  have hsne : scripts ≠ [] := by rintro rfl; simp [endOf] at hse
  obtain ⟨lv, h1, h2, h3, h4⟩ := LevelsIter.init_spec hne (start : Int)
  have he : (e : Int) = start + levels.length := by omega
  obtain ⟨fuel, calls, fin, k1, k2, k3⟩ := iteratePara_spec (srcs := st.map (·.1)) he hscripts
    (by rw [hse]; congr 1; omega) (by omega) (by omega)
    (its := ⟨st.map Src.iter, ScriptIter.init scripts d start, lv⟩) (st := st)
    ⟨rfl, rfl, hsorted, hends, hrange, hbefore, ScriptIter.init_spec hsne d start, h2, by simp only; omega⟩
  refine ⟨lv, fuel, calls, fin, h1, k1, k2, ⟨?_, ?_⟩, ?_⟩
  · rw [List.pairwise_map]
    exact k3.sorted.imp fun h => by omega
  · have := k3.last
    rw [List.getLast?_map, Option.map_map]
    cases hl : calls.getLast? with
    | none => rw [hl] at this; cases this
    | some c =>
      rw [hl] at this
      simp only [Option.map_some, Option.some.injEq] at this
      simp [this]
  · intro i hi1 hi2
    obtain ⟨call, g1, g2⟩ := k3.right i (by omega) (by omega)
    refine ⟨call, g1, List.forall₂_map_left_iff.1 g2.values, ?_, ?_⟩
    · rw [← g2.level]; congr 1; omega
    · intro hh
      exact g2.script (by omega)

/-- Two paragraphs of text, fonts change at 2 and 6, the second paragraph from 4
to 8 with one script run, two levels. -/
example : (iteratePara 8 5 4 ⟨[Src.iter (.list [(2, 'a'), (6, 'b'), (9, 'c')], 1)], ScriptIter.init [(4, "latin")] "" 4,
      LevelsIter.skip [0, 0, 0, 1] 0 4⟩).1 =
    [⟨6, ['b'], "latin", 0⟩, ⟨7, ['c'], "latin", 0⟩, ⟨8, ['c'], "latin", 1⟩] := by decide +kernel

/-- First paragraph, two scripts. -/
example : (iteratePara 4 5 0 ⟨[Src.iter (.list [(2, 'a'), (6, 'b')], 0)], ScriptIter.init [(3, "latin"), (4, "greek")] "" 0,
      LevelsIter.skip [0, 0, 0, 0] 0 0⟩).1 =
    [⟨2, ['a'], "latin", 0⟩, ⟨3, ['b'], "latin", 0⟩, ⟨4, ['b'], "greek", 0⟩] := by decide +kernel

/-- The claim is false for later paragraphs: paragraph from 4 to 8, latin up to 6,
then greek; the font changes at 5.  The call that covers 5 has the greek script:
`advance_to` compares the limit relative to the paragraph (2) with the absolute
index (5) and moves on too early. -/
theorem C35_violated :
    ∃ (st : SState Nat) (scripts : List (Int × String)) (levels : List Nat) (lv : LevelsIter)
      (calls : List (ParaCall Nat String)) (fin : ParaEnd Nat String) (call : ParaCall Nat String),
      (∀ p ∈ st, SortedLimits p.1.runs ∧ endOf p.1.runs = some 8) ∧ (∀ p ∈ st, Src.idx p = 0) ∧
      scripts.Pairwise (fun a b => a.1 < b.1) ∧ endOf scripts = some (8 - 4) ∧
      LevelsIter.init levels 4 = some lv ∧
      iteratePara 8 2 4 ⟨st.map Src.iter, ScriptIter.init scripts "" 4, lv⟩ = (calls, fin) ∧
      calls.find? (fun c => decide ((5 : Int) < c.limit)) = some call ∧
      valueAt scripts (5 - 4) = some "latin" ∧ call.script = "greek" := by
  refine ⟨[(.list [(5, 0), (8, 1)], 0)], [(2, "latin"), (4, "greek")], [0, 0, 0, 0], ⟨[], 0, 8⟩, _, _,
    ⟨8, [1], "greek", 0⟩, ?_, by simp [Src.idx], by simp, rfl, by decide +kernel, rfl, by decide +kernel, by decide, rfl⟩
  intro p hp
  rw [List.mem_singleton] at hp
  subst hp
  exact ⟨by simp [SortedLimits, Src.runs], rfl⟩

/-- It is also false when a formatting change coincides with the start of the
paragraph: the first call ends there and shapes nothing, but moves the script
iterator on. -/
theorem C35_boundary_violated :
    ∃ (st : SState Nat) (scripts : List (Int × String)) (levels : List Nat) (lv : LevelsIter)
      (calls : List (ParaCall Nat String)) (fin : ParaEnd Nat String) (call : ParaCall Nat String),
      (∀ p ∈ st, SortedLimits p.1.runs ∧ endOf p.1.runs = some 8) ∧ (∀ p ∈ st, Src.idx p = 0) ∧
      scripts.Pairwise (fun a b => a.1 < b.1) ∧ endOf scripts = some (8 - 4) ∧
      LevelsIter.init levels 4 = some lv ∧
      iteratePara 8 2 4 ⟨st.map Src.iter, ScriptIter.init scripts "" 4, lv⟩ = (calls, fin) ∧
      calls.find? (fun c => decide ((4 : Int) < c.limit)) = some call ∧
      valueAt scripts (4 - 4) = some "latin" ∧ call.script = "greek" := by
  refine ⟨[(.list [(4, 0), (8, 1)], 0)], [(2, "latin"), (4, "greek")], [0, 0, 0, 0], ⟨[], 0, 8⟩, _, _,
    ⟨8, [1], "greek", 0⟩, ?_, by simp [Src.idx], by simp, rfl, by decide +kernel, rfl, by decide +kernel, by decide, rfl⟩
  intro p hp
  rw [List.mem_singleton] at hp
  subst hp
  exact ⟨by simp [SortedLimits, Src.runs], rfl⟩

end RichText
