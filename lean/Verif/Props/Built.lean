import Verif.Proof.Built
import Verif.Props.VisualRuns
import Verif.Spec.TextBox
/-!
# C72: what the layout builder makes is what the queries ask for
# C73: glyphs stand where HarfBuzz puts them
-/
namespace RichText
variable {β φ : Type _}

/-! ## C72 -/

/-- Whatever the layout to overwrite contains: the layout built for the paragraphs
of a text is the layout of lines of runs; every line has runs; inside a run positions
never decrease and characters are in the order of its direction; the glyph of its first
character is where its direction starts; a run starts where the run before it on the line
ended; nothing lies behind the text. -/
theorem C72_laid_out (L : Layout φ) (ps : List (Paragraph β φ)) (count : Nat) (h : Paragraphs count 0 ps)
    (hP : Placed ps) (hps : ps ≠ []) (hcount : count < 2147483648) (yAlign : YAlignment) (H : Rat) :
    ∃ L', buildLayout L ps count yAlign H = some L' ∧ (L'.pos.length < 4294967296 → LaidOut L' count) := by
  obtain ⟨L', body, y, h1, h2, h3, h4, h5, _⟩ := build_spec L ps count h hP yAlign H
  refine ⟨L', h1, fun hsize => ⟨_, y, h2, ?_, fun l hl => (h3 l hl).nonempty, hsize, fun l hl => ?_⟩⟩
  · intro h0
    exact h4 hps (List.append_eq_nil_iff.1 h0).1
  · have hr : ∀ r ∈ l.runs, r.charEnd ≤ count := fun r hr => h5 r (List.mem_flatMap.2 ⟨l, hl, hr⟩)
    exact ⟨⟨(h3 l hl).runs, (h3 l hl).abut, fun r hr' => Nat.lt_of_le_of_lt (hr r hr') hcount⟩, hr⟩

/-- In the layout built for left-to-right text, the Home and End positions of every line
are resolved to runs of that line. -/
theorem C72_home_end (L : Layout φ) (ps : List (Paragraph β φ)) (count : Nat) (h : Paragraphs count 0 ps)
    (hP : Placed ps) (hL : ∀ p ∈ ps, 0 < p.length - p.separator → p.env.Ltr) (yAlign : YAlignment) (H : Rat) :
    ∃ L', buildLayout L ps count yAlign H = some L' ∧ ∀ m < L'.lines.length,
      (∃ p a k, L'.lineStart m = some (p, a) ∧ L'.runContaining p a = some (k, m)) ∧
      (∃ p a k, L'.lineEnd m = some (p, a) ∧ L'.runContaining p a = some (k, m)) := by
  obtain ⟨L', body, y, h1, h2, h3, h4, h5, h6⟩ := build_spec L ps count h hP yAlign H
  refine ⟨L', h1, fun m hm => ?_⟩
  exact C23_resolve_partial h2 (fun l hl => (h3 l hl).nonempty) (h6 hL).text_of.1 m (by rw [← h2.lineCount]; exact hm)

/-- In the layout built for a text, a click beside or into any line gives a position inside
the text; in left-to-right text the position is resolved to a run of the line clicked. -/
theorem C72_click (L : Layout φ) (ps : List (Paragraph β φ)) (count : Nat) (h : Paragraphs count 0 ps)
    (hP : Placed ps) (hcount : count < 2147483648) (yAlign : YAlignment) (H : Rat) :
    ∃ L', buildLayout L ps count yAlign H = some L' ∧ (L'.pos.length < 4294967296 →
      ∀ (follow : Layout.Following) (B : Nat → Prop), FollowsBoundaries follow B → (∀ r ∈ L'.runs, B r.charEnd) →
      ∀ m < L'.lines.length, ∀ (W : Rat) (al : XAlignment) (cx : Rat),
        ∃ p a, L'.findClosest W al follow m cx = some (p, a) ∧ p ≤ count ∧
          ((∀ p ∈ ps, 0 < p.length - p.separator → p.env.Ltr) → ∃ k, L'.runContaining p a = some (k, m))) := by
  obtain ⟨L', body, y, h1, h2, h3, h4, h5, h6⟩ := build_spec L ps count h hP yAlign H
  refine ⟨L', h1, fun hsize follow B hf hB m hm W al cx => ?_⟩
  have hm' : m < (body ++ finalLines ps count).length := by rw [← h2.lineCount]; exact hm
  have hl := List.getElem?_eq_getElem hm'
  have hmem := List.mem_of_getElem? hl
  have hr : ∀ r ∈ ((body ++ finalLines ps count)[m]).runs, r.charEnd ≤ count := fun r hr =>
    h5 r (List.mem_flatMap.2 ⟨_, hmem, hr⟩)
  have hne : ∀ l ∈ body ++ finalLines ps count, l.runs ≠ [] := fun l hl => (h3 l hl).nonempty
  have hp : ProperLine (body ++ finalLines ps count)[m] :=
    ⟨(h3 _ hmem).runs, (h3 _ hmem).abut, fun r hr' => Nat.lt_of_le_of_lt (hr r hr') hcount⟩
  have hB' : ∀ r ∈ ((body ++ finalLines ps count)[m]).runs, B r.charEnd := by
    intro r hr'
    obtain ⟨i, hi⟩ := List.mem_iff_getElem?.1 (show r ∈ allRuns _ from List.mem_flatMap.2 ⟨_, hmem, hr'⟩)
    have := h2.runs i r (by rw [List.append_nil]; exact hi)
    exact hB _ (List.mem_of_getElem? this)
  obtain ⟨p, a, c1, r, c2, _, c3⟩ := C26_in_line_partial h2 hne hsize m _ hl hp W al follow B hf hB' cx
  refine ⟨p, a, c1, Nat.le_trans c3 (hr r c2), fun hL => ?_⟩
  obtain ⟨t1, t2⟩ := (h6 hL).text_of
  obtain ⟨p', a', k, d1, d2⟩ := C60_click_resolves_partial h2 hne hsize t1 t2 m _ hl hp W al follow B hf hB' cx
  rw [c1] at d1
  cases d1
  exact ⟨k, d2⟩

/-- The demonstration paragraphs of C32 have a right-to-left part in two fonts. -/
theorem demoEnv_placed (start length : Nat) (bidi : Nat → Nat → List BidiRun) :
    (demoEnv start length bidi).Forward ∧ ∃ starts, (demoEnv start length bidi).Clusters starts := by
  have hmem : ∀ (f : Nat) (v : Nat × Bool) (a b : Nat) (g : HbGlyph), g ∈ (demoEnv start length bidi).shape f v a b →
      g.xOffset = 0 ∧ g.xAdvance = 64 := by
    intro f v a b g hg
    have hg : g ∈ (List.range (b - a)).map fun i => (⟨100 + a + i, i, 64, 0, 0, 0⟩ : HbGlyph) := by
      simp only [demoEnv] at hg
      unfold revIf at hg; split at hg
      · exact List.mem_reverse.1 hg
      · exact hg
    obtain ⟨i, _, rfl⟩ := List.mem_map.1 hg
    exact ⟨rfl, rfl⟩
  refine ⟨⟨rfl, ?_, ?_, .inl fun _ => rfl⟩, fun _ => True, ?_, fun _ _ _ => trivial, fun _ _ _ _ _ _ _ => .inr trivial⟩
  · intro f v a b _ i g h' hg hh
    have h1 := hmem f v a b g (List.mem_of_getElem? hg)
    have h2 := hmem f v a b h' (List.mem_of_getElem? hh)
    have h3 : (demoEnv start length bidi).advance f a g = g.xAdvance := rfl
    rw [h3]; omega
  · intro f v a b _ g hg
    have h1 := hmem f v a b g (List.mem_of_getLast? hg)
    have h3 : (demoEnv start length bidi).advance f a g = g.xAdvance := rfl
    rw [h3]; omega
  · intro f v a b c h1 h2 _
    refine ⟨⟨100 + a + (c - a), c - a, 64, 0, 0, 0⟩, ?_, by simp only; omega⟩
    have : (⟨100 + a + (c - a), c - a, 64, 0, 0, 0⟩ : HbGlyph) ∈
        (List.range (b - a)).map fun i => (⟨100 + a + i, i, 64, 0, 0, 0⟩ : HbGlyph) :=
      List.mem_map.2 ⟨c - a, List.mem_range.2 (by omega), rfl⟩
    simp only [demoEnv]
    unfold revIf; split
    · exact List.mem_reverse.2 this
    · exact this

/-- As `demoEnv`, with tabs and the tab stops of the text box, every eight blanks. -/
def tabbedEnv (start length : Nat) (tab : Nat → Bool) (bidi : Nat → Nat → List BidiRun) : ParaEnv (Nat × Bool) Nat :=
  { demoEnv start length bidi with
    isTab := tab
    line := { (demoEnv start length bidi).line with isTab := tab, tabPixels := false, tabWidth := 512 } }

theorem tabbedEnv_ok (start length : Nat) (tab : Nat → Bool) (bidi : Nat → Nat → List BidiRun)
    (calls : List (Nat × (Nat × Bool))) (hl : 0 < length) (hc : CallsTo (start + length) calls)
    (hb : ∀ s t, start ≤ s → s < t → t ≤ start + length → Partition BidiRun.range s t (bidi s t)) :
    (tabbedEnv start length tab bidi).OK calls ∧ (tabbedEnv start length tab bidi).Forward := by
  have h := demoEnv_ok start length bidi calls hl hc hb
  have hmem : ∀ (f : Nat) (v : Nat × Bool) (a b : Nat) (g : HbGlyph), g ∈ (demoEnv start length bidi).shape f v a b →
      g.xOffset = 0 ∧ (tabbedEnv start length tab bidi).advance f a g = 64 := by
    intro f v a b g hg
    have hg : g ∈ (List.range (b - a)).map fun i => (⟨100 + a + i, i, 64, 0, 0, 0⟩ : HbGlyph) := by
      simp only [demoEnv] at hg
      unfold revIf at hg; split at hg
      · exact List.mem_reverse.1 hg
      · exact hg
    obtain ⟨i, _, rfl⟩ := List.mem_map.1 hg
    refine ⟨rfl, ?_⟩
    unfold ParaEnv.advance
    split <;> rfl
  have hs : (tabbedEnv start length tab bidi).TabsScaled := by
    refine ⟨rfl, show (64 : Int) ≤ 512 by decide, ?_⟩
    intro f v a b hab i g hg _
    obtain ⟨h1, h2⟩ := hmem f v a b g (List.mem_of_getElem? hg)
    have h3 : (((demoEnv start length bidi).shape f v a b)[i + 1]?.map (·.xOffset)).getD 0 = 0 := by
      cases hh : ((demoEnv start length bidi).shape f v a b)[i + 1]? with
      | none => rfl
      | some k => exact (hmem f v a b k (List.mem_of_getElem? hh)).1
    have : (tabbedEnv start length tab bidi).width f a g ((demoEnv start length bidi).shape f v a b)[i + 1]? =
        (tabbedEnv start length tab bidi).advance f a g - g.xOffset +
          (((demoEnv start length bidi).shape f v a b)[i + 1]?.map (·.xOffset)).getD 0 := rfl
    show 0 < (tabbedEnv start length tab bidi).width f a g ((demoEnv start length bidi).shape f v a b)[i + 1]?
    rw [this, h1, h2, h3]
    decide
  refine ⟨⟨hl, ⟨h.contract.subFont, h.contract.cluster, h.contract.order⟩, hc, h.breaks, h.decodes, .inr (.inr hs), hb⟩,
    rfl, ?_, ?_, .inr (.inr hs)⟩
  · intro f v a b _ i g h' hg hh
    have h1 := hmem f v a b g (List.mem_of_getElem? hg)
    have h2 := hmem f v a b h' (List.mem_of_getElem? hh)
    omega
  · intro f v a b _ g hg
    have h1 := hmem f v a b g (List.mem_of_getLast? hg)
    omega

/-- "a", tab, "b": the tab ends at the stop eight blanks from the start. -/
example : (buildParagraph (tabbedEnv 0 3 (· == 1) fun s t => [⟨s, t - s, 0⟩]) [(3, (0, false))] 0).map (·.1) =
    some [.run 0 [⟨100, 0, 0, 0⟩, ⟨0, 1, 1, 0⟩, ⟨102, 2, 8, 0⟩] 9 0 0 3 false, .line 12 10] := by decide +kernel

example : Placed demoParagraphs := by
  intro p hp h0
  simp only [demoParagraphs, List.mem_cons, List.not_mem_nil, or_false] at hp
  rcases hp with rfl | rfl | rfl <;> exact demoEnv_placed ..

/-- Left-to-right text: an empty paragraph and "ab\n", then "cdef". -/
def ltrParagraphs : List (Paragraph (Nat × Bool) Nat) :=
  [⟨1, 1, demoEnv 0 0 fun _ _ => [], [], 5, ⟨8, -2⟩⟩,
   ⟨3, 1, demoEnv 1 2 fun s t => [⟨s, t - s, 0⟩], [(3, (0, false))], 5, ⟨8, -2⟩⟩,
   ⟨4, 0, demoEnv 4 4 fun s t => [⟨s, t - s, 0⟩], [(6, (0, false)), (8, (1, false))], 5, ⟨8, -2⟩⟩]

theorem one_run (st : Nat) (len : Nat) : (demoEnv st len fun s t => [⟨s, t - s, 0⟩]).Ltr := by
  intro s t _ h2 _
  refine ⟨⟨rfl, ?_, ?_⟩, ?_⟩
  · simp only [BidiRun.range]; omega
  · simp only [BidiRun.range, List.map_nil, Consecutive]; omega
  · intro r hr
    simp only [demoEnv, List.mem_singleton] at hr
    subst hr; rfl

example : Paragraphs 8 0 ltrParagraphs ∧ Placed ltrParagraphs ∧
    ∀ p ∈ ltrParagraphs, 0 < p.length - p.separator → p.env.Ltr := by
  refine ⟨?_, ?_, ?_⟩
  · refine ⟨by decide, by decide, fun _ => by decide, fun h => absurd h (by decide), ?_⟩
    refine ⟨by decide, by decide, fun _ => by decide, fun _ => ⟨demoEnv_ok 1 2 _ _ (by omega) ⟨by decide, rfl⟩ ?_, rfl, rfl⟩, ?_⟩
    · intro s t h1 h2 h3
      exact Partition.single (by simp [BidiRun.range]; omega) h2
    refine ⟨by decide, by decide, fun h => absurd rfl h, fun _ =>
      ⟨demoEnv_ok 4 4 _ _ (by omega) ⟨by decide, rfl⟩ ?_, rfl, rfl⟩, rfl⟩
    intro s t h1 h2 h3
    exact Partition.single (by simp [BidiRun.range]; omega) h2
  · intro p hp h0
    simp only [ltrParagraphs, List.mem_cons, List.not_mem_nil, or_false] at hp
    rcases hp with rfl | rfl | rfl <;> exact demoEnv_placed ..
  · intro p hp h0
    simp only [ltrParagraphs, List.mem_cons, List.not_mem_nil, or_false] at hp
    rcases hp with rfl | rfl | rfl
    · exact absurd h0 (by decide)
    · exact one_run _ _
    · exact one_run _ _

example : (buildLayout {} ltrParagraphs 8 .top 100).map (fun L => (List.range L.lines.length).map fun m =>
      ((L.lineStart m).map (·.1), (L.lineEnd m).map (·.1))) =
    some [(some 0, some 0), (some 1, some 3), (some 4, some 8)] := by decide +kernel

end RichText
